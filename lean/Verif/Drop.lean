import Verif.SpecShared2
import Verif.Fin

/-!
# Lines a cache gives up
-/

set_option linter.unusedSectionVars false

namespace Verif
variable {p : Params} {ι : Type} [DecidableEq ι]

theorem word_line (W : Nat) : 4 * W / 2 ^ p.offBits = W / 2 ^ p.nwBits := by
  rw [offBits_pow, Nat.mul_div_mul_left _ _ (by decide)]

theorem flat_line (q : CReq p) : q.addr.flat / 2 ^ p.offBits = q.addr.la.num := by
  rw [flat_eq, Nat.mul_comm, Nat.mul_add_div (Nat.two_pow_pos _), Nat.div_eq_of_lt q.addr.off.isLt, Nat.add_zero]

theorem onLine_iff (q : CReq p) (W : Nat) : q.onLine W ↔ q.addr.la.num = W / 2 ^ p.nwBits := by
  rw [CReq.onLine, flat_line, word_line]

theorem num_mod (la : LAddr p) : la.num % 2 ^ p.idxBits = la.idx.toNat := by
  simp only [LAddr.num]
  rw [Nat.mul_comm, Nat.mul_add_mod, Nat.mod_eq_of_lt la.idx.isLt]

theorem word_num {la : LAddr p} {W b : Nat} (hb : b < p.nWords) (h : la.num * 2 ^ p.nwBits + b = W) :
    la.num = W / 2 ^ p.nwBits := by
  rw [← h, Nat.mul_comm, Nat.mul_add_div (Nat.two_pow_pos _), Nat.div_eq_of_lt (show b < 2 ^ p.nwBits from hb), Nat.add_zero]

/-- A valid request that stores to `W` addresses its line. -/
theorem writes_onLine (wf : p.WF) {q : CReq p} (hv : q.Valid) {W : Nat} (h : q.writesWord W) : q.onLine W := by
  obtain ⟨x, hx, h⟩ := h
  have hn : ∃ n, q.addr.off.toNat + n ≤ 2 ^ p.offBits ∧ q.addr.flat ≤ x ∧ x < q.addr.flat + n := by
    rcases h with ⟨ty, h1, h2⟩ | ⟨ty, h1, h2⟩
    · obtain ⟨n, hs, hf⟩ := valid_write wf hv ty (fun _ => 0)
      cases hv with
      | read ty' => rw [ty] at ty'; simp at ty'
      | write _ k hk hk2 al =>
        refine ⟨2 ^ k, (store_word wf hk hk2 al).fits, h1, ?_⟩
        have h3 : ¬ q.len.toNat = 3 := by
          rcases bytes_cases hk with ⟨h1, _⟩ | ⟨h1, _⟩
          · omega
          · rw [h1]; intro h3
            have : k = 0 ∨ k = 1 ∨ k = 2 := by omega
            rcases this with rfl | rfl | rfl <;> simp at h3
        rw [if_neg h3, hk] at h2; exact h2
      | dword _ len hp al =>
        rw [if_pos len] at h2
        exact ⟨8, (store_dword wf hp len al).fits, h1, h2⟩
      | amo ty' => exact absurd ty (amo_ty ty').2.1
      | inv ty' => rw [ty] at ty'; simp at ty'
      | flush ty' => rw [ty] at ty'; simp at ty'
    · refine ⟨4, ?_, h1, h2⟩
      have hal : 4 ∣ q.addr.flat := by
        cases hv with
        | read ty' => rw [ty'] at ty; cases ty
        | write ty' => rw [ty'] at ty; cases ty
        | dword ty' => rw [ty'] at ty; cases ty
        | amo _ _ al => exact al
        | inv ty' => rw [ty'] at ty; cases ty
        | flush ty' => rw [ty'] at ty; cases ty
      have hko : 2 ≤ p.offBits := by simp only [Params.offBits]; omega
      exact fits_line hko (dvd_off hko hal)
  obtain ⟨n, hf, h1, h2⟩ := hn
  rw [CReq.onLine, flat_line]
  have hd := @offBits_pow p
  have : x / 2 ^ p.offBits = q.addr.la.num := by
    rw [flat_eq] at h1 h2
    have : x = 2 ^ p.offBits * q.addr.la.num + (x - q.addr.la.num * 2 ^ p.offBits) := by
      rw [Nat.mul_comm]; omega
    rw [this, Nat.mul_add_div (Nat.two_pow_pos _), Nat.div_eq_of_lt (by omega), Nat.add_zero]
  rw [← this, word_line, ← hx, Nat.div_div_eq_div_mul, hd]

/-- No entry is valid for the line of word `W`. -/
def Gone (W : Nat) (ent : Way → Idx p → Entry p) : Prop :=
  ∀ w ∈ p.ways, ∀ (j : Idx p), LAddr.num ⟨(ent w j).tag, j⟩ = W / 2 ^ p.nwBits → (ent w j).val = false

theorem Gone.set {W : Nat} {ent : Way → Idx p → Entry p} (h : Gone W ent) (w : Way) (j : Idx p)
    (e : Entry p) (he : LAddr.num ⟨e.tag, j⟩ = W / 2 ^ p.nwBits → e.val = false) : Gone W (setAt ent w j e) := by
  intro w' hw' j' hW
  by_cases hx : w' = w ∧ j' = j
  · obtain ⟨rfl, rfl⟩ := hx
    rw [setAt_same] at hW ⊢; exact he hW
  · rw [setAt_ne _ _ hx] at hW ⊢; exact h w' hw' j' hW

/-- A request that does not read or write the line does not bring it in. -/
theorem Gone.accept {W : Nat} {L : L1 p} (hok : L.Ok) (hc : L.cur = .idle) (h : Gone W L.ent)
    {q : CReq p} (hq : q.ty = MT.READ ∨ q.ty = MT.WRITE → ¬ q.onLine W) : Gone W (L.accept q).1.post := by
  have hu : L.UniqAt q.addr.idx := fun w hw w' hw' h1 h2 h3 => hok.uniq w hw w' hw' q.addr.idx h1 h2 h3
  have hline : (q.ty = MT.READ ∨ q.ty = MT.WRITE) → ∀ e : Entry p, e.tag = q.addr.tag →
      LAddr.num ⟨e.tag, q.addr.idx⟩ = W / 2 ^ p.nwBits → e.val = false := by
    intro ty e he hn
    rw [he] at hn
    exact absurd ((onLine_iff q W).2 hn) (hq ty)
  simp only [L1.accept]
  split
  · rename_i hrw
    cases lookup_cases hu with
    | hit hh hi hval ht =>
      rw [rw_hit hh, post_idle (by exact hc)]
      dsimp only
      split
      · exact h.set _ _ _ (hline hrw _ rfl)
      · exact h
    | inval hh hi hval hd ht =>
      rw [rw_inval hh hi]
      simp only [L1.post, L1.answer]
      split
      · exact h.set _ _ _ (hline hrw _ rfl)
      · exact h.set _ _ _ (hline hrw _ rfl)
    | miss hh hi hn =>
      rw [rw_miss hh hi]
      simp only [L1.post, L1.answer]
      split
      · exact h.set _ _ _ (hline hrw _ rfl)
      · exact h.set _ _ _ (hline hrw _ rfl)
  split
  · simp only [L1.amo, L1.post, L1.answer]
    split
    · exact h.set _ _ _ (fun _ => rfl)
    · exact h
  split
  · rw [post_idle (by exact hc)]
    intro w hw j _; rfl
  split
  · rw [post_idle (by exact hc)]
    intro w hw j hn; exact h w hw j hn
  · rw [post_idle hc]; exact h

theorem Gone.of_inv (W : Nat) {L : L1 p} (hc : L.cur = .idle) {q : CReq p} (ty : q.ty = MT.INV) :
    Gone W (L.accept q).1.post := by
  have : (L.accept q).1 = { L with ent := fun w j => { L.ent w j with val := false } } := by
    simp [L1.accept, ty]
  rw [this, post_idle (by exact hc)]
  intro w hw j _; rfl

/-- No entry is valid or dirty for the line of `W`. -/
def LineOut (W : Nat) (ent : Way → Idx p → Entry p) : Prop :=
  ∀ w ∈ p.ways, ∀ (j : Idx p), LAddr.num ⟨(ent w j).tag, j⟩ = W / 2 ^ p.nwBits →
    (ent w j).val = false ∧ (ent w j).dty = 0

theorem LineOut.gone {W : Nat} {ent : Way → Idx p → Entry p} (h : LineOut W ent) : Gone W ent :=
  fun w hw j hn => (h w hw j hn).1

theorem LineOut.notDirty {W : Nat} {ent : Way → Idx p → Entry p} (h : LineOut W ent) : NotDirty W ent := by
  intro w hw j b hb hW
  rw [(h w hw j (word_num hb hW)).2]; simp

/-- After a request that drops the line nothing of it is left. -/
theorem LineOut.of_drops (W : Nat) {L : L1 p} (hok : L.Ok) (hc : L.cur = .idle) {q : CReq p} (hd : q.drops W) :
    LineOut W (L.accept q).1.post := by
  have hu : L.UniqAt q.addr.idx := fun w hw w' hw' h1 h2 h3 => hok.uniq w hw w' hw' q.addr.idx h1 h2 h3
  have hw0 := L.lookup_way_mem q.addr
  rcases hd with ⟨ha, hl⟩ | ⟨h1, hrw, hnl, hm⟩
  · rw [onLine_iff] at hl
    have t1 : ¬ (q.ty = MT.READ ∨ q.ty = MT.WRITE) := by
      rintro (h | h) <;> · rw [h] at ha; cases ha
    simp only [L1.accept, if_neg t1, ha, if_true, L1.amo, L1.post, L1.answer]
    intro w hw j hn
    have key : ∀ tag, LAddr.num ⟨tag, j⟩ = W / 2 ^ p.nwBits → tag = q.addr.tag ∧ j = q.addr.idx := by
      intro tag hn
      have := LAddr.num_inj (hn.trans hl.symm)
      simp only [Addr.la, LAddr.mk.injEq] at this
      exact this
    have np : ∀ e : Entry p, ¬ e.Present → e.val = false ∧ e.dty = 0 := by
      intro e he
      simp only [Entry.Present, not_or, Bool.not_eq_true, Classical.not_not] at he
      exact he
    cases lookup_cases hu with
    | hit hh hi hval ht =>
      simp only [hh, Bool.true_or, if_true] at hn ⊢
      by_cases hx : w = (L.lookup q.addr).way ∧ j = q.addr.idx
      · rw [hx.1, hx.2, setAt_same]; exact ⟨rfl, rfl⟩
      · rw [setAt_ne _ _ hx] at hn ⊢
        obtain ⟨k1, rfl⟩ := key _ hn
        apply np
        intro hp
        exact hx ⟨hu w hw _ hw0 hp (.inl hval) (by rw [k1, ht]), rfl⟩
    | inval hh hi hval hd ht =>
      simp only [hi, Bool.or_true, if_true] at hn ⊢
      by_cases hx : w = (L.lookup q.addr).way ∧ j = q.addr.idx
      · rw [hx.1, hx.2, setAt_same]; exact ⟨rfl, rfl⟩
      · rw [setAt_ne _ _ hx] at hn ⊢
        obtain ⟨k1, rfl⟩ := key _ hn
        apply np
        intro hp
        exact hx ⟨hu w hw _ hw0 hp (.inr hd) (by rw [k1, ht]), rfl⟩
    | miss hh hi hnp =>
      simp only [hh, hi, Bool.or_false, Bool.false_eq_true, if_false] at hn ⊢
      obtain ⟨k1, rfl⟩ := key _ hn
      apply np
      intro hp
      exact hnp w hw hp k1
  · rw [onLine_iff] at hnl
    rw [flat_line, word_line, num_mod] at hm
    have hways : p.ways = [false] := by simp [Params.ways, h1]
    have hwf : (L.lookup q.addr).way = false := by rw [hways] at hw0; simpa using hw0
    have hrf : L.rep q.addr.idx = false := by
      have := hok.rep q.addr.idx
      rw [hways] at this; simpa using this
    have main : ((L.accept q).1.post false q.addr.idx).tag = q.addr.tag := by
      simp only [L1.accept, if_pos hrw]
      cases lookup_cases hu with
      | hit hh hi hval ht =>
        rw [rw_hit hh, post_idle (by exact hc)]
        rw [hwf] at ht ⊢
        dsimp only
        split
        · rw [setAt_same]
        · exact ht
      | inval hh hi hval hd ht =>
        rw [rw_inval hh hi, hwf]
        simp only [L1.post, L1.answer]
        split <;> (dsimp only; rw [setAt_same])
      | miss hh hi hn =>
        rw [rw_miss hh hi, hrf]
        simp only [L1.post, L1.answer]
        split <;> (dsimp only; rw [setAt_same])
    intro w hw j hn
    exfalso
    have hj : j = q.addr.idx := by
      apply BitVec.eq_of_toNat_eq
      have := num_mod (⟨((L.accept q).1.post w j).tag, j⟩ : LAddr p)
      rw [hn] at this
      simp only [Addr.la] at hm
      exact this.symm.trans hm.symm
    subst hj
    rw [hways, List.mem_singleton] at hw
    subst hw
    rw [main] at hn
    exact hnl hn

end Verif
