import Verif.SpecDirty
import Verif.Drf2
import Verif.Life

/-!
# Dirty words: what a cache writes back
-/

set_option linter.unusedSectionVars false

namespace Verif
variable {p : Params} {ι : Type} [DecidableEq ι]

theorem num_line_ext {a a' : LAddr p} {b b' : Nat} (hb : b < p.nWords) (hb' : b' < p.nWords)
    (h : a.num * 2 ^ p.nwBits + b = a'.num * 2 ^ p.nwBits + b') : a = a' ∧ b = b' := by
  simp only [Params.nWords] at hb hb'
  have h1 : a.num = a'.num := by
    have e1 : (a.num * 2 ^ p.nwBits + b) / 2 ^ p.nwBits = a.num := by
      rw [Nat.mul_comm, Nat.mul_add_div (Nat.two_pow_pos _), Nat.div_eq_of_lt hb, Nat.add_zero]
    have e2 : (a'.num * 2 ^ p.nwBits + b') / 2 ^ p.nwBits = a'.num := by
      rw [Nat.mul_comm, Nat.mul_add_div (Nat.two_pow_pos _), Nat.div_eq_of_lt hb', Nat.add_zero]
    rw [← e1, ← e2, h]
  exact ⟨LAddr.num_inj h1, by rw [h1] at h; omega⟩

theorem wr_inLine {a : LAddr p} {d : Dty p} {l : Line p} {W : Nat} (h : (MReq.wr a d l).inLine W) :
    ∃ b, b < p.nWords ∧ a.num * 2 ^ p.nwBits + b = W := by
  obtain ⟨b, hb, h⟩ := h
  refine ⟨b, hb, ?_⟩
  simp only [MReq.wr] at h
  rw [flat_off0, offBits_pow, ← Nat.mul_assoc, Nat.mul_comm _ 4, Nat.mul_assoc] at h
  omega

theorem MReq.carries.inLine {m : MReq p} {W : Nat} (h : m.carries W) : m.inLine W := by
  obtain ⟨_, b, h1, _, h2⟩ := h; exact ⟨b, h1, h2⟩

theorem dty_ne_zero {d : Dty p} {b : Nat} (h : d.getLsbD b = true) : d ≠ 0 := by
  rintro rfl; simp at h

/-- Removing the only entry of the line of word `W` leaves the word clean. -/
theorem NotDirty.of_removed {W : Nat} {L : L1 p} (hok : L.Ok) {v : Way} (hv : v ∈ p.ways) (j : Idx p) {b : Nat}
    (hb : b < p.nWords) (hd : (L.ent v j).dty ≠ 0)
    (hW : LAddr.num ⟨(L.ent v j).tag, j⟩ * 2 ^ p.nwBits + b = W) (e : Entry p)
    (he : ∀ b, b < p.nWords → LAddr.num ⟨e.tag, j⟩ * 2 ^ p.nwBits + b = W → e.dty.getLsbD b = false) :
    NotDirty W (setAt L.ent v j e) := by
  intro w hw j' b' hb' hW'
  by_cases hx : w = v ∧ j' = j
  · obtain ⟨rfl, rfl⟩ := hx
    rw [setAt_same] at hW' ⊢; exact he b' hb' hW'
  · rw [setAt_ne _ _ hx] at hW' ⊢
    cases hd' : (L.ent w j').dty.getLsbD b'
    · rfl
    exfalso
    rw [← hW] at hW'
    obtain ⟨h1, h2⟩ := num_line_ext hb' hb hW'
    have hj : j' = j := congrArg LAddr.idx h1
    subst hj
    have ht : (L.ent w j').tag = (L.ent v j').tag := congrArg LAddr.tag h1
    exact hx ⟨hok.uniq w hw v hv j' (.inr (dty_ne_zero hd')) (.inr hd) ht, rfl⟩

/-- Every write sent is the write-back of one way. -/
theorem accept_writes {L : L1 p} (hok : L.Ok) {q : CReq p} {m : MReq p} (hm : m ∈ memMsgs (L.accept q).2)
    (ht : m.ty = MT.WRITE) : ∃ w ∈ p.ways, ∃ j, (L.ent w j).dty ≠ 0 ∧
      m = .wr ⟨(L.ent w j).tag, j⟩ (L.ent w j).dty (L.dat w j) := by
  have hw := L.lookup_way_mem q.addr
  have hu : L.UniqAt q.addr.idx := fun w hw w' hw' h1 h2 h3 => hok.uniq w hw w' hw' q.addr.idx h1 h2 h3
  simp only [L1.accept] at hm
  split at hm
  · cases lookup_cases hu with
    | hit hh hi hval ht' => rw [rw_hit hh] at hm; simp at hm
    | inval hh hi hval hd ht' =>
      rw [rw_inval hh hi] at hm
      simp only [memMsgs_mem, memMsgs_nil, List.mem_singleton] at hm
      subst hm; exact absurd ht (by simp [MReq.rd])
    | miss hh hi hn =>
      rw [rw_miss hh hi] at hm
      simp only [memMsgs_append, List.mem_append, memMsgs_mem, memMsgs_nil, List.mem_singleton] at hm
      rcases hm with hm | hm
      · split at hm
        · rename_i hd
          simp only [L1.wb, memMsgs_mem, memMsgs_nil, List.mem_singleton] at hm
          exact ⟨_, hok.rep _, _, by simpa using hd, hm⟩
        · simp at hm
      · subst hm; exact absurd ht (by simp [MReq.rd])
  rename_i hrw
  split at hm
  · rename_i ha
    simp only [L1.amo, memMsgs_append, List.mem_append, memMsgs_mem, memMsgs_nil, List.mem_singleton] at hm
    rcases hm with hm | hm
    · split at hm
      · rename_i hd
        simp only [L1.wb, memMsgs_mem, memMsgs_nil, List.mem_singleton] at hm
        simp only [Bool.and_eq_true, bne_iff_ne] at hd
        exact ⟨_, hw, _, hd.1, hm⟩
      · simp at hm
    · subst hm; exact absurd (.inr ht) hrw
  split at hm
  · simp at hm
  split at hm
  · simp only [memMsgs_append, memMsgs_resp, memMsgs_nil, List.append_nil] at hm
    have : ∀ n, m ∈ memMsgs (L.flushMsgs n) → ∃ w ∈ p.ways, ∃ j, (L.ent w j).dty ≠ 0 ∧
      m = .wr ⟨(L.ent w j).tag, j⟩ (L.ent w j).dty (L.dat w j) := by
      intro n
      induction n with
      | zero => intro h; simp [L1.flushMsgs] at h
      | succ n ih =>
        intro h
        simp only [L1.flushMsgs, memMsgs_append, List.mem_append] at h
        rcases h with h | h
        · split at h
          · rename_i hd
            simp only [L1.wb, memMsgs_mem, memMsgs_nil, List.mem_singleton] at h
            exact ⟨_, cntWay_mem _, _, by simpa using hd, h⟩
          · simp at h
        · exact ih h
    exact this _ hm
  · simp at hm

/-- A line that is written back is clean afterwards. -/
theorem accept_saved {W : Nat} {L : L1 p} (hok : L.Ok) (hc : L.cur = .idle)
    {q : CReq p} {m : MReq p} (hm : m ∈ memMsgs (L.accept q).2) (ht : m.ty = MT.WRITE)
    (hW : m.inLine W) : NotDirty W (L.accept q).1.post := by
  have hw := L.lookup_way_mem q.addr
  have hu : L.UniqAt q.addr.idx := fun w hw w' hw' h1 h2 h3 => hok.uniq w hw w' hw' q.addr.idx h1 h2 h3
  simp only [L1.accept] at hm ⊢
  split at hm
  · rename_i hrw
    rw [if_pos hrw]
    cases lookup_cases hu with
    | hit hh hi hval ht' => rw [rw_hit hh] at hm; simp at hm
    | inval hh hi hval hd ht' =>
      rw [rw_inval hh hi] at hm
      simp only [memMsgs_mem, memMsgs_nil, List.mem_singleton] at hm
      subst hm; exact absurd ht (by simp [MReq.rd])
    | miss hh hi hn =>
      rw [rw_miss hh hi] at hm ⊢
      simp only [memMsgs_append, List.mem_append, memMsgs_mem, memMsgs_nil, List.mem_singleton] at hm
      rcases hm with hm | hm
      · split at hm
        · rename_i hd
          have hd : (L.ent (L.rep q.addr.idx) q.addr.idx).dty ≠ 0 := by simpa using hd
          simp only [L1.wb, memMsgs_mem, memMsgs_nil, List.mem_singleton] at hm
          subst hm
          obtain ⟨b, hb, hWb⟩ := wr_inLine hW
          have hother : ∀ (d : Dty p) b', b' < p.nWords → LAddr.num ⟨q.addr.tag, q.addr.idx⟩ * 2 ^ p.nwBits + b' = W →
              d.getLsbD b' = false := by
            intro d b' hb' hW'
            exfalso
            rw [← hWb] at hW'
            have := (num_line_ext hb' hb hW').1
            exact hn _ (hok.rep _) (.inr hd) (congrArg LAddr.tag this).symm
          simp only [L1.post, L1.answer]
          split
          · exact NotDirty.of_removed hok (hok.rep _) _ hb hd hWb _ (hother _)
          · exact NotDirty.of_removed hok (hok.rep _) _ hb hd hWb _ (hother _)
        · simp at hm
      · subst hm; exact absurd ht (by simp [MReq.rd])
  rename_i hrw
  rw [if_neg hrw]
  split at hm
  · rename_i ha
    rw [if_pos ha]
    simp only [L1.amo, memMsgs_append, List.mem_append, memMsgs_mem, memMsgs_nil, List.mem_singleton] at hm
    rcases hm with hm | hm
    · split at hm
      · rename_i hd
        simp only [L1.wb, memMsgs_mem, memMsgs_nil, List.mem_singleton] at hm
        simp only [Bool.and_eq_true, bne_iff_ne] at hd
        subst hm
        obtain ⟨b, hb, hWb⟩ := wr_inLine hW
        simp only [L1.amo, L1.post, L1.answer, hd.2, if_true]
        exact NotDirty.of_removed hok hw _ hb hd.1 hWb _ (by simp)
      · simp at hm
    · subst hm; exact absurd (.inr ht) hrw
  rename_i ha
  rw [if_neg ha]
  split at hm
  · simp at hm
  rename_i hi
  rw [if_neg hi]
  split at hm
  · rename_i hf
    have := NotDirty.of_flush W hc hf
    simp only [L1.accept] at this
    rw [if_neg hrw, if_neg ha, if_neg hi] at this
    exact this
  · simp at hm

theorem flush_mem (L : L1 p) (n : Nat) {m : MReq p} (hm : m ∈ memMsgs (L.flushMsgs n)) :
    ∃ i, i < n ∧ (L.ent (cntWay p (lineNo p i)) (cntIdx p (lineNo p i))).dty ≠ 0 ∧ m = .wr ⟨(L.ent (cntWay p (lineNo p i)) (cntIdx p (lineNo p i))).tag, cntIdx p (lineNo p i)⟩
      (L.ent (cntWay p (lineNo p i)) (cntIdx p (lineNo p i))).dty (L.dat (cntWay p (lineNo p i)) (cntIdx p (lineNo p i))) := by
  induction n with
  | zero => simp [L1.flushMsgs] at hm
  | succ n ih =>
    simp only [L1.flushMsgs, memMsgs_append, List.mem_append] at hm
    rcases hm with h | h
    · split at h
      · simp only [L1.wb, memMsgs_mem, memMsgs_nil, List.mem_singleton] at h
        rename_i hd
        exact ⟨n, by omega, by simpa using hd, h⟩
      · simp at h
    · obtain ⟨i, h1, h2, h3⟩ := ih h
      exact ⟨i, by omega, h2, h3⟩

/-- Two writes sent for one request go to different lines. -/
def Disj (m m' : MReq p) : Prop := m.ty = MT.WRITE → m'.ty = MT.WRITE → ∀ W, m.inLine W → ¬ m'.inLine W

theorem flush_disj {L : L1 p} (hok : L.Ok) (n : Nat) (hn : n ≤ 2 ^ p.cntBits) : (memMsgs (L.flushMsgs n)).Pairwise Disj := by
  induction n with
  | zero => exact List.Pairwise.nil
  | succ n ih =>
    simp only [L1.flushMsgs, memMsgs_append]
    rw [List.pairwise_append]
    refine ⟨?_, ih (by omega), ?_⟩
    · split
      · simp [L1.wb]
      · exact List.Pairwise.nil
    · intro m hm m' hm' _ _ W hW hW'
      split at hm
      · rename_i hd
        have hd : (L.ent (cntWay p (lineNo p n)) (cntIdx p (lineNo p n))).dty ≠ 0 := by simpa using hd
        simp only [L1.wb, memMsgs_mem, memMsgs_nil, List.mem_singleton] at hm
        subst hm
        obtain ⟨i, hi, hd', rfl⟩ := flush_mem L n hm'
        obtain ⟨b, hb, h1⟩ := wr_inLine hW
        obtain ⟨b', hb', h2⟩ := wr_inLine hW'
        rw [← h2] at h1
        have h3 := (num_line_ext hb hb' h1).1
        have hj : cntIdx p (lineNo p n) = cntIdx p (lineNo p i) := congrArg LAddr.idx h3
        have ht : (L.ent (cntWay p (lineNo p n)) (cntIdx p (lineNo p n))).tag =
          (L.ent (cntWay p (lineNo p i)) (cntIdx p (lineNo p i))).tag := congrArg LAddr.tag h3
        rw [← hj] at hd' ht
        have hw := hok.uniq _ (cntWay_mem (lineNo p n)) _ (cntWay_mem (lineNo p i)) (cntIdx p (lineNo p n))
          (.inr hd) (.inr hd') ht
        have := congrArg BitVec.toNat (cnt_ext hw hj)
        simp only [lineNo, BitVec.toNat_ofNat] at this
        rw [Nat.mod_eq_of_lt (by omega), Nat.mod_eq_of_lt (by omega)] at this
        omega
      · simp at hm

theorem accept_disj {L : L1 p} (hok : L.Ok) (q : CReq p) : (memMsgs (L.accept q).2).Pairwise Disj := by
  have hone : ∀ (c : Bool) (x : Msg p) (m : MReq p), m.ty ≠ MT.WRITE →
      (memMsgs ((if c then [x] else []) ++ [Msg.mem m])).Pairwise Disj := by
    intro c x m hm
    have hd : ∀ m', Disj m' m := fun m' _ h => absurd h hm
    cases c
    · simp
    · cases x <;> simp [hd]
  simp only [L1.accept]
  split
  · simp only [L1.rw]
    split
    · split <;> simp
    split
    · simp
    · exact hone _ _ _ (by simp [MReq.rd])
  split
  · rename_i hrw _
    exact hone _ _ _ (fun h => hrw (.inr h))
  split
  · simp
  split
  · simp only [memMsgs_append, memMsgs_resp, memMsgs_nil, List.append_nil]
    exact flush_disj hok _ (Nat.le_refl _)
  · simp

/-! ## Unsaved words -/

theorem carries_touches {m : MReq p} {W : Nat} (ha : 4 ∣ m.addr.flat) (h : m.carries W) : m.touches W := by
  obtain ⟨h1, b, h2, h3, h4⟩ := h
  refine ⟨m.addr.flat + 4 * b, by omega, .inl ⟨h1, b, h2, h3, by omega, by omega⟩⟩

theorem touches_carries {m : MReq p} {W : Nat} (ha : 4 ∣ m.addr.flat) (ht : m.ty = MT.WRITE) (h : m.touches W) : m.carries W := by
  obtain ⟨x, hx, ⟨_, b, h1, h2, h3, h4⟩ | h⟩ := h
  · exact ⟨ht, b, h1, h2, by omega⟩
  · exact absurd ht h.2.1

theorem wr_carries {a : LAddr p} {d : Dty p} {l : Line p} {W : Nat} : (MReq.wr a d l).carries W ↔ (MReq.wr a d l).touches W := by
  have : 4 ∣ (MReq.wr a d l).addr.flat := by
    simp only [MReq.wr]; rw [flat_off0, offBits_pow]; exact ⟨a.num * 2 ^ p.nwBits, by
      rw [← Nat.mul_assoc, Nat.mul_comm _ 4, Nat.mul_assoc]⟩
  exact ⟨carries_touches this, touches_carries this rfl⟩

theorem Unsaved.snoc {k : ι} {W : Nat} {tr : List (Ev ι p)} (h : Unsaved k W tr) (e : List (Ev ι p))
    (he : ∀ m ∈ sent k e, ¬ m.carries W) : Unsaved k W (tr ++ e) := by
  obtain ⟨a, q, b, rfl, h1, h2, h3⟩ := h
  refine ⟨a, q, b ++ e, by simp, h1, h2, ?_⟩
  intro m hm
  rw [sent_append, List.mem_append] at hm
  rcases hm with hm | hm
  · exact h3 m hm
  · exact he m hm

/-- Proof device; not in the source. -/
structure DirtyInv (T : ESys ι p) (k : ι) (tr : List (Ev ι p)) : Prop where
  dirty : ∀ W, ¬ NotDirty W (T.L k).post → Unsaved k W tr ∧ ∀ m ∈ memMsgs (T.E k), m.ty = MT.WRITE → ¬ m.inLine W
  pend : ∀ m ∈ memMsgs (T.E k), ∀ W, m.carries W → Unsaved k W tr
  disj : (memMsgs (T.E k)).Pairwise Disj

theorem dirty_inv (wf : p.WF) {M : ByteMem} {T : ESys ι p} {tr : List (Ev ι p)} (h : ERun (ESys.init ι p M) tr T) (k : ι)
    (hv : ∀ q ∈ accepted k tr, q.Valid) : DirtyInv T k tr := by
  generalize hT : ESys.init ι p M = T0 at h
  induction h with
  | refl =>
    subst hT
    refine ⟨?_, by simp [ESys.init], by simp [ESys.init]⟩
    intro W hW
    exfalso; apply hW
    rw [post_idle (by rfl)]
    intro w _ j b _ _
    simp [ESys.init, L1.init, Entry.zero]
  | @snoc T1 T2 tr1 ev h hs ih =>
    subst hT
    have ih := ih (fun q hq => hv q (by simp [hq]))
    cases hs with
    | acc k' q hc hE hr hs hq =>
      by_cases hk : k = k'
      · subst hk
        have hok := (EInv.run h k).ok
        have hqv := hv q (by simp [accepted])
        have hmE : memMsgs (T1.E k) = [] := by rw [memTypes_eq] at hE; simpa using hE
        have hsent : ∀ m ∈ sent k [(.acc k q : Ev ι p)], ∀ W, ¬ m.carries W := by
          intro m hm; simp [sent] at hm
        have hcar : ∀ m ∈ memMsgs ((T1.L k).accept q).2, ∀ W, m.carries W → m.touches W := by
          intro m hm W hW
          obtain ⟨w, _, j, _, rfl⟩ := accept_writes hok hm hW.1
          exact wr_carries.1 hW
        have e : memMsgs (upd T1.E k (T1.E k ++ ((T1.L k).accept q).2) k) = memMsgs ((T1.L k).accept q).2 := by
          rw [upd_same, memMsgs_append, hmE, List.nil_append]
        have hun : ∀ W, ¬ NotDirty W (T1.L k).ent → Unsaved k W tr1 := by
          intro W hW
          rw [← post_idle hc] at hW
          exact (ih.dirty W hW).1
        refine ⟨?_, ?_, ?_⟩
        · intro W hW
          simp only [upd_same] at hW
          rw [e]
          refine ⟨?_, ?_⟩
          · by_cases hst : q.ty = MT.WRITE ∧ q.writesWord W
            · exact ⟨tr1, q, [], by simp, hst.1, hst.2, by simp [sent]⟩
            · refine (hun W ?_).snoc _ (fun m hm => hsent m hm W)
              intro hnd
              exact hW (hnd.accept' wf hok hc hqv (fun h1 h2 => hst ⟨h1, h2⟩)).1
          · intro m hm ht hmW
            exact hW (accept_saved hok hc hm ht hmW)
        · intro m hm W hmW
          rw [e] at hm
          refine (hun W ?_).snoc _ (fun m hm => hsent m hm W)
          intro hnd
          obtain ⟨w, hw, j, _, rfl⟩ := accept_writes hok hm hmW.1
          exact hnd.wb hw j (wr_carries.1 hmW)
        · rw [e]
          exact accept_disj hok q
      · have hsent : ∀ m ∈ sent k [(.acc k' q : Ev ι p)], ∀ W, ¬ m.carries W := by
          intro m hm; simp [sent] at hm
        refine ⟨?_, ?_, ?_⟩
        · intro W hW
          simp only [upd_other _ hk] at hW ⊢
          obtain ⟨h1, h2⟩ := ih.dirty W hW
          exact ⟨h1.snoc _ (fun m hm => hsent m hm W), h2⟩
        · intro m hm W hmW
          simp only [upd_other _ hk] at hm
          exact (ih.pend m hm W hmW).snoc _ (fun m hm => hsent m hm W)
        · simp only [upd_other _ hk]; exact ih.disj
    | deliver k' r l hl =>
      rw [List.append_nil]
      by_cases hk : k = k'
      · subst hk
        have hp : ((T1.L k).deliver r).1.post = (T1.L k).post := by
          simp only [L1.deliver]
          split
          · rw [post_idle (answer_idle _ _), answer_ent]
          · rfl
        have hm : memMsgs ((T1.L k).deliver r).2 = [] := by
          simp only [L1.deliver]
          split
          · exact answer_noMem _ _
          · rfl
        have e : memMsgs (upd T1.E k (T1.E k ++ ((T1.L k).deliver r).2) k) = memMsgs (T1.E k) := by
          rw [upd_same, memMsgs_append, hm, List.append_nil]
        refine ⟨?_, ?_, ?_⟩
        · intro W hW
          simp only [upd_same] at hW
          rw [hp] at hW
          rw [e]; exact ih.dirty W hW
        · rw [e]; exact ih.pend
        · rw [e]; exact ih.disj
      · exact ⟨by simpa [upd_other _ hk] using ih.dirty, by simpa [upd_other _ hk] using ih.pend,
          by simpa [upd_other _ hk] using ih.disj⟩
    | emitMem k' m E' hE =>
      by_cases hk : k = k'
      · subst hk
        have hs : sent k [(.mreq k m : Ev ι p)] = [m] := by simp [sent]
        have hmE : memMsgs (T1.E k) = m :: memMsgs E' := by rw [hE]; rfl
        have hd := ih.disj
        rw [hmE, List.pairwise_cons] at hd
        refine ⟨?_, ?_, ?_⟩
        · intro W hW
          simp only [upd_same]
          obtain ⟨h1, h2⟩ := ih.dirty W hW
          rw [hmE] at h2
          exact ⟨h1.snoc _ (by rw [hs]; intro m' hm' hW'; exact h2 m' (by simp_all) hW'.1 hW'.inLine), fun m' hm' => h2 m' (by simp [hm'])⟩
        · intro m' hm' W hW
          simp only [upd_same] at hm'
          refine (ih.pend m' (by rw [hmE]; simp [hm']) W hW).snoc _ ?_
          rw [hs]
          intro m'' hm'' hW''
          rw [List.mem_singleton] at hm''; subst hm''
          exact hd.1 m' hm' hW''.1 hW.1 W hW''.inLine hW.inLine
        · simp only [upd_same]; exact hd.2
      · have hk' : ¬ k' = k := fun h => hk h.symm
        have hs : ∀ m' ∈ sent k [(.mreq k' m : Ev ι p)], ∀ W, ¬ m'.carries W := by simp [sent, hk']
        refine ⟨?_, ?_, ?_⟩
        · intro W hW
          simp only [upd_other _ hk]
          obtain ⟨h1, h2⟩ := ih.dirty W hW
          exact ⟨h1.snoc _ (fun m hm => hs m hm W), h2⟩
        · intro m hm W hmW
          simp only [upd_other _ hk] at hm
          exact (ih.pend m hm W hmW).snoc _ (fun m hm => hs m hm W)
        · simp only [upd_other _ hk]; exact ih.disj
    | emitResp k' r E' hE hr hs =>
      have hst : ∀ m' ∈ sent k [(.resp k' r : Ev ι p)], ∀ W, ¬ m'.carries W := by simp [sent]
      have hm : memMsgs (upd T1.E k' E' k) = memMsgs (T1.E k) := by
        by_cases hk : k = k'
        · subst hk; rw [upd_same, hE]; rfl
        · rw [upd_other _ hk]
      refine ⟨?_, ?_, ?_⟩
      · intro W hW
        obtain ⟨h1, h2⟩ := ih.dirty W hW
        exact ⟨h1.snoc _ (fun m hm => hst m hm W), by rw [hm]; exact h2⟩
      · intro m hm' W hmW
        rw [hm] at hm'
        exact (ih.pend m hm' W hmW).snoc _ (fun m hm => hst m hm W)
      · rw [hm]; exact ih.disj
    | exec k' m ms hm =>
      have hst : ∀ r, ∀ m' ∈ sent k [(.exec k' m r : Ev ι p)], ∀ W, ¬ m'.carries W := by simp [sent]
      refine ⟨?_, ?_, ih.disj⟩
      · intro W hW
        obtain ⟨h1, h2⟩ := ih.dirty W hW
        exact ⟨h1.snoc _ (fun m hm => hst _ m hm W), h2⟩
      · intro m hm' W hmW
        exact (ih.pend m hm' W hmW).snoc _ (fun m hm => hst _ m hm W)

/-! ## Unsaved words are dirty -/

/-- A store marks the words it writes. -/
theorem store_marks (wf : p.WF) {q : CReq p} (hv : q.Valid) (ty : q.ty = MT.WRITE) {W : Nat} (hW : q.writesWord W) :
    ∃ b, b < p.nWords ∧ q.addr.la.num * 2 ^ p.nwBits + b = W ∧
      (∀ d : Dty p, (markDirty p d q.addr.off q.len).getLsbD b = true) ∧
      (∀ e : Entry p, wordDirty p e q.addr.off q.len = true → e.dty.getLsbD b = true) := by
  obtain ⟨x, hx, hwb⟩ := hW
  have hbytes : ∃ n, Store q n ∧ q.addr.flat ≤ x ∧ x < q.addr.flat + n := by
    have hr : q.addr.flat ≤ x ∧ x < q.addr.flat + if q.len.toNat = 3 then 8 else q.bytes := by
      rcases hwb with h | h
      · exact h.2
      · rw [ty] at h; exact absurd h.1 (by decide)
    cases hv with
    | read ty' => rw [ty] at ty'; simp at ty'
    | write _ k hk hk2 al =>
      have h3 : ¬ q.len.toNat = 3 := by
        rcases bytes_cases hk with ⟨h1, _⟩ | ⟨h1, _⟩
        · omega
        · rw [h1]; intro h3
          have : k = 0 ∨ k = 1 ∨ k = 2 := by omega
          rcases this with rfl | rfl | rfl <;> simp at h3
      rw [if_neg h3, hk] at hr
      exact ⟨2 ^ k, store_word wf hk hk2 al, hr⟩
    | dword _ len hp al =>
      rw [if_pos len] at hr
      exact ⟨8, store_dword wf hp len al, hr⟩
    | amo ty' => exact absurd ty (amo_ty ty').2.1
    | inv ty' => rw [ty] at ty'; simp at ty'
    | flush ty' => rw [ty] at ty'; simp at ty'
  obtain ⟨n, hst, h1, h2⟩ := hbytes
  have hflat : q.addr.flat = 4 * (q.addr.la.num * 2 ^ p.nwBits) + q.addr.off.toNat := by
    rw [flat_eq, offBits_pow, ← Nat.mul_assoc, Nat.mul_comm _ 4, Nat.mul_assoc]
  have hf := hst.fits
  rw [offBits_pow] at hf
  let i := 8 * (q.addr.off.toNat + (x - q.addr.flat))
  have hi : i < p.lineBits := by rw [lineBits_eq (p := p), offBits_pow]; omega
  refine ⟨i / 32, by simp only [Params.lineBits] at hi; omega, ?_, ?_, ?_⟩
  · omega
  · intro d; exact hst.mark d i hi ⟨by omega, by omega⟩
  · intro e he; exact hst.dirty e he i hi ⟨by omega, by omega⟩

/-- A stored word is dirty afterwards. -/
theorem accept_marks (wf : p.WF) {L : L1 p} (hok : L.Ok) (hc : L.cur = .idle) {q : CReq p} (hv : q.Valid)
    (ty : q.ty = MT.WRITE) {W : Nat} (hW : q.writesWord W) : ¬ NotDirty W (L.accept q).1.post := by
  have hw := L.lookup_way_mem q.addr
  have hu : L.UniqAt q.addr.idx := fun w hw w' hw' h1 h2 h3 => hok.uniq w hw w' hw' q.addr.idx h1 h2 h3
  obtain ⟨b, hb, hWb, hm, hwd⟩ := store_marks wf hv ty hW
  have hacc : L.accept q = L.rw q := by simp only [L1.accept]; rw [if_pos (.inr ty)]
  rw [hacc]
  intro hnd
  cases lookup_cases hu with
  | hit hh hi hval ht =>
    rw [rw_hit hh] at hnd
    rw [post_idle (by exact hc)] at hnd
    dsimp only at hnd
    split at hnd
    · have := hnd _ hw q.addr.idx b hb (by rw [setAt_same]; exact hWb)
      rw [setAt_same, hm] at this; cases this
    · rename_i hcond
      have hd : wordDirty p (L.ent (L.lookup q.addr).way q.addr.idx) q.addr.off q.len = true := by
        cases hd : wordDirty p (L.ent (L.lookup q.addr).way q.addr.idx) q.addr.off q.len
        · exact absurd ⟨ty, hi, hd⟩ hcond
        · rfl
      have := hnd _ hw q.addr.idx b hb (by rw [ht]; exact hWb)
      rw [hwd _ hd] at this; cases this
  | inval hh hi hval hd ht =>
    rw [rw_inval hh hi] at hnd
    simp only [L1.post, L1.answer, ty, if_true] at hnd
    have := hnd _ hw q.addr.idx b hb (by rw [setAt_same]; exact hWb)
    rw [setAt_same, hm] at this; cases this
  | miss hh hi hn =>
    rw [rw_miss hh hi] at hnd
    simp only [L1.post, L1.answer, ty, if_true] at hnd
    have := hnd _ (hok.rep _) q.addr.idx b hb (by rw [setAt_same]; exact hWb)
    rw [setAt_same, hm] at this; cases this

theorem wr_carries_of {a : LAddr p} {d : Dty p} {l : Line p} {W b : Nat} (hb : b < p.nWords)
    (hd : d.getLsbD b = true) (hW : a.num * 2 ^ p.nwBits + b = W) : (MReq.wr a d l).carries W := by
  refine ⟨rfl, b, hb, hd, ?_⟩
  simp only [MReq.wr]
  rw [flat_off0, offBits_pow, ← Nat.mul_assoc, Nat.mul_comm _ 4, Nat.mul_assoc]
  omega

/-- A dirty word stays dirty or is written back. -/
theorem accept_keeps {L : L1 p} (hok : L.Ok) (hc : L.cur = .idle) (q : CReq p) {W : Nat}
    (hW : ¬ NotDirty W L.ent) : ¬ NotDirty W (L.accept q).1.post ∨ ∃ m ∈ memMsgs (L.accept q).2, m.carries W := by
  have hw := L.lookup_way_mem q.addr
  have hu : L.UniqAt q.addr.idx := fun w hw w' hw' h1 h2 h3 => hok.uniq w hw w' hw' q.addr.idx h1 h2 h3
  have hex : ∃ w ∈ p.ways, ∃ (j : Idx p) (b : Nat), b < p.nWords ∧ LAddr.num ⟨(L.ent w j).tag, j⟩ * 2 ^ p.nwBits + b = W ∧
      (L.ent w j).dty.getLsbD b = true := by
    apply Classical.byContradiction
    intro hne
    apply hW
    intro w hw j b hb h1
    cases hd : (L.ent w j).dty.getLsbD b
    · rfl
    · exact absurd ⟨w, hw, j, b, hb, h1, hd⟩ hne
  obtain ⟨w, hww, j, b, hb, hWb, hd⟩ := hex
  -- the entry survives
  have keep : ∀ ent' : Way → Idx p → Entry p, (ent' w j).tag = (L.ent w j).tag →
      (ent' w j).dty.getLsbD b = true → ¬ NotDirty W ent' := by
    intro ent' h1 h2 hnd
    have := hnd w hww j b hb (by rw [h1]; exact hWb)
    rw [h2] at this; cases this
  simp only [L1.accept]
  split
  · cases lookup_cases hu with
    | hit hh hi hval ht =>
      left
      rw [rw_hit hh, post_idle (by exact hc)]
      dsimp only
      split
      · by_cases hx : w = (L.lookup q.addr).way ∧ j = q.addr.idx
        · obtain ⟨rfl, rfl⟩ := hx
          apply keep <;> try dsimp only
          · rw [setAt_same]; exact ht.symm
          · rw [setAt_same]; exact markDirty_mono _ _ _ _ hd
        · apply keep <;> try dsimp only
          · rw [setAt_ne _ _ hx]
          · rw [setAt_ne _ _ hx]; exact hd
      · exact keep _ rfl hd
    | inval hh hi hval hdd ht =>
      left
      rw [rw_inval hh hi]
      simp only [L1.post, L1.answer]
      by_cases hx : w = (L.lookup q.addr).way ∧ j = q.addr.idx
      · obtain ⟨rfl, rfl⟩ := hx
        split
        · apply keep <;> try dsimp only
          · rw [setAt_same]; exact ht.symm
          · rw [setAt_same]; exact markDirty_mono _ _ _ _ hd
        · apply keep <;> try dsimp only
          · rw [setAt_same]; exact ht.symm
          · rw [setAt_same]; exact hd
      · split <;>
        · apply keep <;> try dsimp only
          · rw [setAt_ne _ _ hx]
          · rw [setAt_ne _ _ hx]; exact hd
    | miss hh hi hn =>
      rw [rw_miss hh hi]
      by_cases hx : w = L.rep q.addr.idx ∧ j = q.addr.idx
      · right
        obtain ⟨rfl, rfl⟩ := hx
        have hne : ((L.ent (L.rep q.addr.idx) q.addr.idx).dty != 0) = true := by simpa using dty_ne_zero hd
        simp only [hne, if_true]
        exact ⟨_, by simp [L1.wb]; exact .inl rfl, wr_carries_of hb hd hWb⟩
      · left
        simp only [L1.post, L1.answer]
        split <;>
        · apply keep <;> try dsimp only
          · rw [setAt_ne _ _ hx]
          · rw [setAt_ne _ _ hx]; exact hd
  split
  · simp only [L1.amo]
    by_cases hx : ((L.lookup q.addr).hit || (L.lookup q.addr).inval) = true ∧ w = (L.lookup q.addr).way ∧ j = q.addr.idx
    · right
      obtain ⟨hx, rfl, rfl⟩ := hx
      have hne : ((L.ent (L.lookup q.addr).way q.addr.idx).dty != 0) = true := by simpa using dty_ne_zero hd
      simp only [hne, hx, Bool.and_true, if_true]
      exact ⟨_, by simp [L1.wb]; exact .inl rfl, wr_carries_of hb hd hWb⟩
    · left
      simp only [L1.post, L1.answer]
      split
      · rename_i hh
        have hx : ¬ (w = (L.lookup q.addr).way ∧ j = q.addr.idx) := fun h => hx ⟨hh, h⟩
        apply keep <;> try dsimp only
        · rw [setAt_ne _ _ hx]
        · rw [setAt_ne _ _ hx]; exact hd
      · exact keep _ rfl hd
  split
  · left
    rw [post_idle (by exact hc)]
    exact keep _ rfl hd
  split
  · right
    have hne : ((L.ent w j).dty != 0) = true := by simpa using dty_ne_zero hd
    have hc1 := cntWay_numOf w j hww
    have hc2 := cntIdx_numOf w j hww
    generalize numOf p w j = c at hc1 hc2
    have : ∀ n, c.toNat < n → n ≤ 2 ^ p.cntBits →
        .wr ⟨(L.ent w j).tag, j⟩ (L.ent w j).dty (L.dat w j) ∈ memMsgs (L.flushMsgs n) := by
      intro n
      induction n with
      | zero => intro h; omega
      | succ n ih =>
        intro h h'
        simp only [L1.flushMsgs, memMsgs_append, List.mem_append]
        by_cases hcn : c.toNat = n
        · left
          have : lineNo p n = c := by
            rw [← hcn]; simp [lineNo]
          rw [this, hc1, hc2, hne]
          simp [L1.wb]
        · right; exact ih (by omega) (by omega)
    refine ⟨.wr ⟨(L.ent w j).tag, j⟩ (L.ent w j).dty (L.dat w j), ?_, wr_carries_of hb hd hWb⟩
    simp only [memMsgs_append, memMsgs_resp, memMsgs_nil, List.append_nil]
    exact this _ c.isLt (Nat.le_refl _)
  · left
    rw [post_idle hc]; exact hW

theorem Unsaved.unsnoc {k : ι} {W : Nat} {tr : List (Ev ι p)} {e : Ev ι p} (h : Unsaved k W (tr ++ [e])) :
    (Unsaved k W tr ∧ ∀ m ∈ sent k [e], ¬ m.carries W) ∨ ∃ q, e = .acc k q ∧ q.ty = MT.WRITE ∧ q.writesWord W := by
  obtain ⟨a, q, b, he, h1, h2, h3⟩ := h
  rcases snoc_split he with ⟨b', rfl, rfl⟩ | ⟨rfl, rfl, rfl⟩
  · refine .inl ⟨⟨a, q, b', rfl, h1, h2, fun m hm => h3 m (by simp [hm])⟩, fun m hm => h3 m (by simp [hm])⟩
  · exact .inr ⟨q, rfl, h1, h2⟩

theorem kept_inv (wf : p.WF) {M : ByteMem} {T : ESys ι p} {tr : List (Ev ι p)} (h : ERun (ESys.init ι p M) tr T) (k : ι)
    (hv : ∀ q ∈ accepted k tr, q.Valid) {W : Nat} (hu : Unsaved k W tr) :
    ¬ NotDirty W (T.L k).post ∨ ∃ m ∈ memMsgs (T.E k), m.carries W := by
  generalize hT : ESys.init ι p M = T0 at h
  induction h with
  | refl =>
    obtain ⟨a, q, b, he, _⟩ := hu
    simp at he
  | @snoc T1 T2 tr1 ev h hs ih =>
    subst hT
    have ih := ih (fun q hq => hv q (by simp [hq]))
    cases hs with
    | acc k' q hc hE hr hs hq =>
      by_cases hk : k = k'
      · subst hk
        have hok := (EInv.run h k).ok
        have hqv := hv q (by simp [accepted])
        have hmE : memMsgs (T1.E k) = [] := by rw [memTypes_eq] at hE; simpa using hE
        have e : memMsgs (upd T1.E k (T1.E k ++ ((T1.L k).accept q).2) k) = memMsgs ((T1.L k).accept q).2 := by
          rw [upd_same, memMsgs_append, hmE, List.nil_append]
        rw [e]
        simp only [upd_same]
        rcases hu.unsnoc with ⟨hu', _⟩ | ⟨q', h1, h2, h3⟩
        · have := ih hu'
          rw [hmE, post_idle hc] at this
          rcases this with h1 | ⟨m, hm, _⟩
          · exact accept_keeps hok hc q h1
          · cases hm
        · cases h1
          exact .inl (accept_marks wf hok hc hqv h2 h3)
      · simp only [upd_other _ hk]
        rcases hu.unsnoc with ⟨hu', _⟩ | ⟨q', h1, h2, h3⟩
        · exact ih hu'
        · cases h1; exact absurd rfl hk
    | deliver k' r l hl =>
      rw [List.append_nil] at hu
      have ih := ih hu
      by_cases hk : k = k'
      · subst hk
        have hp : ((T1.L k).deliver r).1.post = (T1.L k).post := by
          simp only [L1.deliver]
          split
          · rw [post_idle (answer_idle _ _), answer_ent]
          · rfl
        have hm : memMsgs ((T1.L k).deliver r).2 = [] := by
          simp only [L1.deliver]
          split
          · exact answer_noMem _ _
          · rfl
        simp only [upd_same, memMsgs_append, hm, List.append_nil, hp]
        exact ih
      · simp only [upd_other _ hk]; exact ih
    | emitMem k' m E' hE =>
      rcases hu.unsnoc with ⟨hu', hno⟩ | ⟨q', h1, h2, h3⟩
      · by_cases hk : k = k'
        · subst hk
          rcases ih hu' with h1 | ⟨m', hm', hc'⟩
          · exact .inl h1
          · right
            simp only [upd_same]
            rw [hE] at hm'
            simp only [memMsgs_mem, List.mem_cons] at hm'
            rcases hm' with rfl | hm'
            · exact absurd hc' (hno m' (by simp [sent]))
            · exact ⟨m', hm', hc'⟩
        · simp only [upd_other _ hk]; exact ih hu'
      · cases h1
    | emitResp k' r E' hE hr hs =>
      rcases hu.unsnoc with ⟨hu', hno⟩ | ⟨q', h1, h2, h3⟩
      · have hm : memMsgs (upd T1.E k' E' k) = memMsgs (T1.E k) := by
          by_cases hk : k = k'
          · subst hk; rw [upd_same, hE]; rfl
          · rw [upd_other _ hk]
        simp only [hm]
        exact ih hu'
      · cases h1
    | exec k' m ms hm =>
      rcases hu.unsnoc with ⟨hu', hno⟩ | ⟨q', h1, h2, h3⟩
      · exact ih hu'
      · cases h1

/-- Shape of the pending writes. -/
theorem shape_inv {M : ByteMem} {T : ESys ι p} {tr : List (Ev ι p)} (h : ERun (ESys.init ι p M) tr T) (k : ι) :
    ∀ m ∈ memMsgs (T.E k), m.ty = MT.WRITE → ∃ t j, m.WritesBack t j := by
  generalize hT : ESys.init ι p M = T0 at h
  induction h with
  | refl => subst hT; simp [ESys.init]
  | @snoc T1 T2 tr1 ev h hs ih =>
    subst hT
    cases hs with
    | acc k' q hc hE hr hs hq =>
      by_cases hk : k = k'
      · subst hk
        intro m hm ht
        simp only [upd_same, memMsgs_append, List.mem_append] at hm
        rcases hm with hm | hm
        · exact ih m hm ht
        · obtain ⟨w, _, j, hd, rfl⟩ := accept_writes (EInv.run h k).ok hm ht
          exact ⟨_, _, wr_writesBack hd⟩
      · simp only [upd_other _ hk]; exact ih
    | deliver k' r l hl =>
      by_cases hk : k = k'
      · subst hk
        have hm : memMsgs ((T1.L k).deliver r).2 = [] := by
          simp only [L1.deliver]
          split
          · exact answer_noMem _ _
          · rfl
        simp only [upd_same, memMsgs_append, hm, List.append_nil]
        exact ih
      · simp only [upd_other _ hk]; exact ih
    | emitMem k' m E' hE =>
      by_cases hk : k = k'
      · subst hk
        simp only [upd_same]
        intro m' hm'
        exact ih m' (by rw [hE]; simp [hm'])
      · simp only [upd_other _ hk]; exact ih
    | emitResp k' r E' hE hr hs =>
      by_cases hk : k = k'
      · subst hk
        simp only [upd_same]
        intro m' hm'
        exact ih m' (by rw [hE]; simp [hm'])
      · simp only [upd_other _ hk]; exact ih
    | exec k' m ms hm => exact ih

/-- The memory messages between two acceptances are those of the request. -/
theorem window_msgs {M : ByteMem} {T0 T1 T : ESys ι p} {a b : List (Ev ι p)} {k : ι} {q : CReq p}
    (_ : ERun (ESys.init ι p M) a T0) (h1 : EStep T0 [.acc k q] T1) (h : ERun T1 b T) (hb : accepted k b = []) :
    sent k b ++ memMsgs (T.E k) = memMsgs ((T0.L k).accept q).2 := by
  induction h with
  | refl =>
    cases h1 with
    | acc _ _ hc hE hr hs hq =>
      have hmE : memMsgs (T0.E k) = [] := by rw [memTypes_eq] at hE; simpa using hE
      simp [sent, hmE]
  | @snoc T2 T3 b1 ev hb1 hs ih =>
    rw [accepted_append, List.append_eq_nil_iff] at hb
    have ih := ih hb.1
    rw [← ih, sent_append, List.append_assoc]
    congr 1
    cases hs with
    | acc k' q' hc hE hr hs hq =>
      by_cases hk : k = k'
      · subst hk; have := hb.2; simp [accepted] at this
      · simp [sent, upd_other _ hk]
    | deliver k' r l hl =>
      by_cases hk : k = k'
      · subst hk
        have hm : memMsgs ((T2.L k).deliver r).2 = [] := by
          simp only [L1.deliver]
          split
          · exact answer_noMem _ _
          · rfl
        simp [sent, hm]
      · simp [sent, upd_other _ hk]
    | emitMem k' m E' hE =>
      by_cases hk : k = k'
      · subst hk; simp [sent, hE]
      · have hk' : ¬ k' = k := fun h => hk h.symm
        simp [sent, upd_other _ hk, hk']
    | emitResp k' r E' hE hr hs =>
      by_cases hk : k = k'
      · subst hk; simp [sent, hE]
      · simp [sent, upd_other _ hk]
    | exec k' m ms hm => simp [sent]

end Verif
