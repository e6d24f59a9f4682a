import Verif.SpecPass
import Verif.WEff
import Verif.PropsCoh
import Verif.PropsAir

/-!
# C81: message passing
-/

set_option linter.unusedSectionVars false

namespace Verif.WM
variable {ι : Type} [DecidableEq ι] {M0 : ByteMem} {tr : List (Ev ι)} {A B : State ι}

/-- The roles: `P` makes its stores to `D` before its request number `nf`, a FLUSH; `L` are all requests. Proof device; not in the source. -/
structure Pass (L : ι → List Req) (Q : List Req) (P : ι) (D nf : Nat) : Prop where
  others : ∀ k, k ≠ P → ∀ q ∈ L k, ¬ q.stores D
  own : ∀ m q, nf ≤ m → (L P)[m]? = some q → ¬ q.stores D
  flush : ∃ f, (L P)[nf]? = some f ∧ f.ty = MT.FLUSH
  air : ∀ k, k ≠ P → ∀ q ∈ L k, q ∈ Q
  airP : ∀ m q, m ≤ nf → (L P)[m]? = some q → q ∈ Q
  aligned : ∀ k, ∀ q ∈ L k, MT.isAmo q.ty = true → 4 ∣ q.addr

/-- The word `D` after `m` requests of `P`. Proof device; not in the source. -/
abbrev valAt (M0 : ByteMem) (L : ι → List Req) (P : ι) (m : Nat) : ByteMem := perform M0 ((L P).take m)

variable {L : ι → List Req} {Q : List Req} {P C : ι} {D nf : Nat}

theorem valAt_succ {m : Nat} {q : Req} (h : (L P)[m]? = some q) :
    valAt M0 L P (m + 1) = (flat (valAt M0 L P m) q).1 := by
  simp only [valAt, perform, List.take_add_one, h, Option.toList_some, List.foldl_append, List.foldl_cons, List.foldl_nil]

theorem flat_elsewhere {M : ByteMem} {q : Req} (h : ¬ q.stores D) (hal : MT.isAmo q.ty = true → 4 ∣ q.addr) :
    AgreeW D (flat M q).1 M := by
  simp only [flat]
  split
  · exact .refl _ _
  · split
    · rename_i hq
      exact writeLE_untouched fun hc => h (.inl ⟨hq, hc⟩)
    · split
      · rename_i hq
        refine writeLE_untouched fun hc => h (.inr ⟨hq, ?_⟩)
        have := hal hq
        omega
      · exact .refl _ _

theorem valAt_stable (H : Pass L Q P D nf) {m : Nat} (hm : nf ≤ m) : AgreeW D (valAt M0 L P m) (valAt M0 L P nf) := by
  induction m with
  | zero =>
    have : nf = 0 := by omega
    subst this; exact .refl _ _
  | succ m ih =>
    by_cases h : nf = m + 1
    · subst h; exact .refl _ _
    · have ih := ih (by omega)
      cases hq : (L P)[m]? with
      | none =>
        have e : (L P).take (m + 1) = (L P).take m := by rw [List.take_add_one, hq]; simp
        simp only [valAt] at ih ⊢
        rw [e]; exact ih
      | some q =>
        rw [valAt_succ hq]
        exact (flat_elsewhere (H.own m q (by omega) hq) (H.aligned P q (List.mem_of_getElem? hq))).trans ih

/-! ## The invariant -/

/-- `P`'s view of `D`. Proof device; not in the source. -/
structure OneWriter (M0 : ByteMem) (L : ι → List Req) (P : ι) (D nf : Nat) (n : Nat) (A : State ι) : Prop where
  clean : ∀ k, k ≠ P → (A.loc k).copy D ≠ .dirty
  copy : (A.loc P).copy D ≠ .none → AgreeW D (A.loc P).val (valAt M0 L P n)
  mem : (A.loc P).copy D ≠ .dirty → AgreeW D A.mem (valAt M0 L P n)
  done : nf < n → (A.loc P).copy D ≠ .dirty

theorem OneWriter.own (H : Pass L Q P D nf) {n : Nat} {pr : Option (Req × Resp)} (h : OneWriter M0 L P D nf n A)
    (he : Eff (A.loc P).copy (A.loc P).val A.mem (B.loc P).copy (B.loc P).val B.mem pr)
    (ho : ∀ k', k' ≠ P → (B.loc k').copy = (A.loc k').copy)
    (hq : ∀ q r, pr = some (q, r) → (L P)[n]? = some q) :
    OneWriter M0 L P D nf (n + (pr.map (·.2)).toList.length) B := by
  have hcl : ∀ k, k ≠ P → (B.loc k).copy D ≠ .dirty := by
    intro k hk; rw [ho k hk]; exact h.clean k hk
  obtain ⟨f, hf, hft⟩ := H.flush
  have notFlush : ∀ q, (L P)[n]? = some q → q.ty ≠ MT.FLUSH → n ≠ nf := by
    intro q h1 h2 h3
    rw [h3, hf] at h1; cases h1; exact h2 hft
  generalize hcB : (B.loc P).copy = cB at he
  generalize hvB : (B.loc P).val = vB at he
  generalize hmB : B.mem = mB at he
  refine ⟨hcl, ?_, ?_, ?_⟩ <;> rw [hcB]
  · rw [hvB]
    cases he with
    | idle => exact h.copy
    | fetch Bw hb =>
      simp only
      by_cases hD : Bw D = true
      · intro _
        refine AgreeW.trans (M' := A.mem) ?_ (h.mem (by rw [hb D hD]; simp))
        intro x hx; simp [hx, hD]
      · simp only [hD]
        intro hc
        refine AgreeW.trans ?_ (h.copy hc)
        intro x hx; simp [hx, hD]
    | drop Bw hb =>
      simp only
      split
      · intro hc; exact absurd rfl hc
      · exact h.copy
    | save Bw hb =>
      simp only
      split
      · rename_i hD; exact fun _ => h.copy (by rw [hb D hD]; simp)
      · exact h.copy
    | read q ty hc =>
      have := hq q _ rfl
      simp only [Option.map_some, Option.toList_some, List.length_cons, List.length_nil, Nat.zero_add]
      rw [valAt_succ this, show (flat (valAt M0 L P n) q).1 = _ by simp [flat, ty]; rfl]
      exact h.copy
    | write q ty hc =>
      have := hq q _ rfl
      simp only [Option.map_some, Option.toList_some, List.length_cons, List.length_nil, Nat.zero_add]
      rw [valAt_succ this, flat_write ty]
      intro hc'
      refine writeLE_agree (h.copy ?_) _ _ _
      by_cases hD : q.covers D
      · exact hc D hD
      · rw [if_neg hD] at hc'; exact hc'
    | amo q ty hc =>
      have := hq q _ rfl
      simp only [Option.map_some, Option.toList_some, List.length_cons, List.length_nil, Nat.zero_add]
      rw [valAt_succ this]
      intro hc'
      have hns : ¬ q.stores D := by
        rintro (⟨h1, _⟩ | ⟨_, h1⟩)
        · exact write_not_amo h1 ty
        · rw [h1] at hc; exact hc' hc
      exact (h.copy hc').trans (flat_elsewhere hns (H.aligned P q (List.mem_of_getElem? this))).symm
    | inv q ty =>
      have := hq q _ rfl
      simp only [Option.map_some, Option.toList_some, List.length_cons, List.length_nil, Nat.zero_add]
      rw [valAt_succ this, flat_other (by rw [ty]; decide) (by rw [ty]; decide) (by rw [ty]; decide)]
      split
      · intro hc; exact absurd rfl hc
      · exact h.copy
    | flush q ty hc =>
      have := hq q _ rfl
      simp only [Option.map_some, Option.toList_some, List.length_cons, List.length_nil, Nat.zero_add]
      rw [valAt_succ this, flat_other (by rw [ty]; decide) (by rw [ty]; decide) (by rw [ty]; decide)]
      exact h.copy
  · rw [hmB]
    cases he with
    | idle => exact h.mem
    | fetch Bw hb =>
      simp only
      by_cases hD : Bw D = true
      · exact fun _ => h.mem (by rw [hb D hD]; simp)
      · simp only [hD]; exact h.mem
    | drop Bw hb =>
      simp only
      split
      · rename_i hD; exact fun _ => h.mem (by rw [hb D hD]; simp)
      · exact h.mem
    | save Bw hb =>
      simp only
      by_cases hD : Bw D = true
      · intro _
        refine AgreeW.trans ?_ (h.copy (by rw [hb D hD]; simp))
        intro x hx; simp [hx, hD]
      · simp only [hD]
        intro hc
        refine AgreeW.trans ?_ (h.mem hc)
        intro x hx; simp [hx, hD]
    | read q ty hc =>
      have := hq q _ rfl
      simp only [Option.map_some, Option.toList_some, List.length_cons, List.length_nil, Nat.zero_add]
      rw [valAt_succ this, show (flat (valAt M0 L P n) q).1 = _ by simp [flat, ty]; rfl]
      exact h.mem
    | write q ty hc =>
      have := hq q _ rfl
      simp only [Option.map_some, Option.toList_some, List.length_cons, List.length_nil, Nat.zero_add]
      rw [valAt_succ this, flat_write ty]
      intro hc'
      by_cases hD : q.covers D
      · rw [if_pos hD] at hc'; exact absurd rfl hc'
      · rw [if_neg hD] at hc'
        exact (h.mem hc').trans (writeLE_untouched hD).symm
    | amo q ty hc =>
      have := hq q _ rfl
      simp only [Option.map_some, Option.toList_some, List.length_cons, List.length_nil, Nat.zero_add]
      rw [valAt_succ this]
      intro hc'
      have hal := H.aligned P q (List.mem_of_getElem? this)
      by_cases hD : q.addr / 4 = D
      · exact flat_congr (h.mem hc') fun _ => by have := hal ty; omega
      · have hns : ¬ q.stores D := by
          rintro (⟨h1, _⟩ | ⟨_, h1⟩)
          · exact write_not_amo h1 ty
          · exact hD h1
        exact ((flat_elsewhere hns hal).trans (h.mem hc')).trans (flat_elsewhere hns hal).symm
    | inv q ty =>
      have := hq q _ rfl
      simp only [Option.map_some, Option.toList_some, List.length_cons, List.length_nil, Nat.zero_add]
      rw [valAt_succ this, flat_other (by rw [ty]; decide) (by rw [ty]; decide) (by rw [ty]; decide)]
      split
      · rename_i hcl; exact fun _ => h.mem (by rw [hcl]; simp)
      · exact h.mem
    | flush q ty hc =>
      have := hq q _ rfl
      simp only [Option.map_some, Option.toList_some, List.length_cons, List.length_nil, Nat.zero_add]
      rw [valAt_succ this, flat_other (by rw [ty]; decide) (by rw [ty]; decide) (by rw [ty]; decide)]
      exact h.mem
  · cases he with
    | idle => exact h.done
    | fetch Bw hb =>
      simp only
      split
      · simp
      · exact h.done
    | drop Bw hb =>
      simp only
      split
      · simp
      · exact h.done
    | save Bw hb =>
      simp only
      split
      · simp
      · exact h.done
    | read q ty hc =>
      have := hq q _ rfl
      have hne := notFlush q this (by rw [ty]; decide)
      simp only [Option.map_some, Option.toList_some, List.length_cons, List.length_nil, Nat.zero_add]
      exact fun hn => h.done (by omega)
    | write q ty hc =>
      have := hq q _ rfl
      have hne := notFlush q this (by rw [ty]; decide)
      simp only [Option.map_some, Option.toList_some, List.length_cons, List.length_nil, Nat.zero_add]
      intro hn
      rw [if_neg]
      · exact h.done (by omega)
      · exact fun hD => H.own n q (by omega) this (.inl ⟨ty, hD⟩)
    | amo q ty hc =>
      have := hq q _ rfl
      have hne := notFlush q this (fun hf => flush_not_amo hf ty)
      simp only [Option.map_some, Option.toList_some, List.length_cons, List.length_nil, Nat.zero_add]
      exact fun hn => h.done (by omega)
    | inv q ty =>
      have := hq q _ rfl
      have hne := notFlush q this (by rw [ty]; decide)
      simp only [Option.map_some, Option.toList_some, List.length_cons, List.length_nil, Nat.zero_add]
      intro hn
      split
      · simp
      · exact h.done (by omega)
    | flush q ty hc => exact fun _ => hc D

theorem OneWriter.other (H : Pass L Q P D nf) {k : ι} (hk : k ≠ P) {n : Nat} {pr : Option (Req × Resp)}
    (h : OneWriter M0 L P D nf n A)
    (he : Eff (A.loc k).copy (A.loc k).val A.mem (B.loc k).copy (B.loc k).val B.mem pr)
    (ho : ∀ k', k' ≠ k → (B.loc k').copy = (A.loc k').copy ∧ (B.loc k').val = (A.loc k').val)
    (hq : ∀ q r, pr = some (q, r) → q ∈ L k) : OneWriter M0 L P D nf n B := by
  have hP := ho P (Ne.symm hk)
  have hd := h.clean k hk
  have hcopy : (B.loc k).copy D ≠ .dirty := by
    generalize (B.loc k).copy = cB at he
    generalize (B.loc k).val = vB at he
    generalize B.mem = mB at he
    cases he with
    | idle => exact hd
    | fetch Bw hb => simp only; split; simp; exact hd
    | drop Bw hb => simp only; split; simp; exact hd
    | save Bw hb => simp only; split; simp; exact hd
    | read q ty hc => exact hd
    | write q ty hc =>
      simp only
      rw [if_neg fun hD => H.others k hk q (hq q _ rfl) (.inl ⟨ty, hD⟩)]
      exact hd
    | amo q ty hc => exact hd
    | inv q ty => simp only; split; simp; exact hd
    | flush q ty hc => exact hd
  have hmem : AgreeW D B.mem A.mem := by
    generalize (B.loc k).copy = cB at he
    generalize (B.loc k).val = vB at he
    generalize B.mem = mB at he
    cases he with
    | save Bw hb =>
      intro x hx
      simp only; rw [hx, if_neg]
      exact fun hD => hd (hb D hD)
    | amo q ty hc =>
      exact flat_elsewhere (H.others k hk q (hq q _ rfl)) (H.aligned k q (hq q _ rfl))
    | _ => exact .refl _ _
  refine ⟨?_, by rw [hP.1, hP.2]; exact h.copy, ?_, by rw [hP.1]; exact h.done⟩
  · intro k' hk'
    by_cases e : k' = k
    · subst e; exact hcopy
    · rw [(ho k' e).1]; exact h.clean k' hk'
  · rw [hP.1]; exact fun hc => hmem.trans (h.mem hc)

/-- All bytes in the system may be found with the requests `Q`. Proof device; not in the source. -/
structure AllCould (M0 : ByteMem) (Q : List Req) (A : State ι) : Prop where
  mem : ∀ x, Could M0 Q x (A.mem x)
  val : ∀ k x, (A.loc k).copy (x / 4) ≠ .none → Could M0 Q x ((A.loc k).val x)

theorem AllCould.step {k : ι} {pr : Option (Req × Resp)} (h : AllCould M0 Q A)
    (he : Eff (A.loc k).copy (A.loc k).val A.mem (B.loc k).copy (B.loc k).val B.mem pr)
    (ho : ∀ k', k' ≠ k → (B.loc k').copy = (A.loc k').copy ∧ (B.loc k').val = (A.loc k').val)
    (hq : ∀ q r, pr = some (q, r) → q ∈ Q) : AllCould M0 Q B := by
  have hmem : ∀ x, Could M0 Q x (B.mem x) := by
    generalize (B.loc k).copy = cB at he
    generalize (B.loc k).val = vB at he
    generalize B.mem = mB at he
    cases he with
    | save Bw hb =>
      intro x; simp only
      split
      · rename_i hx; exact h.val k x (by rw [hb _ hx]; simp)
      · exact h.mem x
    | amo q ty hc =>
      intro x
      rw [flat_amo ty]
      by_cases hr : q.addr ≤ x ∧ x < q.addr + 4
      · exact .amo q x (hq q _ rfl) ty hr.1 hr.2 A.mem fun y _ _ => h.mem y
      · simp only [writeLE]; rw [if_neg hr]; exact h.mem x
    | _ => exact h.mem
  have hval : ∀ x, (B.loc k).copy (x / 4) ≠ .none → Could M0 Q x ((B.loc k).val x) := by
    generalize (B.loc k).copy = cB at he
    generalize (B.loc k).val = vB at he
    generalize B.mem = mB at he
    intro x
    cases he with
    | idle => exact h.val k x
    | fetch Bw hb =>
      simp only
      split
      · exact fun _ => h.mem x
      · exact h.val k x
    | drop Bw hb =>
      simp only
      split
      · intro hc; exact absurd rfl hc
      · exact h.val k x
    | save Bw hb =>
      simp only
      split
      · rename_i hx; exact fun _ => h.val k x (by rw [hb _ hx]; simp)
      · exact h.val k x
    | read q ty hc => exact h.val k x
    | write q ty hc =>
      intro hx
      simp only [writeLE] at hx ⊢
      split
      · rename_i hr; exact .write q x (hq q _ rfl) ty hr.1 hr.2
      · by_cases hcw : q.covers (x / 4)
        · exact h.val k x (hc _ hcw)
        · rw [if_neg hcw] at hx; exact h.val k x hx
    | amo q ty hc => exact h.val k x
    | inv q ty =>
      simp only
      split
      · intro hc; exact absurd rfl hc
      · exact h.val k x
    | flush q ty hc => exact h.val k x
  refine ⟨hmem, fun k' => ?_⟩
  by_cases e : k' = k
  · subst e; exact hval
  · rw [(ho k' e).1, (ho k' e).2]; exact h.val k'

/-- What the consumer `C` has seen: unless its request number `i` returned a byte that was possible without the
flush, `P` has flushed and `C` sees the new word after its request number `j`. Proof device; not in the source. -/
def Seen (M0 : ByteMem) (Q : List Req) (D nf i j l a : Nat) (v : ByteMem) (qd : Req) (x : Nat) (nP : Nat) (R : List Resp)
    (c : Nat → Copy) (val : ByteMem) : Prop :=
  i < R.length →
    (∀ r, R[i]? = some r → Could M0 Q x (BitVec.ofNat 8 (r.data / 256 ^ (x - a)))) ∨
    (nf < nP ∧ (j < R.length → c D ≠ .none → AgreeW D val v) ∧
      ∀ r, R[l]? = some r → ∀ y, y / 4 = D → qd.addr ≤ y → y < qd.addr + qd.bytes →
        r.data / 256 ^ (y - qd.addr) % 256 = (v y).toNat)

theorem Seen.step (H : Pass L Q P D nf) {i j l x : Nat} {qf qi qd : Req} (hij : i < j) (hjl : j < l)
    (hqf : (L C)[i]? = some qf)
    (hf : ((qf.ty = MT.READ ∧ x < qf.addr + qf.bytes) ∨ (MT.isAmo qf.ty = true ∧ x < qf.addr + 4)) ∧ qf.addr ≤ x)
    (hqi : (L C)[j]? = some qi) (hi : qi.ty = MT.INV) (hqd : (L C)[l]? = some qd) (hd : qd.ty = MT.READ) (hC : C ≠ P)
    {R : List Resp} {nP : Nat} {pr : Option (Req × Resp)}
    (h : Seen M0 Q D nf i j l qf.addr (valAt M0 L P nf) qd x nP R (A.loc C).copy (A.loc C).val)
    (how : OneWriter M0 L P D nf nP A) (hair : nP ≤ nf → AllCould M0 Q A)
    (he : Eff (A.loc C).copy (A.loc C).val A.mem (B.loc C).copy (B.loc C).val B.mem pr)
    (hq : ∀ q r, pr = some (q, r) → (L C)[R.length]? = some q) :
    Seen M0 Q D nf i j l qf.addr (valAt M0 L P nf) qd x nP (R ++ (pr.map (·.2)).toList) (B.loc C).copy (B.loc C).val := by
  -- with the flush performed, memory holds the new word
  have hnew : nf < nP → AgreeW D A.mem (valAt M0 L P nf) := fun hn =>
    (how.mem (how.done hn)).trans (valAt_stable H (by omega))
  cases pr with
  | none =>
    simp only [Option.map_none, Option.toList_none, List.append_nil]
    intro hR
    rcases h hR with h1 | ⟨h1, h2, h3⟩
    · exact .inl h1
    · refine .inr ⟨h1, fun hj => ?_, h3⟩
      have h2 := h2 hj
      generalize (B.loc C).copy = cB at he
      generalize (B.loc C).val = vB at he
      generalize B.mem = mB at he
      cases he with
      | idle => exact h2
      | fetch Bw hb =>
        simp only
        by_cases hD : Bw D = true
        · intro _
          refine AgreeW.trans (M' := A.mem) ?_ (hnew h1)
          intro y hy; simp [hy, hD]
        · simp only [hD]
          intro hc
          refine AgreeW.trans ?_ (h2 hc)
          intro y hy; simp [hy, hD]
      | drop Bw hb =>
        simp only
        split
        · intro hc; exact absurd rfl hc
        · exact h2
      | save Bw hb =>
        simp only
        split
        · rename_i hD; exact fun _ => h2 (by rw [hb D hD]; simp)
        · exact h2
  | some qr =>
    obtain ⟨q, r⟩ := qr
    have hq := hq q r rfl
    simp only [Option.map_some, Option.toList_some]
    intro hR
    rw [List.length_append, List.length_singleton] at hR
    by_cases hRi : R.length = i
    · -- the flag is read
      rw [hRi, hqf] at hq
      cases hq
      by_cases hn : nP ≤ nf
      · left
        intro r' hr'
        have : r' = r := by
          rw [List.getElem?_append_right (by omega), hRi, Nat.sub_self] at hr'
          simpa using hr'.symm
        subst this
        have ha := hair hn
        generalize (B.loc C).copy = cB at he
        generalize (B.loc C).val = vB at he
        generalize B.mem = mB at he
        cases he with
        | read _ ty hc =>
          rcases hf with ⟨⟨_, h1⟩ | ⟨h1, _⟩, h2⟩
          · exact could_read (fun y h3 h4 => ha.val C y (hc _ (reads_covers h3 h4))) x h2 h1
          · exact absurd h1 (read_not_amo ty)
        | amo _ ty hc =>
          rcases hf with ⟨⟨h1, _⟩ | ⟨_, h1⟩, h2⟩
          · exact absurd ty (read_not_amo h1)
          · exact could_read (fun y _ _ => ha.mem y) x h2 h1
        | write _ ty hc =>
          rcases hf with ⟨⟨h1, _⟩ | ⟨h1, _⟩, _⟩
          · rw [ty] at h1; cases h1
          · exact absurd h1 (write_not_amo ty)
        | inv _ ty =>
          rcases hf with ⟨⟨h1, _⟩ | ⟨h1, _⟩, _⟩
          · rw [ty] at h1; cases h1
          · exact absurd h1 (inv_not_amo ty)
        | flush _ ty hc =>
          rcases hf with ⟨⟨h1, _⟩ | ⟨h1, _⟩, _⟩
          · rw [ty] at h1; cases h1
          · exact absurd h1 (flush_not_amo ty)
      · refine .inr ⟨by omega, fun hj => ?_, fun r' hr' => ?_⟩
        · rw [List.length_append, List.length_singleton] at hj; omega
        · have := (List.getElem?_eq_some_iff.1 hr').1
          rw [List.length_append, List.length_singleton] at this; omega
    · have hlt : i < R.length := by omega
      rcases h hlt with h1 | ⟨h1, h2, h3⟩
      · left
        intro r' hr'
        rw [List.getElem?_append_left hlt] at hr'
        exact h1 r' hr'
      · refine .inr ⟨h1, fun hj => ?_, fun r' hr' => ?_⟩
        · rw [List.length_append, List.length_singleton] at hj
          by_cases hRj : R.length = j
          · -- INV
            rw [hRj, hqi] at hq
            cases hq
            have hnd := how.clean C hC
            generalize (B.loc C).copy = cB at he
            generalize (B.loc C).val = vB at he
            generalize B.mem = mB at he
            cases he with
            | inv _ ty =>
              intro hc
              simp only at hc
              cases hcc : (A.loc C).copy D <;> simp [hcc] at hc hnd
            | read _ ty hc => rw [hi] at ty; cases ty
            | write _ ty hc => rw [hi] at ty; cases ty
            | amo _ ty hc => exact absurd ty (inv_not_amo hi)
            | flush _ ty hc => rw [hi] at ty; cases ty
          · have h2 := h2 (by omega)
            have hmem := List.mem_of_getElem? hq
            generalize (B.loc C).copy = cB at he
            generalize (B.loc C).val = vB at he
            generalize B.mem = mB at he
            cases he with
            | read _ ty hc => exact h2
            | write _ ty hc =>
              have hD : ¬ q.covers D := fun hD => H.others C hC q hmem (.inl ⟨ty, hD⟩)
              simp only [if_neg hD]
              exact fun hc => (writeLE_untouched hD).trans (h2 hc)
            | amo _ ty hc => exact h2
            | inv _ ty =>
              simp only
              split
              · intro hc; exact absurd rfl hc
              · exact h2
            | flush _ ty hc => exact h2
        · by_cases hRl : R.length = l
          · -- the data is read
            rw [hRl, hqd] at hq
            cases hq
            have : r' = r := by
              rw [List.getElem?_append_right (by omega), hRl, Nat.sub_self] at hr'
              simpa using hr'.symm
            subst this
            have h2 := h2 (by omega)
            intro y hy h4 h5
            generalize (B.loc C).copy = cB at he
            generalize (B.loc C).val = vB at he
            generalize B.mem = mB at he
            cases he with
            | read _ ty hc =>
              have hcov := reads_covers h4 h5
              rw [hy] at hcov
              rw [readLE_byte _ _ _ _ (by omega), show qd.addr + (y - qd.addr) = y by omega, h2 (hc D hcov) y hy]
            | write _ ty hc => rw [hd] at ty; cases ty
            | amo _ ty hc => exact absurd ty (read_not_amo hd)
            | inv _ ty => rw [hd] at ty; cases ty
            | flush _ ty hc => rw [hd] at ty; cases ty
          · refine h3 r' ?_
            have := (List.getElem?_eq_some_iff.1 hr').1
            rw [List.length_append, List.length_singleton] at this
            rw [List.getElem?_append_left (by omega)] at hr'
            exact hr'

/-- Accepted requests of a prefix of a history. -/
theorem accepted_prefix {k : ι} {a b : List (Ev ι)} {n : Nat} {q : Req} (h : (accepted k a)[n]? = some q) :
    (accepted k (a ++ b))[n]? = some q := by
  rw [accepted_append, List.getElem?_append_left (List.getElem?_eq_some_iff.1 h).1]; exact h

theorem pass_run (H : Pass L Q P D nf) {i j l x : Nat} {qf qi qd : Req} (hij : i < j) (hjl : j < l)
    (hqf : (L C)[i]? = some qf)
    (hf : ((qf.ty = MT.READ ∧ x < qf.addr + qf.bytes) ∨ (MT.isAmo qf.ty = true ∧ x < qf.addr + 4)) ∧ qf.addr ≤ x)
    (hqi : (L C)[j]? = some qi) (hi : qi.ty = MT.INV) (hqd : (L C)[l]? = some qd) (hd : qd.ty = MT.READ) (hC : C ≠ P)
    (h : Run (WM.init ι M0) tr A) (hL : ∀ (k : ι) (n : Nat) (q : Req), (accepted k tr)[n]? = some q → (L k)[n]? = some q) :
    OneWriter M0 L P D nf (outs P tr A).length A ∧ ((outs P tr A).length ≤ nf → AllCould M0 Q A) ∧
    Seen M0 Q D nf i j l qf.addr (valAt M0 L P nf) qd x (outs P tr A).length (outs C tr A) (A.loc C).copy (A.loc C).val := by
  induction h with
  | refl =>
    refine ⟨⟨fun k _ => by simp [init], fun hc => absurd rfl hc, fun _ => ?_, fun _ => by simp [init]⟩,
      fun _ => ⟨fun x => .init x, fun k x hc => absurd rfl hc⟩, ?_⟩
    · simp only [outs, responses, init, List.filterMap_nil, List.append_nil, List.length_nil, valAt, List.take_zero]
      exact .refl _ _
    · intro hR; simp [outs, responses, init] at hR
  | @snoc A1 A2 l' ev h hs ih =>
    obtain ⟨ih1, ih2, ih3⟩ := ih fun k n q hq => hL k n q (accepted_prefix hq)
    obtain ⟨k, pr, he⟩ := step_eff (fun k => count_run h k) hs
    have hnext : ∀ q r, pr = some (q, r) → (L k)[(outs k l' A1).length]? = some q := fun q r hp =>
      hL k _ q (accepted_prefix (he.next q r hp))
    by_cases hkP : k = P
    · subst hkP
      have hoP := he.outs k
      rw [if_pos rfl] at hoP
      have hlen : (outs k (l' ++ ev) A2).length = (outs k l' A1).length + (pr.map (·.2)).toList.length := by
        rw [hoP, List.length_append]
      have hoC := he.outs C
      rw [if_neg hC, List.append_nil] at hoC
      obtain ⟨c1, c2⟩ := he.others C hC
      refine ⟨?_, fun hn => ?_, ?_⟩
      · rw [hlen]
        exact ih1.own H he.eff (fun k' hk' => (he.others k' hk').1) hnext
      · refine (ih2 (by omega)).step he.eff he.others fun q r hp => ?_
        subst hp
        simp only [Option.map_some, Option.toList_some, List.length_singleton] at hlen
        exact H.airP _ q (by omega) (hnext q r rfl)
      · rw [hoC, c1, c2]
        intro hR
        rcases ih3 hR with h1 | ⟨h1, h2⟩
        · exact .inl h1
        · exact .inr ⟨by omega, h2⟩
    · have hoP := he.outs P
      rw [if_neg (Ne.symm hkP), List.append_nil] at hoP
      rw [hoP]
      refine ⟨ih1.other H hkP he.eff he.others fun q r hp => List.mem_of_getElem? (hnext q r hp),
        fun hn => (ih2 hn).step he.eff he.others fun q r hp => H.air k hkP q (List.mem_of_getElem? (hnext q r hp)), ?_⟩
      by_cases hkC : k = C
      · subst hkC
        have hoC := he.outs k
        rw [if_pos rfl] at hoC
        rw [hoC]
        exact ih3.step H hij hjl hqf hf hqi hi hqd hd hC ih1 ih2 he.eff hnext
      · have hoC := he.outs C
        rw [if_neg (Ne.symm hkC), List.append_nil] at hoC
        obtain ⟨c1, c2⟩ := he.others C (Ne.symm hkC)
        rw [hoC, c1, c2]
        exact ih3

theorem others_mem {P k : ι} {tr : List (Ev ι)} (hk : k ≠ P) {q : Req} (h : q ∈ accepted k tr) : q ∈ othersRequests P tr := by
  simp only [accepted, othersRequests, List.mem_filterMap] at h ⊢
  obtain ⟨e, h1, h2⟩ := h
  refine ⟨e, h1, ?_⟩
  cases e with
  | acc k' q' =>
    simp only at h2 ⊢
    split at h2
    · rename_i hk'; subst hk'; rw [if_neg hk]; exact h2
    · cases h2
  | resp k' r => cases h2

end Verif.WM

namespace Verif
variable {ι : Type} [DecidableEq ι] {p : ι → Params}

/-- **C81.**  Message passing with a polled flag.  Processor `P` stores to word `D`, then gives its cache a FLUSH
(it need not wait for the response), and stores nothing to `D` afterwards; nobody else stores to `D`.  Processor `C`
reads a byte `x`, with a READ or an atomic operation, and finds a value there that nobody could have put there without
the requests `P` made after the FLUSH.  (For example `P` raises a flag in byte `x`; `C` polls it.)  Then after an INV
the READs of `C` return what `P` stored to `D`.  The requests of `C` need not wait for each other's responses either,
and nothing else is assumed about the program. -/
theorem C81_message_passing (wf : ∀ k, (p k).WF) {H H' : HSys ι p} {tr : List (HEv ι p)} (h0 : HStart H)
    (h : HetRun H tr H') (hv : HValid tr) {P C : ι} (hPC : C ≠ P) {D : Nat}
    {a b : List (WM.Ev ι)} {f : WM.Req} (hab : visible tr = a ++ .acc P f :: b) (hf : f.ty = MT.FLUSH)
    (hD : ∀ k, k ≠ P → ∀ q ∈ WM.accepted k (visible tr), ¬ q.stores D)
    (hP : ∀ q ∈ WM.accepted P b, ¬ q.stores D)
    {i j l : Nat} (hij : i < j) (hjl : j < l)
    {qf qi qd : WM.Req} {rf rd : WM.Resp} {x : Nat} {β : BitVec 8}
    (hqf : (WM.accepted C (visible tr))[i]? = some qf) (hrf : (WM.responses C (visible tr))[i]? = some rf)
    (hshow : WM.Shows qf rf x β)
    (hnew : ¬ WM.Could H.mem (WM.requests a ++ WM.othersRequests P b) x β)
    (hqi : (WM.accepted C (visible tr))[j]? = some qi) (hi : qi.ty = MT.INV)
    (hqd : (WM.accepted C (visible tr))[l]? = some qd) (hd : qd.ty = MT.READ)
    (hrd : (WM.responses C (visible tr))[l]? = some rd) :
    ∀ y, y / 4 = D → qd.addr ≤ y → y < qd.addr + qd.bytes →
      rd.data / 256 ^ (y - qd.addr) % 256 = (WM.perform H.mem (WM.accepted P a) y).toNat := by
  obtain ⟨A, h1, _⟩ := C64_memory_model wf h0 h hv
  have hal := visible_aligned hv
  have hfs : ¬ f.stores D := by
    rintro (⟨h1, _⟩ | ⟨h1, _⟩)
    · rw [hf] at h1; cases h1
    · exact WM.flush_not_amo hf h1
  have eP : WM.accepted P (visible tr) = WM.accepted P a ++ f :: WM.accepted P b := by
    rw [hab, WM.accepted_append]
    simp [WM.accepted]
  have hpass : WM.Pass (fun k => WM.accepted k (visible tr)) (f :: (WM.requests a ++ WM.othersRequests P b)) P D
      (WM.accepted P a).length := by
    refine ⟨hD, ?_, ⟨f, ?_, hf⟩, ?_, ?_, hal⟩
    · intro m q hm hq
      rw [eP, List.getElem?_append_right hm] at hq
      cases hc : m - (WM.accepted P a).length with
      | zero => rw [hc] at hq; simp at hq; rw [← hq]; exact hfs
      | succ n => rw [hc, List.getElem?_cons_succ] at hq; exact hP q (List.mem_of_getElem? hq)
    · rw [eP]; simp
    · intro k hk q hq
      rw [hab, WM.accepted_append] at hq
      rcases List.mem_append.1 hq with hq | hq
      · simp [WM.accepted_requests hq]
      · rw [WM.accepted_acc_other (Ne.symm hk)] at hq
        simp [WM.others_mem hk hq]
    · intro m q hm hq
      rw [eP] at hq
      by_cases hm' : m < (WM.accepted P a).length
      · rw [List.getElem?_append_left hm'] at hq
        simp [WM.accepted_requests (List.mem_of_getElem? hq)]
      · have : m = (WM.accepted P a).length := by omega
        rw [this, List.getElem?_append_right (Nat.le_refl _), Nat.sub_self] at hq
        simp at hq; simp [hq]
  -- the FLUSH adds no bytes
  have hnew' : ¬ WM.Could H.mem (f :: (WM.requests a ++ WM.othersRequests P b)) x β := by
    intro hc
    refine hnew ?_
    clear hnew hshow
    induction hc with
    | init x => exact .init x
    | write q x hq ht h1 h2 =>
      refine .write q x ?_ ht h1 h2
      rcases List.mem_cons.1 hq with rfl | hq
      · rw [hf] at ht; cases ht
      · exact hq
    | amo q x hq ht h1 h2 N _ ih =>
      refine .amo q x ?_ ht h1 h2 N ih
      rcases List.mem_cons.1 hq with rfl | hq
      · exact absurd ht (WM.flush_not_amo hf)
      · exact hq
  obtain ⟨hs1, hs2, hs3⟩ := hshow
  have hrun := (WM.pass_run hpass hij hjl hqf ⟨hs1, hs2⟩ hqi hi hqd hd hPC h1 fun _ _ _ hq => hq).2.2
  have hR : ∀ (n : Nat) (r : WM.Resp), (WM.responses C (visible tr))[n]? = some r → (WM.outs C (visible tr) A)[n]? = some r := by
    intro n r hr
    rw [WM.outs, List.getElem?_append_left (List.getElem?_eq_some_iff.1 hr).1]; exact hr
  have hrf' := hR i rf hrf
  rcases hrun (List.getElem?_eq_some_iff.1 hrf').1 with hc | ⟨_, _, hc⟩
  · exact absurd (hs3 ▸ hc rf hrf') hnew'
  · intro y hy h4 h5
    rw [hc rd (hR l rd hrd) y hy h4 h5]
    simp only [WM.valAt]
    rw [eP, List.take_left]

end Verif
