import Verif.SpecAir
import Verif.PropsLin
import Verif.PropsShared
import Verif.ExCoh

/-!
# C79: no byte out of thin air
-/

set_option linter.unusedSectionVars false

namespace Verif.WM
variable {ι : Type} [DecidableEq ι] {M0 : ByteMem} {tr : List (Ev ι)} {A B : State ι}

theorem Could.mono {M : ByteMem} {Q Q' : List Req} (h : ∀ q ∈ Q, q ∈ Q') {x : Nat} {b : BitVec 8} (hc : Could M Q x b) :
    Could M Q' x b := by
  induction hc with
  | init x => exact .init x
  | write q x hq ht h1 h2 => exact .write q x (h q hq) ht h1 h2
  | amo q x hq ht h1 h2 N _ ih => exact .amo q x (h q hq) ht h1 h2 N ih

theorem Plausible.mono {M : ByteMem} {Q Q' : List Req} (h : ∀ q ∈ Q, q ∈ Q') {q : Req} {r : Resp}
    (hp : Plausible M Q q r) : Plausible M Q' q r := by
  simp only [Plausible] at hp ⊢
  split
  · rename_i ht
    rw [if_pos ht] at hp
    exact fun x h1 h2 => (hp x h1 h2).mono h
  · rename_i ht
    rw [if_neg ht] at hp
    split
    · rename_i ha
      rw [if_pos ha] at hp
      exact fun x h1 h2 => (hp x h1 h2).mono h
    · rename_i ha
      rw [if_neg ha] at hp
      exact hp

/-- Bytes of what was read. -/
theorem could_read {M v : ByteMem} {Q : List Req} {a n : Nat} (h : ∀ x, a ≤ x → x < a + n → Could M Q x (v x)) :
    ∀ x, a ≤ x → x < a + n → Could M Q x (BitVec.ofNat 8 (readLE v a n / 256 ^ (x - a))) := by
  intro x h1 h2
  have e := readLE_byte v a n (x - a) (by omega)
  rw [show a + (x - a) = x by omega] at e
  have : BitVec.ofNat 8 (readLE v a n / 256 ^ (x - a)) = v x := by
    apply BitVec.eq_of_toNat_eq
    rw [BitVec.toNat_ofNat]; exact e
  rw [this]; exact h x h1 h2

theorem zip_extra {α β : Type} {qs : List α} {rs : List β} (h : qs.length = rs.length) (l : List α) :
    (qs ++ l).zip rs = qs.zip rs := by
  have := List.zip_append (l₁ := qs) (r₁ := l) (l₂ := rs) (r₂ := []) h
  rw [List.append_nil, List.zip_nil_right, List.append_nil] at this
  exact this

theorem zip_more {α β : Type} {y : α × β} {qs : List α} {rs : List β} (l : List β) (h : y ∈ qs.zip rs) :
    y ∈ qs.zip (rs ++ l) := by
  induction qs generalizing rs with
  | nil => simp at h
  | cons q qs ih => cases rs with
    | nil => simp at h
    | cons r rs =>
      simp only [List.cons_append, List.zip_cons_cons, List.mem_cons] at h ⊢
      exact h.imp id (ih (rs := rs))

/-- Proof device; not in the source. -/
structure AirInv (M0 : ByteMem) (tr : List (Ev ι)) (A : State ι) : Prop where
  mem : ∀ x, Could M0 (requests tr) x (A.mem x)
  val : ∀ k x, (A.loc k).copy (x / 4) ≠ .none → Could M0 (requests tr) x ((A.loc k).val x)
  hist : ∀ k, ∀ y ∈ (accepted k tr).zip (responses k tr ++ (A.loc k).done), Plausible M0 (requests tr) y.1 y.2

theorem accepted_requests {k : ι} {q : Req} (h : q ∈ accepted k tr) : q ∈ requests tr := by
  simp only [accepted, requests, List.mem_filterMap] at h ⊢
  obtain ⟨e, h1, h2⟩ := h
  refine ⟨e, h1, ?_⟩
  cases e with
  | acc k' q' =>
    simp only at h2 ⊢
    split at h2
    · exact h2
    · cases h2
  | resp k' r => cases h2

theorem requests_append (a b : List (Ev ι)) : requests (a ++ b) = requests a ++ requests b := by
  simp [requests]

/-- A step that leaves the history alone. -/
theorem AirInv.quiet (h : AirInv M0 tr A) {k : ι} {a : Loc} {M : ByteMem} (hm : ∀ x, Could M0 (requests tr) x (M x))
    (hv : ∀ x, a.copy (x / 4) ≠ .none → Could M0 (requests tr) x (a.val x)) (hd : a.done = (A.loc k).done) :
    AirInv M0 tr (⟨fun k' => if k' = k then a else A.loc k', M⟩ : State ι) := by
  refine ⟨hm, fun k' => ?_, fun k' => ?_⟩
  · dsimp only
    split
    · exact hv
    · exact h.val k'
  · dsimp only
    split
    · rename_i hk; subst hk; rw [hd]; exact h.hist k'
    · exact h.hist k'

/-- A request is completed. -/
theorem AirInv.perform (h : AirInv M0 tr A) {k : ι} {a : Loc} {M : ByteMem} {q : Req} {r : Resp}
    (hc : Count k tr (A.loc k)) (hp : (A.loc k).pend = some q) (hm : ∀ x, Could M0 (requests tr) x (M x))
    (hv : ∀ x, a.copy (x / 4) ≠ .none → Could M0 (requests tr) x (a.val x)) (hd : a.done = (A.loc k).done ++ [r])
    (hr : Plausible M0 (requests tr) q r) :
    AirInv M0 tr (⟨fun k' => if k' = k then a else A.loc k', M⟩ : State ι) := by
  refine ⟨hm, fun k' => ?_, fun k' => ?_⟩
  · dsimp only
    split
    · exact hv
    · exact h.val k'
  · dsimp only
    split
    · rename_i hk; subst hk
      obtain ⟨perf, c1, c2⟩ := hc
      rw [hp, Option.toList_some] at c1
      have hlen : perf.length = (responses k' tr ++ (A.loc k').done).length := by rw [List.length_append]; omega
      have hh := h.hist k'
      rw [c1, zip_extra hlen] at hh
      rw [hd, ← List.append_assoc, c1, List.zip_append hlen]
      intro y hy
      rcases List.mem_append.1 hy with hy | hy
      · exact hh y hy
      · simp only [List.zip_cons_cons, List.zip_nil_right, List.mem_singleton] at hy
        subst hy; exact hr
    · exact h.hist k'

theorem plausible_zero {M : ByteMem} {Q : List Req} {q : Req} {r : Resp} (h1 : q.ty ≠ MT.READ)
    (h2 : MT.isAmo q.ty ≠ true) (h3 : r.data = 0) : Plausible M Q q r := by
  simp only [Plausible, if_neg h1, if_neg h2]; exact h3

theorem AirInv.step {ev : List (Ev ι)} (hc : ∀ k, Count k tr (A.loc k)) (h : AirInv M0 tr A) (hs : Step A ev B) :
    AirInv M0 (tr ++ ev) B := by
  have hpa : ∀ k q, (A.loc k).pend = some q → q ∈ requests tr := by
    intro k q hq
    obtain ⟨perf, c1, _⟩ := hc k
    refine accepted_requests (k := k) ?_
    rw [c1, hq]; simp
  have hmono : ∀ q ∈ requests tr, q ∈ requests (tr ++ ev) := by
    intro q hq; rw [requests_append]; exact List.mem_append.2 (.inl hq)
  cases hs with
  | mk k e a M hl =>
    cases hl with
    | accept q hp =>
      refine ⟨fun x => (h.mem x).mono hmono, fun k' x => ?_, fun k' => ?_⟩
      · dsimp only
        split
        · exact fun hx => (h.val k x hx).mono hmono
        · exact fun hx => (h.val k' x hx).mono hmono
      · have e : ∀ y ∈ (accepted k' (tr ++ List.map (LEv.at k) [LEv.acc q])).zip (responses k' (tr ++ List.map (LEv.at k) [LEv.acc q]) ++
            (A.loc k').done), Plausible M0 (requests (tr ++ List.map (LEv.at k) [LEv.acc q])) y.1 y.2 := by
          intro y hy
          refine (h.hist k' y ?_).mono hmono
          by_cases hk : k' = k
          · subst hk
            obtain ⟨perf, c1, c2⟩ := hc k'
            have hl := congrArg List.length c1
            rw [hp] at hl
            simp only [Option.toList_none, List.append_nil] at hl
            simp only [accepted_append, responses_append, List.map_cons, List.map_nil, LEv.at, responses_acc,
              responses_nil, List.append_nil] at hy
            have hl2 : (accepted k' tr).length = (responses k' tr ++ (A.loc k').done).length := by
              rw [List.length_append]; omega
            rw [zip_extra hl2] at hy
            exact hy
          · simpa [LEv.at, accepted_acc_other (Ne.symm hk)] using hy
        dsimp only
        split
        · rename_i hk; subst hk; exact e
        · exact e
    | deliver r l hdn =>
      refine ⟨fun x => (h.mem x).mono hmono, fun k' x => ?_, fun k' => ?_⟩
      · dsimp only
        split
        · exact fun hx => (h.val k x hx).mono hmono
        · exact fun hx => (h.val k' x hx).mono hmono
      · intro y hy
        refine (h.hist k' y ?_).mono hmono
        by_cases hk : k' = k
        · subst hk
          simpa [LEv.at, hdn] using hy
        · simpa [LEv.at, if_neg hk, responses_resp_other (Ne.symm hk)] using hy
    | fetch q Bw hp hq hBw =>
      simp only [List.map_nil, List.append_nil]
      refine h.quiet (k := k) h.mem (fun x hx => ?_) rfl
      simp only at hx ⊢
      split
      · exact h.mem x
      · rename_i hb
        rw [if_neg hb] at hx
        exact h.val k x hx
    | drop q Bw hp hq hBw =>
      simp only [List.map_nil, List.append_nil]
      refine h.quiet (k := k) h.mem (fun x hx => ?_) rfl
      simp only at hx ⊢
      split at hx
      · exact absurd rfl hx
      · exact h.val k x hx
    | save q Bw hp hq hBw =>
      simp only [List.map_nil, List.append_nil]
      refine h.quiet (k := k) (fun x => ?_) (fun x hx => ?_) rfl
      · split
        · rename_i hb; exact h.val k x (by rw [hBw _ hb]; simp)
        · exact h.mem x
      · simp only at hx ⊢
        split at hx
        · rename_i hb; exact h.val k x (by rw [hBw _ hb]; simp)
        · exact h.val k x hx
    | read q hp hq hcv =>
      simp only [List.map_nil, List.append_nil]
      refine h.perform (k := k) (hc k) hp h.mem (h.val k) rfl ?_
      simp only [Plausible, if_pos hq]
      refine could_read fun x h1 h2 => h.val k x (hcv _ ?_)
      constructor <;> omega
    | write q hp hq hcv =>
      simp only [List.map_nil, List.append_nil]
      refine h.perform (k := k) (hc k) hp h.mem (fun x hx => ?_) rfl
        (plausible_zero (by rw [hq]; decide) (write_not_amo hq) rfl)
      simp only [Loc.reply, writeLE] at hx ⊢
      split
      · rename_i hr
        exact .write q x (hpa k q hp) hq hr.1 hr.2
      · by_cases hcw : q.covers (x / 4)
        · exact h.val k x (hcv _ hcw)
        · rw [if_neg hcw] at hx
          exact h.val k x hx
    | amo q hp hq hcv =>
      simp only [List.map_nil, List.append_nil]
      refine h.perform (k := k) (hc k) hp (fun x => ?_) (h.val k) rfl ?_
      · by_cases hr : q.addr ≤ x ∧ x < q.addr + 4
        · exact .amo q x (hpa k q hp) hq hr.1 hr.2 A.mem fun y _ _ => h.mem y
        · simp only [writeLE]; rw [if_neg hr]; exact h.mem x
      · have : q.ty ≠ MT.READ := fun hh => read_not_amo hh hq
        simp only [Plausible, if_neg this, if_pos hq]
        exact could_read fun x _ _ => h.mem x
    | inv q hp hq =>
      simp only [List.map_nil, List.append_nil]
      refine h.perform (k := k) (hc k) hp h.mem (fun x hx => ?_) rfl
        (plausible_zero (by rw [hq]; decide) (inv_not_amo hq) rfl)
      simp only [Loc.reply] at hx ⊢
      split at hx
      · exact absurd rfl hx
      · exact h.val k x hx
    | flush q hp hq hcv =>
      simp only [List.map_nil, List.append_nil]
      exact h.perform (k := k) (hc k) hp h.mem (h.val k) rfl
        (plausible_zero (by rw [hq]; decide) (flush_not_amo hq) rfl)

theorem AirInv.run (h : Run (WM.init ι M0) tr A) : AirInv M0 tr A := by
  induction h with
  | refl => exact ⟨fun x => .init x, fun k x hx => absurd rfl hx, fun k y hy => by simp [accepted] at hy⟩
  | snoc h hs ih => exact ih.step (fun k => count_run h k) hs

end Verif.WM

namespace Verif
variable {ι : Type} [DecidableEq ι] {p : ι → Params}

/-- **C79.**  Caches of any shapes on one memory and any program, however racy, with writes
of any supported size: every byte a processor is given, and every byte in memory, was in
memory at its address in the beginning, or was stored there by a WRITE accepted before, or
left there by an atomic operation on such bytes.  Nothing comes from power-up contents of
the SRAMs, from another address or from nowhere. -/
theorem C79_no_thin_air (wf : ∀ k, (p k).WF) {H H' : HSys ι p} {tr : List (HEv ι p)} (h0 : HStart H)
    (h : HetRun H tr H') (hv : HValid tr) :
    (∀ k, ∀ y ∈ (WM.accepted k (visible tr)).zip (WM.responses k (visible tr)),
      WM.Plausible H.mem (WM.requests (visible tr)) y.1 y.2) ∧
    ∀ x, WM.Could H.mem (WM.requests (visible tr)) x (H'.mem x) := by
  obtain ⟨A, h1, h2⟩ := C64_memory_model wf h0 h hv
  have hi := WM.AirInv.run h1
  exact ⟨fun k y hy => hi.hist k y (WM.zip_more _ hy), by rw [← h2]; exact hi.mem⟩

/-- The racy execution of `ExCoh.lean` meets the hypotheses: the word the atomic operation
returns is one byte of a WRITE and three bytes of the initial memory. -/
example : ∀ k, ∀ y ∈ (WM.accepted k (visible trCoh)).zip (WM.responses k (visible trCoh)),
    WM.Plausible startH.mem (WM.requests (visible trCoh)) y.1 y.2 :=
  (C79_no_thin_air pH_wf startH_start trCoh_run trCoh_valid).1

/-- `Could` is a real restriction: after that execution no other byte than the initial one
and the two written may be found at address 16. -/
example (b : BitVec 8) (h : WM.Could startH.mem (WM.requests ((visible trCoh).take 8)) 16 b) :
    b = startH.mem 16 ∨ b = 2 ∨ b = 1 := by
  rw [trCoh_visible] at h
  cases h with
  | init => exact .inl rfl
  | write q x h hq h1 h2 =>
    have key : ∀ q ∈ WM.requests ((visible trCoh).take 8), q.ty = MT.WRITE → q.addr ≤ 16 → 16 < q.addr + q.bytes →
        BitVec.ofNat 8 (q.data / 256 ^ (16 - q.addr)) = 2 ∨ BitVec.ofNat 8 (q.data / 256 ^ (16 - q.addr)) = 1 := by
      rw [trCoh_visible]; decide +kernel
    rw [trCoh_visible] at key
    exact .inr (key q h hq h1 h2)
  | amo q x h hq =>
    have key : ∀ q ∈ WM.requests ((visible trCoh).take 8), ¬ MT.isAmo q.ty = true := by
      rw [trCoh_visible]; decide +kernel
    rw [trCoh_visible] at key
    exact absurd hq (key q h)

end Verif
