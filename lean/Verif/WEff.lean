import Verif.PropsDisc

/-!
# Effects of the steps of the word machine

A view of `WM.Step` without events and queues, for the proofs of C81: what a step does to the
copies and to memory, and which request, if any, it completes with which response.
-/

set_option linter.unusedSectionVars false

namespace Verif.WM
variable {ι : Type} [DecidableEq ι] {M0 : ByteMem} {tr : List (Ev ι)} {A B : State ι}

/-- Responses given by cache `k`, delivered or not. Proof device; not in the source. -/
def outs (k : ι) (tr : List (Ev ι)) (A : State ι) : List Resp := responses k tr ++ (A.loc k).done

/-- What a step does to a cache with copies `c` and contents `v`, and to the memory `M`; the request completed. Proof device; not in the source. -/
inductive Eff (c : Nat → Copy) (v M : ByteMem) : (Nat → Copy) → ByteMem → ByteMem → Option (Req × Resp) → Prop
  | idle : Eff c v M c v M none
  | fetch (Bw : Nat → Bool) (h : ∀ W, Bw W = true → c W = .none) :
      Eff c v M (fun W => if Bw W then .clean else c W) (fun x => if Bw (x / 4) then M x else v x) M none
  | drop (Bw : Nat → Bool) (h : ∀ W, Bw W = true → c W = .clean) :
      Eff c v M (fun W => if Bw W then .none else c W) v M none
  | save (Bw : Nat → Bool) (h : ∀ W, Bw W = true → c W = .dirty) :
      Eff c v M (fun W => if Bw W then .clean else c W) v (fun x => if Bw (x / 4) then v x else M x) none
  | read (q : Req) (hq : q.ty = MT.READ) (hc : ∀ W, q.covers W → c W ≠ .none) :
      Eff c v M c v M (some (q, ⟨q.ty, q.opq, q.len, readLE v q.addr q.bytes⟩))
  | write (q : Req) (hq : q.ty = MT.WRITE) (hc : ∀ W, q.covers W → c W ≠ .none) :
      Eff c v M (fun W => if q.covers W then .dirty else c W) (writeLE v q.addr q.bytes q.data) M
        (some (q, ⟨q.ty, q.opq, q.len, 0⟩))
  | amo (q : Req) (hq : MT.isAmo q.ty = true) (hc : c (q.addr / 4) = .none) :
      Eff c v M c v (flat M q).1 (some (q, ⟨q.ty, q.opq, q.len, readLE M q.addr 4⟩))
  | inv (q : Req) (hq : q.ty = MT.INV) :
      Eff c v M (fun W => if c W = .clean then .none else c W) v M (some (q, ⟨q.ty, q.opq, q.len, 0⟩))
  | flush (q : Req) (hq : q.ty = MT.FLUSH) (hc : ∀ W, c W ≠ .dirty) :
      Eff c v M c v M (some (q, ⟨q.ty, q.opq, q.len, 0⟩))

/-- A step of cache `k` in a reachable state. Proof device; not in the source. -/
structure StepEff (tr ev : List (Ev ι)) (A B : State ι) (k : ι) (pr : Option (Req × Resp)) : Prop where
  eff : Eff (A.loc k).copy (A.loc k).val A.mem (B.loc k).copy (B.loc k).val B.mem pr
  others : ∀ k', k' ≠ k → (B.loc k').copy = (A.loc k').copy ∧ (B.loc k').val = (A.loc k').val
  outs : ∀ k', outs k' (tr ++ ev) B = WM.outs k' tr A ++ if k' = k then (pr.map (·.2)).toList else []
  next : ∀ q r, pr = some (q, r) → (accepted k tr)[(WM.outs k tr A).length]? = some q

theorem step_eff_at {k : ι} {e : List LEv} {a : Loc} {M : ByteMem} (hc : ∀ k, Count k tr (A.loc k))
    (hl : (A.loc k).Step A.mem e a M) :
    ∃ pr, StepEff tr (e.map (LEv.at k)) A ⟨fun k' => if k' = k then a else A.loc k', M⟩ k pr := by
  have hpend : ∀ q, (A.loc k).pend = some q → (accepted k tr)[(outs k tr A).length]? = some q := by
    intro q hq
    obtain ⟨perf, c1, c2⟩ := hc k
    rw [hq] at c1
    rw [c1, outs, List.length_append, ← c2]
    simp
  -- internal steps and completed requests
  have silent : ∀ (a : Loc) (M : ByteMem) (pr : Option (Req × Resp)),
      Eff (A.loc k).copy (A.loc k).val A.mem a.copy a.val M pr → a.done = (A.loc k).done ++ (pr.map (·.2)).toList →
      (∀ q r, pr = some (q, r) → (A.loc k).pend = some q) →
      ∃ pr, StepEff tr [] A (⟨fun k' => if k' = k then a else A.loc k', M⟩ : State ι) k pr := by
    intro a M pr he hd hq
    refine ⟨pr, ?_, ?_, ?_, fun q r h => hpend q (hq q r h)⟩
    · simpa using he
    · intro k' hk; simp [hk]
    · intro k'
      simp only [outs, List.append_nil]
      by_cases hk : k' = k
      · subst hk; simp [hd]
      · simp [hk]
  cases hl with
  | accept q hp =>
    refine ⟨none, ?_, ?_, ?_, nofun⟩
    · simpa using Eff.idle
    · intro k' hk; simp [hk]
    · intro k'
      simp only [outs, List.map_cons, List.map_nil, LEv.at, responses_append, responses_acc, responses_nil]
      by_cases hk : k' = k
      · subst hk; simp
      · simp [hk]
  | deliver r l hdn =>
    refine ⟨none, ?_, ?_, ?_, nofun⟩
    · simpa using Eff.idle
    · intro k' hk; simp [hk]
    · intro k'
      simp only [outs, List.map_cons, List.map_nil, LEv.at, responses_append]
      by_cases hk : k' = k
      · subst hk; simp [hdn]
      · simp [hk, responses_resp_other (Ne.symm hk)]
  | fetch q Bw hp hq hBw => exact silent _ _ none (.fetch Bw hBw) (by simp) nofun
  | drop q Bw hp hq hBw => exact silent _ _ none (.drop Bw hBw) (by simp) nofun
  | save q Bw hp hq hBw => exact silent _ _ none (.save Bw hBw) (by simp) nofun
  | read q hp hq hcv =>
    exact silent _ _ (some (q, _)) (.read q hq hcv) rfl fun q' r h => by
      simp only [Option.some.injEq, Prod.mk.injEq] at h; rw [← h.1]; exact hp
  | write q hp hq hcv =>
    exact silent _ _ (some (q, _)) (.write q hq hcv) rfl fun q' r h => by
      simp only [Option.some.injEq, Prod.mk.injEq] at h; rw [← h.1]; exact hp
  | amo q hp hq hcv =>
    refine silent _ _ (some (q, _)) ?_ rfl fun q' r h => by
      simp only [Option.some.injEq, Prod.mk.injEq] at h; rw [← h.1]; exact hp
    have := Eff.amo (v := (A.loc k).val) (M := A.mem) q hq hcv
    rw [flat_amo hq] at this
    exact this
  | inv q hp hq =>
    exact silent _ _ (some (q, _)) (.inv q hq) rfl fun q' r h => by
      simp only [Option.some.injEq, Prod.mk.injEq] at h; rw [← h.1]; exact hp
  | flush q hp hq hcv =>
    exact silent _ _ (some (q, _)) (.flush q hq hcv) rfl fun q' r h => by
      simp only [Option.some.injEq, Prod.mk.injEq] at h; rw [← h.1]; exact hp

theorem step_eff {ev : List (Ev ι)} (hc : ∀ k, Count k tr (A.loc k)) (hs : Step A ev B) :
    ∃ k pr, StepEff tr ev A B k pr := by
  cases hs with
  | mk k e a M hl => exact ⟨k, step_eff_at hc hl⟩

end Verif.WM
