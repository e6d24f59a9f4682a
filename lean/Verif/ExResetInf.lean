import Verif.PropsResetInf

/-!
# C86, example

The execution of `ExResetSys.lean` up to a point where the cache that was reset has accepted a request of its new life and
waits for memory, on the wires, continued for ever.
-/

namespace Verif.Ex84

/-- After the reset the first request has just been accepted. Example; not in the source. -/
def dA : Sys Unit p0 × List (Ev Unit p0) := drive 8 (s8.one false) q9
/-- Example; not in the source. -/
def sA : RSys Bool pH := s8.put false dA.1 none
/-- Example; not in the source. -/
def trA : List (REv Bool pH) :=
  evsAt true d1.2 ++ evsAt false d2.2 ++ evsAt false e3 ++ evsAt true d4.2 ++ evsAt false e5 ++ evsAt false e6 ++
    evsAt false e7 ++ [.again false] ++ evsAt false dA.2

theorem sinceA : ∀ k, sA.since k = none := by
  intro k; cases k
  · rfl
  · exact since8.2
theorem runA : RRun s0 trA sA :=
  (((((((run1.trans run2).trans run3).trans run4).trans run5).trans run6).trans run7).trans run8).trans
    (node_rrun (k := false) since8.1 (drive_run _ _ _))
theorem seenA : (WM.accepted (false, 0) (rvisible trA)).length = 6 ∧ (WM.responses (false, 0) (rvisible trA)).length = 5 ∧
    WM.accepted (false, 1) (rvisible trA) = [⟨MT.READ, 0, 0, 0, 4, 0⟩] ∧ WM.responses (false, 1) (rvisible trA) = [] := by
  decide +kernel
theorem livesA : lives (fun _ => 0) trA false = 1 := by decide +kernel

end Verif.Ex84

namespace Verif.Net

/-- **C86, example.**  There is an infinite execution of the wires of two caches of different shapes that meets all
hypotheses of `C86_eventually_answered` and `C86_eventually_ready` for both caches from a step on at which cache `false`
has been reset with messages in flight (one of its requests will never be answered) and has accepted one request since,
not yet answered. -/
theorem C86_example : ∃ (X : RLInf Bool pH) (t : Nat), RNStart (X.st 0) ∧ (∀ k, X.Served k t) ∧ X.lifeNo false t = 1 ∧
    (WM.accepted (false, 0) (X.seen t)).length = 6 ∧ (WM.responses (false, 0) (X.seen t)).length = 5 ∧
    WM.accepted (false, 1) (X.seen t) = [⟨MT.READ, 0, 0, 0, 4, 0⟩] ∧ WM.responses (false, 1) (X.seen t) = [] := by
  obtain ⟨R, hn, he⟩ := rstart_lift pH_wf Ex84.s0_start
  obtain ⟨R', tr', hr, ht, he'⟩ := RRun.lift pH_wf he Ex84.runA
    (rounds_rep (fun B => List.mem_reverse.2 (mem_blks B)) levels)
  obtain ⟨ls, h1, h2⟩ := C86_same_system.1 hr
  obtain ⟨X, g1, g2, g3⟩ := served_extension turns_all h1 fun k => by rw [← he'.since]; exact Ex84.sinceA k
  refine ⟨X, ls.length, by rw [g1]; exact hn, g3, ?_, ?_⟩
  · rw [RLInf.lifeNo, resets, g2, h2, ← cvisible_dec, ← lives_cvisible, ht]; exact Ex84.livesA
  · rw [RLInf.seen, g2, h2, ← rvisible_dec, ht]; exact Ex84.seenA

end Verif.Net
