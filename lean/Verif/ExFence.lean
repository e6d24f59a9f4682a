import Verif.Fence
import Verif.ExEnv

/-!
# The hypotheses of C88 are met

Cache `false` stores to word 5, then the processor of cache `true`, which has larger blocks, makes malformed requests:
a WRITE that crosses the end of its line, an unaligned atomic operation, a request of a type that does not exist. Then
cache `false` flushes, invalidates and reads word 5.
-/

namespace Verif
namespace Ex88

/-- Requests of the well-behaved processor (not in the source: example). -/
def g1 : List (CReq (pH false)) := [⟨MT.WRITE, 1, ⟨1, 0, 4⟩, 0, 5⟩]
/-- Requests of the other processor: addresses 46, 50 and 16 (not in the source: example). -/
def bad : List (CReq (pH true)) :=
  [⟨MT.WRITE, 1, ⟨0, 2, 14⟩, 0, 0x01020304⟩, ⟨3, 0, ⟨0, 3, 2⟩, 0, 7⟩, ⟨13, 1, ⟨1, 1, 3⟩, 2, 9⟩, ⟨MT.FLUSH, 0, ⟨0, 0, 0⟩, 0, 0⟩]
/-- Again requests of the first (not in the source: example). -/
def g2 : List (CReq (pH false)) :=
  [⟨MT.FLUSH, 0, ⟨0, 0, 0⟩, 0, 0⟩, ⟨MT.INV, 1, ⟨0, 0, 0⟩, 0, 0⟩, ⟨MT.READ, 0, ⟨1, 0, 4⟩, 0, 0⟩]

/-- The system after the first requests (not in the source: example). -/
def A := driveH false 60 startH g1
/-- The system after the malformed requests (not in the source: example). -/
def B := driveH true 80 A.1 bad
/-- The system in the end (not in the source: example). -/
def C := driveH false 60 B.1 g2
/-- All events (not in the source: example). -/
def tr : List (HEv Bool pH) :=
  A.2.map (fun e => ⟨false, e⟩) ++ B.2.map (fun e => ⟨true, e⟩) ++ C.2.map (fun e => ⟨false, e⟩)

theorem isRun : HetRun startH tr C.1 :=
  ((driveH_run false 60 startH g1).trans (driveH_run true 80 A.1 bad)).trans (driveH_run false 60 B.1 g2)

theorem acc1 : accepted () A.2 = g1 := by decide +kernel
theorem acc2 : accepted () B.2 = bad := by decide +kernel
theorem acc3 : accepted () C.2 = g2 := by decide +kernel
theorem resp1 : responses () A.2 = [⟨MT.WRITE, 1, 0, 0, 0⟩] := by decide +kernel
theorem resp3 : responses () C.2 = [⟨MT.FLUSH, 0, 0, 0, 0⟩, ⟨MT.INV, 1, 0, 0, 0⟩, ⟨MT.READ, 0, 0, 0, 5⟩] := by decide +kernel
/-- The malformed requests did change memory, at 46, 47 and 50. -/
theorem changed : (List.range 128).filter (fun x => C.1.mem x != mem0 x) = [20, 21, 22, 23, 46, 47, 50] := by decide +kernel

attribute [irreducible] A B C

theorem ev_false : eventsOf false tr = A.2 ++ C.2 := by
  rw [tr, eventsOf_append, eventsOf_append, eventsOf_same, eventsOf_other (by decide), eventsOf_same, List.append_nil]

theorem ev_true : eventsOf true tr = B.2 := by
  rw [tr, eventsOf_append, eventsOf_append, eventsOf_same, eventsOf_other (by decide), eventsOf_other (by decide),
    List.append_nil, List.nil_append]

theorem acc_false : accepted () (eventsOf false tr) = g1 ++ g2 := by rw [ev_false, accepted_append, acc1, acc3]
theorem acc_true : accepted () (eventsOf true tr) = bad := by rw [ev_true, acc2]

theorem malformed : ∃ q ∈ accepted () (eventsOf true tr), ¬ q.Valid := by
  rw [acc_true]
  refine ⟨_, List.mem_cons_self, fun h => ?_⟩
  cases h with
  | write _ n hn h1 h2 => rw [← hn] at h2; revert h2; decide
  | amo h => exact absurd h.1 (by decide)
  | dword _ h1 h2 => revert h1 h2; decide
  | read h => exact absurd h (by decide)
  | inv h => exact absurd h (by decide)
  | flush h => exact absurd h (by decide)

theorem valid : ∀ q ∈ accepted () (eventsOf false tr), q.Valid := by
  rw [acc_false]
  intro q hq
  simp only [g1, g2, List.mem_append, List.mem_cons, List.not_mem_nil, or_false] at hq
  rcases hq with rfl | rfl | rfl | rfl
  · exact .write rfl 2 (by decide) (by decide) (by decide)
  · exact .flush rfl
  · exact .inv rfl
  · exact .read rfl 2 (by decide) (by decide)

theorem fit : AllFit tr := by
  intro k q hq
  cases k with
  | false =>
    rw [acc_false] at hq
    revert q
    decide
  | true =>
    rw [acc_true] at hq
    revert q
    decide

theorem fenced : FencedOff false tr 5 := by
  intro j hj q hq x hx
  cases j with
  | false => exact absurd rfl hj
  | true =>
    rw [acc_true] at hq
    have h : x = 20 ∨ x = 21 ∨ x = 22 ∨ x = 23 := by omega
    clear hx hj
    revert q
    rcases h with rfl | rfl | rfl | rfl <;> (simp only [CReq.MayChange]; decide)

/-- `C88_isolated` for the read of word 5. -/
theorem isolated : ∃ a b, eventsOf false tr = a ++ .acc () ⟨MT.READ, 0, ⟨1, 0, 4⟩, 0, 0⟩ :: b ∧
    (5 : Data p0) = (flatStep (flatRun mem0 (accepted () a)).1 ⟨MT.READ, 0, ⟨1, 0, 4⟩, 0, 0⟩).2 := by
  obtain ⟨a, b, h1, h2⟩ := acc_nth (tr := eventsOf false tr) (n := 3) (q := ⟨MT.READ, 0, ⟨1, 0, 4⟩, 0, 0⟩)
    (by rw [acc_false]; rfl)
  refine ⟨a, b, h1, C88_isolated (D := fun _ => True) (r := ⟨MT.READ, 0, 0, 0, 5⟩) pH_wf startH_start (isRun.outer _) fit valid h1 ?_ ?_⟩
  · rintro W ⟨x, rfl, ⟨-, h3, h4⟩ | ⟨h3, -⟩⟩
    · have e1 : (⟨1, 0, 4⟩ : Addr p0).flat = 20 := by decide
      have e2 : (⟨MT.READ, 0, ⟨1, 0, 4⟩, 0, 0⟩ : CReq p0).bytes = 4 := by decide
      change (⟨1, 0, 4⟩ : Addr p0).flat ≤ x at h3
      change x < (⟨1, 0, 4⟩ : Addr p0).flat + (⟨MT.READ, 0, ⟨1, 0, 4⟩, 0, 0⟩ : CReq p0).bytes at h4
      rw [e1] at h3 h4; rw [e2] at h4
      rw [show x / 4 = 5 by omega]
      exact ⟨trivial, fenced⟩
    · exact absurd h3 (by decide)
  · rw [h2, ev_false]
    have : responses () (A.2 ++ C.2) = responses () A.2 ++ responses () C.2 := List.filterMap_append ..
    rw [this, resp1, resp3]; rfl

end Ex88
end Verif
