import Verif.PropsTicketData
import Verif.ExTicket

/-!
# A concrete execution with a word protected by the ticket lock

Two caches of different shapes; the tickets are at word 8, the number served at word 9, word 4 is protected.
-/

namespace Verif.WM
variable {ι : Type} [DecidableEq ι]

/-- The use of one protected word, decided (proof device). -/
def ticketGuardB (T S D : Nat) (tr : List (Ev ι)) : Bool :=
  decide (D ≠ S) &&
  ((List.range tr.length).all fun n => match tr[n]? with
    | some (.acc k q) =>
      decide (MT.isAmo q.ty = true → q.addr / 4 = S → BitVec.ofNat 32 q.data = 1 →
        (accepted k (tr.take n)).length = (responses k (tr.take n)).length ∧ Flushed k D (tr.take n)) &&
      decide (q.stores D ∨ q.reads D →
        ((List.range (tr.take n).length).any fun m => match (tr.take n)[m]? with
        | some (.acc k2 i) => decide (k2 = k ∧ i.ty = MT.INV ∧ turnB k T S ((tr.take n).take m) = true ∧
            given k S (tr.take n) = given k S ((tr.take n).take m))
        | _ => false) = true)
    | _ => true)

theorem ticketGuardB_guard {T S D : Nat} {tr : List (Ev ι)} (h : ticketGuardB T S D tr = true) :
    TicketGuard T S (· = D) tr := by
  simp only [ticketGuardB, Bool.and_eq_true, decide_eq_true_eq, List.all_eq_true] at h
  obtain ⟨hs, h⟩ := h
  refine ⟨fun e => hs e.symm, ?_, ?_⟩
  · intro k a q b he g1 g2 g3
    obtain ⟨n, h1, h2, rfl, rfl⟩ := split_iff.1 he
    have := h n h1
    rw [h2] at this
    simp only [Bool.and_eq_true] at this
    obtain ⟨h3, h4⟩ := of_decide_eq_true this.1 g1 g2 g3
    exact ⟨h3, fun W hW => by subst hW; exact h4⟩
  · intro k a q b he W hW hq
    subst hW
    obtain ⟨n, h1, h2, rfl, rfl⟩ := split_iff.1 he
    have := h n h1
    rw [h2] at this
    simp only [Bool.and_eq_true] at this
    have h8 := of_decide_eq_true this.2 hq
    rw [List.any_eq_true] at h8
    obtain ⟨m, h9, h10⟩ := h8
    split at h10
    · rename_i k2 i he2
      obtain ⟨rfl, h11, h12, h13⟩ := of_decide_eq_true h10
      obtain ⟨n', h14⟩ := turnB_iff.1 h12
      exact ⟨_, i, _, n', split_at he2, h11, h14, h13⟩
    · cases h10

end Verif.WM

namespace Verif.ExTd
open Verif.ExL Verif.ExBar Verif.ExTk Verif.Net

/-- Part 1 of the execution: cache `true` draws ticket 0 (not in the source: an execution). -/
def h1 := driveH true 20 startL [adT 1]
/-- Part 2 of the execution: cache `false` draws ticket 1 (not in the source: an execution). -/
def h2 := driveH false 20 h1.1 [adF 1]
/-- Part 3 of the execution: cache `true` looks: it is its turn (not in the source: an execution). -/
def h3 := driveH true 20 h2.1 [svT 0]
/-- Part 4 of the execution: cache `true` stores to the protected word (not in the source: an execution). -/
def h4 := driveH true 90 h3.1 [⟨MT.INV, 0, ⟨0, 0, 0⟩, 0, 0⟩, ⟨MT.WRITE, 0, ⟨0, 1, 0⟩, 0, 41⟩, ⟨MT.FLUSH, 0, ⟨0, 0, 0⟩, 0, 0⟩]
/-- Part 5 of the execution: cache `true` gives its ticket back (not in the source: an execution). -/
def h5 := driveH true 20 h4.1 [svT 1]
/-- Part 6 of the execution: cache `false` looks: it is its turn (not in the source: an execution). -/
def h6 := driveH false 20 h5.1 [svF 0]
/-- Part 7 of the execution: cache `false` reads the protected word (not in the source: an execution). -/
def h7 := driveH false 50 h6.1 [⟨MT.INV, 0, ⟨0, 0, 0⟩, 0, 0⟩, ⟨MT.READ, 1, ⟨1, 0, 0⟩, 0, 0⟩]
/-- Part 8 of the execution: cache `false` gives its ticket back (not in the source: an execution). -/
def h8 := driveH false 20 h7.1 [svF 1]

/-- The whole execution (not in the source: an execution). -/
def trD : List (HEv Bool pH) :=
  h1.2.map (fun e => ⟨true, e⟩) ++ h2.2.map (fun e => ⟨false, e⟩) ++ h3.2.map (fun e => ⟨true, e⟩) ++
  h4.2.map (fun e => ⟨true, e⟩) ++ h5.2.map (fun e => ⟨true, e⟩) ++ h6.2.map (fun e => ⟨false, e⟩) ++
  h7.2.map (fun e => ⟨false, e⟩) ++ h8.2.map (fun e => ⟨false, e⟩)
theorem trD_run : HetRun startL trD h8.1 :=
  (((((((driveH_run true 20 startL _).trans (driveH_run false 20 h1.1 _)).trans (driveH_run true 20 h2.1 _)).trans
    (driveH_run true 90 h3.1 _)).trans (driveH_run true 20 h4.1 _)).trans (driveH_run false 20 h5.1 _)).trans
    (driveH_run false 50 h6.1 _)).trans (driveH_run false 20 h7.1 _)

theorem t1 : accepted () h1.2 = [adT 1] := by decide +kernel
theorem t2 : accepted () h2.2 = [adF 1] := by decide +kernel
theorem t3 : accepted () h3.2 = [svT 0] := by decide +kernel
theorem t4 : accepted () h4.2 = [⟨MT.INV, 0, ⟨0, 0, 0⟩, 0, 0⟩, ⟨MT.WRITE, 0, ⟨0, 1, 0⟩, 0, 41⟩,
  ⟨MT.FLUSH, 0, ⟨0, 0, 0⟩, 0, 0⟩] := by decide +kernel
theorem t5 : accepted () h5.2 = [svT 1] := by decide +kernel
theorem t6 : accepted () h6.2 = [svF 0] := by decide +kernel
theorem t7 : accepted () h7.2 = [⟨MT.INV, 0, ⟨0, 0, 0⟩, 0, 0⟩, ⟨MT.READ, 1, ⟨1, 0, 0⟩, 0, 0⟩] := by decide +kernel
theorem t8 : accepted () h8.2 = [svF 1] := by decide +kernel

theorem trD_valid : HValid trD := by
  refine hvalid_append (hvalid_append (hvalid_append (hvalid_append (hvalid_append (hvalid_append (hvalid_append
    (hvalid_one _ ?_) (hvalid_one _ ?_)) (hvalid_one _ ?_)) (hvalid_one _ ?_)) (hvalid_one _ ?_))
    (hvalid_one _ ?_)) (hvalid_one _ ?_)) (hvalid_one _ ?_)
  · rw [t1]; intro q hq; simp only [List.mem_cons, List.not_mem_nil, or_false] at hq; subst hq; exact adT_valid _
  · rw [t2]; intro q hq; simp only [List.mem_cons, List.not_mem_nil, or_false] at hq; subst hq; exact adF_valid _
  · rw [t3]; intro q hq; simp only [List.mem_cons, List.not_mem_nil, or_false] at hq; subst hq; exact svT_valid _
  · rw [t4]; intro q hq; simp only [List.mem_cons, List.not_mem_nil, or_false] at hq
    rcases hq with rfl | rfl | rfl
    · exact .inv rfl
    · exact .write rfl 2 (by decide) (by decide) (by decide)
    · exact .flush rfl
  · rw [t5]; intro q hq; simp only [List.mem_cons, List.not_mem_nil, or_false] at hq; subst hq; exact svT_valid _
  · rw [t6]; intro q hq; simp only [List.mem_cons, List.not_mem_nil, or_false] at hq; subst hq; exact svF_valid _
  · rw [t7]; intro q hq; simp only [List.mem_cons, List.not_mem_nil, or_false] at hq
    rcases hq with rfl | rfl
    · exact .inv rfl
    · exact .read rfl 2 (by decide) (by decide)
  · rw [t8]; intro q hq; simp only [List.mem_cons, List.not_mem_nil, or_false] at hq; subst hq; exact svF_valid _

/-- The events up to the READ (not in the source: an execution). -/
def visD : List (WM.Ev Bool) :=
  [.acc true ⟨3, 0, 32, 0, 4, 1⟩, .resp true ⟨3, 0, 0, 0⟩, .acc false ⟨3, 0, 32, 0, 4, 1⟩, .resp false ⟨3, 0, 0, 1⟩,
   .acc true ⟨3, 0, 36, 0, 4, 0⟩, .resp true ⟨3, 0, 0, 0⟩, .acc true ⟨MT.INV, 0, 0, 0, 4, 0⟩,
   .acc true ⟨MT.WRITE, 0, 16, 0, 4, 41⟩, .resp true ⟨MT.INV, 0, 0, 0⟩, .acc true ⟨MT.FLUSH, 0, 0, 0, 4, 0⟩,
   .resp true ⟨MT.WRITE, 0, 0, 0⟩, .resp true ⟨MT.FLUSH, 0, 0, 0⟩, .acc true ⟨3, 0, 36, 0, 4, 1⟩, .resp true ⟨3, 0, 0, 0⟩,
   .acc false ⟨3, 0, 36, 0, 4, 0⟩, .resp false ⟨3, 0, 0, 1⟩, .acc false ⟨MT.INV, 0, 0, 0, 4, 0⟩]
/-- The events after the READ (not in the source: an execution). -/
def visE : List (WM.Ev Bool) :=
  [.resp false ⟨MT.INV, 0, 0, 0⟩, .resp false ⟨MT.READ, 1, 0, 41⟩, .acc false ⟨3, 0, 36, 0, 4, 1⟩, .resp false ⟨3, 0, 0, 1⟩]
theorem trD_visible : visible trD = visD ++ .acc false ⟨MT.READ, 1, 16, 0, 4, 0⟩ :: visE := by decide +kernel

attribute [irreducible] h1 h2 h3 h4 h5 h6 h7 h8

theorem trD_protocol : WM.TicketProtocol 8 9 (visible trD) := by
  rw [trD_visible]; exact WM.ticketB_protocol (by decide +kernel)
theorem trD_guard : WM.TicketGuard 8 9 (· = 4) (visible trD) := by
  rw [trD_visible]; exact WM.ticketGuardB_guard (by decide +kernel)

/-- The hypotheses of `C95_protected_reads`: the READ of cache `false` returns what cache `true` stored in its turn. -/
example : (⟨MT.READ, 1, 0, 41⟩ : WM.Resp) =
    ⟨MT.READ, 1, 0, (WM.flat (WM.latest (fun _ => 0) visD) ⟨MT.READ, 1, 16, 0, 4, 0⟩).2⟩ := by
  refine C95_protected_reads pH_wf startL_start trD_run trD_valid (by decide +kernel) (by decide +kernel) trD_protocol
    trD_guard trD_visible read16 ?_
  rw [trD_visible]; decide +kernel

/-- The hypotheses of `C95_memory`: at the end it is nobody's turn and memory holds 41. -/
example : h8.1.mem 16 = 41 := by
  have h := C95_memory pH_wf startL_start trD_run trD_valid (by decide +kernel) (by decide +kernel) trD_protocol
    trD_guard (W := 4) (x := 16) ?_ rfl rfl
  · rw [h, trD_visible]; decide +kernel
  · intro k n hk
    have := WM.turnB_iff.2 ⟨n, hk⟩
    rw [trD_visible] at this
    have hb : ∀ k, WM.turnB k 8 9 (visD ++ .acc false ⟨MT.READ, 1, 16, 0, 4, 0⟩ :: visE) = false := by decide +kernel
    rw [hb] at this
    cases this

end Verif.ExTd
