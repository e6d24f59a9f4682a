import Verif.PropsReduce
import Verif.ExTicket

/-!
# Concrete reductions and a concrete work counter
-/

namespace Verif.ExRd
open Verif.ExL Verif.ExBar Verif.ExTk

/-- Every event of a history, decided (proof device). -/
def allReq (P : WM.Req → Bool) (tr : List (WM.Ev Bool)) : Bool := tr.all fun
  | .acc _ q => P q
  | .resp _ _ => true

theorem allReq_spec {P : WM.Req → Bool} {tr : List (WM.Ev Bool)} (h : allReq P tr = true) (k : Bool) :
    ∀ q ∈ WM.accepted k tr, P q = true := by
  intro q hq
  obtain ⟨n, hn⟩ := List.getElem?_of_mem hq
  obtain ⟨a, b, rfl, _⟩ := WM.accepted_split hn
  exact List.all_eq_true.1 h (.acc k q) (by simp)

/-- The hypotheses of `C96_nothing_twice`: word 8 of the execution `trT` is a work counter; 2 is returned once. -/
theorem trT_counter : WM.WorkCounter 8 (visible trT) := by
  have h : allReq (fun q => decide ((q.ty = MT.WRITE → ¬ q.covers 8) ∧
      (MT.isAmo q.ty = true → q.addr / 4 = 8 → q.ty.toNat = 3 ∧ BitVec.ofNat 32 q.data = 1))) (visible trT) = true := by
    rw [trT_visible]; decide +kernel
  exact fun k q hq => of_decide_eq_true (allReq_spec h k q hq)

theorem trT_size : WM.operands 8 (visible trT) = [1, 1, 1] := by rw [trT_visible]; decide +kernel

example (k : Bool) (j : Nat) (h : (WM.got k 8 (visible trT))[j]? = some 2) : true = k ∧ 1 = j :=
  (C96_nothing_twice pH_wf startL_start trT_run trT_valid (by decide +kernel) trT_counter (by rw [trT_size]; decide)
    (n := 2) (by rw [trT_visible]; decide +kernel)).2 k j h

/-- The hypotheses of `C96_nothing_left_out`: three operations, so 0, 1 and 2 are returned, and memory holds 3. -/
example : (memWord h9.1.mem 8).toNat = 3 ∧ ∀ m < 3, ∃ (k : Bool) (j : Nat) (n : BitVec 32),
    (WM.got k 8 (visible trT))[j]? = some n ∧ n.toNat = m := by
  have := C96_nothing_left_out pH_wf startL_start trT_run trT_valid (W := 8) (by decide +kernel) trT_counter
    (by rw [trT_size]; decide) (by unfold WM.AllAnswered; rw [trT_visible]; decide +kernel)
  rw [trT_size] at this
  exact this

/-- AMO_MIN on word 8, cache `false` (not in the source: a request). -/
def mnF (d : BitVec 32) : CReq (pH false) := ⟨7, 0, ⟨2, 0, 0⟩, 0, d⟩
/-- AMO_MIN on word 8, cache `true` (not in the source: a request). -/
def mnT (d : BitVec 32) : CReq (pH true) := ⟨7, 0, ⟨0, 2, 0⟩, 0, d⟩

/-- Part 1 of the execution (not in the source: an execution). -/
def m1 := driveH true 40 startL [mnT 3, mnT 0xfffffffb]
/-- Part 2 of the execution (not in the source: an execution). -/
def m2 := driveH false 20 m1.1 [mnF 0xfffffffe]
/-- The whole execution (not in the source: an execution). -/
def trM : List (HEv Bool pH) := m1.2.map (fun e => ⟨true, e⟩) ++ m2.2.map (fun e => ⟨false, e⟩)
theorem trM_run : HetRun startL trM m2.1 := (driveH_run true 40 startL _).trans (driveH_run false 20 m1.1 _)
theorem m1_acc : accepted () m1.2 = [mnT 3, mnT 0xfffffffb] := by decide +kernel
theorem m2_acc : accepted () m2.2 = [mnF 0xfffffffe] := by decide +kernel

theorem trM_valid : HValid trM := by
  refine hvalid_append (hvalid_one _ ?_) (hvalid_one _ ?_)
  · rw [m1_acc]; intro q hq; simp only [List.mem_cons, List.not_mem_nil, or_false] at hq
    rcases hq with rfl | rfl
    · exact .amo (show 3 ≤ (7 : MType).toNat ∧ (7 : MType).toNat ≤ 11 by decide) (.inl rfl)
        (show 4 ∣ (adT 0).addr.flat by decide)
    · exact .amo (show 3 ≤ (7 : MType).toNat ∧ (7 : MType).toNat ≤ 11 by decide) (.inl rfl)
        (show 4 ∣ (adT 0).addr.flat by decide)
  · rw [m2_acc]; intro q hq; simp only [List.mem_cons, List.not_mem_nil, or_false] at hq; subst hq
    exact .amo (show 3 ≤ (7 : MType).toNat ∧ (7 : MType).toNat ≤ 11 by decide) (.inl rfl)
      (show 4 ∣ (adF 0).addr.flat by decide)

/-- What the processors see (not in the source: an execution). -/
def visM : List (WM.Ev Bool) :=
  [.acc true ⟨7, 0, 32, 0, 4, 3⟩, .acc true ⟨7, 0, 32, 0, 4, 4294967291⟩, .resp true ⟨7, 0, 0, 0⟩, .resp true ⟨7, 0, 0, 0⟩,
   .acc false ⟨7, 0, 32, 0, 4, 4294967294⟩, .resp false ⟨7, 0, 0, 4294967291⟩]
theorem trM_visible : visible trM = visM := by decide +kernel

attribute [irreducible] m1 m2

/-- The hypotheses of `C96_reduction`: the least of 0, 3, -5 and -2 is -5. -/
example : memWord m2.1.mem 8 = 0xfffffffb := by
  have h : allReq (fun q => decide ((q.ty = MT.WRITE → ¬ q.covers 8) ∧
      (MT.isAmo q.ty = true → q.addr / 4 = 8 → q.ty = 7))) (visible trM) = true := by
    rw [trM_visible]; decide +kernel
  rw [C96_reduction pH_wf startL_start trM_run trM_valid (t := 7) (by decide)
    (fun k q hq => of_decide_eq_true (allReq_spec h k q hq))
    (by unfold WM.AllAnswered; rw [trM_visible]; decide +kernel), trM_visible]
  decide +kernel

/-- SWAP is rightly excluded: its result depends on the order. -/
example : amoFun 6 (amoFun 6 0 1) 2 ≠ amoFun 6 (amoFun 6 0 2) 1 := by decide

end Verif.ExRd
