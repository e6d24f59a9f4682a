import Verif.HetLemmas
import Verif.DriveK

/-!
# A concrete execution of two caches of different shapes

Cache `false` has two ways, two sets and 8-byte lines; cache `true` has one way, four sets
and 16-byte lines.  Software shares a word with FLUSH, INV and an AMO.
-/

namespace Verif

/-- One way, four sets, four words per line. -/
def pB : Params := ⟨2, 1, 2, 2, 1, false⟩

theorem pB_wf : pB.WF := ⟨by decide, by decide, by decide, by decide⟩

/-- Parameters of the two caches. Example; not in the source. -/
abbrev pH (k : Bool) : Params := if k then pB else p0

theorem pH_wf (k : Bool) : (pH k).WF := by cases k; exact p0_wf; exact pB_wf

/-- Two caches, just reset, with garbage in their SRAMs. Example; not in the source. -/
def startH : HSys Bool pH := ⟨fun k => (start0 (pH k)).node, mem0⟩

theorem startH_start : HStart startH := fun k => start0_start (pH k)

/-- `n` cycles of cache `k` with the requests `qs` offered as early as possible. Example; not in the source. -/
def driveH (k : Bool) (n : Nat) (H : HSys Bool pH) (qs : List (CReq (pH k))) :
    HSys Bool pH × List (Ev Unit (pH k)) :=
  let y := drive n ((H.node k).on H.mem) qs
  (⟨H.setNode k y.1.node, y.1.mem⟩, y.2)

theorem driveH_run (k : Bool) (n : Nat) (H : HSys Bool pH) (qs : List (CReq (pH k))) :
    HetRun H ((driveH k n H qs).2.map (fun e => ⟨k, e⟩)) (driveH k n H qs).1 :=
  node_run (drive_run n _ qs)

/-- Cache `false` writes bytes 16 to 19, reads them back and flushes. Example; not in the source. -/
def hq1 : List (CReq (pH false)) :=
  [⟨MT.WRITE, 0, ⟨1, 0, 0⟩, 0, 100⟩, ⟨MT.READ, 1, ⟨1, 0, 0⟩, 0, 0⟩, ⟨MT.FLUSH, 0, ⟨0, 0, 0⟩, 0, 0⟩]

/-- Cache `true` reads the word, whose set and offset are different there, and adds 5 to it. Example; not in the source. -/
def hq2 : List (CReq (pH true)) := [⟨MT.READ, 0, ⟨0, 1, 0⟩, 0, 0⟩, ⟨3, 1, ⟨0, 1, 0⟩, 0, 5⟩]

/-- Cache `false` reads its stale copy, invalidates and reads again. Example; not in the source. -/
def hq3 : List (CReq (pH false)) :=
  [⟨MT.READ, 0, ⟨1, 0, 0⟩, 0, 0⟩, ⟨MT.INV, 1, ⟨0, 0, 0⟩, 0, 0⟩, ⟨MT.READ, 0, ⟨1, 0, 0⟩, 0, 0⟩]

/-- Example; not in the source. -/
def hetA := driveH false 60 startH hq1
/-- Example; not in the source. -/
def hetB := driveH true 40 hetA.1 hq2
/-- Example; not in the source. -/
def hetC := driveH false 50 hetB.1 hq3

/-- All events. Example; not in the source. -/
def trH : List (HEv Bool pH) :=
  hetA.2.map (fun e => ⟨false, e⟩) ++ hetB.2.map (fun e => ⟨true, e⟩) ++ hetC.2.map (fun e => ⟨false, e⟩)

theorem trH_run : HetRun startH trH hetC.1 :=
  ((driveH_run false 60 startH hq1).trans (driveH_run true 40 hetA.1 hq2)).trans (driveH_run false 50 hetB.1 hq3)

theorem trH_acc1 : accepted () hetA.2 = hq1 := by decide +kernel
theorem trH_acc2 : accepted () hetB.2 = hq2 := by decide +kernel
theorem trH_acc3 : accepted () hetC.2 = hq3 := by decide +kernel

theorem trH_valid : HValid trH := by
  refine hvalid_append (hvalid_append (hvalid_one _ ?_) (hvalid_one _ ?_)) (hvalid_one _ ?_)
  · rw [trH_acc1]
    intro q hq
    simp only [hq1, List.mem_cons, List.not_mem_nil, or_false] at hq
    rcases hq with rfl | rfl | rfl
    · exact .write rfl 2 (by decide) (by decide) (by decide)
    · exact .read rfl 2 (by decide) (by decide)
    · exact .flush rfl
  · rw [trH_acc2]
    intro q hq
    simp only [hq2, List.mem_cons, List.not_mem_nil, or_false] at hq
    rcases hq with rfl | rfl
    · exact .read rfl 2 (by decide) (by decide)
    · exact .amo (by decide) (by decide) (by decide)
  · rw [trH_acc3]
    intro q hq
    simp only [hq3, List.mem_cons, List.not_mem_nil, or_false] at hq
    rcases hq with rfl | rfl | rfl
    · exact .read rfl 2 (by decide) (by decide)
    · exact .inv rfl
    · exact .read rfl 2 (by decide) (by decide)

/-- What the processors see: in the end cache `false` first reads its stale copy (100) and,
after INV, what the AMO of cache `true` left in memory (105). -/
theorem trH_visible : visible trH =
    [.acc false ⟨MT.WRITE, 0, 16, 0, 4, 100⟩, .acc false ⟨MT.READ, 1, 16, 0, 4, 0⟩,
     .acc false ⟨MT.FLUSH, 0, 0, 0, 4, 0⟩, .resp false ⟨MT.WRITE, 0, 0, 0⟩,
     .resp false ⟨MT.READ, 1, 0, 100⟩, .resp false ⟨MT.FLUSH, 0, 0, 0⟩,
     .acc true ⟨MT.READ, 0, 16, 0, 4, 0⟩, .acc true ⟨3, 1, 16, 0, 4, 5⟩,
     .resp true ⟨MT.READ, 0, 0, 100⟩, .resp true ⟨3, 1, 0, 100⟩,
     .acc false ⟨MT.READ, 0, 16, 0, 4, 0⟩, .acc false ⟨MT.INV, 1, 0, 0, 4, 0⟩,
     .resp false ⟨MT.READ, 0, 0, 100⟩, .acc false ⟨MT.READ, 0, 16, 0, 4, 0⟩,
     .resp false ⟨MT.INV, 1, 0, 0⟩, .resp false ⟨MT.READ, 0, 0, 105⟩] := by decide +kernel

attribute [irreducible] hetA hetB hetC

/-- The execution meets the hypotheses of C64. -/
example : ∃ A, WM.Run (WM.init Bool mem0) (visible trH) A ∧ A.mem = hetC.1.mem :=
  C64_memory_model pH_wf startH_start trH_run trH_valid

end Verif
