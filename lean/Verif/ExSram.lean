import Verif.PropsSram
import Verif.Exec

/-!
# Executions with SRAMs that do not keep their output
-/

namespace Verif
variable {p : Params}

/-- The inputs of a cycle: the request `qs.head` is offered if the cache is ready, the oldest memory
response is delivered, the processor takes responses if `r`. Example; not in the source. -/
def inJ (S : Sys Unit p) (qs : List (CReq p)) (r : Bool) : In p :=
  let i0 : In p := ⟨false, false, default, r, true, (S.respQ ()).length != 0, (S.respQ ()).headD default⟩
  match qs with
  | q :: _ => if ((S.cache ()).out i0).reqRdy && q.ty != MT.INIT then { i0 with reqEn := true, req := q } else i0
  | [] => i0

/-- `n` cycles with the requests `qs` offered as early as possible.  The processor takes
responses only in cycles whose number is a multiple of 4, and SRAMs that are not read output `g`. Example; not in the source. -/
def driveJ (g : Junk p) : Nat → Sys Unit p → List (CReq p) → Sys Unit p × List (Ev Unit p)
  | 0, S, _ => (S, [])
  | n + 1, S, qs =>
    let i := inJ S qs (n % 4 == 0)
    let x := driveMem (S.clockJ () i g)
    let y := driveJ g n x.1 (if i.reqEn then qs.tail else qs)
    (y.1, S.clockEvs () i ++ (x.2 ++ y.2))

theorem JRun.cons {S S' S'' : Sys Unit p} {ev tr : List (Ev Unit p)} (hs : JStep S ev S') (h : JRun S' tr S'') :
    JRun S (ev ++ tr) S'' := by
  induction h with
  | refl => rw [List.append_nil]; exact (JRun.snoc (.refl S) hs : JRun S ([] ++ ev) S')
  | snoc _ h2 ih => rw [← List.append_assoc]; exact .snoc ih h2

theorem driveJ_run (g : Junk p) (n : Nat) (S : Sys Unit p) (qs : List (CReq p)) :
    JRun S (driveJ g n S qs).2 (driveJ g n S qs).1 := by
  induction n generalizing S qs with
  | zero => exact .refl S
  | succ n ih =>
    simp only [driveJ]
    refine JRun.cons (.clock S () _ g ?_) ?_
    · refine ⟨?_, ?_, ?_⟩
      · unfold inJ
        dsimp only
        split
        · split <;> rfl
        · rfl
      · intro h
        unfold inJ at h ⊢
        cases qs with
        | nil => cases h
        | cons q l =>
          dsimp only at h ⊢
          split at h
          · next hc =>
            rw [if_pos hc]
            simp only [Bool.and_eq_true, bne_iff_ne] at hc
            refine ⟨Eq.trans ?_ hc.1, hc.2⟩
            apply out_rdy_congr <;> rfl
          · cases h
      · intro h
        unfold inJ at h ⊢
        cases hr : S.respQ () with
        | nil =>
          exfalso
          rw [hr] at h
          dsimp only at h
          split at h
          · split at h <;> cases h
          · cases h
        | cons r l =>
          refine ⟨l, ?_⟩
          dsimp only
          split
          · split <;> rfl
          · rfl
    · unfold driveMem
      cases hm : (S.clockJ () (inJ S qs (n % 4 == 0)) g).reqQ () with
      | cons m ms => exact JRun.cons (.exec _ () m ms hm) (ih _ _)
      | nil => exact ih _ _

/-- All ones. Example; not in the source. -/
def ones0 : Junk p0 := ⟨fun _ => ⟨true, 3, 3⟩, -1⟩

/-- Dirty one line, then a conflict miss in the same set (both ways get used), an eviction with
write-back, a hit on a stalled response, and an atomic operation. -/
def reqsJ : List (CReq p0) :=
  [⟨MT.WRITE, 0, ⟨0, 0, 0⟩, 0, 0x11⟩, ⟨MT.READ, 1, ⟨0, 0, 0⟩, 0, 0⟩, ⟨MT.READ, 0, ⟨1, 0, 0⟩, 0, 0⟩,
   ⟨MT.READ, 1, ⟨2, 0, 4⟩, 0, 0⟩, ⟨MT.READ, 0, ⟨2, 0, 0⟩, 0, 0⟩, ⟨MT.READ, 1, ⟨0, 0, 0⟩, 0, 0⟩, ⟨3, 0, ⟨2, 0, 0⟩, 0, 5⟩]

theorem reqsJ_valid : ∀ q ∈ reqsJ, q.Valid := by
  intro q hq
  simp only [reqsJ, List.mem_cons, List.mem_nil_iff, or_false] at hq
  rcases hq with rfl | rfl | rfl | rfl | rfl | rfl | rfl
  · exact .write rfl 2 (by decide) (by decide) (by decide)
  · exact .read rfl 2 (by decide) (by decide)
  · exact .read rfl 2 (by decide) (by decide)
  · exact .read rfl 2 (by decide) (by decide)
  · exact .read rfl 2 (by decide) (by decide)
  · exact .read rfl 2 (by decide) (by decide)
  · exact .amo (by decide) (by decide) (by decide)

/-- Example; not in the source. -/
def runJ : Sys Unit p0 × List (Ev Unit p0) := driveJ ones0 90 (start0 p0) reqsJ

theorem runJ_accepts : accepted () runJ.2 = reqsJ := by decide +kernel

theorem runJ_responds : (responses () runJ.2).map (·.data) = (flatRun mem0 reqsJ).2 := by decide +kernel

/-- With write-backs to memory. -/
theorem runJ_evicts : ∃ m r, Ev.exec () m r ∈ runJ.2 ∧ m.ty = MT.WRITE := by
  have h : (runJ.2.any fun e => match e with | .exec _ m _ => m.ty == MT.WRITE | _ => false) = true := by decide +kernel
  rw [List.any_eq_true] at h
  obtain ⟨e, he, h⟩ := h
  split at h
  · next m r => exact ⟨m, r, he, by simpa using h⟩
  · cases h

/-- The SRAM output registers really differ from those of the cache with the Python SRAMs. -/
theorem runJ_differs : (((start0 p0).clockJ () (driveIn (start0 p0) none) ones0).cache ()).data.dout ≠
    (((start0 p0).clock () (driveIn (start0 p0) none)).cache ()).data.dout := by decide +kernel

/-- Non-vacuity of `C68_same_executions` and `C68_flat_memory`: a run of the cache with SRAMs that
output all ones when they are not read, with misses, evictions, stalled hits and an AMO. -/
example : Start (start0 p0) ∧ JRun (start0 p0) runJ.2 runJ.1 ∧ (∀ q ∈ accepted () runJ.2, q.Valid) ∧
    (responses () runJ.2).length = 7 ∧ ∃ m r, Ev.exec () m r ∈ runJ.2 ∧ m.ty = MT.WRITE := by
  refine ⟨start0_start p0, driveJ_run _ _ _ _, ?_, ?_, runJ_evicts⟩
  · rw [runJ_accepts]; exact reqsJ_valid
  · have := congrArg List.length runJ_responds
    rw [List.length_map] at this
    rw [this]; decide +kernel

/-- Non-vacuity of `C68_same_outputs` and `C68_verilog_cache`: any state and any reset inputs do. -/
example : (⟨true, false, default, true, true, false, default⟩ : In p0).reset = true := rfl

end Verif
