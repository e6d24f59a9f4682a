import Verif.Exec

/-!
# A simple environment for several caches

`driveK k n S qs` clocks cache `k` for `n` cycles, as `drive` does for a single
cache.
-/

namespace Verif
variable {p : Params} {ι : Type} [DecidableEq ι]

/-- As `driveIn`. Proof device; not in the source. -/
def driveInK (S : Sys ι p) (k : ι) (q : Option (CReq p)) : In p :=
  let i0 : In p := ⟨false, false, default, true, true, false, default⟩
  let i1 := match q with
    | some q => if ((S.cache k).out i0).reqRdy && (q.ty != MT.INIT) then { i0 with reqEn := true, req := q } else i0
    | none => i0
  match S.respQ k with
    | r :: _ => { i1 with mrespEn := true, mresp := r }
    | [] => i1

/-- Memory executes a request of `k` if there is one. Proof device; not in the source. -/
def driveMemK (k : ι) (S : Sys ι p) : Sys ι p × List (Ev ι p) :=
  match S.reqQ k with
  | m :: _ => (S.exec k m, [.exec k m (memExec S.mem m).2])
  | [] => (S, [])

/-- `n` cycles of cache `k` with the requests `qs` offered as early as possible. Proof device; not in the source. -/
def driveK (k : ι) : Nat → Sys ι p → List (CReq p) → Sys ι p × List (Ev ι p)
  | 0, S, _ => (S, [])
  | n + 1, S, qs =>
    let i := driveInK S k qs.head?
    let x := driveMemK k (S.clock k i)
    let y := driveK k n x.1 (if i.reqEn then qs.tail else qs)
    (y.1, S.clockEvs k i ++ x.2 ++ y.2)

theorem driveK_run (k : ι) (n : Nat) (S : Sys ι p) (qs : List (CReq p)) :
    Run S (driveK k n S qs).2 (driveK k n S qs).1 := by
  induction n generalizing S qs with
  | zero => exact .refl S
  | succ n ih =>
    simp only [driveK]
    refine Run.trans (Run.trans (Run.one (.clock S k _ ?_)) ?_) (ih _ _)
    · refine ⟨?_, ?_, ?_⟩
      · simp only [driveInK]; split <;> split <;> (try split) <;> rfl
      · intro h
        simp only [driveInK] at h ⊢
        cases hq : qs.head? with
        | none => rw [hq] at h; simp only at h; split at h <;> cases h
        | some q =>
          rw [hq] at h; simp only at h ⊢
          by_cases hc : (((S.cache k).out ⟨false, false, default, true, true, false, default⟩).reqRdy &&
              (q.ty != MT.INIT)) = true
          · rw [if_pos hc]
            simp only [Bool.and_eq_true, bne_iff_ne] at hc
            refine ⟨?_, ?_⟩
            · refine Eq.trans ?_ hc.1
              apply out_rdy_congr <;> (split <;> rfl)
            · split <;> exact hc.2
          · rw [if_neg hc] at h
            split at h <;> cases h
      · intro h
        simp only [driveInK] at h ⊢
        cases hr : S.respQ k with
        | nil =>
          exfalso
          rw [hr] at h; simp only at h
          split at h
          · split at h <;> cases h
          · cases h
        | cons r l => exact ⟨l, rfl⟩
    · simp only [driveMemK]
      cases hr : (S.clock k (driveInK S k qs.head?)).reqQ k with
      | nil => exact .refl _
      | cons m ms => exact Run.one (.exec _ k m ms hr)

/-! ## A concrete configuration with two caches -/

deriving instance DecidableEq for Ev

/-- One way, two sets, two words per line, 2-bit tags, 32-bit data. -/
def p1 : Params := ⟨1, 2, 1, 2, 1, false⟩

theorem p1_wf : p1.WF := ⟨by decide, by decide, by decide, by decide⟩

/-- Two caches, just reset, with garbage in their SRAMs. Proof device; not in the source. -/
def start2 (p : Params) : Sys Bool p :=
  ⟨fun _ => (garbage p).step ⟨true, false, default, true, true, false, default⟩, fun _ => [], fun _ => [], mem0⟩

theorem start2_start (p : Params) : Start (start2 p) :=
  ⟨fun _ => ⟨garbage p, ⟨true, false, default, true, true, false, default⟩, rfl, rfl⟩, fun _ => rfl, fun _ => rfl⟩

theorem split_at {α : Type} {l : List α} {n : Nat} {x : α} (h : l[n]? = some x) :
    l = l.take n ++ x :: l.drop (n + 1) := by
  obtain ⟨h1, h2⟩ := List.getElem?_eq_some_iff.1 h
  rw [← h2, List.getElem_cons_drop, List.take_append_drop]

end Verif
