import Verif.Sys

/-!
# Concrete executions

An executable environment for the system, used to show that hypotheses of the
theorems are met by concrete executions and for the negative results.
-/

namespace Verif
variable {p : Params} {ι : Type} [DecidableEq ι]

theorem Run.trans {S S' S'' : Sys ι p} {a b : List (Ev ι p)} (h : Run S a S') (h' : Run S' b S'') :
    Run S (a ++ b) S'' := by
  induction h' with
  | refl => simpa using h
  | snoc _ hs ih => rw [← List.append_assoc]; exact .snoc ih hs

theorem Run.one {S S' : Sys ι p} {ev : List (Ev ι p)} (h : Step S ev S') : Run S ev S' := by
  have := Run.snoc (.refl S) h
  simpa using this

/-- An action of the environment. Proof device; not in the source. -/
inductive Act (ι : Type) (p : Params)
  | clock (k : ι) (i : In p)
  | exec (k : ι)

/-- Perform an action if it is allowed. Proof device; not in the source. -/
def Act.perform (S : Sys ι p) : Act ι p → Option (Sys ι p × List (Ev ι p))
  | .clock k i =>
    if i.reset = false ∧ (i.reqEn = true → ((S.cache k).out i).reqRdy = true ∧ i.req.ty ≠ MT.INIT) ∧
        (i.mrespEn = true → (S.respQ k).head? = some i.mresp) then
      some (S.clock k i, S.clockEvs k i)
    else none
  | .exec k =>
    match S.reqQ k with
    | [] => none
    | m :: _ => some (S.exec k m, [.exec k m (memExec S.mem m).2])

/-- Perform actions one after the other. Proof device; not in the source. -/
def perform (S : Sys ι p) : List (Act ι p) → Option (Sys ι p × List (Ev ι p))
  | [] => some (S, [])
  | a :: as => do
    let (S', ev) ← a.perform S
    let (S'', tr) ← perform S' as
    return (S'', ev ++ tr)

theorem Act.perform_step {S S' : Sys ι p} {a : Act ι p} {ev : List (Ev ι p)}
    (h : a.perform S = some (S', ev)) : Step S ev S' := by
  cases a with
  | clock k i =>
    simp only [Act.perform] at h
    split at h
    · rename_i hc
      simp only [Option.some.injEq, Prod.mk.injEq] at h
      obtain ⟨rfl, rfl⟩ := h
      refine .clock S k i ⟨hc.1, hc.2.1, ?_⟩
      intro hm
      have := hc.2.2 hm
      cases hq : S.respQ k with
      | nil => rw [hq] at this; simp at this
      | cons a l => rw [hq] at this; simp at this; exact ⟨l, by rw [this]⟩
    · cases h
  | exec k =>
    simp only [Act.perform] at h
    split at h
    · cases h
    · rename_i m ms hq
      simp only [Option.some.injEq, Prod.mk.injEq] at h
      obtain ⟨rfl, rfl⟩ := h
      exact .exec S k m ms hq

theorem perform_run {S S' : Sys ι p} {as : List (Act ι p)} {tr : List (Ev ι p)}
    (h : perform S as = some (S', tr)) : Run S tr S' := by
  induction as generalizing S tr with
  | nil =>
    simp only [perform, Option.some.injEq, Prod.mk.injEq] at h
    obtain ⟨rfl, rfl⟩ := h
    exact .refl S
  | cons a as ih =>
    simp only [perform, Option.bind_eq_bind, Option.bind_eq_some_iff] at h
    obtain ⟨⟨S1, ev⟩, h1, ⟨S2, tr2⟩, h2, h3⟩ := h
    simp only [Option.pure_def, Option.some.injEq, Prod.mk.injEq] at h3
    obtain ⟨rfl, rfl⟩ := h3
    exact (Run.one (Act.perform_step h1)).trans (ih h2)

/-! ## A simple environment for one cache -/

/-- Inputs of a cycle in which both output ports are ready, the request `q` is
offered if the cache is ready, and the oldest memory response is delivered. Proof device; not in the source. -/
def driveIn (S : Sys Unit p) (q : Option (CReq p)) : In p :=
  let i0 : In p := ⟨false, false, default, true, true, false, default⟩
  let i1 := match q with
    | some q => if ((S.cache ()).out i0).reqRdy && (q.ty != MT.INIT) then { i0 with reqEn := true, req := q } else i0
    | none => i0
  match S.respQ () with
    | r :: _ => { i1 with mrespEn := true, mresp := r }
    | [] => i1

/-- Memory executes a request if there is one. Proof device; not in the source. -/
def driveMem (S : Sys Unit p) : Sys Unit p × List (Ev Unit p) :=
  match S.reqQ () with
  | m :: _ => (S.exec () m, [.exec () m (memExec S.mem m).2])
  | [] => (S, [])

/-- `n` cycles with the requests `qs` offered as early as possible. Proof device; not in the source. -/
def drive : Nat → Sys Unit p → List (CReq p) → Sys Unit p × List (Ev Unit p)
  | 0, S, _ => (S, [])
  | n + 1, S, qs =>
    let i := driveIn S qs.head?
    let x := driveMem (S.clock () i)
    let y := drive n x.1 (if i.reqEn then qs.tail else qs)
    (y.1, S.clockEvs () i ++ x.2 ++ y.2)

theorem out_rdy_congr (s : St p) (i i' : In p) (h1 : i.mreqRdy = i'.mreqRdy) (h2 : i.respRdy = i'.respRdy) :
    (s.out i).reqRdy = (s.out i').reqRdy := by
  simp only [St.out, St.reqRdy, St.allocEn, St.stall, St.cs2, h1, h2]

theorem drive_run (n : Nat) (S : Sys Unit p) (qs : List (CReq p)) :
    Run S (drive n S qs).2 (drive n S qs).1 := by
  induction n generalizing S qs with
  | zero => exact .refl S
  | succ n ih =>
    simp only [drive]
    refine Run.trans (Run.trans (Run.one (.clock S () _ ?_)) ?_) (ih _ _)
    · refine ⟨?_, ?_, ?_⟩
      · simp only [driveIn]; split <;> split <;> (try split) <;> rfl
      · intro h
        simp only [driveIn] at h ⊢
        cases hq : qs.head? with
        | none => rw [hq] at h; simp only at h; split at h <;> cases h
        | some q =>
          rw [hq] at h; simp only at h ⊢
          by_cases hc : (((S.cache ()).out ⟨false, false, default, true, true, false, default⟩).reqRdy &&
              (q.ty != MT.INIT)) = true
          · rw [if_pos hc]
            simp only [Bool.and_eq_true, bne_iff_ne] at hc
            refine ⟨?_, ?_⟩
            · refine Eq.trans ?_ hc.1
              apply out_rdy_congr <;> (split <;> rfl)
            · split <;> exact hc.2
          · rw [if_neg hc] at h
            split at h <;> cases h
      · intro h
        simp only [driveIn] at h ⊢
        cases hr : S.respQ () with
        | nil =>
          exfalso
          rw [hr] at h; simp only at h
          split at h
          · split at h <;> cases h
          · cases h
        | cons r l => exact ⟨l, rfl⟩
    · simp only [driveMem]
      cases hr : (S.clock () (driveIn S qs.head?)).reqQ () with
      | nil => exact .refl _
      | cons m ms => exact Run.one (.exec _ () m ms hr)

/-! ## A concrete configuration -/

/-- Two ways, two sets, two words per line, 2-bit tags, 32-bit data. -/
def p0 : Params := ⟨1, 2, 1, 2, 1, true⟩

theorem p0_wf : p0.WF := ⟨by decide, by decide, by decide, by decide⟩

/-- A power-up state with garbage in the SRAMs: every line claims to be valid,
dirty and to hold tag 1. -/
def garbage (p : Params) : St p :=
  ⟨true, .replay, 1, .refill, true, true, true, .readReq, true, true, true, default, default, 1, 3,
    fun _ => true, fun _ _ => ⟨true, 3, 1⟩, fun _ => ⟨true, 3, 1⟩, fun _ => ⟨true, 3, 1⟩, 1, default,
    (true, true), default, 1, ⟨fun _ => 5, 7⟩, 9⟩

/-- Byte `x` of memory is `x + 1`. Proof device; not in the source. -/
def mem0 : ByteMem := fun x => BitVec.ofNat 8 (x + 1)

/-- Reset of the garbage state. Proof device; not in the source. -/
def start0 (p : Params) : Sys Unit p :=
  ⟨fun _ => (garbage p).step ⟨true, false, default, true, true, false, default⟩, fun _ => [], fun _ => [], mem0⟩

theorem start0_start (p : Params) : Start (start0 p) :=
  ⟨fun _ => ⟨garbage p, ⟨true, false, default, true, true, false, default⟩, rfl, rfl⟩, fun _ => rfl, fun _ => rfl⟩

end Verif
