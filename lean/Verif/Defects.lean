import Verif.Exec
import Verif.Trace
import Verif.DriveK
import Verif.Spec
import Verif.Op

set_option linter.unusedSectionVars false

/-!
# Executions that violate what a user may expect (C14, C33, C34)

Three expectations fail for the code as it is.  Each is refuted by an execution of the
cycle-accurate model; the kernel evaluates the model on the inputs.
-/

namespace Verif
variable {p : Params} {ι : Type} [DecidableEq ι]

/-! ## C14: a memory that answers out of order -/

/-- Inputs as in `Sys.CanClock`, except that memory may deliver any undelivered response
of the port, not only the oldest. Example; not in the source. -/
structure Sys.CanClockAny (S : Sys ι p) (k : ι) (i : In p) : Prop where
  noReset : i.reset = false
  req : i.reqEn = true → ((S.cache k).out i).reqRdy = true ∧ i.req.ty ≠ MT.INIT
  mem : i.mrespEn = true → i.mresp ∈ S.respQ k

/-- A clock edge; the delivered response leaves the queue. Example; not in the source. -/
def Sys.clockAny (S : Sys ι p) (k : ι) (i : In p) : Sys ι p :=
  { S.clock k i with respQ := upd S.respQ k (if i.mrespEn then (S.respQ k).erase i.mresp else S.respQ k) }

/-- Executions with a memory that executes the requests of a port in order, answers each
exactly once and correctly, but delivers the answers in any order. Example; not in the source. -/
inductive AnyRun : Sys ι p → List (Ev ι p) → Sys ι p → Prop
  | refl (S : Sys ι p) : AnyRun S [] S
  | clock {S S' : Sys ι p} {tr : List (Ev ι p)} (h : AnyRun S tr S') (k : ι) (i : In p)
      (hc : S'.CanClockAny k i) : AnyRun S (tr ++ S'.clockEvs k i) (S'.clockAny k i)
  | exec {S S' : Sys ι p} {tr : List (Ev ι p)} (h : AnyRun S tr S') (k : ι) (m : MReq p)
      (ms : List (MReq p)) (hm : S'.reqQ k = m :: ms) :
      AnyRun S (tr ++ [.exec k m (memExec S'.mem m).2]) (S'.exec k m)

/-- Script of an environment for one cache: per cycle the request to offer and the number
of the undelivered response to deliver. Example; not in the source. -/
abbrev Script (p : Params) := List (Option (CReq p) × Option Nat)

/-- Example; not in the source. -/
def scriptIn (S : Sys Unit p) (a : Option (CReq p) × Option Nat) : In p :=
  let i0 : In p := ⟨false, false, default, true, true, false, default⟩
  let i1 := match a.1 with
    | some q => { i0 with reqEn := true, req := q }
    | none => i0
  match a.2.bind ((S.respQ ())[·]?) with
  | some r => { i1 with mrespEn := true, mresp := r }
  | none => i1

/-- Play a script; after every cycle memory executes a request if there is one. Example; not in the source. -/
def play : Sys Unit p → Script p → Option (Sys Unit p × List (Ev Unit p))
  | S, [] => some (S, [])
  | S, a :: as =>
    let i := scriptIn S a
    if i.reqEn = true → ((S.cache ()).out i).reqRdy = true ∧ i.req.ty ≠ MT.INIT then
      let x := driveMem (S.clockAny () i)
      match play x.1 as with
      | some y => some (y.1, S.clockEvs () i ++ (x.2 ++ y.2))
      | none => none
    else none

theorem play_run {S0 S : Sys Unit p} {tr0 : List (Ev Unit p)} (h0 : AnyRun S0 tr0 S) (as : Script p)
    {y : Sys Unit p × List (Ev Unit p)} (h : play S as = some y) : AnyRun S0 (tr0 ++ y.2) y.1 := by
  induction as generalizing S tr0 y with
  | nil => cases h; simpa using h0
  | cons a as ih =>
    simp only [play] at h
    split at h
    · rename_i hc
      split at h
      · rename_i z hz
        cases h
        have h1 : AnyRun S0 (tr0 ++ S.clockEvs () (scriptIn S a)) (S.clockAny () (scriptIn S a)) := by
          refine .clock h0 () _ ⟨?_, hc, ?_⟩
          · simp only [scriptIn]; split <;> split <;> rfl
          · intro hm
            simp only [scriptIn] at hm ⊢
            cases hr : a.2.bind ((S.respQ ())[·]?) with
            | none => rw [hr] at hm; simp only at hm; split at hm <;> cases hm
            | some r =>
              obtain ⟨n, _, hn⟩ := Option.bind_eq_some_iff.1 hr
              exact List.mem_of_getElem? hn
        have h2 : AnyRun S0 (tr0 ++ (S.clockEvs () (scriptIn S a) ++
            (driveMem (S.clockAny () (scriptIn S a))).2)) (driveMem (S.clockAny () (scriptIn S a))).1 := by
          rw [← List.append_assoc]
          simp only [driveMem]
          split
          · rename_i m ms hm; exact .exec h1 () m ms hm
          · simpa using h1
        have := ih h2 hz
        simpa [List.append_assoc] using this
      · cases h
    · cases h

/-- Requests for a direct-mapped cache with two sets: a write to line A, a read of the
conflicting line B, a write to a line C of the other set. -/
def wrA : CReq p1 := ⟨MT.WRITE, 0, ⟨1, 0, 0⟩, 0, 7⟩
/-- Example; not in the source. -/
def rdB : CReq p1 := ⟨MT.READ, 1, ⟨2, 0, 0⟩, 0, 0⟩
/-- Example; not in the source. -/
def wrC : CReq p1 := ⟨MT.WRITE, 0, ⟨0, 1, 0⟩, 0, 9⟩

/-- The read of B evicts A; the refill data is delivered before the acknowledgement of the
eviction, which arrives one cycle before the write to C is accepted. Example; not in the source. -/
def reorder : Script p1 :=
  List.replicate 3 (none, none) ++ [(some wrA, none), (none, none), (none, none), (none, some 0)] ++
  List.replicate 4 (none, none) ++ [(some rdB, none)] ++ List.replicate 3 (none, none) ++
  [(none, some 1), (none, none), (none, none), (none, some 0), (some wrC, none)] ++
  List.replicate 12 (none, none)

/-- **C14.**  There is an execution in which memory performs the requests of the cache in
order, answers each once and correctly, and everything is delivered in the end, but the
write accepted third is never performed: the third response is another answer to
the second request (type, opaque field and data). -/
theorem C14_reordering_loses_a_request :
    ∃ (S S' : Sys Unit p1) (tr : List (Ev Unit p1)), p1.WF ∧ Start S ∧ AnyRun S tr S' ∧
      S'.reqQ () = [] ∧ S'.respQ () = [] ∧
      accepted () tr = [wrA, rdB, wrC] ∧
      (responses () tr).map (fun r => (r.ty.toNat, r.opq.toNat)) = [(1, 0), (0, 1), (0, 1)] ∧
      ∃ i : In p1, ((S'.cache ()).out i).reqRdy = true := by
  have hx : (match play (start0 p1) reorder with
      | some x => decide ((x.1.reqQ ()).length = 0 ∧ (x.1.respQ ()).length = 0 ∧
          accepted () x.2 = [wrA, rdB, wrC] ∧
          (responses () x.2).map (fun r => (r.ty.toNat, r.opq.toNat)) = [(1, 0), (0, 1), (0, 1)] ∧
          ((x.1.cache ()).out (scriptIn x.1 (none, none))).reqRdy = true)
      | none => false) = true := by decide +kernel
  split at hx
  · rename_i x hp
    obtain ⟨h1, h2, h3, h4, h5⟩ := of_decide_eq_true hx
    have := play_run (.refl (start0 p1)) reorder hp
    exact ⟨start0 p1, x.1, x.2, p1_wf, start0_start p1, by simpa using this,
      List.eq_nil_of_length_eq_zero h1, List.eq_nil_of_length_eq_zero h2, h3, h4, _, h5⟩
  · cases hx

/-! ## C33: writes wider than a word -/

/-- Direct mapped, two sets; 64-bit data with two-word lines, 128-bit data with four-word
lines. -/
def p64 : Params := ⟨1, 2, 1, 3, 1, false⟩
/-- Example; not in the source. -/
def p128 : Params := ⟨1, 2, 2, 4, 1, false⟩

theorem p64_wf : p64.WF := ⟨by decide, by decide, by decide, by decide⟩
theorem p128_wf : p128.WF := ⟨by decide, by decide, by decide, by decide⟩

/-- A full-width write to address A, a read of a conflicting line, a full-width read of A. -/
def wide64 : List (CReq p64) :=
  [⟨MT.WRITE, 0, ⟨1, 0, 0⟩, 0, 0x1122334455667788#64⟩, ⟨MT.READ, 1, ⟨2, 0, 0⟩, 0, 0⟩,
   ⟨MT.READ, 0, ⟨1, 0, 0⟩, 0, 0⟩]
/-- Example; not in the source. -/
def wide128 : List (CReq p128) :=
  [⟨MT.WRITE, 0, ⟨1, 0, 0⟩, 0, 0x11223344556677889900aabbccddeeff#128⟩, ⟨MT.READ, 1, ⟨2, 0, 0⟩, 0, 0⟩,
   ⟨MT.READ, 0, ⟨1, 0, 0⟩, 0, 0⟩]

/-- **C33 is false of the code** (64-bit data): an 8-byte write, then an eviction of its
line, then an 8-byte read of the same address.  The read returns the written value
in the low word only; the high word is the old memory content. -/
theorem C33_wide_write_loses_words :
    ∃ (S S' : Sys Unit p64) (tr : List (Ev Unit p64)), p64.WF ∧ Start S ∧ Run S tr S' ∧
      accepted () tr = wide64 ∧
      (flatRun S.mem (accepted () tr)).2.map BitVec.toNat =
        [0, readLE S.mem 32 8, 0x1122334455667788] ∧
      (responses () tr).map (fun r => r.data.toNat) =
        [0, readLE S.mem 32 8, readLE S.mem 20 4 * 2 ^ 32 + 0x55667788] ∧
      readLE S.mem 20 4 ≠ 0x11223344 :=
  ⟨start0 p64, _, _, p64_wf, start0_start p64, drive_run 60 _ wide64, by decide +kernel,
    by decide +kernel, by decide +kernel, by decide +kernel⟩

/-- The same with 128-bit data: three of the four words are lost. -/
theorem C33_wide_write_loses_words_128 :
    ∃ (S S' : Sys Unit p128) (tr : List (Ev Unit p128)), p128.WF ∧ Start S ∧ Run S tr S' ∧
      accepted () tr = wide128 ∧
      (flatRun S.mem (accepted () tr)).2.map BitVec.toNat =
        [0, readLE S.mem 64 16, 0x11223344556677889900aabbccddeeff] ∧
      (responses () tr).map (fun r => r.data.toNat) =
        [0, readLE S.mem 64 16, readLE S.mem 36 12 * 2 ^ 32 + 0xccddeeff] ∧
      readLE S.mem 36 12 ≠ 0x11223344556677889900aabb :=
  ⟨start0 p128, _, _, p128_wf, start0_start p128, drive_run 60 _ wide128, by decide +kernel,
    by decide +kernel, by decide +kernel, by decide +kernel⟩

/-- The cause, for every configuration and every write that is not the double-word form: a
hit or a replayed write marks exactly one word dirty, whatever its length. -/
theorem C33_cause (e : Entry p) (off : Off p) (len : Len p) (d : Dty p) (h : len.toNat ≠ 3) (j : Nat)
    (hne : j ≠ (wordOf p off).toNat) :
    (updateTag p .wrHit e off len d).dty.getLsbD j = e.dty.getLsbD j ∧
    (updateTag p .wrRefill e off len d).dty.getLsbD j = d.getLsbD j := by
  have : ∀ x : Dty p, (markDirty p x off len).getLsbD j = x.getLsbD j := by
    intro x
    simp only [markDirty, if_neg h]
    rw [getLsbD_setBit]
    simp [Ne.symm hne]
  exact ⟨this _, this _⟩

/-! ## C34: WRITE_INIT -/

/-- Executions as in `Run`, with WRITE_INIT requests allowed as well. Example; not in the source. -/
inductive InitRun : Sys ι p → List (Ev ι p) → Sys ι p → Prop
  | refl (S : Sys ι p) : InitRun S [] S
  | clock {S S' : Sys ι p} {tr : List (Ev ι p)} (h : InitRun S tr S') (k : ι) (i : In p)
      (noReset : i.reset = false)
      (req : i.reqEn = true → ((S'.cache k).out i).reqRdy = true)
      (mem : i.mrespEn = true → ∃ l, S'.respQ k = i.mresp :: l) :
      InitRun S (tr ++ S'.clockEvs k i) (S'.clock k i)
  | exec {S S' : Sys ι p} {tr : List (Ev ι p)} (h : InitRun S tr S') (k : ι) (m : MReq p)
      (ms : List (MReq p)) (hm : S'.reqQ k = m :: ms) :
      InitRun S (tr ++ [.exec k m (memExec S'.mem m).2]) (S'.exec k m)

/-- Example; not in the source. -/
def initIn (S : Sys Unit p) (q : Option (CReq p)) : In p :=
  let i0 : In p := ⟨false, false, default, true, true, false, default⟩
  let i1 := match q with
    | some q => if ((S.cache ()).out i0).reqRdy then { i0 with reqEn := true, req := q } else i0
    | none => i0
  match S.respQ () with
    | r :: _ => { i1 with mrespEn := true, mresp := r }
    | [] => i1

/-- As `drive`, with WRITE_INIT requests. Example; not in the source. -/
def initDrive : Nat → Sys Unit p → List (CReq p) → Sys Unit p × List (Ev Unit p)
  | 0, S, _ => (S, [])
  | n + 1, S, qs =>
    let i := initIn S qs.head?
    let x := driveMem (S.clock () i)
    let y := initDrive n x.1 (if i.reqEn then qs.tail else qs)
    (y.1, S.clockEvs () i ++ (x.2 ++ y.2))

theorem initDrive_run (n : Nat) {S0 S : Sys Unit p} {tr0 : List (Ev Unit p)} (h0 : InitRun S0 tr0 S)
    (qs : List (CReq p)) : InitRun S0 (tr0 ++ (initDrive n S qs).2) (initDrive n S qs).1 := by
  induction n generalizing S tr0 qs with
  | zero => simpa [initDrive] using h0
  | succ n ih =>
    simp only [initDrive]
    have h1 : InitRun S0 (tr0 ++ S.clockEvs () (initIn S qs.head?)) (S.clock () (initIn S qs.head?)) := by
      refine .clock h0 () _ ?_ ?_ ?_
      · simp only [initIn]; split <;> split <;> (try split) <;> rfl
      · intro h
        simp only [initIn] at h ⊢
        cases hq : qs.head? with
        | none => rw [hq] at h; simp only at h; split at h <;> cases h
        | some q =>
          rw [hq] at h
          simp only at h ⊢
          by_cases hc : ((S.cache ()).out ⟨false, false, default, true, true, false, default⟩).reqRdy = true
          · rw [if_pos hc]
            refine Eq.trans ?_ hc
            apply out_rdy_congr <;> (split <;> rfl)
          · rw [if_neg hc] at h
            split at h <;> cases h
      · intro hm
        simp only [initIn] at hm ⊢
        cases hr : S.respQ () with
        | nil =>
          rw [hr] at hm; simp only at hm
          split at hm
          · split at hm <;> cases hm
          · cases hm
        | cons r l => exact ⟨l, rfl⟩
    have h2 : InitRun S0 (tr0 ++ (S.clockEvs () (initIn S qs.head?) ++
        (driveMem (S.clock () (initIn S qs.head?))).2)) (driveMem (S.clock () (initIn S qs.head?))).1 := by
      rw [← List.append_assoc]
      simp only [driveMem]
      split
      · rename_i m ms hm; exact .exec h1 () m ms hm
      · simpa using h1
    have := ih h2 (if (initIn S qs.head?).reqEn then qs.tail else qs)
    simpa [List.append_assoc] using this

/-- A write of 6 to address A, a WRITE_INIT of 7 to the conflicting address B, a read of A. Example; not in the source. -/
def initReqs (p : Params) : List (CReq p) :=
  [⟨MT.WRITE, 0, ⟨1, 0, 0⟩, 0, 6⟩, ⟨MT.INIT, 0, ⟨2, 0, 0⟩, 0, 7⟩, ⟨MT.READ, 0, ⟨1, 0, 0⟩, 0, 0⟩]

/-- **C34 is false of the code** (two ways): after a write of 6 to address A and a WRITE_INIT
of 7 to another address, a read of A returns 7. -/
theorem C34_write_init_corrupts :
    ∃ (S S' : Sys Unit p0) (tr : List (Ev Unit p0)), p0.WF ∧ Start S ∧ InitRun S tr S' ∧
      accepted () tr = initReqs p0 ∧
      (responses () tr).map (fun r => (r.ty.toNat, r.data.toNat)) = [(1, 0), (2, 0), (0, 7)] :=
  ⟨start0 p0, _, _, p0_wf, start0_start p0, by simpa using initDrive_run 40 (.refl (start0 p0)) (initReqs p0),
    by decide +kernel, by decide +kernel⟩

/-- One way: the write to A is lost, the read returns the initial memory content. -/
theorem C34_write_init_corrupts_direct :
    ∃ (S S' : Sys Unit p1) (tr : List (Ev Unit p1)), p1.WF ∧ Start S ∧ InitRun S tr S' ∧
      accepted () tr = initReqs p1 ∧
      (responses () tr).map (fun r => (r.ty.toNat, r.data.toNat)) =
        [(1, 0), (2, 0), (0, readLE S.mem 16 4)] ∧ readLE S.mem 16 4 ≠ 6 :=
  ⟨start0 p1, _, _, p1_wf, start0_start p1, by simpa using initDrive_run 40 (.refl (start0 p1)) (initReqs p1),
    by decide +kernel, by decide +kernel, by decide +kernel⟩

end Verif
