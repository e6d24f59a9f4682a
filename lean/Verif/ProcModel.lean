import Verif.PropsBlocking
import Verif.Exec

set_option linter.unusedSectionVars false

/-!
# The processor model in front of a cache (C36)

`ProcModel` (test/ProcModel.py) counts the transactions in flight in a two-bit
register and withholds the response-ready signal in some cycles.
-/

namespace Verif
variable {p : Params} {ι : Type} [DecidableEq ι]

/-- `cache.resp.rdy`, `signal_model`, test/ProcModel.py:33-41. -/
def procRespRdy (inFlight : BitVec 2) (procRespRdy cacheReqRdy : Bool) : Bool :=
  if inFlight = 0 then procRespRdy && cacheReqRdy else procRespRdy

/-- `trans_in_flight.in_`, `update_trans_in_flight`, test/ProcModel.py:45-51. -/
def procNext (inFlight : BitVec 2) (reqEn respEn : Bool) : BitVec 2 :=
  if reqEn && !respEn then inFlight + 1
  else if !reqEn && respEn then inFlight - 1
  else inFlight

/-- Caches, memory and one processor model per cache (test/sim_utils.py:127-150). -/
structure PSys (ι : Type) (p : Params) where
  sys : Sys ι p
  inFlight : ι → BitVec 2

/-- A step: a clock edge of a cache and its processor model (`rdy` is the readiness of
the sink behind the processor model; the response-ready input of the cache is the
one the processor model computes), or an execution step of memory (test/ProcModel.py:17-50). -/
inductive PStep : PSys ι p → List (Ev ι p) → PSys ι p → Prop
  | clock (P : PSys ι p) (k : ι) (i : In p) (rdy : Bool) (h : P.sys.CanClock k i)
      (hr : i.respRdy = procRespRdy (P.inFlight k) rdy ((P.sys.cache k).out i).reqRdy) :
      PStep P (P.sys.clockEvs k i)
        ⟨P.sys.clock k i,
          upd P.inFlight k (procNext (P.inFlight k) i.reqEn ((P.sys.cache k).out i).respEn)⟩
  | exec (P : PSys ι p) (k : ι) (m : MReq p) (ms : List (MReq p)) (h : P.sys.reqQ k = m :: ms) :
      PStep P [.exec k m (memExec P.sys.mem m).2] ⟨P.sys.exec k m, P.inFlight⟩

/-- A finite execution (not in the source: iteration). -/
inductive PRun : PSys ι p → List (Ev ι p) → PSys ι p → Prop
  | refl (P : PSys ι p) : PRun P [] P
  | snoc {P P' P'' : PSys ι p} {tr ev : List (Ev ι p)} (h : PRun P tr P') (hs : PStep P' ev P'') :
      PRun P (tr ++ ev) P''

/-- Reset: counters at zero, caches just reset (test/ProcModel.py:31). -/
structure PStart (P : PSys ι p) : Prop where
  sys : Start P.sys
  cnt : ∀ k, P.inFlight k = 0

/-- The caches and memory inside an execution with processor models behave as an
execution of the open system. -/
theorem PRun.open {P P' : PSys ι p} {tr : List (Ev ι p)} (h : PRun P tr P') : Run P.sys tr P'.sys := by
  induction h with
  | refl => exact .refl _
  | snoc h hs ih =>
    refine ih.snoc ?_
    cases hs with
    | clock k i rdy h hr => exact .clock _ k i h
    | exec k m ms h => exact .exec _ k m ms h

theorem accepted_clock_len (S : Sys ι p) (k : ι) (i : In p) :
    (accepted k (S.clockEvs k i)).length = i.reqEn.toNat := by
  simp only [Sys.clockEvs]
  cases i.reqEn <;> cases ((S.cache k).out i).mreqEn <;> cases ((S.cache k).out i).respEn <;>
    simp [accepted]

theorem responses_clock_len (S : Sys ι p) (k : ι) (i : In p) :
    (responses k (S.clockEvs k i)).length = ((S.cache k).out i).respEn.toNat := by
  simp only [Sys.clockEvs]
  cases i.reqEn <;> cases ((S.cache k).out i).mreqEn <;> cases ((S.cache k).out i).respEn <;>
    simp [responses]

theorem clockEvs_other (S : Sys ι p) {k k' : ι} (h : k' ≠ k) (i : In p) :
    accepted k' (S.clockEvs k i) = [] ∧ responses k' (S.clockEvs k i) = [] := by
  have : ¬ k = k' := fun e => h e.symm
  simp only [Sys.clockEvs]
  cases i.reqEn <;> cases ((S.cache k).out i).mreqEn <;> cases ((S.cache k).out i).respEn <;>
    simp [accepted, responses, this]

/-- **C36.**  In every execution the two-bit counter of every processor model equals the
number of accepted requests minus the number of delivered responses, which is at most
2: it never wraps, in either direction. -/
theorem C36_counter_exact (wf : p.WF) {P P' : PSys ι p} {tr : List (Ev ι p)} (h0 : PStart P)
    (h : PRun P tr P') (k : ι) :
    (responses k tr).length + (P'.inFlight k).toNat = (accepted k tr).length ∧
    (P'.inFlight k).toNat ≤ 2 := by
  have key : (responses k tr).length + (P'.inFlight k).toNat = (accepted k tr).length := by
    induction h with
    | refl => simp [h0.cnt k, responses, accepted]
    | @snoc P' P'' tr ev h hs ih =>
      have b := C06_at_most_two_unanswered wf h0.sys h.open k
      have b' := C06_at_most_two_unanswered wf h0.sys (h.snoc hs).open k
      rw [accepted_append, responses_append, List.length_append, List.length_append] at *
      cases hs with
      | exec j m ms h => simpa [accepted, responses] using ih
      | clock j i rdy hc hr =>
        by_cases hj : k = j
        · subst hj
          rw [accepted_clock_len, responses_clock_len] at *
          simp only [upd_same, procNext]
          have hlt := (P'.inFlight k).isLt
          have e1 : (1 : BitVec 2).toNat = 1 := rfl
          generalize P'.inFlight k = c at *
          generalize i.reqEn = x at *
          generalize ((P'.sys.cache k).out i).respEn = y at *
          cases x <;> cases y <;>
            simp only [Bool.toNat_true, Bool.toNat_false, Bool.not_true, Bool.not_false, Bool.and_true,
              Bool.and_false, Bool.false_eq_true, if_false, if_true, BitVec.toNat_sub,
              BitVec.toNat_add, e1] at * <;> omega
        · have := clockEvs_other P'.sys hj i
          simp only [this.1, this.2, upd_other _ hj, List.length_nil, Nat.add_zero]
          exact ih
  have b := C06_at_most_two_unanswered wf h0.sys h.open k
  exact ⟨key, by omega⟩

/-! ## The combinational path through the processor model -/

/-- The cache inputs with a given response-ready (test/ProcModel.py:38-40). -/
def In.withRdy (i : In p) (b : Bool) : In p := { i with respRdy := b }

theorem In.withRdy_self (i : In p) : i.withRdy i.respRdy = i := rfl

/-- Only the stall condition of the M2 stage looks at response-ready. -/
theorem reqRdy_withRdy (s : St p) (i : In p) (b : Bool)
    (h : (s.cs2 (i.withRdy b)).ostall = (s.cs2 i).ostall) :
    s.reqRdy (i.withRdy b) = s.reqRdy i := by
  have h1 : s.stall (i.withRdy b) = s.stall i := by simp only [St.stall, h]
  have h2 : s.allocEn (i.withRdy b) = s.allocEn i := by simp only [St.allocEn, h1]
  simp only [St.reqRdy, h1, h2]

/-- A cache that is ready for a request although responses are not accepted is also
ready when they are. -/
theorem reqRdy_mono (s : St p) (i : In p) (h : s.reqRdy (i.withRdy false) = true) (b : Bool) :
    s.reqRdy (i.withRdy b) = true := by
  have hs : s.stall (i.withRdy false) = false := by
    simp only [St.reqRdy] at h
    cases hx : s.stall (i.withRdy false)
    · rfl
    · rw [hx] at h; simp at h
  have ho : (s.cs2 (i.withRdy false)).ostall = false := by
    simp only [St.stall, Bool.or_eq_false_iff] at hs
    exact hs.2
  have hb : blocking s.t2 = false := by
    simp only [St.cs2, cs2_ostall, In.withRdy, Bool.and_false, Bool.not_false, Bool.and_true] at ho
    exact ho
  have : (i.withRdy false).withRdy b = i.withRdy b := rfl
  rw [← this, reqRdy_withRdy _ _ _ (by rw [ostall_nonblocking s _ hb, ostall_nonblocking s _ hb]), h]

/-- The response-ready input of the cache is a solution of the combinational equations
of the processor model and the cache (`rdy`: readiness of the sink) (test/ProcModel.py:33-40). -/
def Consistent (s : St p) (inFlight : BitVec 2) (rdy : Bool) (i : In p) : Prop :=
  i.respRdy = procRespRdy inFlight rdy (s.out i).reqRdy

/-- The equations always have a solution. -/
theorem consistent_exists (s : St p) (c : BitVec 2) (rdy : Bool) (i : In p) :
    ∃ b, Consistent s c rdy (i.withRdy b) := by
  by_cases hc : c = 0
  · cases hr : rdy
    · exact ⟨false, by simp [Consistent, procRespRdy, hc, In.withRdy]⟩
    · cases ht : s.reqRdy (i.withRdy true)
      · refine ⟨false, ?_⟩
        cases hf : s.reqRdy (i.withRdy false)
        · simp [Consistent, procRespRdy, hc, In.withRdy, St.out]
          simpa [In.withRdy] using hf
        · rw [reqRdy_mono s i hf true] at ht; cases ht
      · refine ⟨true, ?_⟩
        simp [Consistent, procRespRdy, hc, In.withRdy, St.out]
        simpa [In.withRdy] using ht
  · exact ⟨rdy, by simp only [Consistent, procRespRdy, if_neg hc, In.withRdy]⟩

/-! ## A concrete execution -/

/-- Cycles of one cache behind a processor model whose sink is always ready; requests
offered as early as possible, memory as fast as possible (not in the source: example driver). -/
def drivePIn (P : PSys Unit p) (q : Option (CReq p)) : In p :=
  let i := driveIn P.sys q
  let i' := { i with reqEn := false }
  let b := procRespRdy (P.inFlight ()) true ((P.sys.cache ()).out i').reqRdy
  if b then i else i'.withRdy false

/-- Iteration of `drivePIn`; not in the source. -/
def driveP : Nat → PSys Unit p → List (CReq p) → Option (PSys Unit p × List (Ev Unit p))
  | 0, P, _ => some (P, [])
  | n + 1, P, qs =>
    let i := drivePIn P qs.head?
    let o := (P.sys.cache ()).out i
    if i.respRdy = procRespRdy (P.inFlight ()) true o.reqRdy ∧ i.reset = false ∧
        (i.reqEn = true → o.reqRdy = true ∧ i.req.ty ≠ MT.INIT) then
      let x := driveMem (P.sys.clock () i)
      match driveP n ⟨x.1, upd P.inFlight () (procNext (P.inFlight ()) i.reqEn o.respEn)⟩
        (if i.reqEn then qs.tail else qs) with
      | some y => some (y.1, P.sys.clockEvs () i ++ x.2 ++ y.2)
      | none => none
    else none

theorem PRun.trans {P P' P'' : PSys ι p} {tr tr' : List (Ev ι p)} (h : PRun P tr P') (h' : PRun P' tr' P'') :
    PRun P (tr ++ tr') P'' := by
  induction h' with
  | refl => simpa using h
  | snoc _ hs ih => rw [← List.append_assoc]; exact ih.snoc hs

theorem PRun.one {P P' : PSys ι p} {ev : List (Ev ι p)} (h : PStep P ev P') : PRun P ev P' := by
  simpa using (PRun.refl P).snoc h

theorem driveP_run (n : Nat) (P P' : PSys Unit p) (qs : List (CReq p)) (tr : List (Ev Unit p))
    (h : driveP n P qs = some (P', tr)) : PRun P tr P' := by
  induction n generalizing P qs tr with
  | zero => cases h; exact .refl _
  | succ n ih =>
    simp only [driveP] at h
    split at h
    · rename_i hc
      obtain ⟨h1, h2, h3⟩ := hc
      split at h
      · rename_i y hy
        cases h
        refine PRun.trans (PRun.trans (PRun.one (.clock P () _ true ⟨h2, h3, ?_⟩ h1)) ?_) (ih _ _ _ hy)
        · intro hm
          have e : (drivePIn P qs.head?).mrespEn = (driveIn P.sys qs.head?).mrespEn ∧
              (drivePIn P qs.head?).mresp = (driveIn P.sys qs.head?).mresp := by
            simp only [drivePIn, In.withRdy]; split <;> exact ⟨rfl, rfl⟩
          rw [e.1] at hm
          rw [e.2]
          simp only [driveIn] at hm ⊢
          cases hr : P.sys.respQ () with
          | nil =>
            rw [hr] at hm; simp only at hm
            split at hm
            · split at hm <;> cases hm
            · cases hm
          | cons r l => exact ⟨l, rfl⟩
        · simp only [driveMem]
          split
          · rename_i m ms hm
            exact PRun.one (.exec _ () m ms hm)
          · exact .refl _
      · cases h
    · cases h

/-- Six requests behind a processor model: the run exists, the counter reaches 2 and
all requests are answered (not in the source: example). -/
def procReqs : List (CReq p0) :=
  [⟨MT.WRITE, 0, ⟨1, 0, 0⟩, 0, 5⟩, ⟨MT.READ, 1, ⟨1, 0, 0⟩, 0, 0⟩, ⟨MT.READ, 0, ⟨1, 0, 0⟩, 0, 0⟩,
   ⟨MT.READ, 1, ⟨1, 0, 0⟩, 0, 0⟩, ⟨MT.READ, 0, ⟨2, 0, 0⟩, 0, 0⟩, ⟨MT.FLUSH, 1, ⟨2, 0, 0⟩, 0, 0⟩]

example : ∃ P' tr, PRun (⟨start0 p0, fun _ => 0⟩ : PSys Unit p0) tr P' ∧
    (accepted () tr).length = 5 ∧ (responses () tr).length = 3 ∧ (P'.inFlight ()).toNat = 2 := by
  have hx : ∃ x, driveP 14 (⟨start0 p0, fun _ => 0⟩ : PSys Unit p0) procReqs = some x ∧
      (accepted () x.2).length = 5 ∧ (responses () x.2).length = 3 ∧ (x.1.inFlight ()).toNat = 2 := by
    have : (match driveP 14 (⟨start0 p0, fun _ => 0⟩ : PSys Unit p0) procReqs with
      | some x => decide ((accepted () x.2).length = 5 ∧ (responses () x.2).length = 3 ∧
          (x.1.inFlight ()).toNat = 2)
      | none => false) = true := by decide +kernel
    split at this
    · rename_i x hx; exact ⟨x, hx, of_decide_eq_true this⟩
    · cases this
  obtain ⟨⟨P', tr⟩, h1, h2⟩ := hx
  exact ⟨P', tr, driveP_run _ _ _ _ _ h1, h2⟩

end Verif
