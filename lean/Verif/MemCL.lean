import Verif.SpecUnits
import Verif.Sys
import Verif.Bytes

set_option linter.unusedSectionVars false

/-!
# The test memory with any number of ports (C28)

`MemoryCL` (test/MemoryCL.py) with its ports, request queues and response
queues.  The delay pipes and stall units of the PyMTL3 standard library
(`DelayPipeDeqCL`, `DelayPipeSendCL`, `StallCL`) are modelled as FIFO queues
whose readiness is arbitrary in every cycle; latencies and stall probabilities
only restrict that choice.
-/

namespace Verif
variable {p : Params} {ι : Type} [DecidableEq ι]

/-- Execution of one request, test/MemoryCL.py:70-100; `mask` says whether the
request type of the port has a `wr_mask` field (line 85). -/
def memExecG (mask : Bool) (M : ByteMem) (m : MReq p) : ByteMem × MResp p :=
  if m.ty = MT.WRITE ∧ mask = false then
    (writeLE M m.addr.flat m.bytes m.data.toNat, ⟨m.ty, m.opq, 0⟩)
  else memExec M m

/-- The requests that `up_mem` executes without an exception.  An AMO (any type other than READ and WRITE, line 95)
needs a port with write masks, because the response of an AMO is always built with six fields
(`resp_classes[i]( req.type_, req.opaque, 0, req.len, 0, ... )`, lines 98-99) while a response type without mask
has five; an entry in the table of AMO functions; and a length of 4 bytes, because the operand is always 32 bits
wide (line 97) and PyMTL3 does not combine operands of different widths. -/
def memFine (mask : Bool) (m : MReq p) : Bool :=
  m.ty == MT.READ || m.ty == MT.WRITE ||
    (mask && decide (3 ≤ m.ty.toNat) && decide (m.ty.toNat ≤ 11) && decide (m.bytes = 4))

/-- Queues and contents, test/MemoryCL.py:41-53. -/
structure MemSt (ι : Type) (p : Params) where
  reqQ : ι → List (MReq p)
  respQ : ι → List (MResp p)
  mem : ByteMem

/-- The body of the loop of `up_mem` for port `k`, test/MemoryCL.py:66-102; `rdy` is
`deq.rdy() and enq.rdy()`.  Returns the executed request and its response; `none` is an exception. -/
def MemSt.port (mask : ι → Bool) (S : MemSt ι p) (k : ι) (rdy : Bool) :
    Option (MemSt ι p × List (ι × MReq p × MResp p)) :=
  match rdy, S.reqQ k with
  | true, m :: ms =>
    if memFine (mask k) m then
      let r := memExecG (mask k) S.mem m
      some (⟨upd S.reqQ k ms, upd S.respQ k (S.respQ k ++ [r.2]), r.1⟩, [(k, m, r.2)])
    else none
  | _, _ => some (S, [])

/-- `up_mem`, test/MemoryCL.py:63-102: the ports one after the other in one cycle. -/
def MemSt.upMem (mask : ι → Bool) (S : MemSt ι p) (rdy : ι → Bool) :
    List ι → Option (MemSt ι p × List (ι × MReq p × MResp p))
  | [] => some (S, [])
  | k :: ks =>
    match S.port mask k (rdy k) with
    | none => none
    | some a =>
      match a.1.upMem mask rdy ks with
      | none => none
      | some b => some (b.1, a.2 ++ b.2)

/-- What happens at the memory (test/MemoryCL.py:44-104). -/
inductive MemOp (ι : Type) (p : Params)
  /-- a request arrives at a port -/
  | enq (k : ι) (m : MReq p)
  /-- one cycle of `up_mem` over all ports, with the given queue readiness -/
  | cycle (rdy : ι → Bool)
  /-- a port delivers its oldest response, if it has one -/
  | deq (k : ι)

/-- State together with its history: requests that arrived and responses that were
delivered per port, and the requests executed, in order of execution
(not in the source: history of test/MemoryCL.py:44-104). -/
structure MemHist (ι : Type) (p : Params) where
  st : MemSt ι p
  arrived : ι → List (MReq p)
  delivered : ι → List (MResp p)
  log : List (ι × MReq p × MResp p)

/-- One operation; `ports` are the ports in loop order.  An exception ends the simulation (`none`)
(test/MemoryCL.py:54-104). -/
def MemHist.step (mask : ι → Bool) (ports : List ι) (H : MemHist ι p) : MemOp ι p → Option (MemHist ι p)
  | .enq k m => some { H with
      st := { H.st with reqQ := upd H.st.reqQ k (H.st.reqQ k ++ [m]) }
      arrived := upd H.arrived k (H.arrived k ++ [m]) }
  | .cycle rdy =>
    match H.st.upMem mask rdy ports with
    | none => none
    | some r => some { H with st := r.1, log := H.log ++ r.2 }
  | .deq k =>
    match H.st.respQ k with
    | [] => some H
    | r :: rs => some { H with
        st := { H.st with respQ := upd H.st.respQ k rs }
        delivered := upd H.delivered k (H.delivered k ++ [r]) }

/-- Any sequence of operations (test/MemoryCL.py:54-104). -/
def MemHist.run (mask : ι → Bool) (ports : List ι) (H : MemHist ι p) : List (MemOp ι p) → Option (MemHist ι p)
  | [] => some H
  | o :: os =>
    match H.step mask ports o with
    | none => none
    | some H' => H'.run mask ports os

/-- Power-up: empty queues, arbitrary contents (test/MemoryCL.py:40-52). -/
def MemHist.start (ι : Type) (p : Params) (M : ByteMem) : MemHist ι p :=
  ⟨⟨fun _ => [], fun _ => [], M⟩, fun _ => [], fun _ => [], []⟩

/-- Requests of port `k` in an execution log (not in the source: projection of the history). -/
def logReqs (k : ι) (l : List (ι × MReq p × MResp p)) : List (MReq p) :=
  (l.filter (fun e => decide (e.1 = k))).map (·.2.1)

/-- Responses of port `k` in an execution log (not in the source: projection of the history). -/
def logResps (k : ι) (l : List (ι × MReq p × MResp p)) : List (MResp p) :=
  (l.filter (fun e => decide (e.1 = k))).map (·.2.2)

/-- Specification: the log is a sequential execution from memory `M` to `M'`. -/
inductive SerialLog (mask : ι → Bool) : ByteMem → List (ι × MReq p × MResp p) → ByteMem → Prop
  | nil (M : ByteMem) : SerialLog mask M [] M
  | snoc {M M' : ByteMem} {l : List (ι × MReq p × MResp p)} (k : ι) (m : MReq p)
      (h : SerialLog mask M l M') :
      SerialLog mask M (l ++ [(k, m, (memExecG (mask k) M' m).2)]) (memExecG (mask k) M' m).1

theorem logReqs_append (k : ι) (a b : List (ι × MReq p × MResp p)) :
    logReqs k (a ++ b) = logReqs k a ++ logReqs k b := by simp [logReqs]
theorem logResps_append (k : ι) (a b : List (ι × MReq p × MResp p)) :
    logResps k (a ++ b) = logResps k a ++ logResps k b := by simp [logResps]

/-- Invariant of a history (proof device). -/
structure MemInv (mask : ι → Bool) (M0 : ByteMem) (H : MemHist ι p) : Prop where
  arrived : ∀ k, H.arrived k = logReqs k H.log ++ H.st.reqQ k
  delivered : ∀ k, H.delivered k ++ H.st.respQ k = logResps k H.log
  serial : SerialLog mask M0 H.log H.st.mem

theorem MemInv.port {mask : ι → Bool} {M0 : ByteMem} {H : MemHist ι p} (h : MemInv mask M0 H) (k : ι)
    (rdy : Bool) {a : MemSt ι p × List (ι × MReq p × MResp p)} (ha : H.st.port mask k rdy = some a) : MemInv mask M0
      { H with st := a.1, log := H.log ++ a.2 } := by
  obtain ⟨⟨rq, pq, M⟩, ar, de, lg⟩ := H
  obtain ⟨h1, h2, h3⟩ := h
  dsimp only at h1 h2 h3
  simp only [MemSt.port] at ha
  cases rdy
  · cases ha; simpa using ⟨h1, h2, h3⟩
  cases hq : rq k with
  | nil => rw [hq] at ha; cases ha; simpa using ⟨h1, h2, h3⟩
  | cons m ms =>
    rw [hq] at ha
    dsimp only at ha
    split at ha
    case isFalse => cases ha
    cases ha
    refine ⟨fun j => ?_, fun j => ?_, h3.snoc k m⟩
    · by_cases hj : j = k
      · subst hj; simp only [logReqs_append, upd_same, h1 j, hq]; simp [logReqs]
      · have : ¬ k = j := fun h => hj h.symm
        simp only [logReqs_append, upd_other _ hj, h1 j]; simp [logReqs, this]
    · by_cases hj : j = k
      · subst hj; simp only [logResps_append, upd_same, ← List.append_assoc, h2 j]; simp [logResps]
      · have : ¬ k = j := fun h => hj h.symm
        simp only [logResps_append, upd_other _ hj, h2 j]; simp [logResps, this]

theorem MemInv.upMem {mask : ι → Bool} {M0 : ByteMem} (ks : List ι) (rdy : ι → Bool) :
    ∀ {H : MemHist ι p}, MemInv mask M0 H → ∀ {a}, H.st.upMem mask rdy ks = some a →
      MemInv mask M0 { H with st := a.1, log := H.log ++ a.2 } := by
  induction ks with
  | nil => intro H h a ha; simp only [MemSt.upMem] at ha; cases ha; simpa using ⟨h.1, h.2, h.3⟩
  | cons k ks ih =>
    intro H h a ha
    simp only [MemSt.upMem] at ha
    split at ha
    · cases ha
    rename_i b hb
    split at ha
    · cases ha
    rename_i c hc
    cases ha
    have h1 := ih (h.port k (rdy k) hb) hc
    rw [← List.append_assoc]
    exact h1

theorem MemInv.step {mask : ι → Bool} {M0 : ByteMem} (ports : List ι) {H H' : MemHist ι p}
    (h : MemInv mask M0 H) (o : MemOp ι p) (ho : H.step mask ports o = some H') : MemInv mask M0 H' := by
  cases o with
  | enq k m =>
    cases ho
    refine ⟨fun j => ?_, h.2, h.3⟩
    by_cases hj : j = k
    · subst hj; simp only [upd_same, h.1 j, List.append_assoc]
    · simp only [upd_other _ hj, h.1 j]
  | cycle rdy =>
    simp only [MemHist.step] at ho
    split at ho
    · cases ho
    · cases ho; exact h.upMem ports rdy ‹_›
  | deq k =>
    simp only [MemHist.step] at ho
    cases hq : H.st.respQ k with
    | nil => rw [hq] at ho; cases ho; exact h
    | cons r rs =>
      rw [hq] at ho; cases ho
      refine ⟨h.1, fun j => ?_, h.3⟩
      by_cases hj : j = k
      · subst hj
        have := h.2 j
        rw [hq] at this
        simp only [upd_same, List.append_assoc, List.singleton_append]; exact this
      · simp only [upd_other _ hj]; exact h.2 j

theorem MemInv.run {mask : ι → Bool} {M0 : ByteMem} (ports : List ι) (ops : List (MemOp ι p)) :
    ∀ {H H' : MemHist ι p}, MemInv mask M0 H → H.run mask ports ops = some H' → MemInv mask M0 H' := by
  induction ops with
  | nil => intro H H' h e; cases e; exact h
  | cons o os ih =>
    intro H H' h e
    simp only [MemHist.run] at e
    split at e
    · cases e
    · exact ih (h.step ports o ‹_›) e

theorem memExecG_resp (mask : Bool) (M : ByteMem) (m : MReq p) :
    (memExecG mask M m).2.ty = m.ty ∧ (memExecG mask M m).2.opq = m.opq := by
  simp only [memExecG]
  split
  · exact ⟨rfl, rfl⟩
  · refine ⟨memExec_ty M m, ?_⟩
    simp only [memExec]; split
    · rfl
    split <;> rfl

theorem SerialLog.resps {mask : ι → Bool} {M M' : ByteMem} {l : List (ι × MReq p × MResp p)}
    (h : SerialLog mask M l M') (k : ι) :
    (logResps k l).map (fun r => (r.ty, r.opq)) = (logReqs k l).map (fun m => (m.ty, m.opq)) := by
  induction h with
  | nil => rfl
  | @snoc M' l j m h ih =>
    rw [logResps_append, logReqs_append, List.map_append, List.map_append, ih]
    have := memExecG_resp (mask j) M' m
    by_cases hj : j = k
    · subst hj; simp [logResps, logReqs, this.1, this.2]
    · simp [logResps, logReqs, hj]

/-- **C28 (order).**  Whatever arrives, at whatever times, and however the queues
become ready: at every port the responses delivered so far are, in order and one
for one, responses to the first requests that arrived there (same type and
opaque), and no request is answered twice. -/
theorem C28_in_order (mask : ι → Bool) (ports : List ι) (M : ByteMem) (ops : List (MemOp ι p)) (k : ι)
    (H : MemHist ι p) (hH : (MemHist.start ι p M).run mask ports ops = some H) :
    (H.delivered k).map (fun r => (r.ty, r.opq)) <+: (H.arrived k).map (fun m => (m.ty, m.opq)) := by
  have hi : MemInv mask M H := MemInv.run ports ops ⟨fun _ => rfl, fun _ => rfl, .nil M⟩ hH
  have h1 := hi.delivered k
  have h2 := hi.arrived k
  have h3 := hi.serial.resps k
  refine ⟨(H.st.respQ k).map (fun r => (r.ty, r.opq)) ++ (H.st.reqQ k).map (fun m => (m.ty, m.opq)), ?_⟩
  rw [h2, List.map_append, ← h3, ← h1, List.map_append, List.append_assoc]

/-- **C28 (serial).**  The requests of all ports together are executed one after the
other on one memory: there is a single sequential log, whose entries of port `k`
are the oldest requests that arrived at `k` in order, with exactly the responses
delivered (or about to be delivered) at `k`, and the memory is the result of the log. -/
theorem C28_serial (mask : ι → Bool) (ports : List ι) (M : ByteMem) (ops : List (MemOp ι p))
    (H : MemHist ι p) (hH : (MemHist.start ι p M).run mask ports ops = some H) :
    SerialLog mask M H.log H.st.mem ∧
    (∀ k, H.arrived k = logReqs k H.log ++ H.st.reqQ k) ∧
    (∀ k, H.delivered k ++ H.st.respQ k = logResps k H.log) := by
  have hi : MemInv mask M H := MemInv.run ports ops ⟨fun _ => rfl, fun _ => rfl, .nil M⟩ hH
  exact ⟨hi.serial, hi.arrived, hi.delivered⟩

/-- All requests in the queues are fine (not in the source: condition on the requests, cf. test/MemoryCL.py:86). -/
def MemSt.Fine (mask : ι → Bool) (S : MemSt ι p) : Prop := ∀ k, ∀ m ∈ S.reqQ k, memFine (mask k) m = true

theorem MemSt.Fine.port {mask : ι → Bool} {S : MemSt ι p} (h : S.Fine mask) (k : ι) (rdy : Bool) :
    ∃ a, S.port mask k rdy = some a ∧ a.1.Fine mask := by
  simp only [MemSt.port]
  cases rdy
  · exact ⟨_, rfl, h⟩
  cases hq : S.reqQ k with
  | nil => exact ⟨_, rfl, h⟩
  | cons m ms =>
    dsimp only
    rw [if_pos (h k m (by rw [hq]; simp))]
    refine ⟨_, rfl, fun j x hx => ?_⟩
    by_cases hj : j = k
    · subst hj
      simp only [upd_same] at hx
      exact h j x (by rw [hq]; simp [hx])
    · simp only [upd_other _ hj] at hx
      exact h j x hx

theorem MemSt.Fine.upMem {mask : ι → Bool} (rdy : ι → Bool) (ks : List ι) :
    ∀ {S : MemSt ι p}, S.Fine mask → ∃ a, S.upMem mask rdy ks = some a ∧ a.1.Fine mask := by
  induction ks with
  | nil => intro S h; exact ⟨_, rfl, h⟩
  | cons k ks ih =>
    intro S h
    obtain ⟨a, ha, hf⟩ := h.port k (rdy k)
    obtain ⟨b, hb, hg⟩ := ih hf
    refine ⟨(b.1, a.2 ++ b.2), ?_, hg⟩
    simp only [MemSt.upMem, ha, hb]

/-- **C28 (no exception).**  If at every port only READs and WRITEs arrive, or, at ports with write masks, AMOs of
4 bytes as well (types ADD to XOR, 3 to 11), the simulation never stops with an exception. -/
theorem C28_runs (mask : ι → Bool) (ports : List ι) (M : ByteMem) (ops : List (MemOp ι p))
    (h : ∀ k m, MemOp.enq k m ∈ ops → m.ty = MT.READ ∨ m.ty = MT.WRITE ∨
      (mask k = true ∧ 3 ≤ m.ty.toNat ∧ m.ty.toNat ≤ 11 ∧ m.bytes = 4)) :
    ((MemHist.start ι p M).run mask ports ops).isSome := by
  have key : ∀ (ops : List (MemOp ι p)) (H : MemHist ι p), H.st.Fine mask →
      (∀ k m, MemOp.enq k m ∈ ops → memFine (mask k) m = true) → (H.run mask ports ops).isSome := by
    intro ops
    induction ops with
    | nil => intro H _ _; rfl
    | cons o os ih =>
      intro H hf ho
      have hstep : ∃ H', H.step mask ports o = some H' ∧ H'.st.Fine mask := by
        cases o with
        | enq k m =>
          refine ⟨_, rfl, fun j x hx => ?_⟩
          by_cases hj : j = k
          · subst hj
            simp only [upd_same, List.mem_append, List.mem_singleton] at hx
            rcases hx with hx | rfl
            · exact hf j x hx
            · exact ho j x (by simp)
          · simp only [upd_other _ hj] at hx
            exact hf j x hx
        | cycle rdy =>
          obtain ⟨a, ha, hg⟩ := hf.upMem rdy ports
          refine ⟨{ H with st := a.1, log := H.log ++ a.2 }, ?_, hg⟩
          simp only [MemHist.step, ha]
        | deq k =>
          simp only [MemHist.step]
          cases hq : H.st.respQ k with
          | nil => exact ⟨_, rfl, hf⟩
          | cons r rs => exact ⟨_, rfl, hf⟩
      obtain ⟨H', e, hf'⟩ := hstep
      simp only [MemHist.run, e]
      exact ih H' hf' (fun k m hm => ho k m (by simp [hm]))
  refine key ops _ (fun k m hm => by cases hm) (fun k m hm => ?_)
  rcases h k m hm with e | e | ⟨h1, h2, h3, h4⟩
  · simp [memFine, e]
  · simp [memFine, e]
  · simp [memFine, h1, h2, h3, h4]

/-- **C28 (defect: AMOs need write masks).**  An AMO at a port without write masks stops the simulation as soon as
its turn comes. -/
theorem C28_amo_without_mask (mask : ι → Bool) (S : MemSt ι p) (k : ι) (hk : mask k = false) (m : MReq p)
    (ms : List (MReq p)) (hq : S.reqQ k = m :: ms) (h : MT.isAmo m.ty = true) : S.port mask k true = none := by
  have h1 : m.ty ≠ MT.READ := by intro e; rw [e] at h; exact absurd h (by decide)
  have h2 : m.ty ≠ MT.WRITE := by intro e; rw [e] at h; exact absurd h (by decide)
  simp [MemSt.port, hq, memFine, hk, h1, h2]

theorem portMaskedWrite_byte (M : ByteMem) (a : Nat) (mask : Dty p) (d : Line p) (n : Nat) (x : Nat) :
    maskedWrite M a mask d n x =
      if a ≤ x ∧ x < a + 4 * n ∧ mask.getLsbD ((x - a) / 4) = true then byteOf d (x - a) else M x := by
  induction n with
  | zero =>
    simp only [maskedWrite]; rw [if_neg]; omega
  | succ n ih =>
    simp only [maskedWrite]
    split
    · rename_i hm
      simp only [writeLE]
      by_cases hx : a + 4 * n ≤ x ∧ x < a + 4 * n + 4
      · have hd : (x - a) / 4 = n := by omega
        rw [if_pos hx, if_pos ⟨by omega, by omega, by rw [hd]; exact hm⟩]
        apply BitVec.eq_of_getLsbD_eq
        intro b hb
        rw [BitVec.getLsbD_ofNat, show (256 : Nat) = 2 ^ 8 from rfl, ← Nat.pow_mul,
          Nat.testBit_div_two_pow]
        simp only [hb, decide_true, Bool.true_and, byteOf, wordAt, BitVec.getLsbD_extractLsb',
          ← BitVec.getLsbD.eq_1]
        have h3 : 8 * (x - a) + b = 32 * n + (8 * (x - (a + 4 * n)) + b) := by omega
        rw [h3]
        have h4 : b + 8 * (x - (a + 4 * n)) < 32 := by omega
        rw [decide_eq_true h4, Bool.true_and, Nat.add_comm b]
      · rw [if_neg hx, ih]
        have : (a ≤ x ∧ x < a + 4 * n ∧ mask.getLsbD ((x - a) / 4) = true) ↔
            (a ≤ x ∧ x < a + 4 * (n + 1) ∧ mask.getLsbD ((x - a) / 4) = true) := by
          constructor
          · rintro ⟨h1, h2, h3⟩; exact ⟨h1, by omega, h3⟩
          · rintro ⟨h1, h2, h3⟩; exact ⟨h1, by omega, h3⟩
        by_cases h : a ≤ x ∧ x < a + 4 * n ∧ mask.getLsbD ((x - a) / 4) = true
        · rw [if_pos h, if_pos (this.1 h)]
        · rw [if_neg h, if_neg (fun h' => h (this.2 h'))]
    · rename_i hm
      rw [ih]
      have : (a ≤ x ∧ x < a + 4 * n ∧ mask.getLsbD ((x - a) / 4) = true) ↔
          (a ≤ x ∧ x < a + 4 * (n + 1) ∧ mask.getLsbD ((x - a) / 4) = true) := by
        constructor
        · rintro ⟨h1, h2, h3⟩; exact ⟨h1, by omega, h3⟩
        · rintro ⟨h1, h2, h3⟩
          refine ⟨h1, ?_, h3⟩
          have : (x - a) / 4 ≠ n := by intro h; rw [h] at h3; exact hm h3
          omega
      by_cases h : a ≤ x ∧ x < a + 4 * n ∧ mask.getLsbD ((x - a) / 4) = true
      · rw [if_pos h, if_pos (this.1 h)]
      · rw [if_neg h, if_neg (fun h' => h (this.2 h'))]

/-- **C28 (masked write).**  A WRITE with a word mask changes exactly the bytes of the
words whose mask bit is set, to the bytes of the data. -/
theorem C28_masked_write (M : ByteMem) (m : MReq p) (h : m.ty = MT.WRITE) (x : Nat) :
    (memExecG true M m).1 x =
      if m.addr.flat ≤ x ∧ x < m.addr.flat + 4 * p.nWords ∧
          m.wmask.getLsbD ((x - m.addr.flat) / 4) = true then byteOf m.data (x - m.addr.flat)
      else M x := by
  simp only [memExecG, h, memExec, MT.WRITE_ne_READ, Bool.true_eq_false, and_false, if_false, if_true]
  exact portMaskedWrite_byte ..

/-- **C28 (plain write).**  On a port without masks a WRITE changes exactly the `len`
bytes at its address (0 = full width). -/
theorem C28_plain_write (M : ByteMem) (m : MReq p) (h : m.ty = MT.WRITE) (x : Nat) :
    (memExecG false M m).1 x =
      if m.addr.flat ≤ x ∧ x < m.addr.flat + m.bytes then byteOf m.data (x - m.addr.flat) else M x := by
  simp only [memExecG, h, and_self, if_true, writeLE]
  split
  · apply BitVec.eq_of_getLsbD_eq
    intro b hb
    rw [BitVec.getLsbD_ofNat, show (256 : Nat) = 2 ^ 8 from rfl, ← Nat.pow_mul, Nat.testBit_div_two_pow]
    simp only [hb, decide_true, Bool.true_and, byteOf, BitVec.getLsbD_extractLsb',
      ← BitVec.getLsbD.eq_1]
    congr 1; omega
  · rfl

/-- **C28 (read).**  A READ changes nothing and returns the current bytes, zero
extended. -/
theorem C28_read (mask : Bool) (M : ByteMem) (m : MReq p) (h : m.ty = MT.READ)
    (i : Nat) (hi : i < 2 ^ p.offBits) :
    (memExecG mask M m).1 = M ∧
    byteOf (memExecG mask M m).2.data i = if i < m.bytes then M (m.addr.flat + i) else 0 := by
  simp only [memExecG, h, memExec, MT.READ_ne_WRITE, false_and, if_false, if_true, true_and]
  apply BitVec.eq_of_getLsbD_eq
  intro b hb
  have hlb : 8 * i + b < p.lineBits := by rw [lineBits_eq (p := p)]; omega
  simp only [byteOf, BitVec.getLsbD_extractLsb', hb, decide_true, Bool.true_and, BitVec.getLsbD_ofNat,
    hlb, readLE_testBit]
  have h1 : (8 * i + b) / 8 = i := by omega
  have h2 : (8 * i + b) % 8 = b := by omega
  rw [h1, h2]
  split
  · have : 8 * i + b < 8 * m.bytes := by omega
    simp [this]
  · have : ¬ 8 * i + b < 8 * m.bytes := by omega
    simp [this]

/-- **C28 (AMO).**  An AMO returns the old word, zero extended, and stores the
combination of it with the low word of the data; no other byte changes. -/
theorem C28_amo (M : ByteMem) (m : MReq p) (h : MT.isAmo m.ty = true) :
    let old := BitVec.ofNat 32 (readLE M m.addr.flat 4)
    (memExecG true M m).2.data = old.setWidth _ ∧
    BitVec.ofNat 32 (readLE (memExecG true M m).1 m.addr.flat 4) = amoFun m.ty old (m.data.setWidth 32) ∧
    (∀ x, ¬ (m.addr.flat ≤ x ∧ x < m.addr.flat + 4) → (memExecG true M m).1 x = M x) := by
  have h1 : m.ty ≠ MT.READ := by intro e; rw [e] at h; exact absurd h (by decide)
  have h2 : m.ty ≠ MT.WRITE := by intro e; rw [e] at h; exact absurd h (by decide)
  simp only [memExecG, memExec, h1, h2, false_and, if_false, true_and]
  refine ⟨?_, fun x hx => ?_⟩
  · apply BitVec.eq_of_getLsbD_eq
    intro b hb
    rw [BitVec.getLsbD_ofNat, readLE_testBit]
    simp only [hb, decide_true, Bool.true_and]
    rw [writeLE_getLsbD, if_pos (by omega)]
    have h3 : b % 8 < 8 := by omega
    have h4 : 8 * (m.addr.flat + b / 8 - m.addr.flat) + b % 8 = b := by omega
    rw [h4]; simp only [h3, decide_true, Bool.true_and, ← BitVec.getLsbD.eq_1]
  · simp only [writeLE]; rw [if_neg hx]

/-- The single-request execution the cache system uses (`Sys.exec`) is one loop body of
`up_mem` on a masked port. -/
theorem sys_exec_is_port (S : Sys ι p) (k : ι) (m : MReq p) (ms : List (MReq p)) (h : S.reqQ k = m :: ms)
    (hm : memFine true m = true) :
    MemSt.port (fun _ => true) ⟨S.reqQ, S.respQ, S.mem⟩ k true = some
      (⟨(S.exec k m).reqQ, (S.exec k m).respQ, (S.exec k m).mem⟩, [(k, m, (memExec S.mem m).2)]) := by
  have e : memExecG true S.mem m = memExec S.mem m := by simp [memExecG]
  simp only [MemSt.port, h, Sys.exec, e, List.tail_cons, hm, if_true]

/-- Non-vacuity: two ports, two requests on each, executed in mixed order with a
masked write; the responses come out in order per port. -/
example : let p : Params := ⟨1, 2, 1, 2, 1, true⟩
    let w : MReq p := ⟨MT.WRITE, 1, ⟨0, 0, 0⟩, 0, 0b10#2, 0x1111111122222222#64⟩
    let r : MReq p := ⟨MT.READ, 0, ⟨0, 0, 0⟩, 0, 0, 0⟩
    let a : MReq p := ⟨MT.AMO, 1, ⟨0, 0, 4⟩, 4, 0, 5#64⟩
    let H := (MemHist.start Bool p (fun _ => 0)).run (fun _ => true) [false, true]
      [.enq true r, .enq false w, .enq true a, .cycle (fun k => k), .cycle (fun _ => true), .enq false r,
        .cycle (fun _ => true), .deq false, .deq true, .deq true, .deq false]
    H.map (fun H => ((H.delivered true).map (·.data.toNat), (H.delivered false).map (·.data.toNat))) =
      some ([0, 0x11111111], [0, 0x1111111600000000]) := by
  decide +kernel

end Verif
