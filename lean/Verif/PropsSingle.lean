import Verif.Segs

/-!
# Properties of one cache on an in-order memory

The statements only use the RTL system (`Start`, `Run`, `accepted`,
`responses`, `sent`) and the flat-memory specification of `Verif/Spec.lean`.
-/

namespace Verif
variable {p : Params}

/-! ## A concrete execution used to show that hypotheses can be met -/

namespace Ex
/-- store one byte, read the word, flush. Proof device; not in the source. -/
def reqs : List (CReq p0) :=
  [⟨MT.WRITE, 1, ⟨0, 0, 4⟩, 1, 0xab⟩, ⟨MT.READ, 0, ⟨0, 0, 4⟩, 0, 0⟩, ⟨MT.FLUSH, 1, ⟨0, 0, 0⟩, 0, 0⟩]

/-- Proof device; not in the source. -/
def run (n : Nat) : Sys Unit p0 × List (Ev Unit p0) := drive n (start0 p0) reqs

theorem isRun (n : Nat) : Run (start0 p0) (run n).2 (run n).1 := drive_run _ _ _

theorem valid : ∀ q ∈ reqs, q.Valid := by
  intro q hq
  simp only [reqs, List.mem_cons, List.not_mem_nil, or_false] at hq
  rcases hq with rfl | rfl | rfl
  · exact .write rfl 0 (by decide) (by decide) (by decide)
  · exact .read rfl 2 (by decide) (by decide)
  · exact .flush rfl

set_option maxRecDepth 10000 in
theorem acc : accepted () (run 28).2 = reqs := by decide

theorem validRun : ∀ q ∈ accepted () (run 28).2, q.Valid := by rw [acc]; exact valid
end Ex

/-! ## C01 -/

/-- **C01.**  The data of the responses delivered so far are those of the flat
memory on the accepted requests, in order. -/
theorem C01_responses_equal_flat_memory (wf : p.WF) {S S' : Sys Unit p} {tr : List (Ev Unit p)}
    (h0 : Start S) (h : Run S tr S') (hv : ∀ q ∈ accepted () tr, q.Valid) :
    (responses () tr).map (·.data) <+: (flatRun S.mem (accepted () tr)).2 := by
  obtain ⟨rest, h1, _⟩ := (logged wf h0 h).resp
  rw [← (ops_spec wf (coh_init S.mem) init_ok rfl hv).2.2.2.1, h1, List.map_append]
  exact List.prefix_append _ _

set_option maxRecDepth 10000 in
/-- Hypotheses met by a run in which all three requests are answered. -/
example : ∃ (S S' : Sys Unit p0) (tr : List (Ev Unit p0)), Start S ∧ Run S tr S' ∧
    (∀ q ∈ accepted () tr, q.Valid) ∧ accepted () tr = Ex.reqs ∧
    (responses () tr).map (·.data) = [0, 0x080706ab, 0] :=
  ⟨_, _, _, start0_start p0, Ex.isRun 28, Ex.validRun, Ex.acc, by decide⟩

/-! ## C02 -/

/-- **C02.**  Responses are in order, one per request, with the opaque, type and
length of the request; at most two accepted requests are unanswered. -/
theorem C02_one_response_per_request (wf : p.WF) {S S' : Sys Unit p} {tr : List (Ev Unit p)}
    (h0 : Start S) (h : Run S tr S') :
    ∃ rest, (accepted () tr).map (fun q => (q.ty, q.opq, q.len)) =
        (responses () tr).map (fun r => (r.ty, r.opq, r.len)) ++ rest ∧ rest.length ≤ 2 := by
  have hl := logged wf h0 h
  obtain ⟨rest, h1, h2⟩ := hl.resp
  obtain ⟨segs, h3, h4⟩ := ops_shape (A := L1.init p) rfl S.mem hl.notInit
  rw [h3, respMsgs_segs] at h1
  refine ⟨rest.map (fun r => (r.ty, r.opq, r.len)), ?_, by simpa using h2⟩
  rw [← List.map_append, ← h1, ← h4, List.map_map]
  rfl

/-- Corollary: never more responses than requests, and at most two requests
without response. -/
theorem C02_counts (wf : p.WF) {S S' : Sys Unit p} {tr : List (Ev Unit p)}
    (h0 : Start S) (h : Run S tr S') :
    (responses () tr).length ≤ (accepted () tr).length ∧
    (accepted () tr).length ≤ (responses () tr).length + 2 := by
  obtain ⟨rest, h1, h2⟩ := C02_one_response_per_request wf h0 h
  have := congrArg List.length h1
  simp only [List.length_map, List.length_append] at this
  omega

set_option maxRecDepth 10000 in
example : ∃ (S S' : Sys Unit p0) (tr : List (Ev Unit p0)), Start S ∧ Run S tr S' ∧
    (responses () tr).map (fun r => (r.ty, r.opq, r.len)) = [(1, 1, 1), (0, 0, 0), (15, 1, 0)] :=
  ⟨_, _, _, start0_start p0, Ex.isRun 28, by decide⟩

/-! ## C05 -/

/-- **C05.**  En/rdy protocol on both output ports, in every state and for every
input. -/
theorem C05_enrdy (s : St p) (i : In p) :
    ((s.out i).respEn = true → i.respRdy = true) ∧
    ((s.out i).mreqEn = true → i.mreqRdy = true) ∧
    ¬ ((s.out i).respEn = true ∧ (s.out i).mreqEn = true) := by
  simp only [St.out, St.cs2]
  generalize s.t2 = t; generalize i.mreqRdy = a; generalize i.respRdy = b
  generalize s.evict2 = c; generalize s.hit2 = d; generalize s.flushSent2 = e
  revert t a b c d e
  intro t a b c d e
  cases t <;> cases a <;> cases b <;> cases c <;> cases d <;> cases e <;> decide

/-- Both ports are used: a state that sends a response and one that sends a
memory request. -/
example : ∃ (s s' : St p0) (i : In p0), (s.out i).respEn = true ∧ (s'.out i).mreqEn = true :=
  ⟨{ garbage p0 with t2 := .replayRead, evict2 := false }, garbage p0,
    ⟨false, false, default, true, true, false, default⟩, rfl, rfl⟩

/-! ## C12 -/

/-- **C12.**  Two runs that accepted the same requests on the same initial
memory agree on responses (all fields) and on memory requests, as far as both
got: each is a prefix of the same list, which has one response per request. -/
theorem C12_timing_independence (wf : p.WF) {S₁ S₁' S₂ S₂' : Sys Unit p} {tr₁ tr₂ : List (Ev Unit p)}
    (h₁ : Start S₁) (r₁ : Run S₁ tr₁ S₁') (h₂ : Start S₂) (r₂ : Run S₂ tr₂ S₂')
    (hm : S₁.mem = S₂.mem) (ha : accepted () tr₁ = accepted () tr₂) :
    ∃ R Q, R.length = (accepted () tr₁).length ∧ responses () tr₁ <+: R ∧ responses () tr₂ <+: R ∧
      (sent () tr₁).map MReq.canon <+: Q ∧ (sent () tr₂).map MReq.canon <+: Q := by
  have l1 := logged wf h₁ r₁
  have l2 := logged wf h₂ r₂
  obtain ⟨e1, g1, _⟩ := l1.log
  obtain ⟨e2, g2, _⟩ := l2.log
  obtain ⟨segs, h3, h4⟩ := ops_shape (A := L1.init p) rfl S₁.mem l1.notInit
  rw [← hm, ← ha] at g2
  refine ⟨respMsgs ((L1.init p).ops S₁.mem (accepted () tr₁)).2.2,
    memMsgs ((L1.init p).ops S₁.mem (accepted () tr₁)).2.2, ?_, ?_, ?_, ?_, ?_⟩
  · rw [h3, respMsgs_segs, List.length_map]
    have := congrArg List.length h4
    simpa using this
  · rw [g1, respMsgs_append, respMsgs_emitted, responses_canon]; exact List.prefix_append _ _
  · rw [g2, respMsgs_append, respMsgs_emitted, responses_canon]; exact List.prefix_append _ _
  · rw [g1, memMsgs_append, memMsgs_emitted, sent_canon]; exact List.prefix_append _ _
  · rw [g2, memMsgs_append, memMsgs_emitted, sent_canon]; exact List.prefix_append _ _

/-- Corollary of C12: fully answered runs have identical responses. -/
theorem C12_same_responses (wf : p.WF) {S₁ S₁' S₂ S₂' : Sys Unit p} {tr₁ tr₂ : List (Ev Unit p)}
    (h₁ : Start S₁) (r₁ : Run S₁ tr₁ S₁') (h₂ : Start S₂) (r₂ : Run S₂ tr₂ S₂')
    (hm : S₁.mem = S₂.mem) (ha : accepted () tr₁ = accepted () tr₂)
    (hl : (responses () tr₁).length = (responses () tr₂).length) :
    responses () tr₁ = responses () tr₂ := by
  obtain ⟨R, _, _, ⟨a, ha⟩, ⟨b, hb⟩, _⟩ := C12_timing_independence wf h₁ r₁ h₂ r₂ hm ha
  exact (List.append_inj (ha.trans hb.symm) hl).1

/-- Two different schedules of the same requests: 28 cycles, and 28 cycles after
two extra clock cycles. -/
example : ∃ (S S₁ S₂ : Sys Unit p0) (tr₁ tr₂ : List (Ev Unit p0)), Start S ∧ Run S tr₁ S₁ ∧ Run S tr₂ S₂ ∧
    accepted () tr₁ = accepted () tr₂ ∧ accepted () tr₁ = Ex.reqs :=
  ⟨_, _, _, _, _, start0_start p0, Ex.isRun 28, (drive_run 2 (start0 p0) []).trans
    (drive_run 28 _ Ex.reqs), by rw [Ex.acc]; decide, Ex.acc⟩

/-! ## C38 -/

/-- **C38.**  Reset from any two states whatsoever (`s₁`, `s₂`, reachable or not;
any inputs during the reset cycle) gives the same observable behaviour: same
responses and memory requests as far as both runs got.  Ports must be empty of
old responses, as in `Start`. -/
theorem C38_reset_recovers (wf : p.WF) (s₁ s₂ : St p) (i₁ i₂ : In p) (hi₁ : i₁.reset = true)
    (hi₂ : i₂.reset = true) (M : ByteMem) {S₁' S₂' : Sys Unit p} {tr₁ tr₂ : List (Ev Unit p)}
    (r₁ : Run ⟨fun _ => s₁.step i₁, fun _ => [], fun _ => [], M⟩ tr₁ S₁')
    (r₂ : Run ⟨fun _ => s₂.step i₂, fun _ => [], fun _ => [], M⟩ tr₂ S₂')
    (ha : accepted () tr₁ = accepted () tr₂) :
    ∃ R Q, R.length = (accepted () tr₁).length ∧ responses () tr₁ <+: R ∧ responses () tr₂ <+: R ∧
      (sent () tr₁).map MReq.canon <+: Q ∧ (sent () tr₂).map MReq.canon <+: Q :=
  C12_timing_independence wf
    ⟨fun _ => ⟨s₁, i₁, hi₁, rfl⟩, fun _ => rfl, fun _ => rfl⟩ r₁
    ⟨fun _ => ⟨s₂, i₂, hi₂, rfl⟩, fun _ => rfl, fun _ => rfl⟩ r₂ rfl ha

namespace Ex
/-- Another state to reset from. Proof device; not in the source. -/
def other : St p0 := { garbage p0 with fsm := .flush, tagRam := fun _ _ => ⟨true, 1, 2⟩ }

/-- Proof device; not in the source. -/
def start1 : Sys Unit p0 :=
  ⟨fun _ => other.step ⟨true, false, default, true, true, false, default⟩, fun _ => [], fun _ => [], mem0⟩

set_option maxRecDepth 10000 in
theorem acc1 : accepted () (drive 28 start1 reqs).2 = reqs := by decide
end Ex

/-- Two resets from different states, with runs that accept the same requests. -/
example : ∃ (s₁ s₂ : St p0) (i : In p0) (S₁' S₂' : Sys Unit p0) (tr₁ tr₂ : List (Ev Unit p0)),
    i.reset = true ∧ s₁.fsm ≠ s₂.fsm ∧
    Run ⟨fun _ => s₁.step i, fun _ => [], fun _ => [], mem0⟩ tr₁ S₁' ∧
    Run ⟨fun _ => s₂.step i, fun _ => [], fun _ => [], mem0⟩ tr₂ S₂' ∧
    accepted () tr₁ = accepted () tr₂ ∧ accepted () tr₁ = Ex.reqs := by
  refine ⟨garbage p0, Ex.other, ⟨true, false, default, true, true, false, default⟩, (Ex.run 28).1,
    (drive 28 Ex.start1 Ex.reqs).1, (Ex.run 28).2, (drive 28 Ex.start1 Ex.reqs).2, rfl, by decide, ?_, ?_, ?_, ?_⟩
  · exact Ex.isRun 28
  · exact drive_run 28 Ex.start1 Ex.reqs
  · rw [Ex.acc, Ex.acc1]
  · exact Ex.acc

/-! ## C08 -/

/-- In the cycle in which response number `n`, to a FLUSH, is delivered, memory is the memory of the event-level
machine after the first `n + 1` requests. -/
theorem flush_point (wf : p.WF) {S S₁ S₂ : Sys Unit p} {tr ev : List (Ev Unit p)} {r : CResp p}
    (h0 : Start S) (h : Run S tr S₁) (hs : Step S₁ ev S₂) (hr : .resp () r ∈ ev)
    {n : Nat} (hn : n = (responses () tr).length) {f : CReq p}
    (hf : (accepted () (tr ++ ev))[n]? = some f) :
    (((L1.init p).ops S.mem ((accepted () (tr ++ ev)).take n)).1.op
      ((L1.init p).ops S.mem ((accepted () (tr ++ ev)).take n)).2.1 f).2.1 = S₂.mem := by
  -- the port is empty and the response is the last message
  have hlast : ∃ e0, emitted () ((tr ++ ev).map Ev.canon) = e0 ++ [.resp r] ∧ (respMsgs e0).length = n ∧
      S₂.reqQ () = [] := by
    obtain ⟨T, h1, h2⟩ := refine wf h0 h
    cases hs with
    | exec k m ms hq => simp at hr
    | clock k i hc =>
      cases k
      have hre : ((S₁.cache ()).out i).respEn = true ∧ ((S₁.cache ()).out i).resp = r := by
        simp only [Sys.clockEvs, List.mem_append] at hr
        rcases hr with (hr | hr) | hr
        · split at hr <;> simp at hr
        · split at hr <;> simp at hr
        · split at hr
          · rename_i he
            simp only [List.mem_singleton, Ev.resp.injEq, true_and] at hr
            exact ⟨he, hr.symm⟩
          · simp at hr
      have hme : ((S₁.cache ()).out i).mreqEn = false := by
        cases hm : ((S₁.cache ()).out i).mreqEn
        · rfl
        · exact absurd ⟨hre.1, hm⟩ (C05_enrdy _ _).2.2
      have hO := (h2.cache ()).resp_quiet (i := i) (r := r) (by simp [Out.msgs, hre.1, hre.2])
      have hq := outTys_nil hO
      refine ⟨emitted () (tr.map Ev.canon), ?_, ?_, ?_⟩
      · simp only [List.map_append, emitted_append, Sys.clockEvs, hre.1, hre.2, hme]
        congr 1
        cases i.reqEn <;> rfl
      · rw [respMsgs_emitted, responses_canon, hn]
      · simp [Sys.clock, hme, hq.2]
  obtain ⟨e0, he, hn0, hq⟩ := hlast
  have hl := logged wf h0 (.snoc h hs)
  obtain ⟨rest, hlog, _⟩ := hl.log
  have hmem := hl.mem
  rw [hq] at hmem
  simp only [List.map_nil, memRun] at hmem
  rw [segs_flatten, he] at hlog
  obtain ⟨g1, g2⟩ := seg_exact (segs_isSeg rfl S.mem hl.notInit) hlog (n := n + 1) (by omega)
  rw [segs_take, ← segs_flatten] at g2
  rw [he, g2, ← ops_mem _ _ rfl] at hmem
  -- the first n + 1 requests
  have htake : (accepted () (tr ++ ev)).take (n + 1) = (accepted () (tr ++ ev)).take n ++ [f] := by
    rw [List.take_add_one, hf]; rfl
  rw [htake, ops_snoc] at hmem
  exact hmem

/-- **C08** (memory part).  In the cycle in which the response to a FLUSH is
delivered, memory holds, at every address, the value of the flat memory after
all requests before the FLUSH. -/
theorem C08_flush_publishes (wf : p.WF) {S S₁ S₂ : Sys Unit p} {tr ev : List (Ev Unit p)} {r : CResp p}
    (h0 : Start S) (h : Run S tr S₁) (hs : Step S₁ ev S₂) (hr : .resp () r ∈ ev)
    (hv : ∀ q ∈ accepted () (tr ++ ev), q.Valid) {n : Nat} (hn : n = (responses () tr).length) {f : CReq p}
    (hf : (accepted () (tr ++ ev))[n]? = some f) (ty : f.ty = MT.FLUSH) (x : Nat)
    (hx : x < 2 ^ p.addrBits) :
    S₂.mem x = (flatRun S.mem ((accepted () (tr ++ ev)).take n)).1 x := by
  have hmem := flush_point wf h0 h hs hr hn hf
  have hpre := ops_spec wf (coh_init S.mem) init_ok rfl
    (fun q hq => hv q (List.mem_of_mem_take (i := n) hq))
  have := (op_flush hpre.1 hpre.2.1 ty).2
  rw [hmem] at this
  exact view_bytes (fun la => BitVec.eq_of_getLsbD_eq fun i hi => this la i hi trivial) x hx

namespace Ex
/-- No request, ports ready, no memory response. Proof device; not in the source. -/
def idleIn : In p0 := ⟨false, false, default, true, true, false, default⟩

set_option maxRecDepth 10000 in
/-- The 23rd cycle of the example delivers the response to the FLUSH. -/
theorem flushStep : Step (run 22).1 ((run 22).1.clockEvs () idleIn) ((run 22).1.clock () idleIn) :=
  .clock _ () idleIn ⟨rfl, by simp [idleIn], by simp [idleIn]⟩

set_option maxRecDepth 10000 in
theorem flushAcc : accepted () ((run 22).2 ++ (run 22).1.clockEvs () idleIn) = reqs := by decide
end Ex

set_option maxRecDepth 10000 in
/-- The hypotheses of C08 are met in the example run: the response to the FLUSH
(request number 2) is delivered in the 23rd cycle. -/
example : ∃ (S S₁ S₂ : Sys Unit p0) (tr ev : List (Ev Unit p0)) (r : CResp p0) (f : CReq p0),
    Start S ∧ Run S tr S₁ ∧ Step S₁ ev S₂ ∧ .resp () r ∈ ev ∧
    (∀ q ∈ accepted () (tr ++ ev), q.Valid) ∧ (responses () tr).length = 2 ∧
    (accepted () (tr ++ ev))[2]? = some f ∧ f.ty = MT.FLUSH := by
  refine ⟨start0 p0, _, _, (Ex.run 22).2, _, ⟨MT.FLUSH, 1, 0, 0, 0⟩,
    ⟨MT.FLUSH, 1, ⟨0, 0, 0⟩, 0, 0⟩, start0_start p0, Ex.isRun 22, Ex.flushStep, ?_, ?_, ?_, ?_, rfl⟩
  · have : responses () ((Ex.run 22).1.clockEvs () Ex.idleIn) = [⟨MT.FLUSH, 1, 0, 0, 0⟩] := by decide
    have hm : (⟨MT.FLUSH, 1, 0, 0, 0⟩ : CResp p0) ∈ responses () ((Ex.run 22).1.clockEvs () Ex.idleIn) := by
      rw [this]; simp
    simp only [responses, List.mem_filterMap] at hm
    obtain ⟨e, he, h2⟩ := hm
    cases e <;> simp at h2
    subst h2; exact he
  · rw [Ex.flushAcc]; exact Ex.valid
  · decide
  · rw [Ex.flushAcc]; rfl

end Verif
