import Verif.PropsSeq
import Verif.PropsMLive
import Verif.SingleTests
set_option linter.unusedSectionVars false

/-!
# The processor model is transparent; termination of the whole test bench (C49)

`TestHarness` (test/sim_utils.py:129-160) puts a `ProcModel` between source, sink and cache, and
`MulticoreModel` (test/MulticoreModel.py:48-56) one in front of each cache.  With nothing in flight
the processor model withholds response-ready while the cache is not ready for a request.  Here
fairness is stated for the sink behind the processor model, not for the port of the cache.
-/

namespace Verif
variable {p : Params} {ι : Type} [DecidableEq ι]

/-! ## Definitions -/

/-- One step of caches, processor models and memory, with the choices made by the environment: a
clock edge with the readiness of the sink, or a memory execution.  Same steps as `PStep`. Proof device; not in the source. -/
inductive PAct (ι : Type) (p : Params)
  | clock (k : ι) (i : In p) (rdy : Bool)
  | exec (k : ι)

/-- `PStep` with the action shown. Proof device; not in the source. -/
inductive PDoes : PSys ι p → PAct ι p → List (Ev ι p) → PSys ι p → Prop
  | clock (P : PSys ι p) (k : ι) (i : In p) (rdy : Bool) (h : P.sys.CanClock k i)
      (hr : i.respRdy = procRespRdy (P.inFlight k) rdy ((P.sys.cache k).out i).reqRdy) :
      PDoes P (.clock k i rdy) (P.sys.clockEvs k i)
        ⟨P.sys.clock k i,
          upd P.inFlight k (procNext (P.inFlight k) i.reqEn ((P.sys.cache k).out i).respEn)⟩
  | exec (P : PSys ι p) (k : ι) (m : MReq p) (ms : List (MReq p)) (h : P.sys.reqQ k = m :: ms) :
      PDoes P (.exec k) [.exec k m (memExec P.sys.mem m).2] ⟨P.sys.exec k m, P.inFlight⟩

theorem PDoes.step {P P' : PSys ι p} {a : PAct ι p} {ev : List (Ev ι p)} (h : PDoes P a ev P') : PStep P ev P' := by
  cases h with
  | clock k i rdy h hr => exact .clock _ _ _ rdy h hr
  | exec k m ms h => exact .exec _ _ _ _ h

/-- An infinite execution of the test bench. Proof device; not in the source. -/
structure PInf (ι : Type) [DecidableEq ι] (p : Params) where
  st : Nat → PSys ι p
  act : Nat → PAct ι p
  evs : Nat → List (Ev ι p)
  does : ∀ t, PDoes (st t) (act t) (evs t) (st (t + 1))

/-- The events of the first `t` steps. Proof device; not in the source. -/
def PInf.trace (X : PInf ι p) : Nat → List (Ev ι p)
  | 0 => []
  | t + 1 => X.trace t ++ X.evs t

/-- Again and again there is a clock edge with the sink and memory ready. Proof device; not in the source. -/
def PInf.SinkReady (X : PInf ι p) (k : ι) : Prop :=
  ∀ t, ∃ t', t ≤ t' ∧ ∃ i, X.act t' = .clock k i true ∧ i.mreqRdy = true

/-- Whenever memory owes cache `k` a response, it later delivers one. Proof device; not in the source. -/
def PInf.MemoryAnswers (X : PInf ι p) (k : ι) : Prop :=
  ∀ t, (X.st t).sys.reqQ k ≠ [] ∨ (X.st t).sys.respQ k ≠ [] →
    ∃ t', t ≤ t' ∧ ∃ i rdy, X.act t' = .clock k i rdy ∧ i.mrespEn = true

/-- The source has the requests `qs` and hands them over in order; again and again there is a clock
edge at which it hands over the next one if the cache is ready and nothing is in flight. Proof device; not in the source. -/
def PInf.Sources (X : PInf ι p) (k : ι) (qs : List (CReq p)) : Prop :=
  (∀ t, accepted k (X.trace t) <+: qs) ∧
  ∀ t, ∃ t', t ≤ t' ∧ ∃ i rdy, X.act t' = .clock k i rdy ∧
    (accepted k (X.trace t') ≠ qs → (((X.st t').sys.cache k).out i).reqRdy = true →
      (X.st t').inFlight k = 0 → i.reqEn = true)

/-! ## With nothing blocking in M2 the response-ready input is not looked at -/

theorem cs2_withRdy (s : St p) (i : In p) (b : Bool) (h : blocking s.t2 = false) :
    s.cs2 (i.withRdy b) = s.cs2 i := by
  simp only [St.cs2, In.withRdy]
  revert h
  cases s.t2 <;> simp [blocking, cs2]

theorem stall_withRdy (s : St p) (i : In p) (b : Bool) (h : blocking s.t2 = false) :
    s.stall (i.withRdy b) = s.stall i := by
  simp only [St.stall, cs2_withRdy s i b h]

theorem out_withRdy (s : St p) (i : In p) (b : Bool) (h : blocking s.t2 = false) :
    s.out (i.withRdy b) = s.out i := by
  simp only [St.out, St.reqRdy, St.allocEn, stall_withRdy s i b h, cs2_withRdy s i b h]

theorem next_withRdy (s : St p) (i : In p) (b : Bool) (h : blocking s.t2 = false) :
    s.next (i.withRdy b) = s.next i := by
  simp only [St.next, St.allocEn, stall_withRdy s i b h, cs2_withRdy s i b h]
  rfl

theorem clock_withRdy (S : Sys ι p) (k : ι) (i : In p) (b : Bool) (h : blocking (S.cache k).t2 = false) :
    S.clock k (i.withRdy b) = S.clock k i ∧ S.clockEvs k (i.withRdy b) = S.clockEvs k i := by
  have h1 : (S.cache k).step (i.withRdy b) = (S.cache k).step i := by
    simp only [St.step, next_withRdy _ i b h]; rfl
  simp only [Sys.clock, Sys.clockEvs, h1, out_withRdy _ i b h]
  exact ⟨rfl, rfl⟩

theorem CanClock.withRdy {S : Sys ι p} {k : ι} {i : In p} (hc : S.CanClock k i) (b : Bool)
    (h : blocking (S.cache k).t2 = false) : S.CanClock k (i.withRdy b) :=
  ⟨hc.noReset, by rw [out_withRdy _ i b h]; exact hc.req, hc.mem⟩

theorem PInf.run (X : PInf ι p) (t : Nat) : PRun (X.st 0) (X.trace t) (X.st t) := by
  induction t with
  | zero => exact .refl _
  | succ t ih => exact .snoc ih (X.does t).step

/-- What the sink sees: a clock edge of the bench is one of the open system whose response port has
the readiness of the sink. -/
theorem bench_clock (wf : p.WF) {P P' : PSys ι p} {tr : List (Ev ι p)} (h0 : PStart P) (h : PRun P tr P') {k : ι}
    {i : In p} {rdy : Bool} (hc : P'.sys.CanClock k i)
    (hr : i.respRdy = procRespRdy (P'.inFlight k) rdy ((P'.sys.cache k).out i).reqRdy) :
    P'.sys.CanClock k (i.withRdy rdy) ∧ P'.sys.clock k (i.withRdy rdy) = P'.sys.clock k i ∧
      P'.sys.clockEvs k (i.withRdy rdy) = P'.sys.clockEvs k i ∧
      (P'.sys.cache k).out (i.withRdy rdy) = (P'.sys.cache k).out i := by
  by_cases hz : P'.inFlight k = 0
  · have hcnt := (C36_counter_exact wf h0 h k).1
    rw [hz] at hcnt
    have hnb := idle_nonblocking wf h0.sys h.open k (by simp at hcnt; omega)
    obtain ⟨a, b⟩ := clock_withRdy P'.sys k i rdy hnb
    exact ⟨CanClock.withRdy hc rdy hnb, a, b, out_withRdy _ i rdy hnb⟩
  · simp only [procRespRdy, if_neg hz] at hr
    have : i.withRdy rdy = i := by rw [← hr]; rfl
    rw [this]
    exact ⟨hc, rfl, rfl, rfl⟩

/-- The converse: every clock edge of the open system is one of the bench, with the sink in the place
of the response port. -/
theorem bench_of (wf : p.WF) {P P' : PSys ι p} {tr : List (Ev ι p)} (h0 : PStart P) (h : PRun P tr P') {k : ι}
    {i : In p} (hc : P'.sys.CanClock k i) :
    ∃ b, P'.sys.CanClock k (i.withRdy b) ∧ P'.sys.clock k (i.withRdy b) = P'.sys.clock k i ∧
      P'.sys.clockEvs k (i.withRdy b) = P'.sys.clockEvs k i ∧
      (P'.sys.cache k).out (i.withRdy b) = (P'.sys.cache k).out i ∧
      (i.withRdy b).respRdy = procRespRdy (P'.inFlight k) i.respRdy ((P'.sys.cache k).out (i.withRdy b)).reqRdy := by
  by_cases hz : P'.inFlight k = 0
  · have hcnt := (C36_counter_exact wf h0 h k).1
    rw [hz] at hcnt
    have hnb := idle_nonblocking wf h0.sys h.open k (by simp at hcnt; omega)
    refine ⟨i.respRdy && ((P'.sys.cache k).out i).reqRdy, CanClock.withRdy hc _ hnb,
      (clock_withRdy _ _ _ _ hnb).1, (clock_withRdy _ _ _ _ hnb).2, out_withRdy _ _ _ hnb, ?_⟩
    rw [out_withRdy _ _ _ hnb]
    simp only [procRespRdy, if_pos hz, In.withRdy]
  · exact ⟨i.respRdy, hc, rfl, rfl, rfl, by simp only [procRespRdy, if_neg hz, In.withRdy]⟩

/-- **C49, transparency.**  The processor model neither adds nor removes behaviour: the sequences of
events (accepted requests, responses, memory traffic) possible with processor models in front of the
caches are exactly those possible with sources and sinks connected directly. -/
theorem C49_transparent (wf : p.WF) {P : PSys ι p} (h0 : PStart P) (tr : List (Ev ι p)) (S : Sys ι p) :
    (∃ P', PRun P tr P' ∧ P'.sys = S) ↔ Run P.sys tr S := by
  constructor
  · rintro ⟨P', h, rfl⟩; exact h.open
  · intro h
    induction h with
    | refl => exact ⟨P, .refl _, rfl⟩
    | @snoc S1 S2 tr ev h hs ih =>
      obtain ⟨P', h1, rfl⟩ := ih
      cases hs with
      | clock k i hc =>
        obtain ⟨b, h2, h3, h4, h5, h6⟩ := bench_of wf h0 h1 hc
        refine ⟨_, h1.snoc (by rw [← h4]; exact .clock P' k _ _ h2 h6), h3⟩
      | exec k m ms hm => exact ⟨_, h1.snoc (.exec P' k m ms hm), rfl⟩

/-- The execution of the open system with the readiness of the sinks at the response ports. Proof device; not in the source. -/
def PInf.inner (wf : p.WF) (X : PInf ι p) (h0 : PStart (X.st 0)) : Inf ι p where
  st t := (X.st t).sys
  act t := match X.act t with
    | .clock k i rdy => .clock k (i.withRdy rdy)
    | .exec k => .exec k
  evs := X.evs
  does t := by
    have hd := X.does t
    have hrun := X.run t
    generalize X.st t = P at *
    generalize X.st (t + 1) = P' at *
    generalize X.act t = a at *
    generalize X.evs t = ev at *
    cases hd with
    | clock k i rdy hc hr =>
      obtain ⟨h1, h2, h3, _⟩ := bench_clock wf h0 hrun hc hr
      simp only [Act.perform]
      rw [if_pos ⟨h1.noReset, h1.req, fun hm => by obtain ⟨l, hl⟩ := h1.mem hm; rw [hl]; rfl⟩, h2, h3]
    | exec k m ms hm => simp only [Act.perform, hm]

theorem PInf.inner_trace (wf : p.WF) (X : PInf ι p) (h0 : PStart (X.st 0)) (t : Nat) :
    (X.inner wf h0).trace t = X.trace t := by
  induction t with
  | zero => rfl
  | succ t ih => simp only [Inf.trace, PInf.trace, ih]; rfl

theorem PInf.inner_ports (wf : p.WF) (X : PInf ι p) (h0 : PStart (X.st 0)) {k : ι} (h : X.SinkReady k) :
    (X.inner wf h0).PortsReady k := by
  intro t
  obtain ⟨t', h1, i, h2, h3⟩ := h t
  refine ⟨t', h1, i.withRdy true, ?_, rfl, h3⟩
  simp only [PInf.inner, h2]

theorem PInf.inner_mem (wf : p.WF) (X : PInf ι p) (h0 : PStart (X.st 0)) {k : ι} (h : X.MemoryAnswers k) :
    (X.inner wf h0).MemoryAnswers k := by
  intro t ht
  obtain ⟨t', h1, i, rdy, h2, h3⟩ := h t ht
  refine ⟨t', h1, i.withRdy rdy, ?_, h3⟩
  simp only [PInf.inner, h2]

theorem PInf.inner_sources (wf : p.WF) (X : PInf ι p) (h0 : PStart (X.st 0)) {k : ι} {qs : List (CReq p)}
    (h : X.Sources k qs) : (X.inner wf h0).Sources k qs := by
  refine ⟨fun t => by rw [X.inner_trace wf h0]; exact h.1 t, fun t => ?_⟩
  obtain ⟨t', h1, i, rdy, h2, h3⟩ := h.2 t
  refine ⟨t', h1, i.withRdy rdy, by simp only [PInf.inner, h2], ?_⟩
  rw [X.inner_trace wf h0]
  intro a b c
  have hcnt := (C36_counter_exact wf h0 (X.run t') k).1
  refine h3 a ?_ (BitVec.eq_of_toNat_eq (by simp; omega))
  have hnb := idle_nonblocking wf h0.sys (X.run t').open k c.symm
  rw [← out_withRdy _ i rdy hnb]
  exact b

/-- **C49, single-cache bench.**  Source, processor model, cache, memory and sink: if the sink and
memory are ready again and again, memory answers, and the source keeps offering its valid requests
`qs`, then the sink eventually has received exactly the expected responses, and nothing more
afterwards. -/
theorem C49_bench_terminates (wf : p.WF) (X : PInf Unit p) (h0 : PStart (X.st 0)) (hp : X.SinkReady ())
    (hm : X.MemoryAnswers ()) {qs : List (CReq p)} (hv : ∀ q ∈ qs, q.Valid) (hs : X.Sources () qs) :
    ∃ t, ∀ t', t ≤ t' → responses () (X.trace t') = expectSeq (X.st 0).sys.mem qs := by
  have := C46_terminates wf (X.inner wf h0) h0.sys (X.inner_ports wf h0 hp) (X.inner_mem wf h0 hm) hv
    (X.inner_sources wf h0 hs)
  simp only [X.inner_trace wf h0] at this
  exact this

/-- **C49, the directed tests in the bench.**  Each of the 60 directed tests ends with exactly the listed
responses in `TestHarness` with its processor model, under every fair timing. -/
theorem C49_repo_tests : ∀ T ∈ repoTests, ∀ X : PInf Unit T.p, PStart (X.st 0) → (X.st 0).sys.mem = T.mem →
    X.SinkReady () → X.MemoryAnswers () → X.Sources () T.reqs →
    ∃ t, ∀ t', t ≤ t' → responses () (X.trace t') = T.resps := by
  intro T hT X h0 hm hp hma hs
  obtain ⟨wf, hv, he⟩ := SeqTest.of_check (List.all_eq_true.1 repoTests_checked T hT)
  have := C49_bench_terminates wf X h0 hp hma hv hs
  rwa [hm, he] at this

/-! ## Fair executions of the bench exist -/

/-- The bench around an execution of the open system. Proof device; not in the source. -/
def benchCnt (Y : Inf ι p) : Nat → ι → BitVec 2
  | 0 => fun _ => 0
  | t + 1 => match Y.act t with
    | .clock k i => upd (benchCnt Y t) k (procNext (benchCnt Y t k) i.reqEn (((Y.st t).cache k).out i).respEn)
    | .exec _ => benchCnt Y t

theorem bench_run (wf : p.WF) (Y : Inf ι p) (h0 : Start (Y.st 0)) (t : Nat) :
    PRun (⟨Y.st 0, fun _ => 0⟩ : PSys ι p) (Y.trace t) ⟨Y.st t, benchCnt Y t⟩ := by
  induction t with
  | zero => exact .refl _
  | succ t ih =>
    refine .snoc ih ?_
    have hP : PStart (⟨Y.st 0, fun _ => 0⟩ : PSys ι p) := ⟨h0, fun _ => rfl⟩
    have hd := Y.does t
    cases ha : Y.act t with
    | clock k i =>
      obtain ⟨hc, h2, h3⟩ := Y.clocked ha
      obtain ⟨b, h4, h5, h6, h7, h8⟩ := bench_of wf hP ih hc
      have := PStep.clock ⟨Y.st t, benchCnt Y t⟩ k (i.withRdy b) i.respRdy h4 h8
      rw [h3, h2]
      simp only [benchCnt, ha]
      simp only [h5, h6, h7] at this
      exact this
    | exec k =>
      rw [ha] at hd
      simp only [Act.perform] at hd
      split at hd
      · cases hd
      · rename_i m ms hq
        simp only [Option.some.injEq, Prod.mk.injEq] at hd
        simp only [benchCnt, ha]
        rw [← hd.1, ← hd.2]
        exact .exec ⟨Y.st t, benchCnt Y t⟩ k m ms hq

theorem bench_does (wf : p.WF) (Y : Inf ι p) (h0 : Start (Y.st 0)) (t : Nat) :
    ∃ a, PDoes (⟨Y.st t, benchCnt Y t⟩ : PSys ι p) a (Y.evs t) ⟨Y.st (t + 1), benchCnt Y (t + 1)⟩ ∧
      ∀ k i, Y.act t = .clock k i → ∃ b, a = .clock k (i.withRdy b) i.respRdy ∧
        ((Y.st t).cache k).out (i.withRdy b) = ((Y.st t).cache k).out i := by
  have ih := bench_run wf Y h0 t
  have hP : PStart (⟨Y.st 0, fun _ => 0⟩ : PSys ι p) := ⟨h0, fun _ => rfl⟩
  have hd := Y.does t
  cases ha : Y.act t with
  | clock k i =>
    obtain ⟨hc, h2, h3⟩ := Y.clocked ha
    obtain ⟨b, h4, h5, h6, h7, h8⟩ := bench_of wf hP ih hc
    have := PDoes.clock ⟨Y.st t, benchCnt Y t⟩ k (i.withRdy b) i.respRdy h4 h8
    refine ⟨.clock k (i.withRdy b) i.respRdy, ?_, ?_⟩
    · rw [h3, h2]
      simp only [benchCnt, ha]
      simp only [h5, h6, h7] at this
      exact this
    · intro k' i' h
      cases h
      exact ⟨b, rfl, h7⟩
  | exec k =>
    rw [ha] at hd
    simp only [Act.perform] at hd
    split at hd
    · cases hd
    · rename_i m ms hq
      simp only [Option.some.injEq, Prod.mk.injEq] at hd
      refine ⟨.exec k, ?_, ?_⟩
      · simp only [benchCnt, ha]
        rw [← hd.1, ← hd.2]
        exact .exec ⟨Y.st t, benchCnt Y t⟩ k m ms hq
      · intro k' i' h; cases h

/-- The bench around an execution of the open system. Proof device; not in the source. -/
noncomputable def Inf.bench (wf : p.WF) (Y : Inf ι p) (h0 : Start (Y.st 0)) : PInf ι p where
  st t := ⟨Y.st t, benchCnt Y t⟩
  act t := (bench_does wf Y h0 t).choose
  evs := Y.evs
  does t := (bench_does wf Y h0 t).choose_spec.1

theorem Inf.bench_trace (wf : p.WF) (Y : Inf ι p) (h0 : Start (Y.st 0)) (t : Nat) :
    (Y.bench wf h0).trace t = Y.trace t := by
  induction t with
  | zero => rfl
  | succ t ih => simp only [Inf.trace, PInf.trace, ih]; rfl

/-- C49: for every list of requests without INIT, every configuration and every power-up state there is an execution of the
bench that satisfies the hypotheses of `C49_bench_terminates`. -/
theorem bench_fair (wf : p.WF) (S : Sys Unit p) (h0 : Start S) {qs : List (CReq p)} (hi : ∀ q ∈ qs, q.ty ≠ MT.INIT) :
    ∃ X : PInf Unit p, X.st 0 = ⟨S, fun _ => 0⟩ ∧ PStart (X.st 0) ∧ X.SinkReady () ∧ X.MemoryAnswers () ∧ X.Sources () qs := by
  have hf := LiveEx.inf_fair S qs
  have hs := LiveEx.inf_sources S hi
  generalize hY : LiveEx.inf S qs = Y at hf hs
  have e0 : Y.st 0 = S := by rw [← hY]; rfl
  have h0 : Start (Y.st 0) := by rw [e0]; exact h0
  refine ⟨Y.bench wf h0, by simp [Inf.bench, e0, benchCnt], ⟨h0, fun _ => rfl⟩, fun t => ?_, fun t ht => ?_, ?_, fun t => ?_⟩
  · obtain ⟨t', h1, i, h2, h3, h4⟩ := hf.1 t
    obtain ⟨b, h5, h6⟩ := (bench_does wf Y h0 t').choose_spec.2 () i h2
    exact ⟨t', h1, i.withRdy b, by rw [← h3]; exact h5, h4⟩
  · obtain ⟨t', h1, i, h2, h3⟩ := hf.2 t ht
    obtain ⟨b, h5, h6⟩ := (bench_does wf Y h0 t').choose_spec.2 () i h2
    exact ⟨t', h1, i.withRdy b, _, h5, h3⟩
  · intro t; rw [Y.bench_trace wf h0]; exact hs.1 t
  · obtain ⟨t', h1, i, h2, h3⟩ := hs.2 t
    obtain ⟨b, h5, h6⟩ := (bench_does wf Y h0 t').choose_spec.2 () i h2
    refine ⟨t', h1, i.withRdy b, _, h5, ?_⟩
    rw [Y.bench_trace wf h0]
    intro x y z
    change (((Y.st t').cache ()).out (i.withRdy b)).reqRdy = true at y
    rw [h6] at y
    refine h3 x y ?_
    have hcnt := (C36_counter_exact wf ⟨h0, fun _ => rfl⟩ (bench_run wf Y h0 t') ()).1
    change benchCnt Y t' () = 0 at z
    rw [show (({ sys := Y.st t', inFlight := benchCnt Y t' } : PSys Unit p).inFlight ()) = benchCnt Y t' () from rfl, z] at hcnt
    simp at hcnt
    exact hcnt

/-! ## The multicore bench -/

variable {n : Nat} {g : Prog n p}

/-- Driver, caches, memory and the processor models inside the driver, test/MulticoreModel.py:46-56. -/
structure MPSys (n : Nat) (p : Params) where
  drv : MSys n p
  pm : Fin n → BitVec 2

/-- A step of the multicore bench: as `MStep`, but the response-ready input of each cache is computed
by its processor model from the readiness `rdy k` of the sink. Proof device; not in the source. -/
inductive MPStep (g : Prog n p) : MPSys n p → List (Ev (Fin n) p) → MPSys n p → Prop
  | cycle (X : MPSys n p) (i : Fin n → In p) (rdy : Fin n → Bool) (hc : ∀ k, X.drv.sys.CanClock k (i k))
      (hs : ∀ k, (i k).reqEn = true → ∃ o rest, X.drv.src k = (o, (i k).req) :: rest ∧ o ≤ X.drv.curr)
      (hr : ∀ k, (i k).respRdy = procRespRdy (X.pm k) (rdy k) ((X.drv.sys.cache k).out (i k)).reqRdy) :
      MPStep g X (X.drv.sys.clockAllEvs i)
        ⟨X.drv.next g i, fun k => procNext (X.pm k) (i k).reqEn ((X.drv.sys.cache k).out (i k)).respEn⟩
  | exec (X : MPSys n p) (k : Fin n) (m : MReq p) (ms : List (MReq p)) (h : X.drv.sys.reqQ k = m :: ms) :
      MPStep g X [.exec k m (memExec X.drv.sys.mem m).2] ⟨{ X.drv with sys := X.drv.sys.exec k m }, X.pm⟩

/-- A finite execution. Proof device; not in the source. -/
inductive MPRun (g : Prog n p) : MPSys n p → List (Ev (Fin n) p) → MPSys n p → Prop
  | refl (X : MPSys n p) : MPRun g X [] X
  | snoc {X X' X'' : MPSys n p} {tr ev : List (Ev (Fin n) p)} (h : MPRun g X tr X') (hs : MPStep g X' ev X'') :
      MPRun g X (tr ++ ev) X''

/-- Reset. Proof device; not in the source. -/
structure MPStart (g : Prog n p) (X : MPSys n p) : Prop where
  drv : MStart g X.drv
  pm : ∀ k, X.pm k = 0

/-- An infinite execution of the multicore bench. Proof device; not in the source. -/
structure MPInf (g : Prog n p) where
  st : Nat → MPSys n p
  evs : Nat → List (Ev (Fin n) p)
  does : ∀ t, MPStep g (st t) (evs t) (st (t + 1))

/-- The events of the first `t` steps. Proof device; not in the source. -/
def MPInf.trace (X : MPInf g) : Nat → List (Ev (Fin n) p)
  | 0 => []
  | t + 1 => X.trace t ++ X.evs t

/-- Step `t` is a clock edge with cache inputs `i` and sink readiness `rdy`. Proof device; not in the source. -/
structure MPInf.CycleAt (X : MPInf g) (t : Nat) (i : Fin n → In p) (rdy : Fin n → Bool) : Prop where
  can : ∀ k, (X.st t).drv.sys.CanClock k (i k)
  resp : ∀ k, (i k).respRdy = procRespRdy ((X.st t).pm k) (rdy k) (((X.st t).drv.sys.cache k).out (i k)).reqRdy
  evs : X.evs t = (X.st t).drv.sys.clockAllEvs i
  next : (X.st (t + 1)).drv = (X.st t).drv.next g i

/-- The environment is fair: again and again the sink of core `k` and memory are ready together;
memory answers; again and again the source hands over its next request if its order has come, the
cache is ready and the processor model counts nothing in flight. Proof device; not in the source. -/
structure MPInf.Fair (X : MPInf g) (k : Fin n) : Prop where
  sink : ∀ t, ∃ t', t ≤ t' ∧ ∃ i rdy, X.CycleAt t' i rdy ∧ rdy k = true ∧ (i k).mreqRdy = true
  mem : ∀ t, (X.st t).drv.sys.reqQ k ≠ [] ∨ (X.st t).drv.sys.respQ k ≠ [] →
    ∃ t', t ≤ t' ∧ ∃ i rdy, X.CycleAt t' i rdy ∧ (i k).mrespEn = true
  src : ∀ t, ∃ t', t ≤ t' ∧ ∃ i rdy, X.CycleAt t' i rdy ∧
    ∀ o q rest, (X.st t').drv.src k = (o, q) :: rest → o ≤ (X.st t').drv.curr →
      (((X.st t').drv.sys.cache k).out (i k)).reqRdy = true → (X.st t').pm k = 0 → (i k).reqEn = true

theorem MPStep.open {X X' : MPSys n p} {ev : List (Ev (Fin n) p)} (h : MPStep g X ev X') :
    MStep g X.drv ev X'.drv := by
  cases h with
  | cycle i rdy hc hs hr => exact .cycle _ i hc hs
  | exec k m ms h => exact .exec _ k m ms h

theorem MPRun.open {X X' : MPSys n p} {tr : List (Ev (Fin n) p)} (h : MPRun g X tr X') : MRun g X.drv tr X'.drv := by
  induction h with
  | refl => exact .refl _
  | snoc _ hs ih => exact ih.snoc hs.open

/-- The counters of the processor models are exact. -/
theorem mp_counter (wf : p.WF) {X X' : MPSys n p} {tr : List (Ev (Fin n) p)} (h0 : MPStart g X)
    (h : MPRun g X tr X') (k : Fin n) :
    (responses k tr).length + (X'.pm k).toNat = (accepted k tr).length := by
  induction h with
  | refl => simp [h0.pm k, responses, accepted]
  | @snoc X' X'' tr ev h hs ih =>
    have b := C06_at_most_two_unanswered wf h0.drv.sys h.open.open k
    have b' := C06_at_most_two_unanswered wf h0.drv.sys (h.snoc hs).open.open k
    rw [accepted_append, responses_append, List.length_append, List.length_append] at *
    cases hs with
    | exec j m ms h => simpa [accepted, responses] using ih
    | cycle i rdy hc hs hr =>
      rw [responses_all, accepted_all] at *
      simp only [procNext]
      have hlt := (X'.pm k).isLt
      have e1 : (1 : BitVec 2).toNat = 1 := rfl
      generalize X'.pm k = c at *
      generalize (i k).reqEn = x at *
      generalize ((X'.drv.sys.cache k).out (i k)).respEn = y at *
      cases x <;> cases y <;>
        simp only [Bool.not_true, Bool.not_false, Bool.and_true,
          Bool.and_false, Bool.false_eq_true, if_false, if_true, BitVec.toNat_sub,
          BitVec.toNat_add, e1, List.length_nil, List.length_singleton] at * <;> omega

theorem MPInf.run (X : MPInf g) (t : Nat) : MPRun g (X.st 0) (X.trace t) (X.st t) := by
  induction t with
  | zero => exact .refl _
  | succ t ih => exact .snoc ih (X.does t)

/-- The execution of the driver without processor models. Proof device; not in the source. -/
def MPInf.inner (X : MPInf g) : MInf g where
  st t := (X.st t).drv
  evs := X.evs
  does t := (X.does t).open

theorem MPInf.inner_trace (X : MPInf g) (t : Nat) : X.inner.trace t = X.trace t := by
  induction t with
  | zero => rfl
  | succ t ih => simp only [MInf.trace, MPInf.trace, ih]; rfl

theorem mp_idle (wf : p.WF) (X : MPInf g) (h0 : MPStart g (X.st 0)) (t : Nat) (k : Fin n)
    (h : (responses k (X.trace t)).length = (accepted k (X.trace t)).length ∨ (X.st t).pm k = 0) :
    blocking ((X.st t).drv.sys.cache k).t2 = false ∧ (X.st t).pm k = 0 := by
  have hc := mp_counter wf h0 (X.run t) k
  have : (X.st t).pm k = 0 := by
    rcases h with h | h
    · exact BitVec.eq_of_toNat_eq (by simp; omega)
    · exact h
  refine ⟨idle_nonblocking wf h0.drv.sys (X.run t).open.open k ?_, this⟩
  rw [this] at hc; simp at hc; omega

theorem MPInf.CycleAt.sinks (wf : p.WF) {X : MPInf g} (h0 : MPStart g (X.st 0)) {t : Nat} {i : Fin n → In p}
    {rdy : Fin n → Bool} (h : X.CycleAt t i rdy) :
    X.inner.CycleAt t (fun k => (i k).withRdy (rdy k)) := by
  have key : ∀ k, (i k).withRdy (rdy k) = i k ∨ blocking ((X.st t).drv.sys.cache k).t2 = false := by
    intro k
    by_cases hz : (X.st t).pm k = 0
    · exact .inr (mp_idle wf X h0 t k (.inr hz)).1
    · left
      have := h.resp k
      simp only [procRespRdy, if_neg hz] at this
      rw [← this]; rfl
  have hout : ∀ k, ((X.st t).drv.sys.cache k).out ((i k).withRdy (rdy k)) = ((X.st t).drv.sys.cache k).out (i k) := by
    intro k
    rcases key k with e | e
    · rw [e]
    · exact out_withRdy _ _ _ e
  have hstep : ∀ k, ((X.st t).drv.sys.cache k).step ((i k).withRdy (rdy k)) = ((X.st t).drv.sys.cache k).step (i k) := by
    intro k
    rcases key k with e | e
    · rw [e]
    · simp only [St.step, next_withRdy _ _ _ e]; rfl
  refine ⟨fun k => ?_, ?_, ?_⟩
  · exact ⟨(h.can k).noReset, by rw [show (X.inner.st t) = (X.st t).drv from rfl, hout k]; exact (h.can k).req, (h.can k).mem⟩
  · have e1 : X.inner.evs t = X.evs t := rfl
    rw [e1, h.evs]
    simp only [Sys.clockAllEvs, Sys.clockEvs, show (X.inner.st t) = (X.st t).drv from rfl, hout]
    rfl
  · have e1 : X.inner.st (t + 1) = (X.st (t + 1)).drv := rfl
    have e2 : X.inner.st t = (X.st t).drv := rfl
    rw [e1, h.next, e2]
    simp only [MSys.next, Sys.clockAll, respCount, hout, hstep]
    rfl

theorem MPInf.inner_fair (wf : p.WF) (X : MPInf g) (h0 : MPStart g (X.st 0)) (hf : ∀ k, X.Fair k) : X.inner.Fair := by
  intro k
  refine ⟨fun t => ?_, fun t ht => ?_, fun t => ?_⟩
  · obtain ⟨t', h1, i, rdy, h2, h3, h4⟩ := (hf k).sink t
    exact ⟨t', h1, _, h2.sinks wf h0, h3, h4⟩
  · obtain ⟨t', h1, i, rdy, h2, h3⟩ := (hf k).mem t ht
    exact ⟨t', h1, _, h2.sinks wf h0, h3⟩
  · obtain ⟨t', h1, i, rdy, h2, h3⟩ := (hf k).src t
    refine ⟨t', h1, _, h2.sinks wf h0, ?_⟩
    intro o q rest a b c d
    rw [X.inner_trace] at d
    obtain ⟨hnb, hz⟩ := mp_idle wf X h0 t' k (.inl d)
    refine h3 o q rest a b ?_ hz
    have e2 : X.inner.st t' = (X.st t').drv := rfl
    rw [e2, out_withRdy _ _ _ hnb] at c
    exact c

/-- **C49, multicore bench.**  Driver with its processor models, caches and shared memory: for every
program whose orders do not decrease on any core, in every fair execution all requests are eventually
answered. -/
theorem C49_multicore_terminates (wf : p.WF) (hg : g.length < 2 ^ 32) (hs : g.Sorted) (X : MPInf g)
    (h0 : MPStart g (X.st 0)) (hf : ∀ k, X.Fair k) : ∃ t, ∀ t', t ≤ t' → AllDone g (X.trace t') := by
  have := C47_terminates wf hg hs X.inner h0.drv (X.inner_fair wf h0 hf)
  simp only [X.inner_trace] at this
  exact this

/-- **C49, multicore bench, responses.**  If moreover the program is synchronised, then from some time on
each sink has received exactly the responses of the requests performed one after the other. -/
theorem C49_multicore_expected (wf : p.WF) (hg : g.length < 2 ^ 32) (hv : ∀ e ∈ g, e.2.2.Valid) (hy : g.Synchronised)
    (hs : g.Sorted) (X : MPInf g) (h0 : MPStart g (X.st 0)) (hf : ∀ k, X.Fair k) :
    ∃ t, ∀ t', t ≤ t' → ∀ k, responses k (X.trace t') = Prog.expect (X.st 0).drv.sys.mem g k := by
  have := C47_expected wf hg hv hy hs X.inner h0.drv (X.inner_fair wf h0 hf)
  simp only [X.inner_trace] at this
  exact this

/-! ## Fair executions of the multicore bench exist -/

namespace MBench

/-- The counters of the processor models, from the trace. Proof device; not in the source. -/
def pm (Y : MInf g) (t : Nat) (k : Fin n) : BitVec 2 :=
  BitVec.ofNat 2 ((accepted k (Y.trace t)).length - (responses k (Y.trace t)).length)

/-- The inputs of the caches behind the processor models. Proof device; not in the source. -/
def inp (Y : MInf g) (t : Nat) (i : Fin n → In p) (k : Fin n) : In p :=
  if pm Y t k = 0 then (i k).withRdy ((i k).respRdy && (((Y.st t).sys.cache k).out (i k)).reqRdy) else i k

theorem count (wf : p.WF) (Y : MInf g) (h0 : MStart g (Y.st 0)) (t : Nat) (k : Fin n) :
    (pm Y t k).toNat = (accepted k (Y.trace t)).length - (responses k (Y.trace t)).length := by
  have := C06_at_most_two_unanswered wf h0.sys (Y.run t).open k
  simp only [pm, BitVec.toNat_ofNat]
  omega

theorem count' (wf : p.WF) (Y : MInf g) (h0 : MStart g (Y.st 0)) (t : Nat) (k : Fin n) :
    (responses k (Y.trace t)).length ≤ (accepted k (Y.trace t)).length := by
  have := C06_at_most_two_unanswered wf h0.sys (Y.run t).open k
  omega

theorem nb (wf : p.WF) (Y : MInf g) (h0 : MStart g (Y.st 0)) (t : Nat) (k : Fin n) (h : pm Y t k = 0) :
    blocking ((Y.st t).sys.cache k).t2 = false := by
  have h1 := count wf Y h0 t k
  have h2 := count' wf Y h0 t k
  rw [h] at h1
  simp at h1
  exact idle_nonblocking wf h0.sys (Y.run t).open k (by omega)

theorem inp_out (wf : p.WF) (Y : MInf g) (h0 : MStart g (Y.st 0)) (t : Nat) (i : Fin n → In p) (k : Fin n) :
    ((Y.st t).sys.cache k).out (inp Y t i k) = ((Y.st t).sys.cache k).out (i k) ∧
    ((Y.st t).sys.cache k).step (inp Y t i k) = ((Y.st t).sys.cache k).step (i k) := by
  simp only [inp]
  split
  · rename_i hz
    have hn := nb wf Y h0 t k hz
    refine ⟨out_withRdy _ _ _ hn, ?_⟩
    simp only [St.step, next_withRdy _ _ _ hn]; rfl
  · exact ⟨rfl, rfl⟩

theorem inp_same (Y : MInf g) (t : Nat) (i : Fin n → In p) (k : Fin n) :
    (inp Y t i k).reset = (i k).reset ∧ (inp Y t i k).reqEn = (i k).reqEn ∧ (inp Y t i k).req = (i k).req ∧
    (inp Y t i k).mreqRdy = (i k).mreqRdy ∧ (inp Y t i k).mrespEn = (i k).mrespEn ∧ (inp Y t i k).mresp = (i k).mresp := by
  simp only [inp]; split <;> exact ⟨rfl, rfl, rfl, rfl, rfl, rfl⟩

theorem can (wf : p.WF) (Y : MInf g) (h0 : MStart g (Y.st 0)) (t : Nat) (i : Fin n → In p) (k : Fin n)
    (h : (Y.st t).sys.CanClock k (i k)) : (Y.st t).sys.CanClock k (inp Y t i k) := by
  obtain ⟨h1, h2, h3, h4, h5, h6⟩ := inp_same Y t i k
  exact ⟨h1.trans h.noReset, by rw [(inp_out wf Y h0 t i k).1, h2, h3]; exact h.req, by rw [h5, h6]; exact h.mem⟩

theorem resp (wf : p.WF) (Y : MInf g) (h0 : MStart g (Y.st 0)) (t : Nat) (i : Fin n → In p) (k : Fin n) :
    (inp Y t i k).respRdy = procRespRdy (pm Y t k) (i k).respRdy (((Y.st t).sys.cache k).out (inp Y t i k)).reqRdy := by
  rw [(inp_out wf Y h0 t i k).1]
  by_cases hz : pm Y t k = 0
  · simp only [inp, procRespRdy, if_pos hz, In.withRdy]
  · simp only [inp, procRespRdy, if_neg hz]

theorem clock_eq (wf : p.WF) (Y : MInf g) (h0 : MStart g (Y.st 0)) (t : Nat) (i : Fin n → In p) :
    (Y.st t).sys.clockAllEvs (inp Y t i) = (Y.st t).sys.clockAllEvs i ∧
    (Y.st t).next g (inp Y t i) = (Y.st t).next g i := by
  have h1 := fun k => inp_same Y t i k
  have h2 := fun k => (inp_out wf Y h0 t i k).1
  have h3 := fun k => (inp_out wf Y h0 t i k).2
  constructor
  · simp only [Sys.clockAllEvs, Sys.clockEvs, h2, fun k => (h1 k).2.1, fun k => (h1 k).2.2.1]
  · simp only [MSys.next, Sys.clockAll, respCount, h2, h3, fun k => (h1 k).2.1,
      fun k => (h1 k).2.2.2.2.1]
    rfl

theorem does (wf : p.WF) (Y : MInf g) (h0 : MStart g (Y.st 0)) (t : Nat) :
    MPStep g ⟨Y.st t, pm Y t⟩ (Y.evs t) ⟨Y.st (t + 1), pm Y (t + 1)⟩ := by
  have hd := Y.does t
  have hc1 := count wf Y h0 t
  have hc2 := count wf Y h0 (t + 1)
  have hl1 := count' wf Y h0 t
  have hl2 := count' wf Y h0 (t + 1)
  have hb := fun k => C06_at_most_two_unanswered wf h0.sys (Y.run t).open k
  simp only [MInf.trace, accepted_append, responses_append, List.length_append] at hc2 hl2
  have hcan := can wf Y h0 t
  have hresp := resp wf Y h0 t
  have hck := clock_eq wf Y h0 t
  have hsame := inp_same Y t
  have hout := fun i k => (inp_out wf Y h0 t i k).1
  generalize pm Y t = c at *
  generalize pm Y (t + 1) = c' at *
  generalize inp Y t = f at *
  generalize Y.trace t = tr at *
  generalize Y.st (t + 1) = D' at *
  generalize Y.evs t = ev at *
  generalize Y.st t = D at *
  cases hd with
  | exec k m ms h =>
    have : c' = c := by
      funext k'
      apply BitVec.eq_of_toNat_eq
      rw [hc1, hc2]
      simp [accepted, responses]
    rw [this]
    exact .exec ⟨D, c⟩ k m ms h
  | cycle i hc hs =>
    have := MPStep.cycle (g := g) ⟨D, c⟩ (f i) (fun k => (i k).respRdy) (fun k => hcan i k (hc k))
      (fun k h => by
        rw [(hsame i k).2.1] at h
        rw [(hsame i k).2.2.1]
        exact hs k h)
      (hresp i)
    simp only [(hck i).1, (hck i).2] at this
    have e : (fun k => procNext (c k) (f i k).reqEn ((D.sys.cache k).out (f i k)).respEn) = c' := by
      funext k
      rw [(hsame i k).2.1, hout i k]
      have a1 := hc1 k
      have a2 := hc2 k
      have a3 := hl1 k
      have a4 := hl2 k
      have a5 := hb k
      rw [responses_all, accepted_all] at *
      have e1 : (1 : BitVec 2).toNat = 1 := rfl
      apply BitVec.eq_of_toNat_eq
      simp only [procNext]
      generalize c k = x at *
      generalize c' k = x' at *
      generalize (i k).reqEn = x at *
      generalize ((D.sys.cache k).out (i k)).respEn = y at *
      cases x <;> cases y <;>
        simp only [Bool.not_true, Bool.not_false, Bool.and_true,
          Bool.and_false, Bool.false_eq_true, if_false, if_true, BitVec.toNat_sub,
          BitVec.toNat_add, e1, List.length_nil, List.length_singleton] at * <;> omega
    rw [e] at this
    exact this

/-- The bench around an execution of the driver. Proof device; not in the source. -/
def around (wf : p.WF) (Y : MInf g) (h0 : MStart g (Y.st 0)) : MPInf g :=
  ⟨fun t => ⟨Y.st t, pm Y t⟩, Y.evs, does wf Y h0⟩

theorem cycle (wf : p.WF) (Y : MInf g) (h0 : MStart g (Y.st 0)) {t : Nat} {i : Fin n → In p} (h : Y.CycleAt t i) :
    (around wf Y h0).CycleAt t (inp Y t i) (fun k => (i k).respRdy) :=
  ⟨fun k => can wf Y h0 t i k (h.can k), fun k => resp wf Y h0 t i k,
    h.evs.trans (clock_eq wf Y h0 t i).1.symm, h.next.trans (clock_eq wf Y h0 t i).2.symm⟩

theorem around_start (wf : p.WF) (Y : MInf g) (h0 : MStart g (Y.st 0)) : MPStart g ((around wf Y h0).st 0) :=
  ⟨h0, fun _ => rfl⟩

theorem around_fair (wf : p.WF) (Y : MInf g) (h0 : MStart g (Y.st 0)) (hf : Y.Fair) (k : Fin n) :
    (around wf Y h0).Fair k := by
  refine ⟨fun t => ?_, fun t ht => ?_, fun t => ?_⟩
  · obtain ⟨t', h1, i, h2, h3, h4⟩ := (hf k).1 t
    exact ⟨t', h1, _, _, cycle wf Y h0 h2, h3, (inp_same Y t' i k).2.2.2.1.trans h4⟩
  · obtain ⟨t', h1, i, h2, h3⟩ := (hf k).2.1 t ht
    exact ⟨t', h1, _, _, cycle wf Y h0 h2, (inp_same Y t' i k).2.2.2.2.1.trans h3⟩
  · obtain ⟨t', h1, i, h2, h3⟩ := (hf k).2.2 t
    refine ⟨t', h1, _, _, cycle wf Y h0 h2, ?_⟩
    intro o q rest a b c d
    rw [(inp_same Y t' i k).2.1]
    refine h3 o q rest a b ?_ ?_
    · rw [← (inp_out wf Y h0 t' i k).1]; exact c
    · have e1 := count wf Y h0 t' k
      have e2 := count' wf Y h0 t' k
      change pm Y t' k = 0 at d
      rw [d] at e1
      simp at e1
      omega

end MBench

/-- The hypotheses of C49 are met for every program without INIT: a fair execution of the multicore bench. -/
theorem mbench_fair {g : Prog n p} (wf : p.WF) (hg : g.length < 2 ^ 32) (hv : ∀ e ∈ g, e.2.2.Valid) :
    ∃ X : MPInf g, MPStart g (X.st 0) ∧ (X.st 0).drv.sys.mem = multicacheMem ∧ ∀ k, X.Fair k := by
  obtain ⟨Y, h0, hm, hf⟩ := fair_of wf hg hv
  exact ⟨MBench.around wf Y h0, MBench.around_start wf Y h0, hm, MBench.around_fair wf Y h0 hf⟩

/-- **C49, rd_wr_2c.**  The first multi-cache test of the repository passes in the bench with processor
models, under every fair schedule. -/
theorem C49_rd_wr_2c (X : MPInf rd_wr_2c) (h0 : MPStart rd_wr_2c (X.st 0)) (hm : (X.st 0).drv.sys.mem = multicacheMem)
    (hf : ∀ k, X.Fair k) : ∃ t, ∀ t', t ≤ t' →
      responses 0 (X.trace t') = [mresp pDM MT.READ 0 0 0, mresp pDM MT.WRITE 0 1 0, mresp pDM MT.READ 0 0 0xd] ∧
      responses 1 (X.trace t') = [mresp pDM MT.READ 0 0 1] := by
  have := C47_rd_wr_2c X.inner h0.drv hm (X.inner_fair pDM_wf h0 hf)
  simp only [X.inner_trace] at this
  exact this

/-- **C49, amo_2c.** -/
theorem C49_amo_2c (X : MPInf amo_2c) (h0 : MPStart amo_2c (X.st 0)) (hm : (X.st 0).drv.sys.mem = multicacheMem)
    (hf : ∀ k, X.Fair k) : ∃ t, ∀ t', t ≤ t' →
      responses 0 (X.trace t') = [mresp pDM MT.AMO 0 0 0, mresp pDM MT.READ 1 0 1] ∧
      responses 1 (X.trace t') = [mresp pDM MT.READ 0 0 1] := by
  have := C47_amo_2c X.inner h0.drv hm (X.inner_fair pDM_wf h0 hf)
  simp only [X.inner_trace] at this
  exact this

/-- **C49, inv_fl_2c.** -/
theorem C49_inv_fl_2c (X : MPInf inv_fl_2c) (h0 : MPStart inv_fl_2c (X.st 0)) (hm : (X.st 0).drv.sys.mem = multicacheMem)
    (hf : ∀ k, X.Fair k) : ∃ t, ∀ t', t ≤ t' →
      responses 0 (X.trace t') = [mresp pDM MT.WRITE 0 0 0, mresp pDM MT.WRITE 1 1 0, mresp pDM MT.INV 2 0 0,
        mresp pDM MT.READ 3 0 3, mresp pDM MT.READ 4 1 0x12] ∧
      responses 1 (X.trace t') = [mresp pDM MT.WRITE 0 0 0, mresp pDM MT.FLUSH 1 0 0] := by
  have := C47_inv_fl_2c X.inner h0.drv hm (X.inner_fair pDM_wf h0 hf)
  simp only [X.inner_trace] at this
  exact this

/-- **C49, inv_fl_4c.** -/
theorem C49_inv_fl_4c (X : MPInf inv_fl_4c) (h0 : MPStart inv_fl_4c (X.st 0)) (hm : (X.st 0).drv.sys.mem = multicacheMem)
    (hf : ∀ k, X.Fair k) : ∃ t, ∀ t', t ≤ t' → ∀ k : Fin 4,
      responses k (X.trace t') = [mresp pSA MT.WRITE 0 0 0, mresp pSA MT.FLUSH 1 0 0, mresp pSA MT.INV 2 0 0,
        mresp pSA MT.READ 3 0 ([0x34, 0x23, 0x12, 0x01].getD k 0)] := by
  have := C47_inv_fl_4c X.inner h0.drv hm (X.inner_fair pSA_wf h0 hf)
  simp only [X.inner_trace] at this
  exact this

example : ∃ X : MPInf inv_fl_4c, MPStart inv_fl_4c (X.st 0) ∧ (X.st 0).drv.sys.mem = multicacheMem ∧ ∀ k, X.Fair k :=
  mbench_fair pSA_wf (by decide) (valid_of (by decide +kernel))

end Verif
