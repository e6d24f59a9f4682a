import Verif.HetNet
import Verif.PropsWave
import Verif.PropsDisc
import Verif.PropsHetNet

/-!
# C83: every cache of a system is answered, whatever the others do

The system of `HetNet.lean` with the values of the ports in each clock cycle, so that one can say when an output port is
ready.  The ports of each cache show a waveform in the sense of C76, so the guarantees of C76 hold for each cache of the
system, independently of the shapes and the programs of the others.
-/

set_option linter.unusedSectionVars false

namespace Verif.Net
variable {ι : Type} [DecidableEq ι] {p : ι → Params}

/-! ## Specification -/

/-- What happens in one step: a clock cycle of cache `k` with the values of its ports, or memory executes a request of
port `k`. System as in the harness, test/sim_utils.py:283-314. -/
inductive Lab (ι : Type) (p : ι → Params)
  | clock (k : ι) (c : Cyc (p k))
  | exec (k : ι) (m : WMReq (p k)) (r : WMResp (p k))

/-- The steps of `HNStep`, with the ports. System as in the harness, test/sim_utils.py:283-314. -/
inductive HLStep : HNSys ι p → Lab ι p → HNSys ι p → Prop
  | clock (N : HNSys ι p) (k : ι) (i : PIn (p k)) (L : List Blk) (hL : Sched.Rounds Blk levels L)
      (h : ((N.node k).on N.mem).CanClock () i (((N.node k).on N.mem).run () i L)) :
      HLStep N (.clock k ⟨i, outOf (((N.node k).on N.mem).run () i L)⟩)
        ⟨N.setNode k (((N.node k).on N.mem).clock () i (((N.node k).on N.mem).run () i L)).node, N.mem⟩
  | exec (N : HNSys ι p) (k : ι) (m : WMReq (p k)) (ms : List (WMReq (p k))) (h : (N.node k).reqQ = m :: ms) :
      HLStep N (.exec k m (memExecW N.mem m).2)
        ⟨N.setNode k (((N.node k).on N.mem).exec () m).node, (memExecW N.mem m).1⟩

/-- A finite execution. System as in the harness, test/sim_utils.py:283-314. -/
inductive HLRun : HNSys ι p → List (Lab ι p) → HNSys ι p → Prop
  | refl (N : HNSys ι p) : HLRun N [] N
  | snoc {N N' N'' : HNSys ι p} {ls : List (Lab ι p)} {l : Lab ι p} (h : HLRun N ls N') (hs : HLStep N' l N'') :
      HLRun N (ls ++ [l]) N''

/-- The events of a clock cycle, read from the ports. System as in the harness, test/sim_utils.py:283-314. -/
def cycEvs {p : Params} (c : Cyc p) : List (WEv Unit p) :=
  (if c.inp.cachereqEn then [.acc () c.inp.cachereqMsg] else []) ++
    (if c.out.memreqEn then [.mreq () c.out.memreqMsg] else []) ++
    (if c.out.cacherespEn then [.resp () c.out.cacherespMsg] else [])

/-- The events of a step. System as in the harness, test/sim_utils.py:283-314. -/
def Lab.evs : Lab ι p → List (HWEv ι p)
  | .clock k c => (cycEvs c).map fun e => ⟨k, e⟩
  | .exec k m r => [⟨k, .exec () m r⟩]

/-- The events of an execution. System as in the harness, test/sim_utils.py:283-314. -/
def evsOf (ls : List (Lab ι p)) : List (HWEv ι p) := ls.flatMap Lab.evs

/-- The clock cycle of cache `k`, if the step is one. System as in the harness, test/sim_utils.py:283-314. -/
def Lab.at (k : ι) : Lab ι p → Option (Cyc (p k))
  | .clock k' c => if h : k' = k then some (h ▸ c) else none
  | .exec _ _ _ => none

/-- The waveform on the ports of cache `k`. System as in the harness, test/sim_utils.py:283-314. -/
def wave (k : ι) (ls : List (Lab ι p)) : List (Cyc (p k)) := ls.filterMap (Lab.at k)

/-- An infinite execution. System as in the harness, test/sim_utils.py:283-314. -/
structure HLInf (ι : Type) [DecidableEq ι] (p : ι → Params) where
  st : Nat → HNSys ι p
  lab : Nat → Lab ι p
  does : ∀ t, HLStep (st t) (lab t) (st (t + 1))

/-- The first `t` steps. System as in the harness, test/sim_utils.py:283-314. -/
def HLInf.labs (X : HLInf ι p) (t : Nat) : List (Lab ι p) := (List.range t).map X.lab

/-- What the processors see in the first `t` steps. System as in the harness, test/sim_utils.py:283-314. -/
def HLInf.seen (X : HLInf ι p) (t : Nat) : List (WM.Ev ι) := wvisible (evsOf (X.labs t))

/-- Again and again cache `k` has a clock cycle in which its processor can take a response and memory a request. System as in the harness, test/sim_utils.py:283-314. -/
def HLInf.PortsReady (X : HLInf ι p) (k : ι) : Prop :=
  ∀ t, ∃ t', t ≤ t' ∧ ∃ c, X.lab t' = .clock k c ∧ c.inp.cacherespRdy = true ∧ c.inp.memreqRdy = true

/-- Whenever memory owes cache `k` a response, it later delivers one. System as in the harness, test/sim_utils.py:283-314. -/
def HLInf.MemoryAnswers (X : HLInf ι p) (k : ι) : Prop :=
  ∀ t, ((X.st t).node k).reqQ ≠ [] ∨ ((X.st t).node k).respQ ≠ [] →
    ∃ t', t ≤ t' ∧ ∃ c, X.lab t' = .clock k c ∧ c.inp.memrespEn = true

/-! ## The same system -/

theorem HLStep.toStep {N N' : HNSys ι p} {l : Lab ι p} (h : HLStep N l N') : HNStep N l.evs N' := by
  cases h with
  | clock k i L hL h => exact .mk N k _ _ (.clock _ () i L hL h)
  | exec k m ms h => exact .mk N k _ _ (.exec ((N.node k).on N.mem) () m ms h)

theorem HLRun.toRun {N N' : HNSys ι p} {ls : List (Lab ι p)} (h : HLRun N ls N') : HNRun N (evsOf ls) N' := by
  induction h with
  | refl => exact .refl _
  | snoc _ hs ih =>
    have := HNRun.snoc ih hs.toStep
    rw [evsOf, List.flatMap_append]
    simpa [evsOf] using this

theorem HNStep.label {N N' : HNSys ι p} {ev : List (HWEv ι p)} (h : HNStep N ev N') :
    ∃ l, HLStep N l N' ∧ l.evs = ev := by
  cases h with
  | mk k ev S h =>
    generalize hT : (N.node k).on N.mem = T at h
    cases h with
    | clock u i L hL hc =>
      subst hT
      exact ⟨_, .clock N k i L hL hc, rfl⟩
    | exec u m ms hq =>
      subst hT
      exact ⟨_, .exec N k m ms hq, rfl⟩

theorem HNRun.label {N N' : HNSys ι p} {tr : List (HWEv ι p)} (h : HNRun N tr N') :
    ∃ ls, HLRun N ls N' ∧ evsOf ls = tr := by
  induction h with
  | refl => exact ⟨[], .refl _, rfl⟩
  | snoc _ hs ih =>
    obtain ⟨ls, h1, h2⟩ := ih
    obtain ⟨l, h3, h4⟩ := hs.label
    refine ⟨_, .snoc h1 h3, ?_⟩
    rw [evsOf, List.flatMap_append, ← h4, ← h2]
    simp [evsOf]

/-! ## Waveforms -/

theorem Waves.snoc {p : Params} {r r' : Regs p} {l : List (Cyc p)} (h : Waves r l r') (i : PIn p)
    (w₀ : (x : Wire) → T p x) (L : List Blk) (hL : Sched.Rounds Blk levels L) :
    Waves r (l ++ [⟨i, outOf (runBlks r' i L w₀)⟩]) (regsNext r' i (runBlks r' i L w₀)) := by
  induction h with
  | nil r => exact .cons i w₀ L hL (.nil _)
  | cons i' w' L' hL' _ ih => exact .cons i' w' L' hL' ih

theorem fair_snoc {p : Params} {l : List (Cyc p)} {c : Cyc p} : ∀ {O : List MType}, Fair O l →
    c.inp.reset = false → (c.inp.cachereqEn = true → c.out.cachereqRdy = true) →
    (c.inp.memrespEn = true → (owesW' O l).head? = some c.inp.memrespMsg.ty) → Fair O (l ++ [c]) := by
  induction l with
  | nil => intro O _ h1 h2 h3; exact ⟨h1, h2, h3, trivial⟩
  | cons d l ih =>
    intro O hf h1 h2 h3
    exact ⟨hf.1, hf.2.1, hf.2.2.1, ih hf.2.2.2 h1 h2 h3⟩

theorem wave_same (k : ι) (ls : List (Lab ι p)) (c : Cyc (p k)) : wave k (ls ++ [.clock k c]) = wave k ls ++ [c] := by
  simp [wave, Lab.at]

theorem wave_other {k k' : ι} (h : k' ≠ k) (ls : List (Lab ι p)) (c : Cyc (p k')) :
    wave k (ls ++ [.clock k' c]) = wave k ls := by
  simp [wave, Lab.at, h]

theorem wave_exec (k k' : ι) (ls : List (Lab ι p)) (m : WMReq (p k')) (r : WMResp (p k')) :
    wave k (ls ++ [.exec k' m r]) = wave k ls := by
  simp [wave, Lab.at]

theorem memExecW_ty {p : Params} (M : ByteMem) (m : WMReq p) : (memExecW M m).2.ty = m.ty := by
  simp only [memExecW]
  split
  · rfl
  · split <;> rfl

/-- What memory owes to a node. System as in the harness, test/sim_utils.py:283-314. -/
def NNode.owed {p : Params} (n : NNode p) : List MType := n.respQ.map (·.ty) ++ n.reqQ.map (·.ty)

/-- The waveform of a cache and what memory owes to it. System as in the harness, test/sim_utils.py:283-314. -/
structure Seen (N : HNSys ι p) (ls : List (Lab ι p)) (N' : HNSys ι p) (k : ι) : Prop where
  waves : Waves (N.node k).regs (wave k ls) (N'.node k).regs
  fair : Fair [] (wave k ls)
  owes : owesW' [] (wave k ls) = (N'.node k).owed

theorem owed_clock {p : Params} {N : NSys Unit p} {i : PIn p} {w : (x : Wire) → T p x} (h : N.CanClock () i w) :
    (N.clock () i w).node.owed = owesW N.node.owed ⟨i, outOf w⟩ := by
  simp only [NNode.owed, NSys.clock, NSys.node, owesW, upd, if_true]
  by_cases hm : i.memrespEn = true
  · obtain ⟨_, l, hl⟩ := h.mem hm
    rw [if_pos hm, if_pos hm, hl]
    by_cases he : (outOf w).memreqEn = true
    · simp [he]
    · simp [he]
  · rw [if_neg hm, if_neg hm]
    by_cases he : (outOf w).memreqEn = true
    · simp [he]
    · simp [he]

theorem HLRun.seen {N N' : HNSys ι p} {ls : List (Lab ι p)} (h0 : HNStart N) (h : HLRun N ls N') (k : ι) :
    Seen N ls N' k := by
  induction h with
  | refl =>
    refine ⟨.nil _, trivial, ?_⟩
    have h1 : (N.node k).reqQ = [] := (h0 k).reqQ ()
    have h2 : (N.node k).respQ = [] := (h0 k).respQ ()
    simp [NNode.owed, h1, h2, wave, owesW']
  | @snoc N' N'' ls l _ hs ih =>
    obtain ⟨i1, i2, i3⟩ := ih
    cases hs with
    | clock k' i L hL hc =>
      by_cases hk : k' = k
      · subst hk
        refine ⟨?_, ?_, ?_⟩
        · rw [wave_same]
          show Waves _ _ (HNSys.setNode _ _ _ _).regs
          rw [hnSet_same]
          have := i1.snoc i (N'.node k').wires L hL
          simp only [NSys.clock, NSys.node, upd, if_true]
          exact this
        · rw [wave_same]
          refine fair_snoc i2 hc.noReset (fun h => (hc.req h).1) ?_
          intro hm
          obtain ⟨_, l, hl⟩ := hc.mem hm
          have hl' : (N'.node k').respQ = i.memrespMsg :: l := hl
          rw [i3, NNode.owed, hl']
          rfl
        · rw [wave_same]
          show _ = (HNSys.setNode _ _ _ _).owed
          rw [hnSet_same, owed_clock hc]
          simp only [owesW', List.foldl_append, List.foldl_cons, List.foldl_nil]
          have : (wave k' ls).foldl owesW [] = owesW' [] (wave k' ls) := rfl
          rw [this, i3]
          rfl
      · refine ⟨?_, ?_, ?_⟩
        · rw [wave_other hk]
          show Waves _ _ (HNSys.setNode _ _ _ _).regs
          rw [hnSet_other _ _ (Ne.symm hk)]; exact i1
        · rw [wave_other hk]; exact i2
        · rw [wave_other hk]
          show _ = (HNSys.setNode _ _ _ _).owed
          rw [hnSet_other _ _ (Ne.symm hk)]; exact i3
    | exec k' m ms hq =>
      by_cases hk : k' = k
      · subst hk
        refine ⟨?_, ?_, ?_⟩
        · rw [wave_exec]
          show Waves _ _ (HNSys.setNode _ _ _ _).regs
          rw [hnSet_same]; exact i1
        · rw [wave_exec]; exact i2
        · rw [wave_exec]
          show _ = (HNSys.setNode _ _ _ _).owed
          rw [hnSet_same, i3]
          simp only [NNode.owed, NSys.exec, NSys.node, upd, if_true, NNode.on, hq, List.tail_cons, List.map_append,
            List.map_cons, List.map_nil, memExecW_ty, List.append_assoc, List.cons_append, List.nil_append]
      · refine ⟨?_, ?_, ?_⟩
        · rw [wave_exec]
          show Waves _ _ (HNSys.setNode _ _ _ _).regs
          rw [hnSet_other _ _ (Ne.symm hk)]; exact i1
        · rw [wave_exec]; exact i2
        · rw [wave_exec]
          show _ = (HNSys.setNode _ _ _ _).owed
          rw [hnSet_other _ _ (Ne.symm hk)]; exact i3

/-! ## Counting -/

theorem wvisible_append (a b : List (HWEv ι p)) : wvisible (a ++ b) = wvisible a ++ wvisible b := by
  simp [wvisible]

theorem wave_append (k : ι) (a b : List (Lab ι p)) : wave k (a ++ b) = wave k a ++ wave k b := by
  simp [wave]

theorem evsOf_append (a b : List (Lab ι p)) : evsOf (a ++ b) = evsOf a ++ evsOf b := by
  simp [evsOf]

theorem accepted_lab_same (k : ι) (c : Cyc (p k)) : WM.accepted k (wvisible (Lab.clock k c : Lab ι p).evs) =
    if c.inp.cachereqEn then [c.inp.cachereqMsg.req] else [] := by
  cases h1 : c.inp.cachereqEn <;> cases h2 : c.out.memreqEn <;> cases h3 : c.out.cacherespEn <;>
    simp [Lab.evs, cycEvs, h1, h2, h3, wvisible, WEv.local, WM.accepted, WM.LEv.at]

theorem responses_lab_same (k : ι) (c : Cyc (p k)) : WM.responses k (wvisible (Lab.clock k c : Lab ι p).evs) =
    if c.out.cacherespEn then [c.out.cacherespMsg.resp] else [] := by
  cases h1 : c.inp.cachereqEn <;> cases h2 : c.out.memreqEn <;> cases h3 : c.out.cacherespEn <;>
    simp [Lab.evs, cycEvs, h1, h2, h3, wvisible, WEv.local, WM.responses, WM.LEv.at]

theorem lab_other {k : ι} {l : Lab ι p} (h : l.at k = none) : WM.accepted k (wvisible l.evs) = [] ∧
    WM.responses k (wvisible l.evs) = [] := by
  cases l with
  | clock k' c =>
    have hk : k' ≠ k := by
      intro hk; subst hk; simp [Lab.at] at h
    cases h1 : c.inp.cachereqEn <;> cases h2 : c.out.memreqEn <;> cases h3 : c.out.cacherespEn <;>
      simp [Lab.evs, cycEvs, h1, h2, h3, wvisible, WEv.local, WM.accepted, WM.responses, WM.LEv.at, hk]
  | exec k' m r => simp [Lab.evs, wvisible, WEv.local, WM.accepted, WM.responses]

/-- The requests and responses the programmer sees are those on the ports. -/
theorem seen_wave (k : ι) (ls : List (Lab ι p)) :
    WM.accepted k (wvisible (evsOf ls)) = ((wave k ls).filter (·.inp.cachereqEn)).map (·.inp.cachereqMsg.req) ∧
    WM.responses k (wvisible (evsOf ls)) = ((wave k ls).filter (·.out.cacherespEn)).map (·.out.cacherespMsg.resp) := by
  induction ls with
  | nil => exact ⟨rfl, rfl⟩
  | cons l ls ih =>
    have e : evsOf (l :: ls) = l.evs ++ evsOf ls := by simp [evsOf]
    rw [e, wvisible_append, WM.accepted_append, WM.responses_append, ih.1, ih.2]
    cases ha : l.at k with
    | none =>
      have : wave k (l :: ls) = wave k ls := by simp [wave, ha]
      rw [(lab_other ha).1, (lab_other ha).2, this]
      exact ⟨rfl, rfl⟩
    | some c =>
      have : wave k (l :: ls) = c :: wave k ls := by simp [wave, ha]
      have hl : l = .clock k c := by
        cases l with
        | clock k' c' =>
          simp only [Lab.at] at ha
          split at ha
          · rename_i hk; subst hk; cases ha; rfl
          · cases ha
        | exec k' m r => cases ha
      subst hl
      rw [this, accepted_lab_same, responses_lab_same, List.filter_cons, List.filter_cons]
      constructor
      · split <;> rfl
      · split <;> rfl

theorem seen_requests (k : ι) (ls : List (Lab ι p)) :
    (WM.accepted k (wvisible (evsOf ls))).length = requestsW (wave k ls) := by
  rw [(seen_wave k ls).1, List.length_map, requestsW, List.countP_eq_length_filter]

theorem seen_responses (k : ι) (ls : List (Lab ι p)) :
    (WM.responses k (wvisible (evsOf ls))).length = responsesW (wave k ls) := by
  rw [(seen_wave k ls).2, List.length_map, responsesW, List.countP_eq_length_filter]

theorem HNStart.after {N : HNSys ι p} (h0 : HNStart N) (k : ι) : AfterReset (N.node k).regs := by
  obtain ⟨r, i, w, h1, h2⟩ := (h0 k).reset ()
  exact ⟨r, i, w, h1, h2⟩

/-! ## Theorems -/

/-- **C83.**  The executions with ports are those of `HNRun`. -/
theorem C83_same_system {N N' : HNSys ι p} {tr : List (HWEv ι p)} :
    HNRun N tr N' ↔ ∃ ls, HLRun N ls N' ∧ evsOf ls = tr :=
  ⟨fun h => h.label, fun ⟨_, h, e⟩ => e ▸ h.toRun⟩

/-- **C83, ports.**  In every execution of caches of different shapes the ports of each cache show a waveform of that
cache alone (as in C76) in which the environment obeys the rules of the ports. -/
theorem C83_ports {N N' : HNSys ι p} {ls : List (Lab ι p)} (h0 : HNStart N) (h : HLRun N ls N') (k : ι) :
    AfterReset (N.node k).regs ∧ Waves (N.node k).regs (wave k ls) (N'.node k).regs ∧ Fair [] (wave k ls) :=
  ⟨h0.after k, (h.seen h0 k).waves, (h.seen h0 k).fair⟩

/-- **C83, order.**  Each cache answers its requests in order, once each, with their type, opaque and length; no validity
of the requests of any cache is assumed. -/
theorem C83_responses_in_order (wf : ∀ k, (p k).WF) {N N' : HNSys ι p} {tr : List (HWEv ι p)} (h0 : HNStart N)
    (h : HNRun N tr N') (k : ι) :
    (WM.responses k (wvisible tr)).map (fun r => (r.ty, r.opq, r.len)) <+:
      (WM.accepted k (wvisible tr)).map (fun q => (q.ty, q.opq, q.len)) := by
  obtain ⟨ls, hl, rfl⟩ := h.label
  obtain ⟨h1, h2, h3⟩ := C83_ports h0 hl k
  obtain ⟨R, hR⟩ := C76_responses_in_order (wf k) h1 h2 h3
  have := congrArg (List.map fun x : MType × Opq (p k) × BitVec (p k).lenBits => (x.1, x.2.1.toNat, x.2.2.toNat)) hR
  refine ⟨R.map fun x => (x.1, x.2.1.toNat, x.2.2.toNat), ?_⟩
  rw [(seen_wave k ls).1, (seen_wave k ls).2]
  rw [List.map_append] at this
  simp only [requestTags, responseTags, List.map_map] at this ⊢
  exact this.symm

/-- **C83, response time.**  The bound of C71 holds for each cache of a system: cycle `c` of cache `k` takes a request;
if afterwards the output ports of this cache are ready and memory lets it wait at most `D` of its cycles in a row, the
response is there after `respBound` further cycles of this cache, whatever the other caches do. -/
theorem C83_response_time (wf : ∀ k, (p k).WF) (D : Nat) {N N' : HNSys ι p} {k : ι} {c : Cyc (p k)}
    {ls ls' : List (Lab ι p)} (h0 : HNStart N) (h : HLRun N (ls ++ .clock k c :: ls') N')
    (he : c.inp.cachereqEn = true) (hq : PromptW D 0 (owesW' [] (wave k (ls ++ [.clock k c]))) (wave k ls'))
    (hb : respBound (p k) D c.inp.cachereqMsg.ty ≤ (wave k ls').length) :
    (WM.accepted k (wvisible (evsOf ls))).length + 1 ≤
      (WM.responses k (wvisible (evsOf (ls ++ .clock k c :: ls')))).length := by
  obtain ⟨h1, h2, h3⟩ := C83_ports h0 h k
  have e : wave k (ls ++ .clock k c :: ls') = wave k ls ++ c :: wave k ls' := by
    rw [← List.singleton_append (l := ls'), ← List.append_assoc, wave_append, wave_same]; simp
  rw [e] at h2 h3
  rw [wave_same] at hq
  rw [seen_requests, seen_responses, e]
  exact C76_response_time (wf k) D h1 h2 h3 he hq hb

/-- **C83, every request is answered**, as soon as the environment of this cache has done its part in `3 + 5 * nLines`
cycles. -/
theorem C83_every_request_answered (wf : ∀ k, (p k).WF) {N N' : HNSys ι p} {k : ι} {ls ls' : List (Lab ι p)}
    (h0 : HNStart N) (h : HLRun N (ls ++ ls') N')
    (hh : 3 + 5 * (p k).nLines ≤ helpedW (owesW' [] (wave k ls)) (wave k ls')) :
    (WM.accepted k (wvisible (evsOf ls))).length ≤ (WM.responses k (wvisible (evsOf (ls ++ ls')))).length := by
  obtain ⟨h1, h2, h3⟩ := C83_ports h0 h k
  rw [wave_append] at h2 h3
  rw [seen_requests, seen_responses, wave_append]
  exact C76_every_request_answered (wf k) h1 h2 h3 hh

/-! ### Infinite executions -/

theorem HLInf.run (X : HLInf ι p) (t : Nat) : HLRun (X.st 0) (X.labs t) (X.st t) := by
  induction t with
  | zero => exact .refl _
  | succ t ih =>
    rw [HLInf.labs, List.range_succ, List.map_append]
    exact .snoc ih (X.does t)

/-- Steps `t` to `t + d`. System as in the harness, test/sim_utils.py:283-314. -/
def HLInf.next (X : HLInf ι p) (t d : Nat) : List (Lab ι p) := (List.range d).map fun j => X.lab (t + j)

theorem HLInf.labs_add (X : HLInf ι p) (t d : Nat) : X.labs (t + d) = X.labs t ++ X.next t d := by
  rw [HLInf.labs, List.range_add, List.map_append, List.map_map]
  rfl

theorem HLInf.next_succ (X : HLInf ι p) (t d : Nat) : X.next t (d + 1) = X.next t d ++ [X.lab (t + d)] := by
  rw [HLInf.next, List.range_succ, List.map_append]; rfl

theorem helpedW_append {p : Params} (a b : List (Cyc p)) : ∀ O : List MType,
    helpedW O (a ++ b) = helpedW O a + helpedW (owesW' O a) b := by
  induction a with
  | nil => intro O; simp [helpedW, owesW']
  | cons c a ih =>
    intro O
    simp only [List.cons_append, helpedW, ih, owesW', List.foldl_cons]
    omega

theorem owesW'_append {p : Params} (O : List MType) (a b : List (Cyc p)) : owesW' O (a ++ b) = owesW' (owesW' O a) b := by
  simp [owesW']

theorem HLInf.helps (X : HLInf ι p) (h0 : HNStart (X.st 0)) {k : ι} (hp : X.PortsReady k) (hm : X.MemoryAnswers k) (t : Nat) :
    ∃ t', t ≤ t' ∧ ∃ c, X.lab t' = .clock k c ∧ (c.inp.memrespEn = true ∨
      (owesW' [] (wave k (X.labs t')) = [] ∧ c.inp.cacherespRdy = true ∧ c.inp.memreqRdy = true)) := by
  by_cases h : ∃ t', t ≤ t' ∧ ∃ c, X.lab t' = .clock k c ∧ c.inp.memrespEn = true
  · obtain ⟨t', h1, i, h2, h3⟩ := h
    exact ⟨t', h1, i, h2, .inl h3⟩
  · obtain ⟨t', h1, i, h2, h3, h4⟩ := hp t
    refine ⟨t', h1, i, h2, .inr ⟨?_, h3, h4⟩⟩
    have hno : ¬ (((X.st t').node k).reqQ ≠ [] ∨ ((X.st t').node k).respQ ≠ []) := by
      intro hx
      obtain ⟨t'', g1, g2⟩ := hm t' hx
      exact h ⟨t'', Nat.le_trans h1 g1, g2⟩
    rw [((X.run t').seen h0 k).owes, NNode.owed]
    by_cases hq : ((X.st t').node k).reqQ = []
    · by_cases hq' : ((X.st t').node k).respQ = []
      · rw [hq, hq']; rfl
      · exact absurd (.inr hq') hno
    · exact absurd (.inl hq) hno

theorem HLInf.helped (X : HLInf ι p) (h0 : HNStart (X.st 0)) {k : ι} (hp : X.PortsReady k) (hm : X.MemoryAnswers k)
    (t n : Nat) : ∃ d, n ≤ helpedW (owesW' [] (wave k (X.labs t))) (wave k (X.next t d)) := by
  induction n with
  | zero => exact ⟨0, Nat.zero_le _⟩
  | succ n ih =>
    obtain ⟨d, hd⟩ := ih
    obtain ⟨t', h1, c, h2, h3⟩ := X.helps h0 hp hm (t + d)
    obtain ⟨e, rfl⟩ : ∃ e, t' = t + (d + e) := ⟨t' - (t + d), by omega⟩
    refine ⟨d + e + 1, ?_⟩
    have e1 : wave k (X.next t (d + e + 1)) = wave k (X.next t (d + e)) ++ [c] := by
      rw [X.next_succ, h2, wave_same]
    have e2 : X.next t (d + e) = X.next t d ++ X.next (t + d) e := by
      rw [HLInf.next, List.range_add, List.map_append, List.map_map, HLInf.next, HLInf.next]
      congr 1
      apply List.map_congr_left
      intro j _
      simp [Nat.add_assoc]
    rw [X.labs_add, wave_append, owesW'_append] at h3
    rw [e1, helpedW_append, e2, wave_append, helpedW_append, ← wave_append, ← e2]
    have : helpedW (owesW' (owesW' [] (wave k (X.labs t))) (wave k (X.next t (d + e)))) [c] = 1 := by
      simp only [helpedW, if_pos h3]
    omega

/-- **C83, liveness.**  In every infinite execution of caches of different shapes, a cache that is clocked again and
again with both output ports ready, and to which memory answers, answers every request: at any time `t` there is a later
time by which as many responses have come out as requests had been accepted by `t`. -/
theorem C83_eventually_answered (wf : ∀ k, (p k).WF) (X : HLInf ι p) (h0 : HNStart (X.st 0)) (k : ι)
    (hp : X.PortsReady k) (hm : X.MemoryAnswers k) (t : Nat) :
    ∃ t', t ≤ t' ∧ (WM.accepted k (X.seen t)).length ≤ (WM.responses k (X.seen t')).length := by
  obtain ⟨d, hd⟩ := X.helped h0 hp hm t (3 + 5 * (p k).nLines)
  refine ⟨t + d, by omega, ?_⟩
  have hr := X.run (t + d)
  rw [HLInf.seen, HLInf.seen, X.labs_add]
  rw [X.labs_add] at hr
  exact C83_every_request_answered wf h0 hr hd

/-- **C83, readiness.**  In such an execution, from any time on, either the cache accepts another request, or there is a
time from which on it is ready in every cycle in which both its output ports are. -/
theorem C83_eventually_ready (wf : ∀ k, (p k).WF) (X : HLInf ι p) (h0 : HNStart (X.st 0)) (k : ι)
    (hp : X.PortsReady k) (hm : X.MemoryAnswers k) (t : Nat) :
    (∃ t', t ≤ t' ∧ (WM.accepted k (X.seen t)).length < (WM.accepted k (X.seen t')).length) ∨
    ∃ t', t ≤ t' ∧ ∀ t'', t' ≤ t'' → ∀ c, X.lab t'' = .clock k c → c.inp.cacherespRdy = true →
      c.inp.memreqRdy = true → c.out.cachereqRdy = true := by
  by_cases h : ∃ t', t ≤ t' ∧ (WM.accepted k (X.seen t)).length < (WM.accepted k (X.seen t')).length
  · exact .inl h
  obtain ⟨d, hd⟩ := X.helped h0 hp hm t (3 + 5 * (p k).nLines)
  refine .inr ⟨t + d, by omega, ?_⟩
  intro t'' ht c hc hr1 hr2
  obtain ⟨e, rfl⟩ : ∃ e, t'' = t + (d + e) := ⟨t'' - (t + d), by omega⟩
  have e2 : X.next t (d + e) = X.next t d ++ X.next (t + d) e := by
    rw [HLInf.next, List.range_add, List.map_append, List.map_map, HLInf.next, HLInf.next]
    congr 1
    apply List.map_congr_left
    intro j _
    simp [Nat.add_assoc]
  obtain ⟨h1, h2, h3⟩ := C83_ports h0 (X.run (t + (d + e) + 1)) k
  have e3 : wave k (X.labs (t + (d + e) + 1)) = wave k (X.labs t) ++ wave k (X.next t (d + e)) ++ [c] := by
    rw [Nat.add_assoc, X.labs_add, wave_append, X.next_succ, hc, wave_same, List.append_assoc]
  have h3' := (C83_ports h0 (X.run (t + (d + e))) k).2.2
  rw [X.labs_add, wave_append] at h3'
  rw [e3] at h2
  refine (C76_ready_again (wf k) h1 h2 h3' ?_ ?_ ⟨hr1, hr2⟩).2.2
  · intro c' hc'
    have hle : ¬ (WM.accepted k (X.seen t)).length < (WM.accepted k (X.seen (t + (d + e)))).length :=
      fun hx => h ⟨_, by omega, hx⟩
    rw [HLInf.seen, HLInf.seen, seen_requests, seen_requests, X.labs_add, wave_append, requestsW, requestsW,
      List.countP_append] at hle
    have h0' : (wave k (X.next t (d + e))).countP (·.inp.cachereqEn) = 0 := by omega
    rw [List.countP_eq_zero] at h0'
    simpa using h0' c' hc'
  · rw [e2, wave_append, helpedW_append]; omega

end Verif.Net
