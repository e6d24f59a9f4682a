import Verif.PropsNetSys
import Verif.HetLemmas

/-!
# Caches of different shapes at the level of wires

The system of `Hetero.lean` (test/sim_utils.py, `MultiCache`: every cache has its own size and associativity) with the
netlist of `Net.lean` in place of the cycle model.  As there, a step of cache `k` is a step of the one-cache system
`NSys Unit (p k)` on the shared memory.
-/

set_option linter.unusedSectionVars false

namespace Verif.Net

/-- One cache (registers and wires) and its memory port with queues of messages
(BlockingCacheRTL.py:19-73 and a port of test/MemoryCL.py). -/
structure NNode (p : Params) where
  regs : Regs p
  wires : (x : Wire) → T p x
  reqQ : List (WMReq p)
  respQ : List (WMResp p)

/-- The one-cache system made of the node and a memory (not in the source). -/
def NNode.on {p : Params} (n : NNode p) (M : ByteMem) : NSys Unit p :=
  ⟨fun _ => n.regs, fun _ => n.wires, fun _ => n.reqQ, fun _ => n.respQ, M⟩

/-- The node of a one-cache system (not in the source). -/
def NSys.node {p : Params} (N : NSys Unit p) : NNode p := ⟨N.regs (), N.wires (), N.reqQ (), N.respQ ()⟩

/-- Caches `k : ι` with parameters `p k` and the memory they share (test/sim_utils.py:283-314). -/
structure HNSys (ι : Type) (p : ι → Params) where
  node : ∀ k, NNode (p k)
  mem : ByteMem

/-- Events: messages on the ports, with the cache they belong to (not in the source). -/
abbrev HWEv (ι : Type) (p : ι → Params) := Σ k : ι, WEv Unit (p k)

variable {ι : Type} [DecidableEq ι] {p : ι → Params}

/-- Replace node `k` (not in the source). -/
def HNSys.setNode (N : HNSys ι p) (k : ι) (n : NNode (p k)) : ∀ k', NNode (p k') :=
  fun k' => if h : k' = k then h ▸ n else N.node k'

/-- One clock edge of one cache, its update blocks run in any complete order, or one memory operation of one port
(test/sim_utils.py:302-314). -/
inductive HNStep : HNSys ι p → List (HWEv ι p) → HNSys ι p → Prop
  | mk (N : HNSys ι p) (k : ι) (ev : List (WEv Unit (p k))) (S : NSys Unit (p k))
      (h : NStep ((N.node k).on N.mem) ev S) :
      HNStep N (ev.map (fun e => ⟨k, e⟩)) ⟨N.setNode k S.node, S.mem⟩

/-- A finite execution with its events (not in the source: iteration). -/
inductive HNRun : HNSys ι p → List (HWEv ι p) → HNSys ι p → Prop
  | refl (N : HNSys ι p) : HNRun N [] N
  | snoc {N N' N'' : HNSys ι p} {tr ev : List (HWEv ι p)} (h : HNRun N tr N') (hs : HNStep N' ev N'') :
      HNRun N (tr ++ ev) N''

/-- Initial states: every cache has just been reset from arbitrary registers, its port is empty; wires and memory are
arbitrary (`sim_reset`, test/sim_utils.py:73). -/
def HNStart (N : HNSys ι p) : Prop := ∀ k, NStart ((N.node k).on N.mem)

/-! ## The events as the programmer sees them -/

/-- A request message as a request of the memory model (`SpecModel.lean`); a WRITE with length 3 is the double-word
write (not in the source: abstraction of mem_ifcs/MemMsg.py messages). -/
def WReq.req {p : Params} (q : WReq p) : WM.Req :=
  ⟨q.ty, q.opq.toNat, q.addr.toNat, q.len.toNat, if q.ty = MT.WRITE ∧ q.len.toNat = 3 then 8 else q.bytes, q.data.toNat⟩

/-- The processor-side events of one cache (not in the source: projection). -/
def WEv.local {ι : Type} {p : Params} : WEv ι p → Option WM.LEv
  | .acc _ q => some (.acc q.req)
  | .resp _ r => some (.resp r.resp)
  | _ => none

/-- The processor-side events of all caches (not in the source: projection). -/
def wvisible (tr : List (HWEv ι p)) : List (WM.Ev ι) :=
  tr.filterMap fun e => e.2.local.map (WM.LEv.at e.1)

/-- Every accepted request message is one the caches support (not in the source: condition). -/
def HWValid (tr : List (HWEv ι p)) : Prop :=
  ∀ k u q, (⟨k, WEv.acc u q⟩ : HWEv ι p) ∈ tr → q.Valid

/-! ## Refinement -/

theorem hnSet_same (N : HNSys ι p) (k : ι) (n : NNode (p k)) : N.setNode k n k = n := by simp [HNSys.setNode]

theorem hnSet_other (N : HNSys ι p) {k k' : ι} (n : NNode (p k)) (h : k' ≠ k) : N.setNode k n k' = N.node k' := by
  simp [HNSys.setNode, h]

/-- The node represents a node of the cycle model (proof device). -/
structure NodeEnc {p : Params} (n : NNode p) (s : Node p) : Prop where
  cache : Enc n.regs s.cache
  reqQ : s.reqQ = n.reqQ.map decMReq
  respQ : s.respQ = n.respQ.map decMResp

theorem NodeEnc.on {p : Params} {n : NNode p} {s : Node p} (h : NodeEnc n s) (M : ByteMem) : REnc (n.on M) (s.on M) :=
  ⟨fun _ => h.cache, fun _ => h.reqQ, fun _ => h.respQ, rfl⟩

theorem NodeEnc.of {p : Params} {N : NSys Unit p} {S : Sys Unit p} (h : REnc N S) : NodeEnc N.node S.node :=
  ⟨h.cache (), h.reqQ (), h.respQ ()⟩

/-- The whole state (proof device). -/
structure HEnc (N : HNSys ι p) (H : HSys ι p) : Prop where
  node : ∀ k, NodeEnc (N.node k) (H.node k)
  mem : H.mem = N.mem

/-- An event of the wires as an event of the cycle model (proof device). -/
def decHEv (e : HWEv ι p) : HEv ι p := ⟨e.1, decEv e.2⟩

theorem HEnc.set {N : HNSys ι p} {H : HSys ι p} (h : HEnc N H) (k : ι) {N' : NSys Unit (p k)} {S' : Sys Unit (p k)}
    (h' : REnc N' S') : HEnc ⟨N.setNode k N'.node, N'.mem⟩ ⟨H.setNode k S'.node, S'.mem⟩ := by
  refine ⟨?_, h'.mem⟩
  intro k'
  by_cases hk : k' = k
  · subst hk
    show NodeEnc (N.setNode k' _ k') (H.setNode k' _ k')
    rw [hnSet_same, setNode_same]; exact .of h'
  · show NodeEnc (N.setNode k _ k') (H.setNode k _ k')
    rw [hnSet_other _ _ hk, setNode_other _ _ hk]; exact h.node k'

theorem HNStep.refine (wf : ∀ k, (p k).WF) {N N' : HNSys ι p} {H : HSys ι p} (h : HEnc N H) {ev : List (HWEv ι p)}
    (hs : HNStep N ev N') : ∃ H', HStep H (ev.map decHEv) H' ∧ HEnc N' H' := by
  cases hs with
  | mk k ev S hs =>
    obtain ⟨S', h1, h2⟩ := hs.refine (wf k) ((h.node k).on N.mem)
    rw [← h.mem] at h1
    refine ⟨_, ?_, h.set k h2⟩
    have := HStep.mk H k _ _ h1
    rwa [List.map_map] at this ⊢

theorem HNRun.refine (wf : ∀ k, (p k).WF) {N N' : HNSys ι p} {H : HSys ι p} (h : HEnc N H) {tr : List (HWEv ι p)}
    (hr : HNRun N tr N') : ∃ H', HetRun H (tr.map decHEv) H' ∧ HEnc N' H' := by
  induction hr with
  | refl => exact ⟨H, .refl H, h⟩
  | snoc _ hs ih =>
    obtain ⟨S1, h1, e1⟩ := ih
    obtain ⟨S2, h2, e2⟩ := hs.refine wf e1
    exact ⟨S2, by rw [List.map_append]; exact .snoc h1 h2, e2⟩

theorem HNStart.refine {N : HNSys ι p} (h : HNStart N) : ∃ H : HSys ι p, HStart H ∧ HEnc N H := by
  have key := fun k => (h k).refine
  refine ⟨⟨fun k => (key k).choose.node, N.mem⟩, ?_, ?_, rfl⟩
  · intro k
    have := (key k).choose_spec.1
    exact ⟨fun _ => this.reset (), fun _ => this.reqQ (), fun _ => this.respQ ()⟩
  · intro k
    exact .of (key k).choose_spec.2

theorem HStep.lift (wf : ∀ k, (p k).WF) {N : HNSys ι p} {H H' : HSys ι p} (h : HEnc N H) {ev : List (HEv ι p)}
    (hs : HStep H ev H') {L : List Blk} (hL : Sched.Rounds Blk levels L) :
    ∃ N' ev', HNStep N ev' N' ∧ ev'.map decHEv = ev ∧ HEnc N' H' := by
  cases hs with
  | mk k ev S hs =>
    rw [h.mem] at hs
    obtain ⟨N', ev', h1, h2, h3⟩ := ((h.node k).on N.mem).lift (wf k) hs hL
    refine ⟨_, _, .mk N k ev' N' h1, ?_, h.set k h3⟩
    rw [← h2, List.map_map, List.map_map]; rfl

theorem HetRun.lift (wf : ∀ k, (p k).WF) {N : HNSys ι p} {H H' : HSys ι p} (h : HEnc N H) {tr : List (HEv ι p)}
    (hr : HetRun H tr H') {L : List Blk} (hL : Sched.Rounds Blk levels L) :
    ∃ N' tr', HNRun N tr' N' ∧ tr'.map decHEv = tr ∧ HEnc N' H' := by
  induction hr with
  | refl => exact ⟨N, [], .refl N, rfl, h⟩
  | snoc _ hs ih =>
    obtain ⟨N1, t1, r1, e1, h1⟩ := ih
    obtain ⟨N2, t2, r2, e2, h2⟩ := HStep.lift wf h1 hs hL
    exact ⟨N2, _, .snoc r1 r2, by rw [List.map_append, e1, e2], h2⟩

theorem hstart_lift (wf : ∀ k, (p k).WF) {H : HSys ι p} (h : HStart H) : ∃ N : HNSys ι p, HNStart N ∧ HEnc N H := by
  have key := fun k => start_lift (wf k) (h k)
  refine ⟨⟨fun k => (key k).choose.node, H.mem⟩, ?_, ?_, rfl⟩
  · intro k
    have := (key k).choose_spec.1
    exact ⟨fun _ => this.reset (), fun _ => this.reqQ (), fun _ => this.respQ ()⟩
  · intro k
    exact .of (key k).choose_spec.2

/-! ## The visible events are the same -/

theorem req_dec {p : Params} (q : WReq p) : (decReq q).req = q.req := by
  have e : (decReq q).addr.flat = q.addr.toNat := flat_unpackAddr _
  simp only [CReq.req, WReq.req, e]
  rfl

theorem visible_dec (tr : List (HWEv ι p)) : visible (tr.map decHEv) = wvisible tr := by
  rw [visible, wvisible, List.filterMap_map]
  congr 1
  funext ⟨k, e⟩
  cases e with
  | acc u q => simp [decHEv, decEv, Ev.local, WEv.local, req_dec]
  | mreq u m => rfl
  | resp u r => rfl
  | exec u m r => rfl

theorem HWValid.dec {tr : List (HWEv ι p)} (h : HWValid tr) : HValid (tr.map decHEv) := by
  intro k u q hq
  rw [List.mem_map] at hq
  obtain ⟨⟨k', e⟩, he, hq⟩ := hq
  cases e with
  | acc u' q' =>
    simp only [decHEv, decEv, Sigma.mk.injEq] at hq
    obtain ⟨rfl, hq⟩ := hq
    obtain ⟨_, rfl⟩ := Ev.acc.inj (eq_of_heq hq)
    exact (h _ _ _ he).dec
  | mreq u' m => simp only [decHEv, decEv, Sigma.mk.injEq] at hq; obtain ⟨rfl, hq⟩ := hq; cases hq
  | resp u' m => simp only [decHEv, decEv, Sigma.mk.injEq] at hq; obtain ⟨rfl, hq⟩ := hq; cases hq
  | exec u' m r => simp only [decHEv, decEv, Sigma.mk.injEq] at hq; obtain ⟨rfl, hq⟩ := hq; cases hq

end Verif.Net
