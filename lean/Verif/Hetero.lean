import Verif.Sys
import Verif.SpecModel

/-!
# Caches of different shapes on a shared memory

`Sys ι p` of `Sys.lean` gives every cache the same parameters.  The multi-cache harness of
the repository does not: `MultiCache.construct` (test/sim_utils.py) instantiates cache `i`
with `p.cache_size[i]` and `p.associativity[i]`.  Here every cache `k` has its own
parameters `p k` (also block size, data width and opaque width may differ).

A step of cache `k` or of its memory port is *defined* as a step of the one-cache system
`Sys Unit (p k)` on the shared memory, so nothing about the cache or the memory is
modelled a second time.
-/

namespace Verif

/-- One cache and its memory port (test/sim_utils.py, `MultiCache`; the port queues as
in `Sys`). -/
structure Node (p : Params) where
  cache : St p
  reqQ : List (MReq p)
  respQ : List (MResp p)

/-- The one-cache system made of the node and a memory (not in the source). -/
def Node.on {p : Params} (n : Node p) (M : ByteMem) : Sys Unit p :=
  ⟨fun _ => n.cache, fun _ => n.reqQ, fun _ => n.respQ, M⟩

/-- The node of a one-cache system (not in the source). -/
def Sys.node {p : Params} (S : Sys Unit p) : Node p := ⟨S.cache (), S.reqQ (), S.respQ ()⟩

/-- Caches `k : ι` with parameters `p k` and the memory they share (test/sim_utils.py:283-314). -/
structure HSys (ι : Type) (p : ι → Params) where
  node : ∀ k, Node (p k)
  mem : ByteMem

/-- Events: those of `Sys.lean`, with the cache they belong to (not in the source). -/
abbrev HEv (ι : Type) (p : ι → Params) := Σ k : ι, Ev Unit (p k)

variable {ι : Type} [DecidableEq ι] {p : ι → Params}

/-- Replace node `k` (not in the source). -/
def HSys.setNode (H : HSys ι p) (k : ι) (n : Node (p k)) : ∀ k', Node (p k') :=
  fun k' => if h : k' = k then h ▸ n else H.node k'

/-- One clock edge of one cache, or one memory operation of one port (test/sim_utils.py:302-314). -/
inductive HStep : HSys ι p → List (HEv ι p) → HSys ι p → Prop
  | mk (H : HSys ι p) (k : ι) (ev : List (Ev Unit (p k))) (S : Sys Unit (p k))
      (h : Step ((H.node k).on H.mem) ev S) :
      HStep H (ev.map (fun e => ⟨k, e⟩)) ⟨H.setNode k S.node, S.mem⟩

/-- A finite execution with its events (not in the source: iteration). -/
inductive HetRun : HSys ι p → List (HEv ι p) → HSys ι p → Prop
  | refl (H : HSys ι p) : HetRun H [] H
  | snoc {H H' H'' : HSys ι p} {tr ev : List (HEv ι p)} (h : HetRun H tr H') (hs : HStep H' ev H'') :
      HetRun H (tr ++ ev) H''

/-- Initial states: every cache has just been reset from an arbitrary state, its port is
empty, memory is arbitrary (`sim_reset`, test/sim_utils.py:73). -/
def HStart (H : HSys ι p) : Prop := ∀ k, Start ((H.node k).on H.mem)

/-! ## The events as the programmer sees them -/

/-- A request as a request of the model: the address is the flat byte address; a WRITE
with length 3 is the double-word write (not in the source: abstraction of mem_ifcs/MemMsg.py messages). -/
def CReq.req {p : Params} (q : CReq p) : WM.Req :=
  ⟨q.ty, q.opq.toNat, q.addr.flat, q.len.toNat,
    if q.ty = MT.WRITE ∧ q.len.toNat = 3 then 8 else q.bytes, q.data.toNat⟩

/-- A response as a response of the model; the `test` field (hit/miss) is not shown
(not in the source: abstraction of mem_ifcs/MemMsg.py messages). -/
def CResp.resp {p : Params} (r : CResp p) : WM.Resp := ⟨r.ty, r.opq.toNat, r.len.toNat, r.data.toNat⟩

/-- The processor-side events of one cache (not in the source: projection). -/
def Ev.local {ι : Type} {p : Params} : Ev ι p → Option WM.LEv
  | .acc _ q => some (.acc q.req)
  | .resp _ r => some (.resp r.resp)
  | _ => none

/-- The processor-side events of all caches (not in the source: projection). -/
def visible (tr : List (HEv ι p)) : List (WM.Ev ι) :=
  tr.filterMap fun e => e.2.local.map (WM.LEv.at e.1)

/-- Every accepted request is one the caches support (not in the source: condition). -/
def HValid (tr : List (HEv ι p)) : Prop :=
  ∀ k u q, (⟨k, Ev.acc u q⟩ : HEv ι p) ∈ tr → q.Valid

end Verif
