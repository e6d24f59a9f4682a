import Verif.Hetero
import Verif.PropsBlocking

/-!
# Systems in which single caches are reset while the others run

The design has a reset input (BlockingCacheCtrlRTL.py lines 125, 160, 444 to 678, counters.py
lines 20 to 50, registers.py line 27: the registers it clears; `St.step` with `reset`).  Inside one
PyMTL simulation the framework ties the reset inputs of all components together; caches of a
translated system may be reset one by one.  Here a cache may be reset at any moment, for any
number of cycles, any number of times, while the other caches and memory go on.  (All caches
reset in the same cycle is the special case of one reset step per cache.)

The reset does not empty the cache's memory port: memory goes on with the requests in it.
The one thing asked of the environment is that memory has finished with them, and delivered
the responses, before the cache has seen `nLines` clock edges since the reset (it is then
still clearing its tags; C59 shows that the limit is sharp).
-/

namespace Verif

/-- The system, and for each cache that has been reset and whose port has not been empty
since, the number of clock edges since the last edge with reset asserted (test/sim_utils.py:283-314). -/
structure RSys (ι : Type) (p : ι → Params) where
  sys : HSys ι p
  since : ι → Option Nat

/-- Events: those of the caches, and `again k`: the port of cache `k`, which has been reset,
is empty, so that from now on `k` works again (not in the source). -/
inductive REv (ι : Type) (p : ι → Params)
  | ev (e : HEv ι p)
  | again (k : ι)

variable {ι : Type} [DecidableEq ι] {p : ι → Params}

/-- Cache `k` with its port and memory (not in the source). -/
def RSys.one (R : RSys ι p) (k : ι) : Sys Unit (p k) := (R.sys.node k).on R.sys.mem

/-- The system with cache `k`, its port and memory replaced (not in the source). -/
def RSys.put (R : RSys ι p) (k : ι) (S : Sys Unit (p k)) (since : Option Nat) : RSys ι p :=
  ⟨⟨R.sys.setNode k S.node, S.mem⟩, upd R.since k since⟩

/-- The events of cache `k` (not in the source). -/
def evsAt (k : ι) (ev : List (Ev Unit (p k))) : List (REv ι p) := ev.map fun e => .ev ⟨k, e⟩

/-- One step; test/sim_utils.py:283-314 with the reset of each cache driven on its own. -/
inductive RStep : RSys ι p → List (REv ι p) → RSys ι p → Prop
  /-- a clock edge or a memory operation of a cache that is not being reset -/
  | run (R : RSys ι p) (k : ι) (h : R.since k = none) (ev : List (Ev Unit (p k))) (S : Sys Unit (p k))
      (hs : Step (R.one k) ev S) : RStep R (evsAt k ev) (R.put k S none)
  /-- a clock edge with reset asserted, at any moment: a message may still leave the cache and
  a memory response may be delivered; a request offered is lost -/
  | reset (R : RSys ι p) (k : ι) (i : In (p k)) (hr : i.reset = true)
      (hm : i.mrespEn = true → ∃ l, (R.one k).respQ () = i.mresp :: l) :
      RStep R (evsAt k ((R.one k).clockEvs () { i with reqEn := false })) (R.put k ((R.one k).clock () i) (some 0))
  /-- a clock edge after the reset -/
  | quiet (R : RSys ι p) (k : ι) (j : Nat) (h : R.since k = some j) (hj : j + 1 < (p k).nLines) (i : In (p k))
      (hc : (R.one k).CanClock () i) :
      RStep R (evsAt k ((R.one k).clockEvs () i)) (R.put k ((R.one k).clock () i) (some (j + 1)))
  /-- memory works on a request left from before the reset -/
  | exec (R : RSys ι p) (k : ι) (j : Nat) (h : R.since k = some j) (m : MReq (p k)) (ms : List (MReq (p k)))
      (hm : (R.one k).reqQ () = m :: ms) :
      RStep R (evsAt k [.exec () m (memExec R.sys.mem m).2]) (R.put k ((R.one k).exec () m) (some j))
  /-- the port is empty -/
  | again (R : RSys ι p) (k : ι) (j : Nat) (h : R.since k = some j) (hq : (R.one k).reqQ () = [])
      (hp : (R.one k).respQ () = []) : RStep R [.again k] (R.put k (R.one k) none)

/-- A finite execution with its events (not in the source: iteration). -/
inductive RRun : RSys ι p → List (REv ι p) → RSys ι p → Prop
  | refl (R : RSys ι p) : RRun R [] R
  | snoc {R R' R'' : RSys ι p} {tr ev : List (REv ι p)} (h : RRun R tr R') (hs : RStep R' ev R'') :
      RRun R (tr ++ ev) R''

/-- Initial states: all caches have been reset, their ports are empty (`sim_reset`, test/sim_utils.py:73). -/
def RStart (R : RSys ι p) : Prop := HStart R.sys ∧ ∀ k, R.since k = none

/-! ## Lives of a cache

The events of a cache between two resets are those of one *life* of it. -/

/-- The life each cache is in after the events, if it was in `g` before (not in the source: projection). -/
def lives (g : ι → Nat) : List (REv ι p) → ι → Nat
  | [] => g
  | .ev _ :: tr => lives g tr
  | .again k :: tr => lives (upd g k (g k + 1)) tr

/-- The events, each with the cache and the life of the cache it belongs to (not in the source: projection). -/
def byLife (g : ι → Nat) : List (REv ι p) → List (HEv (ι × Nat) (fun x => p x.1))
  | [] => []
  | .ev ⟨k, e⟩ :: tr => ⟨(k, g k), e⟩ :: byLife g tr
  | .again k :: tr => byLife (upd g k (g k + 1)) tr

/-- Every accepted request is one the caches support (not in the source: condition). -/
def RValid (tr : List (REv ι p)) : Prop :=
  ∀ k u q, REv.ev (⟨k, Ev.acc u q⟩ : HEv ι p) ∈ tr → q.Valid

/-- What the processors see: the events at the processor ports, each with the cache and the
life it belongs to (not in the source: projection). -/
def rvisible (tr : List (REv ι p)) : List (WM.Ev (ι × Nat)) := visible (byLife (fun _ => 0) tr)

end Verif
