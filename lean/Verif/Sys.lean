import Verif.RTL
import Verif.Mem

/-!
# The system: caches on a shared memory

Any number of caches (indexed by `ι`; the single-cache system is `ι = Unit`),
each with its own port of the memory, as in the test harnesses
blocking_cache/test/BlockingCacheRTL_test.py and MultiCache_test.py.  Each port
has a queue of requests not yet executed and a queue of responses not yet
delivered (`req_qs`, `resp_qs` of test/MemoryCL.py:49-61) of unbounded capacity
and unbounded, arbitrary delay.

The environment is adversarial.  A step is either one clock edge of one cache
with arbitrary inputs that respect the en/rdy protocol, or the execution of the
oldest request of one port by memory.  Clocking the caches one at a time is
more general than clocking them together, since they only interact through
memory execution steps.
-/

namespace Verif
variable {p : Params} {ι : Type} [DecidableEq ι]

/-- State of caches, port queues and memory (the test bench around the caches, test/sim_utils.py:127-150, 302-314). -/
structure Sys (ι : Type) (p : Params) where
  cache : ι → St p
  /-- requests sent by cache `k` and not yet executed, oldest first -/
  reqQ : ι → List (MReq p)
  /-- responses for cache `k` not yet delivered, oldest first -/
  respQ : ι → List (MResp p)
  mem : ByteMem

/-- Observable events (not in the source: the messages on the ports, mem_ifcs/MemMsg.py). -/
inductive Ev (ι : Type) (p : Params)
  /-- cache `k` accepted the processor request `q` -/
  | acc (k : ι) (q : CReq p)
  /-- cache `k` sent the request `m` to memory -/
  | mreq (k : ι) (m : MReq p)
  /-- cache `k` delivered the response `r` to its processor -/
  | resp (k : ι) (r : CResp p)
  /-- memory executed the request `m` of cache `k` with response `r` -/
  | exec (k : ι) (m : MReq p) (r : MResp p)

/-- Point update of a function (not in the source). -/
def upd {α : Type} (f : ι → α) (k : ι) (a : α) : ι → α := fun k' => if k' = k then a else f k'

@[simp] theorem upd_same {α : Type} (f : ι → α) (k : ι) (a : α) : upd f k a k = a := by simp [upd]
theorem upd_other {α : Type} (f : ι → α) {k k' : ι} (h : k' ≠ k) (a : α) : upd f k a k' = f k' := by
  simp [upd, h]

/-- Inputs the environment may drive into cache `k`: no reset, a request only
when the cache is ready (en/rdy protocol) and no WRITE_INIT (see C34), a memory
response only if it is the oldest undelivered one of the port
(the test bench around the caches, test/sim_utils.py:127-150, generalised to any environment). -/
structure Sys.CanClock (S : Sys ι p) (k : ι) (i : In p) : Prop where
  noReset : i.reset = false
  req : i.reqEn = true → ((S.cache k).out i).reqRdy = true ∧ i.req.ty ≠ MT.INIT
  mem : i.mrespEn = true → ∃ l, S.respQ k = i.mresp :: l

/-- One clock edge of cache `k` (test/sim_utils.py:127-150, BlockingCacheRTL.py:19-73). -/
def Sys.clock (S : Sys ι p) (k : ι) (i : In p) : Sys ι p :=
  let o := (S.cache k).out i
  { cache := upd S.cache k ((S.cache k).step i)
    reqQ := upd S.reqQ k (S.reqQ k ++ if o.mreqEn then [o.mreq] else [])
    respQ := upd S.respQ k (if i.mrespEn then (S.respQ k).tail else S.respQ k)
    mem := S.mem }

/-- The events of a clock edge (the messages on the ports of BlockingCacheRTL.py:47-50). -/
def Sys.clockEvs (S : Sys ι p) (k : ι) (i : In p) : List (Ev ι p) :=
  let o := (S.cache k).out i
  (if i.reqEn then [.acc k i.req] else []) ++ (if o.mreqEn then [.mreq k o.mreq] else []) ++
    (if o.respEn then [.resp k o.resp] else [])

/-- Memory executes the request `m`, the oldest of port `k` (test/MemoryCL.py:62-104). -/
def Sys.exec (S : Sys ι p) (k : ι) (m : MReq p) : Sys ι p :=
  { S with
    reqQ := upd S.reqQ k (S.reqQ k).tail
    respQ := upd S.respQ k (S.respQ k ++ [(memExec S.mem m).2])
    mem := (memExec S.mem m).1 }

/-- One step of the system with the events it causes (test/sim_utils.py:127-150, 302-314). -/
inductive Step : Sys ι p → List (Ev ι p) → Sys ι p → Prop
  | clock (S : Sys ι p) (k : ι) (i : In p) (h : S.CanClock k i) : Step S (S.clockEvs k i) (S.clock k i)
  | exec (S : Sys ι p) (k : ι) (m : MReq p) (ms : List (MReq p)) (h : S.reqQ k = m :: ms) :
      Step S [.exec k m (memExec S.mem m).2] (S.exec k m)

/-- A finite execution with its events (test/sim_utils.py:75-83). -/
inductive Run : Sys ι p → List (Ev ι p) → Sys ι p → Prop
  | refl (S : Sys ι p) : Run S [] S
  | snoc {S S' S'' : Sys ι p} {tr ev : List (Ev ι p)} (h : Run S tr S') (hs : Step S' ev S'') :
      Run S (tr ++ ev) S''

/-- Initial states: every cache has just seen a clock edge with reset asserted,
from a completely arbitrary state (registers and SRAMs); the ports are empty;
memory contents are arbitrary (`sim_reset`, test/sim_utils.py:73). -/
structure Start (S : Sys ι p) : Prop where
  reset : ∀ k, ∃ s i, i.reset = true ∧ S.cache k = St.step s i
  reqQ : ∀ k, S.reqQ k = []
  respQ : ∀ k, S.respQ k = []

/-! ## Reading the events -/

/-- Requests accepted by cache `k`, in order (not in the source: projection of a history). -/
def accepted (k : ι) (tr : List (Ev ι p)) : List (CReq p) :=
  tr.filterMap fun
    | .acc k' q => if k' = k then some q else none
    | _ => none

/-- Responses delivered by cache `k`, in order (not in the source: projection of a history). -/
def responses (k : ι) (tr : List (Ev ι p)) : List (CResp p) :=
  tr.filterMap fun
    | .resp k' r => if k' = k then some r else none
    | _ => none

/-- Memory requests sent by cache `k`, in order (not in the source: projection of a history). -/
def sent (k : ι) (tr : List (Ev ι p)) : List (MReq p) :=
  tr.filterMap fun
    | .mreq k' m => if k' = k then some m else none
    | _ => none

end Verif
