import Verif.Sys

/-!
# Specification: the memory traffic caused by one request
-/

namespace Verif
variable {p : Params} {ι : Type} [DecidableEq ι]

/-- Requests of cache `k` executed by memory, with their responses, in order. Specification; not in the source. -/
def execd (k : ι) (tr : List (Ev ι p)) : List (MReq p × MResp p) :=
  tr.filterMap fun
    | .exec k' m r => if k' = k then some (m, r) else none
    | _ => none

/-- `m` reads the whole line that contains address `a`. -/
def MReq.ReadsLine (m : MReq p) (a : Addr p) : Prop := m.ty = MT.READ ∧ m.addr = ⟨a.tag, a.idx, 0⟩ ∧ m.len = 0

/-- `m` writes some words (not none) of the line with tag `t` in set `j`. -/
def MReq.WritesBack (m : MReq p) (t : Tag p) (j : Idx p) : Prop :=
  m.ty = MT.WRITE ∧ m.addr = ⟨t, j, 0⟩ ∧ m.len = 0 ∧ m.wmask ≠ 0

/-- `m` is the atomic operation `q`: same type, same byte address, same operand; its
length is one word for 32-bit caches (where the processor writes a word as length
0) and otherwise the length of the processor request. Specification; not in the source. -/
def MReq.Performs (m : MReq p) (q : CReq p) : Prop :=
  m.ty = q.ty ∧ m.addr = q.addr ∧ m.data = q.data.setWidth _ ∧
    m.len = if p.lenBits = 2 then 4 else q.len.setWidth _

/-- A read or write that misses: the line is read, after the write-back of a
line of the same set if the victim is dirty. -/
def MissTraffic (q : CReq p) (ms : List (MReq p)) : Prop :=
  ∃ m, m.ReadsLine q.addr ∧ (ms = [m] ∨ ∃ w t, w.WritesBack t q.addr.idx ∧ ms = [w, m])

/-- An atomic operation: it is sent once, after the write-back of its own line if
that is dirty. -/
def AmoTraffic (q : CReq p) (ms : List (MReq p)) : Prop :=
  ∃ m, m.Performs q ∧ (ms = [m] ∨ ∃ w, w.WritesBack q.addr.tag q.addr.idx ∧ ms = [w, m])

/-- The memory requests `ms` and the response `r` are those of request `q`. Specification; not in the source. -/
structure Serves (q : CReq p) (ms : List (MReq p)) (r : CResp p) : Prop where
  ty : r.ty = q.ty
  opq : r.opq = q.opq
  len : r.len = q.len
  rw : q.ty = MT.READ ∨ q.ty = MT.WRITE → (r.test = 1 ∧ ms = []) ∨ (r.test = 0 ∧ MissTraffic q ms)
  amo : MT.isAmo q.ty = true → r.test = 0 ∧ AmoTraffic q ms
  inv : q.ty = MT.INV → r.test = 0 ∧ ms = []
  flush : q.ty = MT.FLUSH → r.test = 0 ∧ ∀ m ∈ ms, ∃ t j, m.WritesBack t j

end Verif
