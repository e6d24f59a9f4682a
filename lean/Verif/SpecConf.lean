import Verif.SpecSeg

/-!
# Specification: memory traffic has a cause (C74)
-/

namespace Verif
variable {p : Params}

/-- The memory request `m` is one that the processor requests `qs` account for: the read of the whole line of a READ or
WRITE among them; or the write of some words of a line one of their WRITEs addressed; or one of their atomic
operations, unchanged. -/
def MReq.AskedFor (m : MReq p) (qs : List (CReq p)) : Prop :=
  (∃ q ∈ qs, (q.ty = MT.READ ∨ q.ty = MT.WRITE) ∧ m.ReadsLine q.addr) ∨
  (∃ q ∈ qs, q.ty = MT.WRITE ∧ m.WritesBack q.addr.tag q.addr.idx) ∨
  (∃ q ∈ qs, MT.isAmo q.ty = true ∧ m.Performs q)

/-- `q` may change byte `x` of memory: it is a WRITE that addresses the line of `x`, or an atomic operation whose
word, the 4 bytes from its address on, contains `x`. -/
def CReq.MayChange (q : CReq p) (x : Nat) : Prop :=
  (q.ty = MT.WRITE ∧ x / 2 ^ p.offBits = q.addr.flat / 2 ^ p.offBits) ∨
  (MT.isAmo q.ty = true ∧ q.addr.flat ≤ x ∧ x < q.addr.flat + 4)

end Verif
