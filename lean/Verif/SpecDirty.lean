import Verif.SpecShared

/-!
# Specification: what write-backs may carry
-/

namespace Verif
variable {p : Params} {ι : Type} [DecidableEq ι]

/-- The memory write selects word `W`: bit `b` of its mask is set, where `W` is
the `b`-th word from its address on. Specification; not in the source. -/
def MReq.carries (m : MReq p) (W : Nat) : Prop :=
  m.ty = MT.WRITE ∧ ∃ b, b < p.nWords ∧ m.wmask.getLsbD b = true ∧ W = m.addr.flat / 4 + b

/-- Word `W` belongs to the line the (line-aligned) request addresses. -/
def MReq.inLine (m : MReq p) (W : Nat) : Prop := ∃ b, b < p.nWords ∧ W = m.addr.flat / 4 + b

/-- Word `W` was stored to through cache `k`, and the cache has sent no memory
write for it since. Specification; not in the source. -/
def Unsaved (k : ι) (W : Nat) (tr : List (Ev ι p)) : Prop :=
  ∃ a q b, tr = a ++ .acc k q :: b ∧ q.ty = MT.WRITE ∧ q.writesWord W ∧
    ∀ m ∈ sent k b, ¬ m.carries W

/-- Byte `i` of a line of data. -/
def Line.byte (l : Line p) (i : Nat) : BitVec 8 := l.extractLsb' (8 * i) 8

end Verif
