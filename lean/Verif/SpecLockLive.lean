import Verif.SpecLock

/-!
# Specification: progress of the spin lock and of the barrier

Properties C91 and C92.
-/

namespace Verif.WM
variable {ι : Type} [DecidableEq ι]

/-- A processor waits for the answer of an atomic operation on `L` before it asks for
another one (a program, not in the source). -/
def OneByOne (L : Nat) (tr : List (Ev ι)) : Prop :=
  ∀ k a q b, tr = a ++ .acc k q :: b → MT.isAmo q.ty = true → q.addr / 4 = L →
    (answeredAmos k L a).length = (askedAmos k L a).length

/-- At some moment of the history `b`, not before its initial part `a` is over, some processor
holds the lock (a program, not in the source). -/
def HeldBetween (L : Nat) (a b : List (Ev ι)) : Prop := ∃ k x, a <+: x ∧ x <+: b ∧ Holds k L x

end Verif.WM
