import Verif.SpecEnvNet
import Verif.SpecConf

/-!
# Specification: processors that misbehave (C88)
-/

namespace Verif
variable {ι : Type} [DecidableEq ι] {p : ι → Params}

/-- The processors of the other caches, whatever requests they make, address no line of the word `W` with a WRITE and
none of its bytes with an atomic operation (not in the source: condition; blocks of the other caches may have another
size). -/
def FencedOff (k : ι) (tr : List (HEv ι p)) (W : Nat) : Prop :=
  ∀ j, j ≠ k → ∀ q ∈ accepted () (eventsOf j tr), ∀ x, x / 4 = W → ¬ q.MayChange x

/-- The atomic operations of every cache stay in memory (not in the source: condition). -/
def AllFit (tr : List (HEv ι p)) : Prop := ∀ k, AmosFit (eventsOf k tr)

end Verif
