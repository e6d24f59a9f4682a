import Verif.SpecLin

/-!
# Specification: reductions and work counters

Property C96.
-/

namespace Verif.WM
variable {ι : Type} [DecidableEq ι]

/-- The operands of the atomic operations on word `W`, in the order in which they are accepted (by any
cache). Specification; not in the source. -/
def operands (W : Nat) (tr : List (Ev ι)) : List (BitVec 32) :=
  tr.filterMap fun
    | .acc _ q => if MT.isAmo q.ty = true ∧ q.addr / 4 = W then some (BitVec.ofNat 32 q.data) else none
    | .resp _ _ => none

/-- All atomic operations on `W` are of type `t`, and `W` is not written (a program, not in the source). -/
def OnlyOp (t : MType) (W : Nat) (tr : List (Ev ι)) : Prop :=
  ∀ k, ∀ q ∈ accepted k tr, (q.ty = MT.WRITE → ¬ q.covers W) ∧ (MT.isAmo q.ty = true → q.addr / 4 = W → q.ty = t)

/-- All atomic operations on `W` are answered. Specification; not in the source. -/
def AllAnswered (W : Nat) (tr : List (Ev ι)) : Prop :=
  ∀ k, (answeredAmos k W tr).length = (askedAmos k W tr).length

/-- What the atomic operations of processor `k` on `W` returned. Specification; not in the source. -/
def got (k : ι) (W : Nat) (tr : List (Ev ι)) : List (BitVec 32) := (answeredAmos k W tr).map (·.old)

/-- A work counter: `W` is not written, and every atomic operation on it adds 1 (a program, not in the source). -/
def WorkCounter (W : Nat) (tr : List (Ev ι)) : Prop :=
  ∀ k, ∀ q ∈ accepted k tr, (q.ty = MT.WRITE → ¬ q.covers W) ∧
    (MT.isAmo q.ty = true → q.addr / 4 = W → q.ty.toNat = 3 ∧ BitVec.ofNat 32 q.data = 1)

end Verif.WM
