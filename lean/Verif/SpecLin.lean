import Verif.SpecDisc
import Verif.SpecAmo

/-!
# Specification: atomic operations of caches of any shapes

As `SpecAmo.lean`, on what the processors see (`WM.Ev`).  Properties C66 and C67.
-/

namespace Verif.WM
variable {ι : Type} [DecidableEq ι]

/-- Requests and their responses, restricted to the atomic operations on word `W`. Specification; not in the source. -/
def amosOf (W : Nat) (qs : List Req) (rs : List Resp) : List AmoOp :=
  (qs.zip rs).filterMap fun x =>
    if MT.isAmo x.1.ty = true ∧ x.1.addr / 4 = W
      then some ⟨x.1.ty, BitVec.ofNat 32 x.1.data, BitVec.ofNat 32 x.2.data⟩ else none

/-- The atomic operations on word `W` cache `k` accepted and answered, in order, with the
word given in the response.  (Responses are in order.). Specification; not in the source. -/
def answeredAmos (k : ι) (W : Nat) (tr : List (Ev ι)) : List AmoOp := amosOf W (accepted k tr) (responses k tr)

/-- Type and operand of the atomic operations on word `W` cache `k` accepted, in order. Specification; not in the source. -/
def askedAmos (k : ι) (W : Nat) (tr : List (Ev ι)) : List (MType × BitVec 32) :=
  (accepted k tr).filterMap fun q =>
    if MT.isAmo q.ty = true ∧ q.addr / 4 = W then some (q.ty, BitVec.ofNat 32 q.data) else none

/-- The history `tr` is linearised by the sequence `s` of operations on word `W`: at any
time, some initial part of `s` contains everything answered so far and nothing that has not
been asked for, for every cache in the order of its requests. -/
def Linearised (W : Nat) (tr : List (Ev ι)) (s : List (ι × AmoOp)) : Prop :=
  ∀ a b, tr = a ++ b → ∃ s₁ s₂, s = s₁ ++ s₂ ∧ ∀ k, answeredAmos k W a <+: ofCache k s₁ ∧
    (ofCache k s₁).map (fun o => (o.ty, o.arg)) <+: askedAmos k W a

end Verif.WM
