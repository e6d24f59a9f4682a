import Verif.SpecShared

/-!
# Specification: atomic operations of several caches on one word
-/

namespace Verif
variable {p : Params} {ι : Type} [DecidableEq ι]

/-- One atomic operation: its type, its operand and the word it returned. Specification; not in the source. -/
structure AmoOp where
  ty : MType
  arg : BitVec 32
  old : BitVec 32
  deriving DecidableEq, Repr

/-- The 32-bit word number `W` of memory. Specification; not in the source. -/
def memWord (M : ByteMem) (W : Nat) : BitVec 32 := BitVec.ofNat 32 (readLE M (4 * W) 4)

/-- The operations performed one after the other on a cell that holds `v`: each
returns the value left by the previous one; at the end the cell holds `v'`. Specification; not in the source. -/
inductive AmoSeq : BitVec 32 → List AmoOp → BitVec 32 → Prop
  | nil (v : BitVec 32) : AmoSeq v [] v
  | cons (o : AmoOp) {l : List AmoOp} {v' : BitVec 32} (h : AmoSeq (amoFun o.ty o.old o.arg) l v') :
      AmoSeq o.old (o :: l) v'

/-- The atomic operations memory executed on word `W`, in the order of execution,
with the cache they come from. Specification; not in the source. -/
def execAmos (W : Nat) (tr : List (Ev ι p)) : List (ι × AmoOp) :=
  tr.filterMap fun
    | .exec k m r => if MT.isAmo m.ty = true ∧ m.addr.flat / 4 = W
        then some (k, ⟨m.ty, m.data.setWidth 32, r.data.setWidth 32⟩) else none
    | _ => none

/-- Those of cache `k`. Specification; not in the source. -/
def ofCache (k : ι) (l : List (ι × AmoOp)) : List AmoOp := l.filterMap fun x => if x.1 = k then some x.2 else none

/-- The atomic operations on word `W` cache `k` accepted and answered, in order, with
the word given in the response. Specification; not in the source. -/
def answeredAmos (k : ι) (W : Nat) (tr : List (Ev ι p)) : List AmoOp :=
  ((accepted k tr).zip (responses k tr)).filterMap fun x =>
    if MT.isAmo x.1.ty = true ∧ x.1.addr.flat / 4 = W
      then some ⟨x.1.ty, x.1.data.setWidth 32, x.2.data.setWidth 32⟩ else none

/-- Type and operand of the atomic operations on word `W` cache `k` accepted, in order. Specification; not in the source. -/
def askedAmos (k : ι) (W : Nat) (tr : List (Ev ι p)) : List (MType × BitVec 32) :=
  (accepted k tr).filterMap fun q =>
    if MT.isAmo q.ty = true ∧ q.addr.flat / 4 = W then some (q.ty, q.data.setWidth 32) else none

end Verif
