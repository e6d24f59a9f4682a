import Verif.SpecBarrier

/-!
# Specification: a ticket lock

Properties C93 and C94.  Processors behind caches of any shapes share a lock made of two words, both 0 at
first.  A processor draws a ticket with AMO_ADD 1 on `T`; it looks at the word `S` by adding 0
until it finds the number of its ticket there; it gives the lock back by adding 1 to `S`.
-/

namespace Verif.WM
variable {ι : Type} [DecidableEq ι]

/-- The tickets processor `k` has drawn (a program, not in the source). -/
def drawn (k : ι) (T : Nat) (tr : List (Ev ι)) : List (BitVec 32) := (answeredAmos k T tr).map (·.old)

/-- How many tickets processor `k` has given back (a program, not in the source). -/
def given (k : ι) (S : Nat) (tr : List (Ev ι)) : Nat := arrivals k S tr

/-- Processor `k` has ticket `n`, has not given it back, and has found its number in `S` (a program,
not in the source). -/
def HasTurn (k : ι) (T S : Nat) (n : BitVec 32) (tr : List (Ev ι)) : Prop :=
  (drawn k T tr)[given k S tr]? = some n ∧ ∃ o ∈ answeredAmos k S tr, o.old + o.arg = n

/-- The processors that drew tickets, in the order they asked (not in the source). -/
def drawers (T : Nat) (tr : List (Ev ι)) : List ι :=
  tr.filterMap fun
    | .acc k q => if MT.isAmo q.ty = true ∧ q.addr / 4 = T then some k else none
    | .resp _ _ => none

/-- At some moment of the history `b`, not before its initial part `a` is over, processor `k` has its
turn with ticket `n` (a program, not in the source). -/
def TurnBetween (k : ι) (T S : Nat) (n : BitVec 32) (a b : List (Ev ι)) : Prop :=
  ∃ x, a <+: x ∧ x <+: b ∧ HasTurn k T S n x

/-- How processors use the words `T` and `S` (a program, not in the source). -/
structure TicketProtocol (T S : Nat) (tr : List (Ev ι)) : Prop where
  /-- the two words are not written -/
  noWrite : ∀ k, ∀ q ∈ accepted k tr, q.ty = MT.WRITE → ¬ q.covers T ∧ ¬ q.covers S
  /-- a ticket is drawn by adding 1, after the last one was given back -/
  draw : ∀ k a q b, tr = a ++ .acc k q :: b → MT.isAmo q.ty = true → q.addr / 4 = T →
    q.ty = ADD ∧ BitVec.ofNat 32 q.data = 1 ∧ (askedAmos k T a).length = given k S a
  /-- the other word is only added to: 0 to look at it; 1 by a processor whose turn it is -/
  serve : ∀ k a q b, tr = a ++ .acc k q :: b → MT.isAmo q.ty = true → q.addr / 4 = S →
    q.ty = ADD ∧ (BitVec.ofNat 32 q.data = 0 ∨ (BitVec.ofNat 32 q.data = 1 ∧ ∃ n, HasTurn k T S n a))
  /-- the tickets do not run out -/
  small : (drawers T tr).length < 2 ^ 32

end Verif.WM
