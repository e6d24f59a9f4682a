import Verif.SpecTicket

/-!
# Specification: words protected by a ticket lock

Property C95.
-/

namespace Verif.WM
variable {ι : Type} [DecidableEq ι]

/-- How processors use the words `D` that are protected by the ticket lock `T`, `S`
(a program, not in the source). -/
structure TicketGuard (T S : Nat) (D : Nat → Prop) (tr : List (Ev ι)) : Prop where
  /-- the word `S` is not protected -/
  apart : ¬ D S
  /-- a ticket is given back after all requests are answered and the stores flushed -/
  publish : ∀ k a q b, tr = a ++ .acc k q :: b → MT.isAmo q.ty = true → q.addr / 4 = S →
    BitVec.ofNat 32 q.data = 1 → (accepted k a).length = (responses k a).length ∧ ∀ W, D W → Flushed k W a
  /-- protected words are accessed by the processor whose turn it is, after an INV given since
  it has its turn -/
  guarded : ∀ k a q b, tr = a ++ .acc k q :: b → ∀ W, D W → q.stores W ∨ q.reads W →
    ∃ c i d n, a = c ++ .acc k i :: d ∧ i.ty = MT.INV ∧ HasTurn k T S n c ∧ given k S a = given k S c

end Verif.WM
