import Verif.SpecLin

/-!
# Specification: a spin lock

Property C67.  Software protects words with a lock: one word `L` that is 0 when free and 1
when taken.  It is taken with AMO_SWAP of 1, which succeeds if it returns 0, and given back
with AMO_SWAP of 0.
-/

namespace Verif.WM
variable {ι : Type} [DecidableEq ι]

/-- AMO_SWAP (a MemMsgType of pymtl3.stdlib, inside the range of blocking_cache/BlockingCacheCtrlRTL.py:266). -/
def SWAP : MType := 6

/-- Processor `k` holds the lock: its last atomic operation on `L` was an attempt to take
it, has been answered, and found the lock free (software on top of the caches, not in the source). -/
def Holds (k : ι) (L : Nat) (tr : List (Ev ι)) : Prop :=
  (answeredAmos k L tr).length = (askedAmos k L tr).length ∧
    ∃ o, (answeredAmos k L tr).getLast? = some o ∧ o.arg = 1 ∧ o.old = 0

/-- Every store of `k` to `W` was followed by a FLUSH of `k` (not in the source). -/
def Flushed (k : ι) (W : Nat) (tr : List (Ev ι)) : Prop :=
  ∀ a q b, tr = a ++ .acc k q :: b → q.stores W → ∃ f ∈ accepted k b, f.ty = MT.FLUSH

/-- How software uses the lock `L` that protects the words `D` (a program, not in the source). -/
structure LockProtocol (L : Nat) (D : Nat → Prop) (tr : List (Ev ι)) : Prop where
  /-- the lock is not one of the protected words -/
  apart : ¬ D L
  /-- the lock is not written -/
  noWrite : ∀ k, ∀ q ∈ accepted k tr, q.ty = MT.WRITE → ¬ q.covers L
  /-- a processor that does not hold the lock tries to take it; the one that holds it gives
  it back, after all its requests are answered and its stores flushed -/
  swap : ∀ k a q b, tr = a ++ .acc k q :: b → MT.isAmo q.ty = true → q.addr / 4 = L →
    q.ty = SWAP ∧
      ((¬ Holds k L a ∧ BitVec.ofNat 32 q.data = 1) ∨
       (Holds k L a ∧ BitVec.ofNat 32 q.data = 0 ∧ (accepted k a).length = (responses k a).length ∧
         ∀ W, D W → Flushed k W a))
  /-- protected words are accessed while holding the lock, after an INV given after the lock
  was taken -/
  guarded : ∀ k a q b, tr = a ++ .acc k q :: b → ∀ W, D W → q.stores W ∨ q.reads W →
    ∃ c i d, a = c ++ .acc k i :: d ∧ i.ty = MT.INV ∧ Holds k L c ∧ askedAmos k L d = []

end Verif.WM
