import Verif.SpecLock

/-!
# Specification: a barrier

Property C90.  Processors behind caches of any shapes work in phases.  A word `B`, 0 at
first, counts arrivals: a processor that has finished its phase adds 1 to it with AMO_ADD,
and goes on once it has seen the counter reach the number of participants times the number
of phases finished.  It looks at the counter by adding 0.
-/

namespace Verif.WM
variable {ι : Type} [DecidableEq ι]

/-- AMO_ADD (MemMsgType of pymtl3.stdlib, as used at blocking_cache/BlockingCacheCtrlRTL.py:266). -/
def ADD : MType := 3

/-- How often processor `k` has added 1 to the counter: the number of phases it has
finished, and so the phase it is in.  Software on top of the caches; not in the source. -/
def arrivals (k : ι) (B : Nat) (tr : List (Ev ι)) : Nat :=
  ((askedAmos k B tr).filter fun x => decide (x.2 = 1)).length

/-- Processor `k` has seen the counter reach `m * n`: one of its answered operations left it
there or beyond (not in the source). -/
def Passed (n : Nat) (k : ι) (B m : Nat) (tr : List (Ev ι)) : Prop :=
  m = 0 ∨ ∃ o ∈ answeredAmos k B tr, m * n ≤ o.old.toNat + o.arg.toNat

/-- How the participants `ps` use the counter `B` between accesses to the shared words `D`.
This is a program that runs on it, not in the source. -/
structure BarrierProtocol (ps : List ι) (B : Nat) (D : Nat → Prop) (tr : List (Ev ι)) : Prop where
  /-- every participant is counted once -/
  nodup : ps.Nodup
  /-- the counter is not one of the shared words -/
  apart : ¬ D B
  /-- the counter is not written -/
  noWrite : ∀ k, ∀ q ∈ accepted k tr, q.ty = MT.WRITE → ¬ q.covers B
  /-- the counter is only added to: 0 to look at it; 1 by a participant that has seen the end
  of its last phase, all of whose requests are answered and whose stores are flushed -/
  add : ∀ k a q b, tr = a ++ .acc k q :: b → MT.isAmo q.ty = true → q.addr / 4 = B →
    q.ty = ADD ∧
      (BitVec.ofNat 32 q.data = 0 ∨
       (BitVec.ofNat 32 q.data = 1 ∧ k ∈ ps ∧ Passed ps.length k B (arrivals k B a) a ∧
         (accepted k a).length = (responses k a).length ∧ ∀ W, D W → Flushed k W a))
  /-- the counter does not wrap around -/
  small : (ps.map fun k => arrivals k B tr).sum < 2 ^ 32
  /-- shared words are accessed by participants, in their first phase or after an INV given
  after the end of the last phase was seen -/
  guarded : ∀ k a q b, tr = a ++ .acc k q :: b → ∀ W, D W → q.stores W ∨ q.reads W →
    k ∈ ps ∧ (arrivals k B a = 0 ∨
      ∃ c i d, a = c ++ .acc k i :: d ∧ i.ty = MT.INV ∧ Passed ps.length k B (arrivals k B a) c)
  /-- a word stored to in some phase is not accessed by another processor in the same phase -/
  phases : ∀ k k', k ≠ k' → ∀ a q b a' q' b', tr = a ++ .acc k q :: b → tr = a' ++ .acc k' q' :: b' →
    ∀ W, D W → q.stores W → (q'.stores W ∨ q'.reads W) → arrivals k B a ≠ arrivals k' B a'

end Verif.WM
