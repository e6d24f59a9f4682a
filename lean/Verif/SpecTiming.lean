import Verif.Sys
import Verif.SpecLru

/-!
# Vocabulary of the timing properties C60, C61, C62
-/

namespace Verif
variable {p : Params} {ι : Type} [DecidableEq ι]

/-- An execution in which cache `k` sees `n` clock edges, in each of which both
its response port and its memory request port are ready to take a message.
Memory and the other caches (which are not constrained) do whatever they do in
between. Specification; not in the source. -/
inductive Ticks (k : ι) : Nat → Sys ι p → List (Ev ι p) → Sys ι p → Prop
  | refl (S : Sys ι p) : Ticks k 0 S [] S
  | edge {n : Nat} {S S' : Sys ι p} {tr : List (Ev ι p)} (h : Ticks k n S tr S') (i : In p) (hc : S'.CanClock k i)
      (h1 : i.respRdy = true) (h2 : i.mreqRdy = true) : Ticks k (n + 1) S (tr ++ S'.clockEvs k i) (S'.clock k i)
  | other {n : Nat} {S S' : Sys ι p} {tr : List (Ev ι p)} (h : Ticks k n S tr S') (k' : ι) (hk : k' ≠ k) (i : In p)
      (hc : S'.CanClock k' i) : Ticks k n S (tr ++ S'.clockEvs k' i) (S'.clock k' i)
  | exec {n : Nat} {S S' : Sys ι p} {tr : List (Ev ι p)} (h : Ticks k n S tr S') (k' : ι) (m : MReq p) (ms : List (MReq p))
      (hq : S'.reqQ k' = m :: ms) : Ticks k n S (tr ++ [.exec k' m (memExec S'.mem m).2]) (S'.exec k' m)

/-- An execution in which cache `k` sees `n` clock edges; in each of these cycles
both its response port and its memory request port are ready to take a message,
and the cache is not ready for a request.  At `w` of the edges memory owed the
cache an answer. Specification; not in the source. -/
inductive Held (k : ι) : Nat → Nat → Sys ι p → List (Ev ι p) → Sys ι p → Prop
  | refl (S : Sys ι p) : Held k 0 0 S [] S
  | edge {n w : Nat} {S S' : Sys ι p} {tr : List (Ev ι p)} (h : Held k n w S tr S') (i : In p) (hc : S'.CanClock k i)
      (h1 : i.respRdy = true) (h2 : i.mreqRdy = true) (hr : ((S'.cache k).out i).reqRdy = false) :
      Held k (n + 1) (w + if (S'.reqQ k).isEmpty && (S'.respQ k).isEmpty then 0 else 1) S (tr ++ S'.clockEvs k i) (S'.clock k i)
  | other {n w : Nat} {S S' : Sys ι p} {tr : List (Ev ι p)} (h : Held k n w S tr S') (k' : ι) (hk : k' ≠ k) (i : In p)
      (hc : S'.CanClock k' i) : Held k n w S (tr ++ S'.clockEvs k' i) (S'.clock k' i)
  | exec {n w : Nat} {S S' : Sys ι p} {tr : List (Ev ι p)} (h : Held k n w S tr S') (k' : ι) (m : MReq p) (ms : List (MReq p))
      (hq : S'.reqQ k' = m :: ms) : Held k n w S (tr ++ [.exec k' m (memExec S'.mem m).2]) (S'.exec k' m)

/-- The line of an address is in the cache, according to the LRU directory
(`SpecLru.lean`) of the requests the cache accepted. -/
def Cached (k : ι) (tr : List (Ev ι p)) (a : Addr p) : Prop :=
  a.tag ∈ (lruRun p.ways.length (accepted k tr)).1 a.idx

end Verif
