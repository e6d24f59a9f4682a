import Verif.SpecTiming

/-!
# Specification: a cache in an environment that also changes memory (C87)

Besides the cache there are other agents on the memory bus: caches of any shape, processors without a cache, DMA
engines.  Nothing is known about them but that memory works on the requests of the cache in order.
-/

namespace Verif
variable {p : Params}

/-- One step of a cache and its memory port, or a step of somebody else, after which memory holds anything but still
the same bytes in the words `D` (test/sim_utils.py:283-314 and test/MemoryCL.py:62-104, with anything in place of the
other ports). -/
inductive OStep (D : Nat → Prop) : Sys Unit p → List (Ev Unit p) → Sys Unit p → Prop
  | own {S S' : Sys Unit p} {ev : List (Ev Unit p)} (h : Step S ev S') : OStep D S ev S'
  | outside (S : Sys Unit p) (M : ByteMem) (h : ∀ x, D (x / 4) → M x = S.mem x) : OStep D S [] { S with mem := M }

/-- A finite execution with the events of the cache (not in the source: iteration). -/
inductive ORun (D : Nat → Prop) : Sys Unit p → List (Ev Unit p) → Sys Unit p → Prop
  | refl (S : Sys Unit p) : ORun D S [] S
  | snoc {S S' S'' : Sys Unit p} {tr ev : List (Ev Unit p)} (h : ORun D S tr S') (hs : OStep D S' ev S'') :
      ORun D S (tr ++ ev) S''

/-- The atomic operations do not reach beyond the end of the address space, where there is no memory: an aligned one
never does (not in the source: condition; test/MemoryCL.py:84-93 would raise an exception). -/
def AmosFit (tr : List (Ev Unit p)) : Prop :=
  ∀ q ∈ accepted () tr, MT.isAmo q.ty = true → q.addr.flat + 4 ≤ 2 ^ p.addrBits

/-- The events of cache `k`, as events of a system with this cache alone (not in the source: projection). -/
def Ev.only {ι : Type} [DecidableEq ι] (k : ι) : Ev ι p → Option (Ev Unit p)
  | .acc k' q => if k' = k then some (.acc () q) else none
  | .mreq k' m => if k' = k then some (.mreq () m) else none
  | .resp k' r => if k' = k then some (.resp () r) else none
  | .exec k' m r => if k' = k then some (.exec () m r) else none

end Verif
