import Verif.SpecEnv
import Verif.Hetero
import Verif.SpecShared

/-!
# Specification: caches of any shapes among other agents (C87)
-/

namespace Verif
variable {ι : Type} [DecidableEq ι] {p : ι → Params}

/-- A step of the system of caches of any shapes, or a step of an agent that is not one of its caches (a processor
without a cache, a DMA engine), which leaves the words `D` alone (test/sim_utils.py:302-314, with anything in place of
further ports). -/
inductive OHStep (D : Nat → Prop) : HSys ι p → List (HEv ι p) → HSys ι p → Prop
  | cache {H H' : HSys ι p} {ev : List (HEv ι p)} (h : HStep H ev H') : OHStep D H ev H'
  | outside (H : HSys ι p) (M : ByteMem) (h : ∀ x, D (x / 4) → M x = H.mem x) : OHStep D H [] { H with mem := M }

/-- A finite execution with its events (not in the source: iteration). -/
inductive OHRun (D : Nat → Prop) : HSys ι p → List (HEv ι p) → HSys ι p → Prop
  | refl (H : HSys ι p) : OHRun D H [] H
  | snoc {H H' H'' : HSys ι p} {tr ev : List (HEv ι p)} (h : OHRun D H tr H') (hs : OHStep D H' ev H'') :
      OHRun D H (tr ++ ev) H''

/-- The events of cache `k` (not in the source: projection). -/
def HEv.only (k : ι) (e : HEv ι p) : Option (Ev Unit (p k)) := if h : e.1 = k then some (h ▸ e.2) else none

/-- The events of cache `k` of an execution (not in the source: projection). -/
def eventsOf (k : ι) (tr : List (HEv ι p)) : List (Ev Unit (p k)) := tr.filterMap (HEv.only k)

/-- No cache but `k` stores to word `W` (not in the source: condition). -/
def SoleWriter (k : ι) (tr : List (HEv ι p)) (W : Nat) : Prop :=
  ∀ j, j ≠ k → ∀ q ∈ accepted () (eventsOf j tr), ¬ q.writesWord W

end Verif
