import Verif.SpecDirty
import Verif.SpecLru
import Verif.SpecSeg

/-!
# Vocabulary of property C63 (when lines are written back)
-/

namespace Verif
variable {p : Params} {ι : Type} [DecidableEq ι]

/-- Some word of the line with tag `t` in set `j` was stored to through cache `k`
and has not been sent to memory since. -/
def LineUnsaved (k : ι) (tr : List (Ev ι p)) (t : Tag p) (j : Idx p) : Prop :=
  ∃ b, b < p.nWords ∧ Unsaved k ((⟨t, j, 0⟩ : Addr p).flat / 4 + b) tr

/-- The line an access to a further line of the set `j` has to displace: the least
recently used line of the set, if the set is full (`SpecLru.lean`). -/
def lruVictim (k : ι) (tr : List (Ev ι p)) (j : Idx p) : Option (Tag p) :=
  if ((lruRun p.ways.length (accepted k tr)).1 j).length = p.ways.length then
    ((lruRun p.ways.length (accepted k tr)).1 j).getLast?
  else none

end Verif
