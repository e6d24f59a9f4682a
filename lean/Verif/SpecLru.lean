import Verif.Spec

/-!
# Specification: an LRU cache directory

Per set the list of cached tags, most recently used first, at most one per way.
Independent of the cache model.
-/

namespace Verif
variable {p : Params}

/-- Directory: cached tags of each set, most recently used first. Specification; not in the source. -/
abbrev Lru (p : Params) := Idx p → List (Tag p)

/-- Effect of a request on the directory and whether it hits.  Reads and writes
move their line to the front, dropping the least recently used line if there
are more than `ways` lines; an AMO removes its line; INV removes all lines;
FLUSH has no effect. -/
def lruStep (ways : Nat) (s : Lru p) (q : CReq p) : Lru p × Bool :=
  let t := q.addr.tag
  let j := q.addr.idx
  if q.ty = MT.READ ∨ q.ty = MT.WRITE then
    (fun j' => if j' = j then (t :: (s j).erase t).take ways else s j', decide (t ∈ s j))
  else if MT.isAmo q.ty then (fun j' => if j' = j then (s j).erase t else s j', false)
  else if q.ty = MT.INV then (fun _ => [], false)
  else (s, false)

/-- The directory and the hit bits after a request sequence, from an empty
directory. Specification; not in the source. -/
def lruRun (ways : Nat) (qs : List (CReq p)) : Lru p × List Bool :=
  qs.foldl (fun x q => ((lruStep ways x.1 q).1, x.2 ++ [(lruStep ways x.1 q).2])) (fun _ => [], [])

end Verif
