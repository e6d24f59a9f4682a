import Verif.SramAny
import Verif.PropsBlocking

/-!
# Specification for C71: how long a request takes

The cache alone, in any environment that obeys the rules of the ports.  Memory may return any
data; only the order and the types of its answers are prescribed.
-/

namespace Verif
variable {p : Params}

/-- The types of the memory requests that were sent and are not yet answered, after a cycle
with inputs `i` and outputs `o`. Specification; not in the source. -/
def owes (O : List MType) (i : In p) (o : Out p) : List MType :=
  (if i.mrespEn then O.tail else O) ++ (if o.mreqEn then [o.mreq.ty] else [])

/-- The environment of a cache in the state `s`, to which memory owes answers of the types `O`,
obeys the rules: no reset; a request (of any type and shape, WRITE_INIT included) only when the
cache is ready; memory answers in order, each request once, with the type of the request. Specification; not in the source. -/
def Plays : St p → List MType → List (In p) → Prop
  | _, _, [] => True
  | s, O, i :: l =>
    i.reset = false ∧ (i.reqEn = true → (s.out i).reqRdy = true) ∧
    (i.mrespEn = true → O.head? = some i.mresp.ty) ∧ Plays (s.step i) (owes O i (s.out i)) l

/-- The environment is prompt: both output ports are ready in every cycle, and memory lets the
cache wait for an answer at most `D` cycles in a row (`c` of which have passed). Specification; not in the source. -/
def Prompt (D : Nat) : Nat → St p → List MType → List (In p) → Prop
  | _, _, _, [] => True
  | c, s, O, i :: l =>
    let c' := if O ≠ [] ∧ i.mrespEn = false then c + 1 else 0
    i.respRdy = true ∧ i.mreqRdy = true ∧ c' ≤ D ∧ Prompt D c' (s.step i) (owes O i (s.out i)) l

/-- Number of cycles in which the environment does its part: memory answers, or it owes nothing
and both output ports are ready. Specification; not in the source. -/
def helped : St p → List MType → List (In p) → Nat
  | _, _, [] => 0
  | s, O, i :: l =>
    (if i.mrespEn = true ∨ (O = [] ∧ i.respRdy = true ∧ i.mreqRdy = true) then 1 else 0) +
      helped (s.step i) (owes O i (s.out i)) l

/-- The state after the cycles `l`. Specification; not in the source. -/
def St.after (s : St p) (l : List (In p)) : St p := l.foldl St.step s

/-- What memory owes after the cycles `l`. Specification; not in the source. -/
def owesAfter : St p → List MType → List (In p) → List MType
  | _, O, [] => O
  | s, O, i :: l => owesAfter (s.step i) (owes O i (s.out i)) l

/-- Number of requests accepted in the cycles `l`. Specification; not in the source. -/
def nAccepted (l : List (In p)) : Nat := l.countP (·.reqEn)

/-- Number of responses in the cycles `l` from the state `s`. Specification; not in the source. -/
def nAnswered (s : St p) (l : List (In p)) : Nat := (s.outs l).countP (·.respEn)

/-- The bound: the number of clock edges from the one that takes the request to the one that
hands over its response, if memory lets the cache wait at most `D` cycles in a row. Specification; not in the source. -/
def respBound (p : Params) (D : Nat) (ty : MType) : Nat :=
  if ty = MT.INIT then 2
  else if ty = MT.INV then p.nLines + 3
  else if ty = MT.FLUSH then 3 + (5 + D) * p.nLines
  else 8 + 2 * D

end Verif
