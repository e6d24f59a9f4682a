import Verif.SpecShared2
import Verif.Multicore
import Verif.SpecLru

/-!
# Specification: synchronised multicore programs

A condition on the text of a program for the multicore driver (a list of core, order,
request) under which its responses do not depend on timing.  Position `x` of the program is
its entry number `x`; the list gives the intended sequential order.
-/

namespace Verif
variable {p : Params} {n : Nat}

/-- The requests of core `k`, in program order. Specification; not in the source. -/
def Prog.reqs (g : Prog n p) (k : Fin n) : List (CReq p) := (Prog.of g k).map (·.2)

/-- A cache that has accepted exactly the requests `l` holds no copy of the line of word `W`:
since the beginning, or since an INV or a request that makes it give up the line, there is no
read or write of the line. -/
def NoCopyL (W : Nat) (l : List (CReq p)) : Prop :=
  ∃ l₁ l₂, l = l₁ ++ l₂ ∧ (l₁ = [] ∨ ∃ l₀ i, l₁ = l₀ ++ [i] ∧ (i.ty = MT.INV ∨ i.drops W)) ∧
    ∀ q ∈ l₂, q.ty = MT.READ ∨ q.ty = MT.WRITE → ¬ q.onLine W

/-- The program is synchronised. Specification; not in the source. -/
structure Prog.Synchronised (g : Prog n p) : Prop where
  /-- A store at `x` to a word that another core accesses at a later position `y`: the storing
  core executes, at `x` or later, a FLUSH or a request that gives up the line, of an order
  smaller than that of a request of the other core at or before `y`; and at that request the
  other core holds no copy of the line, unless the access is an atomic operation. -/
  store : ∀ {x y : Nat} {k k' : Fin n} {o o' : BitVec 32} {q q' : CReq p} {W : Nat}, x < y → k ≠ k' → g[x]? = some (k, o, q) → g[y]? = some (k', o', q') →
    q.writesWord W → q'.readsWord W ∨ q'.writesWord W →
    ∃ f of qf z oz qz, x ≤ f ∧ g[f]? = some (k, of, qf) ∧ (qf.ty = MT.FLUSH ∨ qf.drops W) ∧
      z ≤ y ∧ g[z]? = some (k', oz, qz) ∧ of < oz ∧
      (MT.isAmo q'.ty = true ∨ NoCopyL W (Prog.reqs (g.take z) k'))
  /-- A read at `x` of a word that another core stores to at a later position `y`: some request of
  the reading core at or after `x` has a smaller order than some request of the storing core at or
  before `y`. -/
  read : ∀ {x y : Nat} {k k' : Fin n} {o o' : BitVec 32} {q q' : CReq p} {W : Nat}, x < y → k ≠ k' → g[x]? = some (k, o, q) → g[y]? = some (k', o', q') →
    q.readsWord W → q'.writesWord W →
    ∃ f of qf z oz qz, x ≤ f ∧ g[f]? = some (k, of, qf) ∧ z ≤ y ∧ g[z]? = some (k', oz, qz) ∧ of < oz

/-- The memory after the program, its requests executed one by one in the order of the list. Specification; not in the source. -/
def Prog.seq (M : ByteMem) (g : Prog n p) : ByteMem := (flatRun M (g.map (·.2.2))).1

/-- The data returned to core `k` by the sequential execution. Specification; not in the source. -/
def Prog.data (M : ByteMem) : Prog n p → Fin n → List (Data p)
  | [], _ => []
  | e :: g, k => (if e.1 = k then [(flatStep M e.2.2).2] else []) ++ Prog.data (flatStep M e.2.2).1 g k

/-- The responses core `k` expects: type, opaque and length of the request, the hit bit of a
private LRU directory, and the data of the sequential execution. Specification; not in the source. -/
def Prog.expect (M : ByteMem) (g : Prog n p) (k : Fin n) : List (CResp p) :=
  List.zipWith (fun q (x : Bool × Data p) => ⟨q.ty, q.opq, if x.1 then 1 else 0, q.len, x.2⟩) (g.reqs k)
    (((lruRun p.ways.length (g.reqs k)).2).zip (Prog.data M g k))

end Verif
