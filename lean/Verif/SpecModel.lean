import Verif.Spec

/-!
# The programmer's memory model

A machine for properties C64 to C66.  It knows nothing of lines, sets, ways, tags,
replacement or pipelines: it only has *words*, a flat memory and, per cache, a copy of
some words.  Caches of different sizes and associativities refine the same machine.

* A copy of a word is absent, clean or dirty.
* A cache works on one request at a time; only while it does may it fetch words, drop
  clean words or save dirty words to memory.
* READ and WRITE act on copies.  AMOs act on memory, on a word of which the cache has no
  copy.  INV drops all clean copies.  FLUSH completes when no copy is dirty.
-/

namespace Verif.WM

/-- A request: type, opaque, byte address, length field, number of bytes, data. Specification; not in the source. -/
structure Req where
  ty : MType
  opq : Nat
  addr : Nat
  len : Nat
  bytes : Nat
  data : Nat
deriving DecidableEq, Repr

/-- A response: type, opaque, length field, data. Specification; not in the source. -/
structure Resp where
  ty : MType
  opq : Nat
  len : Nat
  data : Nat
deriving DecidableEq, Repr

/-- The request addresses a byte of word `W` (bytes `4 * W` to `4 * W + 3`). Specification; not in the source. -/
def Req.covers (q : Req) (W : Nat) : Prop := q.addr < 4 * W + 4 ∧ 4 * W < q.addr + q.bytes

instance (q : Req) (W : Nat) : Decidable (q.covers W) := inferInstanceAs (Decidable (_ ∧ _))

/-- Specification; not in the source. -/
inductive Copy
  | none
  | clean
  | dirty
deriving DecidableEq, Repr

/-- A cache of the model. Specification; not in the source. -/
structure Loc where
  /-- state of the copy of each word -/
  copy : Nat → Copy
  /-- contents of the copies -/
  val : ByteMem
  /-- the request worked on -/
  pend : Option Req
  /-- responses not yet delivered, oldest first -/
  done : List Resp

/-- Events at the processor port of one cache. Specification; not in the source. -/
inductive LEv
  | acc (q : Req)
  | resp (r : Resp)
deriving DecidableEq, Repr

/-- The request `q` is completed with data `d`. Specification; not in the source. -/
def Loc.reply (a : Loc) (q : Req) (d : Nat) : Loc :=
  { a with pend := Option.none, done := a.done ++ [⟨q.ty, q.opq, q.len, d⟩] }

/-- One step of a cache `a` on the memory `M`. Specification; not in the source. -/
inductive Loc.Step : Loc → ByteMem → List LEv → Loc → ByteMem → Prop
  | accept (a : Loc) (M : ByteMem) (q : Req) (h : a.pend = Option.none) :
      Step a M [.acc q] { a with pend := some q } M
  | deliver (a : Loc) (M : ByteMem) (r : Resp) (l : List Resp) (h : a.done = r :: l) :
      Step a M [.resp r] { a with done := l } M
  /-- fetch the words `B` -/
  | fetch (a : Loc) (M : ByteMem) (q : Req) (B : Nat → Bool) (h : a.pend = some q)
      (hq : q.ty = MT.READ ∨ q.ty = MT.WRITE) (hB : ∀ W, B W = true → a.copy W = .none) :
      Step a M [] { a with
        copy := fun W => if B W then .clean else a.copy W
        val := fun x => if B (x / 4) then M x else a.val x } M
  /-- drop the words `B` -/
  | drop (a : Loc) (M : ByteMem) (q : Req) (B : Nat → Bool) (h : a.pend = some q)
      (hq : q.ty ≠ MT.INV) (hB : ∀ W, B W = true → a.copy W = .clean) :
      Step a M [] { a with copy := fun W => if B W then .none else a.copy W } M
  /-- write the words `B` back to memory -/
  | save (a : Loc) (M : ByteMem) (q : Req) (B : Nat → Bool) (h : a.pend = some q)
      (hq : q.ty ≠ MT.INV) (hB : ∀ W, B W = true → a.copy W = .dirty) :
      Step a M [] { a with copy := fun W => if B W then .clean else a.copy W }
        (fun x => if B (x / 4) then a.val x else M x)
  | read (a : Loc) (M : ByteMem) (q : Req) (h : a.pend = some q) (hq : q.ty = MT.READ)
      (hc : ∀ W, q.covers W → a.copy W ≠ .none) :
      Step a M [] (a.reply q (readLE a.val q.addr q.bytes)) M
  | write (a : Loc) (M : ByteMem) (q : Req) (h : a.pend = some q) (hq : q.ty = MT.WRITE)
      (hc : ∀ W, q.covers W → a.copy W ≠ .none) :
      Step a M [] (({ a with
        copy := fun W => if q.covers W then .dirty else a.copy W
        val := writeLE a.val q.addr q.bytes q.data } : Loc).reply q 0) M
  | amo (a : Loc) (M : ByteMem) (q : Req) (h : a.pend = some q) (hq : MT.isAmo q.ty = true)
      (hc : a.copy (q.addr / 4) = .none) :
      Step a M [] (a.reply q (readLE M q.addr 4))
        (writeLE M q.addr 4 (amoFun q.ty (BitVec.ofNat 32 (readLE M q.addr 4)) (BitVec.ofNat 32 q.data)).toNat)
  | inv (a : Loc) (M : ByteMem) (q : Req) (h : a.pend = some q) (hq : q.ty = MT.INV) :
      Step a M [] (({ a with copy := fun W => if a.copy W = .clean then .none else a.copy W } : Loc).reply q 0) M
  | flush (a : Loc) (M : ByteMem) (q : Req) (h : a.pend = some q) (hq : q.ty = MT.FLUSH)
      (hc : ∀ W, a.copy W ≠ .dirty) :
      Step a M [] (a.reply q 0) M

/-! ## Several caches on one memory -/

/-- Specification; not in the source. -/
structure State (ι : Type) where
  loc : ι → Loc
  mem : ByteMem

/-- Specification; not in the source. -/
inductive Ev (ι : Type)
  | acc (k : ι) (q : Req)
  | resp (k : ι) (r : Resp)
deriving DecidableEq, Repr

/-- The event at cache `k`. Specification; not in the source. -/
def LEv.at {ι : Type} (k : ι) : LEv → Ev ι
  | .acc q => .acc k q
  | .resp r => .resp k r

variable {ι : Type} [DecidableEq ι]

/-- One cache takes a step. Specification; not in the source. -/
inductive Step : State ι → List (Ev ι) → State ι → Prop
  | mk (A : State ι) (k : ι) (e : List LEv) (a : Loc) (M : ByteMem) (h : (A.loc k).Step A.mem e a M) :
      Step A (e.map (LEv.at k)) ⟨fun k' => if k' = k then a else A.loc k', M⟩

/-- A finite execution with its events. Specification; not in the source. -/
inductive Run : State ι → List (Ev ι) → State ι → Prop
  | refl (A : State ι) : Run A [] A
  | snoc {A A' A'' : State ι} {tr ev : List (Ev ι)} (h : Run A tr A') (hs : Step A' ev A'') :
      Run A (tr ++ ev) A''

/-- No cache has a copy of any word. Specification; not in the source. -/
def init (ι : Type) (M : ByteMem) : State ι :=
  ⟨fun _ => ⟨fun _ => .none, fun _ => 0, Option.none, []⟩, M⟩

end Verif.WM
