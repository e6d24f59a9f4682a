import Verif.SpecCoh
import Verif.SpecPass

/-!
# Specification: caches that lose their contents

Property C84.  The machine of `SpecModel.lean` with one more step: a cache is reset and
loses everything (its copies, the request it works on and the responses not yet delivered).
-/

namespace Verif.WM
variable {ι : Type} [DecidableEq ι]

/-- Events: those at the processor ports, and a reset. Specification; not in the source. -/
inductive CEv (ι : Type)
  | ev (e : Ev ι)
  | crash (k : ι)
deriving DecidableEq, Repr

/-- A cache without copies and with nothing to do. Specification; not in the source. -/
def Loc.empty : Loc := ⟨fun _ => .none, fun _ => 0, Option.none, []⟩

/-- Specification; not in the source. -/
inductive CStep : State ι → List (CEv ι) → State ι → Prop
  | step {A B : State ι} {ev : List (Ev ι)} (h : Step A ev B) : CStep A (ev.map .ev) B
  | crash (A : State ι) (k : ι) : CStep A [.crash k] ⟨fun k' => if k' = k then .empty else A.loc k', A.mem⟩

/-- A finite execution with its events. Specification; not in the source. -/
inductive CRun : State ι → List (CEv ι) → State ι → Prop
  | refl (A : State ι) : CRun A [] A
  | snoc {A A' A'' : State ι} {tr ev : List (CEv ι)} (h : CRun A tr A') (hs : CStep A' ev A'') :
      CRun A (tr ++ ev) A''

/-- The event at the cache that has the name `f k` instead of `k`. Specification; not in the source. -/
def Ev.rename {κ : Type} (f : ι → κ) : Ev ι → Ev κ
  | .acc k q => .acc (f k) q
  | .resp k r => .resp (f k) r

/-- The number of resets of each cache, if there were `g` before. Specification; not in the source. -/
def cLives (g : ι → Nat) : List (CEv ι) → ι → Nat
  | [] => g
  | .ev _ :: tr => cLives g tr
  | .crash k :: tr => cLives (fun k' => if k' = k then g k + 1 else g k') tr

/-- The events at the processor ports, each with its cache and the number of resets of this
cache before: its *life*. Specification; not in the source. -/
def cByLife (g : ι → Nat) : List (CEv ι) → List (Ev (ι × Nat))
  | [] => []
  | .ev e :: tr => e.rename (fun k => (k, g k)) :: cByLife g tr
  | .crash k :: tr => cByLife (fun k' => if k' = k then g k + 1 else g k') tr

/-- The responses `rs` to the requests `qs` are right as far as word `W` is concerned, if the
requests find the memory `M` and nobody else stores to `W`. Specification; not in the source. -/
def Right (W : Nat) (M : ByteMem) (qs : List Req) (rs : List Resp) : Prop :=
  ∀ n q r, qs[n]? = some q → rs[n]? = some r → q.touches W → Sees W (perform M (qs.take n)) q r

/-- The memories agree on word `W`. Specification; not in the source. -/
def AgreeOn (W : Nat) (M M' : ByteMem) : Prop := ∀ x, x / 4 = W → M x = M' x

/-- What a program that uses word `W` through a cache sees of it when the cache is reset now
and then: life `n` starts with the contents `m n` of the word and its responses are right for
them; it leaves behind what its first `c n` requests make of the word, which include every
answered FLUSH and every answered atomic operation on `W`; the next life starts with that. Specification; not in the source. -/
structure Recovers (k : ι) (W : Nat) (M M' : ByteMem) (tr : List (Ev (ι × Nat))) (N : Nat) (m : Nat → ByteMem)
    (c : Nat → Nat) : Prop where
  first : AgreeOn W (m 0) M
  next : ∀ n, n < N → AgreeOn W (m (n + 1)) (perform (m n) ((accepted (k, n) tr).take (c n)))
  last : AgreeOn W M' (perform (m N) ((accepted (k, N) tr).take (c N)))
  right : ∀ n, Right W (m n) (accepted (k, n) tr) (responses (k, n) tr)
  durable : ∀ n i f, i < (responses (k, n) tr).length → (accepted (k, n) tr)[i]? = some f → f.releases W → i < c n

end Verif.WM
