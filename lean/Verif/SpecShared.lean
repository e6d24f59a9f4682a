import Verif.Spec
import Verif.Sys

/-!
# Specification: several caches on one memory

What it means for software to keep the (non-coherent) caches coherent with
FLUSH and INV.  Words are the 32-bit words of memory: word `W` consists of the
bytes `4 * W … 4 * W + 3`.  Everything is stated on the sequence of observable
events.
-/

namespace Verif
variable {p : Params} {ι : Type} [DecidableEq ι]

/-- The request stores into byte `x`. Specification; not in the source. -/
def CReq.writesByte (q : CReq p) (x : Nat) : Prop :=
  (q.ty = MT.WRITE ∧ q.addr.flat ≤ x ∧ x < q.addr.flat + if q.len.toNat = 3 then 8 else q.bytes) ∨
  (MT.isAmo q.ty = true ∧ q.addr.flat ≤ x ∧ x < q.addr.flat + 4)

/-- The request stores into a byte of word `W`. Specification; not in the source. -/
def CReq.writesWord (q : CReq p) (W : Nat) : Prop := ∃ x, x / 4 = W ∧ q.writesByte x

/-- The requests accepted by all caches, in the order of acceptance. Specification; not in the source. -/
def acceptedAll (tr : List (Ev ι p)) : List (CReq p) :=
  tr.filterMap fun
    | .acc _ q => some q
    | _ => none

/-- The latest contents of memory: all accepted requests performed on one flat
memory, in the order of acceptance. Specification; not in the source. -/
def latest (M : ByteMem) (tr : List (Ev ι p)) : ByteMem := (flatRun M (acceptedAll tr)).1

/-- In `a ++ b`, cache `k` accepted a FLUSH during `b` and answered it.  (Responses
are in order: request number `n` of `k` is answered if `k` delivered more than
`n` responses.). Specification; not in the source. -/
def FlushDone (k : ι) (a b : List (Ev ι p)) : Prop :=
  ∃ b₁ f b₂, b = b₁ ++ .acc k f :: b₂ ∧ f.ty = MT.FLUSH ∧
    (accepted k (a ++ b₁)).length < (responses k (a ++ b)).length

/-- Every store of cache `k` to word `W` was followed by a FLUSH that has been
answered. Specification; not in the source. -/
def Published (k : ι) (W : Nat) (tr : List (Ev ι p)) : Prop :=
  ∀ a q b, tr = a ++ .acc k q :: b → q.writesWord W → FlushDone k (a ++ [.acc k q]) b

/-- Cache `k` is up to date on word `W`: every store of another cache to `W` was
followed by a FLUSH of that cache, and after the FLUSH was answered cache `k`
accepted an INV. Specification; not in the source. -/
def UpToDate (k : ι) (W : Nat) (tr : List (Ev ι p)) : Prop :=
  ∀ k', k' ≠ k → ∀ a q b, tr = a ++ .acc k' q :: b → q.writesWord W →
    ∃ c i d, b = c ++ .acc k i :: d ∧ i.ty = MT.INV ∧ FlushDone k' (a ++ [.acc k' q]) c

/-- Every store to `W` comes from a cache that is up to date on `W`. Specification; not in the source. -/
def WritesSynced (W : Nat) (tr : List (Ev ι p)) : Prop :=
  ∀ k a q b, tr = a ++ .acc k q :: b → q.writesWord W → UpToDate k W a

/-- No other cache stores to `W` between the acceptance of the request after `a`
and its response. Specification; not in the source. -/
def NoRace (k : ι) (W : Nat) (a : List (Ev ι p)) (q : CReq p) (b : List (Ev ι p)) : Prop :=
  ∀ k', k' ≠ k → ∀ b₁ q' b₂, b = b₁ ++ .acc k' q' :: b₂ → q'.writesWord W →
    (accepted k a).length < (responses k (a ++ .acc k q :: b₁)).length

/-- The request returns (part of) word `W`. Specification; not in the source. -/
def CReq.readsWord (q : CReq p) (W : Nat) : Prop :=
  ∃ x, x / 4 = W ∧ ((q.ty = MT.READ ∧ q.addr.flat ≤ x ∧ x < q.addr.flat + q.bytes) ∨
    (MT.isAmo q.ty = true ∧ q.addr.flat ≤ x ∧ x < q.addr.flat + 4))

/-- No cache but `k` stores to `W`. Specification; not in the source. -/
def OnlyWriter (k : ι) (W : Nat) (tr : List (Ev ι p)) : Prop :=
  ∀ k', k' ≠ k → ∀ q ∈ accepted k' tr, ¬ q.writesWord W

end Verif
