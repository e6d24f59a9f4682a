import Verif.SpecShared

/-!
# Specification: a more liberal synchronisation discipline

`Verif/SpecShared.lean` asks for a FLUSH of the writer that is answered before the
reader accepts an INV.  Software (and the multi-cache tests of the repository,
blocking_cache/test/MultiCacheTestCases.py) relies on more than that:

* an atomic operation is performed in memory, and the cache writes its line back
  and drops it first: it publishes the line, and it leaves no copy behind;
* in a direct-mapped cache an access to a conflicting line has the same effect;
* a reader that holds no copy needs no INV, and the INV may be accepted before the
  FLUSH of the writer is answered, as long as the reader does not touch the line
  in between.

Everything is stated on the sequence of observable events.
-/

namespace Verif
variable {p : Params} {ι : Type} [DecidableEq ι]

/-- The request addresses the cache line of word `W`. -/
def CReq.onLine (q : CReq p) (W : Nat) : Prop := q.addr.flat / 2 ^ p.offBits = 4 * W / 2 ^ p.offBits

/-- The request makes its cache write back and give up the line of word `W`: an
atomic operation on the line, or, in a direct-mapped cache, a read or write of
another line of the same set. -/
def CReq.drops (q : CReq p) (W : Nat) : Prop :=
  (MT.isAmo q.ty = true ∧ q.onLine W) ∨
  (p.twoWay = false ∧ (q.ty = MT.READ ∨ q.ty = MT.WRITE) ∧ ¬ q.onLine W ∧
    q.addr.flat / 2 ^ p.offBits % 2 ^ p.idxBits = 4 * W / 2 ^ p.offBits % 2 ^ p.idxBits)

/-- In `a ++ b`, cache `k` accepted during `b` a FLUSH, or a request that makes it
give up the line of `W`, and answered it. -/
def PubDone (k : ι) (W : Nat) (a b : List (Ev ι p)) : Prop :=
  ∃ b₁ f b₂, b = b₁ ++ .acc k f :: b₂ ∧ (f.ty = MT.FLUSH ∨ f.drops W) ∧
    (accepted k (a ++ b₁)).length < (responses k (a ++ b)).length

/-- Every store of cache `k` to word `W` is published: it is an answered atomic
operation, or it was followed by an answered FLUSH or an answered request that
made `k` give up the line. -/
def Published2 (k : ι) (W : Nat) (tr : List (Ev ι p)) : Prop :=
  ∀ a q b, tr = a ++ .acc k q :: b → q.writesWord W → PubDone k W a (.acc k q :: b)

/-- Cache `k` holds no copy of the line of `W`: since the beginning, or since it
accepted an INV or gave up the line, it has accepted no read or write of the line. -/
def NoCopy (k : ι) (W : Nat) (tr : List (Ev ι p)) : Prop :=
  ∃ t₁ t₂, tr = t₁ ++ t₂ ∧
    (t₁ = [] ∨ ∃ t₀ i, t₁ = t₀ ++ [.acc k i] ∧ (i.ty = MT.INV ∨ i.drops W)) ∧
    ∀ q ∈ accepted k t₂, q.ty = MT.READ ∨ q.ty = MT.WRITE → ¬ q.onLine W

/-- Cache `k` is up to date on word `W`: for every store of another cache to `W`
there was a moment afterwards when the store was published and `k` held no copy. Specification; not in the source. -/
def UpToDate2 (k : ι) (W : Nat) (tr : List (Ev ι p)) : Prop :=
  ∀ k', k' ≠ k → ∀ a q b, tr = a ++ .acc k' q :: b → q.writesWord W →
    ∃ c d, b = c ++ d ∧ PubDone k' W a (.acc k' q :: c) ∧ NoCopy k W (a ++ .acc k' q :: c)

/-- Cache `k` may access word `W` with the request `q` after `tr`: it is up to date,
or `q` is an atomic operation and the stores of all other caches are published. Specification; not in the source. -/
def Ready2 (k : ι) (W : Nat) (tr : List (Ev ι p)) (q : CReq p) : Prop :=
  UpToDate2 k W tr ∨ (MT.isAmo q.ty = true ∧ ∀ k', k' ≠ k → Published2 k' W tr)

/-- Every store to `W` is made by a cache that is ready for it. Specification; not in the source. -/
def WritesSynced2 (W : Nat) (tr : List (Ev ι p)) : Prop :=
  ∀ k a q b, tr = a ++ .acc k q :: b → q.writesWord W → Ready2 k W a q

end Verif
