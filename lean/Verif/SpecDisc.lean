import Verif.SpecModel

/-!
# Specification: software coherence with FLUSH, INV and AMOs

Stated on what the processors see (`WM.Ev`): requests accepted and responses delivered.
Property C65.  FLUSH and AMOs *release* a word, INV and AMOs *acquire* it.
-/

namespace Verif.WM

/-- The request stores into word `W`: a WRITE to one of its bytes or an AMO on it. Specification; not in the source. -/
def Req.stores (q : Req) (W : Nat) : Prop :=
  (q.ty = MT.WRITE ∧ q.covers W) ∨ (MT.isAmo q.ty = true ∧ q.addr / 4 = W)

/-- The request returns (part of) word `W`. Specification; not in the source. -/
def Req.reads (q : Req) (W : Nat) : Prop :=
  (q.ty = MT.READ ∧ q.covers W) ∨ (MT.isAmo q.ty = true ∧ q.addr / 4 = W)

instance (q : Req) (W : Nat) : Decidable (q.stores W) := inferInstanceAs (Decidable (_ ∨ _))
instance (q : Req) (W : Nat) : Decidable (q.reads W) := inferInstanceAs (Decidable (_ ∨ _))

/-- Once answered, the request has made the earlier stores of its cache to `W` visible. Specification; not in the source. -/
def Req.releases (q : Req) (W : Nat) : Prop := q.ty = MT.FLUSH ∨ (MT.isAmo q.ty = true ∧ q.addr / 4 = W)

/-- After the request its cache sees the visible stores of other caches to `W`. Specification; not in the source. -/
def Req.acquires (q : Req) (W : Nat) : Prop := q.ty = MT.INV ∨ (MT.isAmo q.ty = true ∧ q.addr / 4 = W)

/-- A request performed on a flat memory: the memory afterwards and the data returned. Specification; not in the source. -/
def flat (M : ByteMem) (q : Req) : ByteMem × Nat :=
  if q.ty = MT.READ then (M, readLE M q.addr q.bytes)
  else if q.ty = MT.WRITE then (writeLE M q.addr q.bytes q.data, 0)
  else if MT.isAmo q.ty then
    (writeLE M q.addr 4 (amoFun q.ty (BitVec.ofNat 32 (readLE M q.addr 4)) (BitVec.ofNat 32 q.data)).toNat,
      readLE M q.addr 4)
  else (M, 0)

variable {ι : Type} [DecidableEq ι]

/-- Requests accepted by cache `k`, in order. Specification; not in the source. -/
def accepted (k : ι) (tr : List (Ev ι)) : List Req :=
  tr.filterMap fun
    | .acc k' q => if k' = k then some q else none
    | _ => none

/-- Responses delivered by cache `k`, in order. Specification; not in the source. -/
def responses (k : ι) (tr : List (Ev ι)) : List Resp :=
  tr.filterMap fun
    | .resp k' r => if k' = k then some r else none
    | _ => none

/-- The latest contents of memory: all accepted requests performed on one flat memory, in
the order of acceptance. Specification; not in the source. -/
def latest (M : ByteMem) : List (Ev ι) → ByteMem
  | [] => M
  | .acc _ q :: tr => latest (flat M q).1 tr
  | .resp _ _ :: tr => latest M tr

/-- In the history `a ++ b`, cache `k` accepted during `b` a request that releases `W`, and
answered it.  (Responses are in order: request number `n` of `k` is answered when `k` has
delivered more than `n` responses.). Specification; not in the source. -/
def Released (k : ι) (W : Nat) (a b : List (Ev ι)) : Prop :=
  ∃ c f d, b = c ++ .acc k f :: d ∧ f.releases W ∧ (accepted k (a ++ c)).length < (responses k (a ++ b)).length

/-- Every store to `W` of a cache other than `k` has been released. Specification; not in the source. -/
def OthersReleased (k : ι) (W : Nat) (tr : List (Ev ι)) : Prop :=
  ∀ k', k' ≠ k → ∀ a q b, tr = a ++ .acc k' q :: b → q.stores W → Released k' W a (.acc k' q :: b)

/-- Cache `k` is up to date on word `W`: every store of another cache to `W` was released,
and afterwards cache `k` accepted a request that acquires `W`. Specification; not in the source. -/
def UpToDate (k : ι) (W : Nat) (tr : List (Ev ι)) : Prop :=
  ∀ k', k' ≠ k → ∀ a q b, tr = a ++ .acc k' q :: b → q.stores W →
    ∃ c i d, b = c ++ .acc k i :: d ∧ i.acquires W ∧ Released k' W a (.acc k' q :: c)

/-- The discipline for stores to `W`: a WRITE is only given to a cache that is up to date on
`W`; an AMO only when the stores of the other caches have been released. -/
def Disciplined (W : Nat) (tr : List (Ev ι)) : Prop :=
  ∀ k a q b, tr = a ++ .acc k q :: b →
    (q.ty = MT.WRITE ∧ q.covers W → UpToDate k W a) ∧
    (MT.isAmo q.ty = true ∧ q.addr / 4 = W → OthersReleased k W a)

/-- No other cache stores to `W` between the acceptance of `q`, by `k` after `a`, and its
response. Specification; not in the source. -/
def NoRace (k : ι) (W : Nat) (a : List (Ev ι)) (q : Req) (b : List (Ev ι)) : Prop :=
  ∀ k', k' ≠ k → ∀ c q' d, b = c ++ .acc k' q' :: d → q'.stores W →
    (accepted k a).length < (responses k (a ++ .acc k q :: c)).length

/-- No cache but `k` stores to `W`. Specification; not in the source. -/
def OnlyWriter (k : ι) (W : Nat) (tr : List (Ev ι)) : Prop :=
  ∀ k', k' ≠ k → ∀ q ∈ accepted k' tr, ¬ q.stores W

/-- AMOs are word aligned. Specification; not in the source. -/
def AmosAligned (tr : List (Ev ι)) : Prop := ∀ k, ∀ q ∈ accepted k tr, MT.isAmo q.ty = true → 4 ∣ q.addr

end Verif.WM
