import Verif.SpecDisc

/-!
# Specification: coherence of one word

Property C78.  Programs that ignore the discipline of `SpecDisc.lean` still see one order
of the accesses to each word.  Stated on what the processors see (`WM.Ev`).
-/

namespace Verif.WM
variable {ι : Type} [DecidableEq ι]

/-- The request loads from or stores to word `W`. Specification; not in the source. -/
def Req.touches (q : Req) (W : Nat) : Prop := q.stores W ∨ q.reads W

instance (q : Req) (W : Nat) : Decidable (q.touches W) := inferInstanceAs (Decidable (_ ∨ _))

/-- Requests with their responses, restricted to the accesses to word `W`. Specification; not in the source. -/
def accessesOf (W : Nat) (qs : List Req) (rs : List Resp) : List (Req × Resp) :=
  (qs.zip rs).filter fun x => x.1.touches W

/-- The accesses to `W` cache `k` accepted and answered, in order, with their responses.
(Responses are in order.). Specification; not in the source. -/
def answered (k : ι) (W : Nat) (tr : List (Ev ι)) : List (Req × Resp) :=
  accessesOf W (accepted k tr) (responses k tr)

/-- The accesses to `W` cache `k` accepted, in order. Specification; not in the source. -/
def asked (k : ι) (W : Nat) (tr : List (Ev ι)) : List Req := (accepted k tr).filter fun q => q.touches W

/-- What the response `r` to `q` says about word `W` is right for the memory `M`: a READ
returns the bytes of the word it asks for, an atomic operation returns the word. Specification; not in the source. -/
def Sees (W : Nat) (M : ByteMem) (q : Req) (r : Resp) : Prop :=
  r.ty = q.ty ∧ r.opq = q.opq ∧ r.len = q.len ∧
  (q.ty = MT.READ → ∀ x, x / 4 = W → q.addr ≤ x → x < q.addr + q.bytes →
    r.data / 256 ^ (x - q.addr) % 256 = (M x).toNat) ∧
  (MT.isAmo q.ty = true → r.data = readLE M (4 * W) 4)

/-- The accesses `l`, performed one after the other on the memory `M`, give these
responses. Specification; not in the source. -/
def Legal (W : Nat) (M : ByteMem) : List (Req × Resp) → Prop
  | [] => True
  | x :: l => Sees W M x.1 x.2 ∧ Legal W (flat M x.1).1 l

/-- Memory after the accesses `l`. Specification; not in the source. -/
def runs (M : ByteMem) (l : List (Req × Resp)) : ByteMem := l.foldl (fun M x => (flat M x.1).1) M

/-- The accesses of cache `k` in a sequence of accesses of all caches. Specification; not in the source. -/
def ofK (k : ι) (s : List (ι × Req × Resp)) : List (Req × Resp) :=
  s.filterMap fun x => if x.1 = k then some x.2 else none

/-- Every WRITE to a byte of word `W` is a write of the whole word (and perhaps of others). Specification; not in the source. -/
def WholeWrites (W : Nat) (tr : List (Ev ι)) : Prop :=
  ∀ k, ∀ q ∈ accepted k tr, q.ty = MT.WRITE → q.covers W → q.addr ≤ 4 * W ∧ 4 * W + 4 ≤ q.addr + q.bytes

/-- The sequence `s` of accesses to word `W` explains the history `tr` that started with the
memory `M`: performed one after the other on `M` the accesses give the responses seen; and
for each cache `s` has all its answered accesses, in order, and nothing it was not asked. Specification; not in the source. -/
def Explains (W : Nat) (M : ByteMem) (tr : List (Ev ι)) (s : List (ι × Req × Resp)) : Prop :=
  Legal W M (s.map (·.2)) ∧ ∀ k, answered k W tr <+: ofK k s ∧ (ofK k s).map (·.1) <+: asked k W tr

/-! ## Crash consistency (C80) -/

/-- The stores (WRITEs and atomic operations) in a sequence of accesses to `W`. Specification; not in the source. -/
def storesOf (W : Nat) (s : List (ι × Req × Resp)) : List (ι × Req × Resp) := s.filter fun x => x.2.1.stores W

/-- The sequence `s` contains all accesses to `W` a cache made up to an answered request that
releases `W` (a FLUSH, or an atomic operation on `W`, which is contained itself). Specification; not in the source. -/
def Durable (W : Nat) (tr : List (Ev ι)) (s : List (ι × Req × Resp)) : Prop :=
  ∀ k n f, n < (responses k tr).length → (accepted k tr)[n]? = some f → f.releases W →
    accessesOf W ((accepted k tr).take (n + 1)) (responses k tr) <+: ofK k s

end Verif.WM
