import Verif.SpecDisc

/-!
# Specification: where the bytes of racy programs come from

Property C79.  Stated on what the processors see (`WM.Ev`).
-/

namespace Verif.WM
variable {ι : Type} [DecidableEq ι]

/-- All requests accepted so far, by any cache. Specification; not in the source. -/
def requests (tr : List (Ev ι)) : List Req :=
  tr.filterMap fun
    | .acc _ q => some q
    | .resp _ _ => none

/-- The byte `b` may be found at address `x`, given the initial memory `M` and the requests
`Q`: it was there in the beginning, or a WRITE to `x` stores it there, or an atomic operation
on bytes that may be found in its word leaves it there. Specification; not in the source. -/
inductive Could (M : ByteMem) (Q : List Req) : Nat → BitVec 8 → Prop
  | init (x : Nat) : Could M Q x (M x)
  | write (q : Req) (x : Nat) (h : q ∈ Q) (hq : q.ty = MT.WRITE) (h1 : q.addr ≤ x) (h2 : x < q.addr + q.bytes) :
      Could M Q x (BitVec.ofNat 8 (q.data / 256 ^ (x - q.addr)))
  | amo (q : Req) (x : Nat) (h : q ∈ Q) (hq : MT.isAmo q.ty = true) (h1 : q.addr ≤ x) (h2 : x < q.addr + 4)
      (N : ByteMem) (hN : ∀ y, q.addr ≤ y → y < q.addr + 4 → Could M Q y (N y)) :
      Could M Q x (writeLE N q.addr 4
        (amoFun q.ty (BitVec.ofNat 32 (readLE N q.addr 4)) (BitVec.ofNat 32 q.data)).toNat x)

/-- What the response `r` to `q` says is possible: the bytes it returns may be found at the
addresses asked for; requests that ask for no data get zero. Specification; not in the source. -/
def Plausible (M : ByteMem) (Q : List Req) (q : Req) (r : Resp) : Prop :=
  if q.ty = MT.READ then ∀ x, q.addr ≤ x → x < q.addr + q.bytes →
    Could M Q x (BitVec.ofNat 8 (r.data / 256 ^ (x - q.addr)))
  else if MT.isAmo q.ty then ∀ x, q.addr ≤ x → x < q.addr + 4 →
    Could M Q x (BitVec.ofNat 8 (r.data / 256 ^ (x - q.addr)))
  else r.data = 0

end Verif.WM
