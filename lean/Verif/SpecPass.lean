import Verif.SpecAir

/-!
# Specification: message passing through a polled flag

Property C81.  Stated on what the processors see (`WM.Ev`).
-/

namespace Verif.WM
variable {ι : Type} [DecidableEq ι]

/-- Memory after the requests `qs`, performed one after the other. Specification; not in the source. -/
def perform (M : ByteMem) (qs : List Req) : ByteMem := qs.foldl (fun M q => (flat M q).1) M

/-- Requests accepted by the caches other than `P`. Specification; not in the source. -/
def othersRequests (P : ι) (tr : List (Ev ι)) : List Req :=
  tr.filterMap fun
    | .acc k q => if k = P then none else some q
    | .resp _ _ => none

/-- The response `r` to the READ or atomic operation `q` shows the byte `β` at address `x`. Specification; not in the source. -/
def Shows (q : Req) (r : Resp) (x : Nat) (β : BitVec 8) : Prop :=
  ((q.ty = MT.READ ∧ x < q.addr + q.bytes) ∨ (MT.isAmo q.ty = true ∧ x < q.addr + 4)) ∧ q.addr ≤ x ∧
    β = BitVec.ofNat 8 (r.data / 256 ^ (x - q.addr))

end Verif.WM
