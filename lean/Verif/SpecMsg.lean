import Verif.RTL

/-!
# Specification for C69: which inputs and outputs mean something

A message counts only in a cycle in which its `en` is high; of a memory response only
whether it is a write acknowledgement counts, and the data if it is not.
-/

namespace Verif
variable {p : Params}

/-- Two memory responses that mean the same: both are write acknowledgements, or neither is
and the data is the same.  The opaque field and the rest of the type do not matter. Specification; not in the source. -/
def MResp.Same (r r' : MResp p) : Prop :=
  (r.ty = MT.WRITE ↔ r'.ty = MT.WRITE) ∧ (r.ty ≠ MT.WRITE → r.data = r'.data)

/-- The inputs of a cycle mean the same: the same control signals, and the same messages
where `en` is high. Specification; not in the source. -/
structure In.Same (i i' : In p) : Prop where
  reset : i.reset = i'.reset
  reqEn : i.reqEn = i'.reqEn
  respRdy : i.respRdy = i'.respRdy
  mreqRdy : i.mreqRdy = i'.mreqRdy
  mrespEn : i.mrespEn = i'.mrespEn
  req : i.reqEn = true → i.req = i'.req
  mresp : i.mrespEn = true → i.mresp.Same i'.mresp

/-- The outputs of a cycle mean the same: the same control signals, and the same messages where
`en` is high; the opaque field of write-backs does not matter. Specification; not in the source. -/
structure Out.Same (o o' : Out p) : Prop where
  reqRdy : o.reqRdy = o'.reqRdy
  respEn : o.respEn = o'.respEn
  mreqEn : o.mreqEn = o'.mreqEn
  resp : o.respEn = true → o.resp = o'.resp
  mreq : o.mreqEn = true → o.mreq = { o'.mreq with opq := o.mreq.opq }
  opq : o.mreqEn = true → o.mreq.ty ≠ MT.WRITE → o.mreq = o'.mreq

/-- Two histories, cycle by cycle. Specification; not in the source. -/
def SameIns : List (In p) → List (In p) → Prop
  | [], [] => True
  | i :: l, i' :: l' => i.Same i' ∧ SameIns l l'
  | _, _ => False

/-- Two sequences of outputs, cycle by cycle. Specification; not in the source. -/
def SameOuts : List (Out p) → List (Out p) → Prop
  | [], [] => True
  | o :: l, o' :: l' => o.Same o' ∧ SameOuts l l'
  | _, _ => False

/-- The processor obeys `rdy` and sends no WRITE_INIT: what it does (`i`) given the outputs (`o`),
in the cycles without reset. Specification; not in the source. -/
def Obeys : List (In p) → List (Out p) → Prop
  | i :: l, o :: l' =>
    (i.reset = false → i.reqEn = true → o.reqRdy = true ∧ i.req.ty ≠ MT.INIT) ∧ Obeys l l'
  | _, _ => True

end Verif
