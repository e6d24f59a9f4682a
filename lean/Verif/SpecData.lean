import Verif.Sys

/-!
# Specification for C70: messages without their data
-/

namespace Verif
variable {p : Params} {ι : Type}

/-- A request without its data. Specification; not in the source. -/
def CReq.blank (q : CReq p) : CReq p := { q with data := 0 }

/-- A response without its data. Specification; not in the source. -/
def CResp.blank (r : CResp p) : CResp p := { r with data := 0 }

/-- A memory request without its data. Specification; not in the source. -/
def MReq.blank (m : MReq p) : MReq p := { m with data := 0 }

/-- A memory response without its data. Specification; not in the source. -/
def MResp.blank (r : MResp p) : MResp p := { r with data := 0 }

/-- The inputs of a cycle without data. Specification; not in the source. -/
def In.blank (i : In p) : In p := { i with req := i.req.blank, mresp := i.mresp.blank }

/-- The outputs of a cycle without data. Specification; not in the source. -/
def Out.blank (o : Out p) : Out p := { o with resp := o.resp.blank, mreq := o.mreq.blank }

/-- An event without data. Specification; not in the source. -/
def Ev.blank : Ev ι p → Ev ι p
  | .acc k q => .acc k q.blank
  | .mreq k m => .mreq k m.blank
  | .resp k r => .resp k r.blank
  | .exec k m r => .exec k m.blank r.blank

/-- The inputs of a cycle are the same, apart from data and from messages that do not count. Specification; not in the source. -/
structure In.Alike (i i' : In p) : Prop where
  reset : i.reset = i'.reset
  reqEn : i.reqEn = i'.reqEn
  respRdy : i.respRdy = i'.respRdy
  mreqRdy : i.mreqRdy = i'.mreqRdy
  mrespEn : i.mrespEn = i'.mrespEn
  req : i.reqEn = true → i.req.blank = i'.req.blank
  mresp : i.mrespEn = true → (i.mresp.ty = MT.WRITE ↔ i'.mresp.ty = MT.WRITE)

/-- The outputs of a cycle are the same, apart from data, from messages that do not count and from
the opaque field of write-backs. Specification; not in the source. -/
structure Out.Alike (o o' : Out p) : Prop where
  reqRdy : o.reqRdy = o'.reqRdy
  respEn : o.respEn = o'.respEn
  mreqEn : o.mreqEn = o'.mreqEn
  resp : o.respEn = true → o.resp.blank = o'.resp.blank
  mreq : o.mreqEn = true → o.mreq.blank = { o'.mreq.blank with opq := o.mreq.opq }
  opq : o.mreqEn = true → o.mreq.ty ≠ MT.WRITE → o.mreq.blank = o'.mreq.blank

/-- Two histories, cycle by cycle. Specification; not in the source. -/
def AlikeIns : List (In p) → List (In p) → Prop
  | [], [] => True
  | i :: l, i' :: l' => i.Alike i' ∧ AlikeIns l l'
  | _, _ => False

/-- Two sequences of outputs, cycle by cycle. Specification; not in the source. -/
def AlikeOuts : List (Out p) → List (Out p) → Prop
  | [], [] => True
  | o :: l, o' :: l' => o.Alike o' ∧ AlikeOuts l l'
  | _, _ => False

end Verif
