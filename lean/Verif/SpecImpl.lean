import Verif.Spec

/-!
# Specification: what the cache does with requests of any length and alignment

A flat byte memory again, but with the meaning the hardware gives to requests
outside `CReq.Valid`.  For valid requests it is `flatStep`
(`implStep_valid`).
-/

namespace Verif
variable {p : Params}

/-- The number of bytes is a power of two (data widths of up to 16 bytes). Specification; not in the source. -/
def CReq.Sized (q : CReq p) : Prop :=
  q.bytes = 1 ∨ q.bytes = 2 ∨ q.bytes = 4 ∨ q.bytes = 8 ∨ q.bytes = 16

instance (q : CReq p) : Decidable q.Sized := by unfold CReq.Sized; infer_instance

/-- Number of bytes a write stores from its address on: eight for length 3, none
for the other lengths that are not powers of two. Specification; not in the source. -/
def CReq.stored (q : CReq p) : Nat :=
  if q.len.toNat = 3 then 8 else if q.Sized then q.bytes else 0

/-- First address after the line of the request. -/
def CReq.lineEnd (q : CReq p) : Nat := (q.addr.flat / 2 ^ p.offBits + 1) * 2 ^ p.offBits

/-- The byte a write stores at address `x`.  The write data is repeated over the
line at its natural alignment, so that byte number `x mod size` of the data goes
to address `x` whatever the address of the request: an unaligned write stores
its bytes rotated.  The double-word write (length 3) has the data zero extended
for 32-bit data and all zero for wider data. -/
def CReq.storedByte (q : CReq p) (x : Nat) : BitVec 8 :=
  if q.len.toNat = 3 then
    if p.lenBits = 2 then BitVec.ofNat 8 (q.data.toNat / 256 ^ (x % 8)) else 0
  else BitVec.ofNat 8 (q.data.toNat / 256 ^ (x % q.bytes))

/-- A request executed on the flat memory the way the hardware does: reads are
aligned downwards, reads of other sizes return zero, writes stop at the end of
the line. -/
def implStep (M : ByteMem) (q : CReq p) : ByteMem × Data p :=
  if q.ty = MT.READ then
    (M, if q.Sized then BitVec.ofNat _ (readLE M (q.addr.flat / q.bytes * q.bytes) q.bytes) else 0)
  else if q.ty = MT.WRITE then
    (fun x => if q.addr.flat ≤ x ∧ x < q.addr.flat + q.stored ∧ x < q.lineEnd then q.storedByte x else M x, 0)
  else if MT.isAmo q.ty then
    let old := BitVec.ofNat 32 (readLE M q.addr.flat 4)
    (writeLE M q.addr.flat 4 (amoFun q.ty old (q.data.setWidth 32)).toNat, old.setWidth _)
  else (M, 0)

/-- The requests executed one after the other. Specification; not in the source. -/
def implRun (M : ByteMem) : List (CReq p) → ByteMem × List (Data p)
  | [] => (M, [])
  | q :: qs => ((implRun (implStep M q).1 qs).1, (implStep M q).2 :: (implRun (implStep M q).1 qs).2)

/-- Requests with a flat-memory meaning: every read, every write that stores
bytes only in its own word (or, for length 3, in its own and the next word),
every atomic operation inside a line, INV and FLUSH. -/
inductive CReq.Contained (q : CReq p) : Prop
  | read (ty : q.ty = MT.READ)
  | write (ty : q.ty = MT.WRITE)
      (word : ∀ x, q.addr.flat ≤ x → x < q.addr.flat + q.stored → x < q.lineEnd →
        x / 4 = q.addr.flat / 4 ∨ q.len.toNat = 3 ∧ x / 4 = q.addr.flat / 4 + 1)
  | amo (ty : 3 ≤ q.ty.toNat ∧ q.ty.toNat ≤ 11) (len : p.lenBits = 2 ∨ q.len.toNat = 4)
      (inside : q.addr.flat + 4 ≤ q.lineEnd)
  | inv (ty : q.ty = MT.INV)
  | flush (ty : q.ty = MT.FLUSH)

end Verif
