import Verif.Basic

/-!
# Specification: a flat byte memory

Small and independent of the cache model: it only uses the message types.  A
user reads this file to see what the correctness theorems mean.
-/

namespace Verif
variable {p : Params}

/-- A byte-addressed memory. Specification; not in the source. -/
abbrev ByteMem := Nat → BitVec 8

/-- Little-endian value of the `n` bytes from address `a`. Specification; not in the source. -/
def readLE (M : ByteMem) (a : Nat) : Nat → Nat
  | 0 => 0
  | n + 1 => (M a).toNat + 256 * readLE M (a + 1) n

/-- Store the low `n` bytes of `v`, little endian, from address `a`. Specification; not in the source. -/
def writeLE (M : ByteMem) (a n v : Nat) : ByteMem :=
  fun x => if a ≤ x ∧ x < a + n then BitVec.ofNat 8 (v / 256 ^ (x - a)) else M x

/-- The nine atomic operations on memory value `m` and operand `a`; the other
two type codes of the AMO range (LR, SC) have no entry in the table of the
repository and are given no effect here. Specification; not in the source. -/
def amoFun (t : MType) (m a : BitVec 32) : BitVec 32 :=
  match t.toNat with
  | 3 => m + a
  | 4 => m &&& a
  | 5 => m ||| a
  | 6 => a
  | 7 => if m.toInt < a.toInt then m else a
  | 8 => if m.toNat < a.toNat then m else a
  | 9 => if m.toInt > a.toInt then m else a
  | 10 => if m.toNat > a.toNat then m else a
  | 11 => m ^^^ a
  | _ => m

/-- Flat byte address: tag, index and offset concatenated, tag most significant
(`mk_addr_struct`, cacheStructs.py:178-186; PyMTL3 packs the first field of a
bitstruct into the most significant bits). -/
def Addr.flat (a : Addr p) : Nat :=
  (a.tag.toNat * 2 ^ p.idxBits + a.idx.toNat) * 2 ^ p.offBits + a.off.toNat

/-- Number of bytes a request addresses: length 0 stands for the full data
width. Specification; not in the source. -/
def CReq.bytes (q : CReq p) : Nat := if q.len.toNat = 0 then 2 ^ p.lenBits else q.len.toNat

/-- A request executed on the flat memory: new memory and returned data. Specification; not in the source. -/
def flatStep (M : ByteMem) (q : CReq p) : ByteMem × Data p :=
  if q.ty = MT.READ then (M, BitVec.ofNat _ (readLE M q.addr.flat q.bytes))
  else if q.ty = MT.WRITE then
    -- length 3 is the double-word write: 8 bytes, the data zero extended
    (writeLE M q.addr.flat (if q.len.toNat = 3 then 8 else q.bytes) q.data.toNat, 0)
  else if MT.isAmo q.ty then
    let old := BitVec.ofNat 32 (readLE M q.addr.flat 4)
    (writeLE M q.addr.flat 4 (amoFun q.ty old (q.data.setWidth 32)).toNat, old.setWidth _)
  else (M, 0)

/-- The requests executed one after the other. Specification; not in the source. -/
def flatRun (M : ByteMem) : List (CReq p) → ByteMem × List (Data p)
  | [] => (M, [])
  | q :: qs => ((flatRun (flatStep M q).1 qs).1, (flatStep M q).2 :: (flatRun (flatStep M q).1 qs).2)

/-- Requests covered by the functional correctness theorems: naturally aligned;
reads of any power-of-two length, writes of at most one word or (32-bit data)
the aligned double-word write, word AMOs, INV, FLUSH. Specification; not in the source. -/
inductive CReq.Valid (q : CReq p) : Prop
  | read (ty : q.ty = MT.READ) (k : Nat) (hk : q.bytes = 2 ^ k) (al : 2 ^ k ∣ q.addr.flat)
  | write (ty : q.ty = MT.WRITE) (k : Nat) (hk : q.bytes = 2 ^ k) (hk2 : k ≤ 2)
      (al : 2 ^ k ∣ q.addr.flat)
  | dword (ty : q.ty = MT.WRITE) (len : q.len.toNat = 3) (hp : p.lenBits = 2) (al : 8 ∣ q.addr.flat)
  | amo (ty : 3 ≤ q.ty.toNat ∧ q.ty.toNat ≤ 11) (len : p.lenBits = 2 ∨ q.len.toNat = 4)
      (al : 4 ∣ q.addr.flat)
  | inv (ty : q.ty = MT.INV)
  | flush (ty : q.ty = MT.FLUSH)

end Verif
