import Verif.Basic

/-!
# Specification vocabulary of the unit theorems

Small definitions that do not refer to the hardware model.
-/

namespace Verif

/-- Byte `i` (little endian) of a bit vector. Specification; not in the source. -/
def byteOf {n : Nat} (x : BitVec n) (i : Nat) : BitVec 8 := x.extractLsb' (8 * i) 8

/-- 32-bit word `i` of a bit vector. Specification; not in the source. -/
def word32 {n : Nat} (x : BitVec n) (i : Nat) : BitVec 32 := x.extractLsb' (32 * i) 32

/-- Number of bytes denoted by a length field: 0 stands for the data width. Specification; not in the source. -/
def lenBytes (p : Params) (len : Len p) : Nat :=
  if len.toNat = 0 then 2 ^ p.lenBits else len.toNat

/-- One operation on the port of an SRAM (`port0_*`, sram/SramPRTL.py:12-22). -/
structure SramOp (ι : Type) (n : Nat) where
  /-- port enable -/
  val : Bool
  /-- 0 = read, 1 = write -/
  wr : Bool
  idx : ι
  wdata : BitVec n
  wben : BitVec n

/-- The operation reads. Specification; not in the source. -/
def SramOp.reads {ι : Type} {n : Nat} (o : SramOp ι n) : Prop := o.val = true ∧ o.wr = false

/-- The operation writes bit `b` of row `r`. Specification; not in the source. -/
def SramOp.writes {ι : Type} {n : Nat} (o : SramOp ι n) (r : ι) (b : Nat) : Prop :=
  o.val = true ∧ o.wr = true ∧ o.idx = r ∧ o.wben.getLsbD b = true

/-- `v` is the value of bit `b` of row `r` after the operations `ops` on an array
with power-up contents `init`: the data bit of the last operation that writes
it, or the power-up value if there is none. Specification; not in the source. -/
def LastWritten {ι : Type} {n : Nat} (init : ι → BitVec n) (ops : List (SramOp ι n)) (r : ι)
    (b : Nat) (v : Bool) : Prop :=
  (∃ pre o post, ops = pre ++ o :: post ∧ o.writes r b ∧ (∀ o' ∈ post, ¬ o'.writes r b) ∧
    v = o.wdata.getLsbD b) ∨
  ((∀ o ∈ ops, ¬ o.writes r b) ∧ v = (init r).getLsbD b)

end Verif
