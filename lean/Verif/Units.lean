import Verif.Basic

/-!
# Leaf hardware units

Bit-exact models of the units under blocking_cache/units/ and sram/.
-/

namespace Verif
variable {p : Params}

/-! ## SRAM -/

/-- Bitwise masked merge: the effect of the bit-level write mask `WBM1`,
sram/SramGenericPRTL.py:50-52: bit `i` becomes `I1[i]` if `WBM1[i]`. -/
def merge {n : Nat} (mask old new : BitVec n) : BitVec n :=
  (new &&& mask) ||| (old &&& ~~~mask)

/-- State of one SRAM: memory array and output register,
sram/SramGenericPRTL.py:33-39. -/
structure Sram (ι : Type) (n : Nat) where
  ram : ι → BitVec n
  dout : BitVec n

/-- One clock edge of `SramPRTL`/`SramGenericPRTL`,
sram/SramPRTL.py:43-59, sram/SramGenericPRTL.py:41-62.
`val` = port enable, `wr` = transaction type (1 = write). -/
def Sram.step {ι : Type} [DecidableEq ι] {n : Nat} (s : Sram ι n)
    (val wr : Bool) (idx : ι) (wdata wben : BitVec n) : Sram ι n where
  ram := fun j =>
    if val && wr && (j = idx : Bool) then merge wben (s.ram j) wdata else s.ram j
  dout := if val && !wr then s.ram idx else s.dout

/-! ## Stall engine -/

/-- Output of `StallEngine`: transparent when enabled, else the saved value,
units/StallEngine.py:37-41. -/
def stallOut {α : Type} (en : Bool) (inp saved : α) : α := if en then inp else saved

/-- Register of `StallEngine`, units/StallEngine.py:33-35. -/
def stallNext {α : Type} (en : Bool) (inp saved : α) : α := if en then inp else saved

/-! ## Data replicator -/

/-- `s.replications[i]` with sub-word width `w`: the low `w` bits of the data
repeated over the line, units/arithmetics.py:36-39. -/
def replicate (p : Params) (w : Nat) (d : Data p) : Line p :=
  mkBits p.lineBits fun j => d.getLsbD (j % w)

/-- `s.double_word`, units/arithmetics.py:43-48: for 32-bit data the data zero
extended to 64 bits and repeated, else zero. -/
def doubleWord (p : Params) (d : Data p) : Line p :=
  if p.lenBits = 2 then
    mkBits p.lineBits fun j => decide (j % 64 < 32) && d.getLsbD (j % 64)
  else 0

/-- `DataReplicator`, units/arithmetics.py:18-85.
* AMO: zero extension (mux input 0, lines 57-61),
* `len == 0`: full data width (lines 75-77),
* `len == 3`: double word (lines 78-79),
* `len == 2**i`: `8 * 2**i` bits (lines 82-84),
* any other len keeps the default, full data width (line 74). -/
def replicator (p : Params) (amo : Bool) (len : Len p) (d : Data p) : Line p :=
  if amo then d.setWidth _
  else if len.toNat = 0 then replicate p p.dataBits d
  else if len.toNat = 3 then doubleWord p d
  else match (List.range p.lenBits).find? (fun i => len.toNat = 2 ^ i) with
    | some i => replicate p (8 * 2 ^ i) d
    | none => replicate p p.dataBits d

/-! ## Indexer -/

/-- `Indexer`, units/arithmetics.py:99-111:
`zext(index) + zext(offset) * trunc(nblocks_per_way)` in `bitwidth_num_lines`
bits; `nblocks_per_way = 2 ** idxBits`. -/
def indexer (p : Params) (idx : Idx p) (way : Way) : BitVec p.cntBits :=
  idx.setWidth _ + (BitVec.ofBool way).setWidth _ * BitVec.ofNat _ (2 ^ p.idxBits)

/-! ## Offset/len selector -/

/-- `OffsetLenSelector`, units/arithmetics.py:129-154; returns
(offset_o, len_o). -/
def offLenSel (p : Params) (isAmo : Bool) (len : Len p) (off : Off p) :
    Off p × BitVec p.offBits :=
  if isAmo then
    (off, if p.lenBits = 2 then BitVec.ofNat _ 4 else len.setWidth _)
  else (0, 0)

/-! ## Write bit enable generator -/

/-- `WriteBitEnGen` commands, cache_constants.py:47-49. -/
inductive WbenCmd | none | req | dirty
deriving DecidableEq, Repr

/-- Number of bytes selected by `s.word_mask`, units/arithmetics.py:177-198;
the constants 4, 8 and 16 are truncated to `bitwidth_len` bits before the
comparison, so each denotes 0 for the matching data width. -/
def wordMaskBytes (p : Params) (len : Len p) : Nat :=
  if len.toNat = 1 then 1
  else if len.toNat = 2 then 2
  else if len.toNat = 3 then 8
  else if len.toNat = 4 % 2 ^ p.lenBits then 4
  else if len.toNat = 8 % 2 ^ p.lenBits then 8
  else if len.toNat = 16 % 2 ^ p.lenBits then 16
  else 0

/-- `s.word_mask << offset`, units/arithmetics.py:200-201, as a byte mask. -/
def byteMask (p : Params) (len : Len p) (off : Off p) : BitVec (4 * p.nWords) :=
  mkBits _ (fun i => decide (i < wordMaskBytes p len)) <<< off.toNat

/-- `s.wben_req`, units/arithmetics.py:208-215. -/
def wbenReq (p : Params) (len : Len p) (off : Off p) : Line p :=
  mkBits _ fun i => (byteMask p len off).getLsbD (i / 8)

/-- Expansion of a word mask to a bit mask (units/arithmetics.py:208-216). -/
def expand (p : Params) (d : Dty p) : Line p :=
  mkBits _ fun i => d.getLsbD (i / 32)

/-- `WriteBitEnGen`, units/arithmetics.py:156-227; `wben_dirty` is the
complement of the expanded dirty mask (line 216). -/
def writeBitEn (p : Params) (cmd : WbenCmd) (dty : Dty p) (off : Off p) (len : Len p) : Line p :=
  match cmd with
  | .req => wbenReq p len off
  | .dirty => ~~~ expand p dty
  | .none => 0

/-! ## Tag array processing unit -/

/-- Word number addressed by an offset: `offset[2 : bitwidth_offset]`,
units/arithmetics.py:263-265. -/
def wordOf (p : Params) (off : Off p) : BitVec p.nwBits := (off >>> 2).setWidth _

/-- `word_dirty_logic` for one way, units/arithmetics.py:254-265. -/
def wordDirty (p : Params) (e : Entry p) (off : Off p) (len : Len p) : Bool :=
  if len.toNat = 3 then
    e.dty.getLsbD (wordOf p off).toNat && e.dty.getLsbD (wordOf p off + 1).toNat
  else e.dty.getLsbD (wordOf p off).toNat

/-- `line_dirty_logic` for one way, units/arithmetics.py:267-274. -/
def lineDirty (en : Bool) (e : Entry p) : Bool := en && (e.dty != 0)

/-- Outputs of `comparing_logic` (units/arithmetics.py:243-249). -/
structure Cmp where
  hit : Bool
  inval : Bool
  way : Way
deriving DecidableEq, Repr

/-- Loop body of `comparing_logic`, units/arithmetics.py:282-293. -/
def cmpStep (en : Bool) (tag : Tag p) (ents : Way → Entry p) (c : Cmp) (i : Way) : Cmp :=
  let e := ents i
  let c := if e.val && (e.tag == tag) then { c with hit := true, way := i } else c
  if lineDirty en e && !e.val && (e.tag == tag) then { c with inval := true, way := i } else c

/-- `comparing_logic`, units/arithmetics.py:276-293. -/
def comparing (p : Params) (en isInit : Bool) (tag : Tag p) (ents : Way → Entry p) : Cmp :=
  if !isInit && en then p.ways.foldl (cmpStep en tag ents) ⟨false, false, false⟩
  else ⟨false, false, false⟩

/-- `tag_entry_output_logic`, units/arithmetics.py:295-303. -/
def tagEntryOut (en : Bool) (e : Entry p) : Entry p := if en then e else Entry.zero p

/-! ## Update tag array unit -/

/-- Commands, cache_constants.py:35-41. -/
inductive TagCmd | none | clear | wrHit | wrRefill | rdRefill | inv | flush
deriving DecidableEq, Repr

/-- Set bit `i` of a word mask (units/UpdateTagArrayUnit.py:39-44, 52-57). -/
def setBit (d : Dty p) (i : Nat) : Dty p := d ||| BitVec.twoPow _ i

/-- The dirty bits a write sets: the addressed word and, for `len == 3`, the
next word (index wraps), units/UpdateTagArrayUnit.py:39-44, 52-57. -/
def markDirty (p : Params) (d : Dty p) (off : Off p) (len : Len p) : Dty p :=
  let d1 := setBit d (wordOf p off).toNat
  if len.toNat = 3 then setBit d1 (wordOf p off + 1).toNat else d1

/-- `UpdateTagArrayUnit`, units/UpdateTagArrayUnit.py:28-66.  There is no case
for the FLUSH command (it keeps the old entry). -/
def updateTag (p : Params) (cmd : TagCmd) (old : Entry p) (off : Off p) (len : Len p)
    (refillDty : Dty p) : Entry p :=
  match cmd with
  | .wrRefill => ⟨true, markDirty p refillDty off len, old.tag⟩
  | .rdRefill => ⟨true, refillDty, old.tag⟩
  | .wrHit => ⟨old.val, markDirty p old.dty off len, old.tag⟩
  | .clear => ⟨false, 0, 0⟩
  | .inv => ⟨false, old.dty, old.tag⟩
  | .flush => old
  | .none => old

/-! ## Replacement -/

/-- `ReplacementPolicy.pointer_logic`, units/ReplacementPolicy.py:35-49. -/
def replPolicy (p : Params) (en isHit : Bool) (hitPtr ptr : Way) : Way :=
  if p.twoWay then
    if en then (if !isHit then !ptr else !hitPtr) else ptr
  else false

/-- `ReplacementBitsReg`, units/registers.py:27-40: one bit per set; only the
bit of `waddr` changes and only if `wen`. -/
def replBitsNext {p : Params} (r : Idx p → Bool) (wen : Bool) (waddr : Idx p) (wdata : Bool) :
    Idx p → Bool :=
  fun i => if wen && (i = waddr : Bool) then wdata else r i

/-! ## Data select mux -/

/-- `FastSubInputMux` of width `8 * 2^i`: chunk number
`sel[clog2(w)-3 : bitwidth_offset]`, zero extended, units/muxes.py:115-129. -/
def chunk (p : Params) (i : Nat) (inp : Line p) (off : Off p) : Data p :=
  (inp.extractLsb' ((off.toNat / 2 ^ i) * (8 * 2 ^ i)) (8 * 2 ^ i)).setWidth _

/-- `FastDataSelectMux`, units/muxes.py:148-196.  Mux input `i+2` is the
`8 * 2^i`-bit chunk; when line and data have the same width the last input is
the line itself, which is the same as chunk 0 (muxes.py:159-161, 178-179).
Lens that are neither 0 nor a power of two below the data size select input 0. -/
def dataSelect (p : Params) (en amo : Bool) (len : Len p) (off : Off p) (inp : Line p) : Data p :=
  if amo then (inp.setWidth 32).setWidth _
  else if !en then 0
  else if len.toNat = 0 then
    if p.offBits = p.lenBits then inp.setWidth _ else chunk p p.lenBits inp off
  else match (List.range p.lenBits).find? (fun i => len.toNat = 2 ^ i) with
    | some i => chunk p i inp off
    | none => 0

/-! ## Counters -/

/-- `CounterEnRst`, units/counters.py:24-32 (without reset, which is handled
with the other registers). -/
def counterNext {n : Nat} (en down : Bool) (c : BitVec n) : BitVec n :=
  if en then (if down then c - 1 else c + 1) else c

/-- `CounterUpDown.counter_logic`, units/counters.py:51-61. -/
def upDownNext {n : Nat} (ld up dw : Bool) (ldAmt upAmt dwAmt c : BitVec n) : BitVec n :=
  if ld then ldAmt
  else if up && !dw then c + upAmt
  else if !up && dw then c - dwAmt
  else c

/-! ## MSHR -/

/-- `MSHR.entry_logic` with one entry: the count is one bit wide
(`clog2(entries+1)`) and wraps, units/MSHR.py:35-47. -/
def mshrNumNext (alloc dealloc : Bool) (n : BitVec 1) : BitVec 1 :=
  if alloc then n + 1 else if dealloc then n - 1 else n

/-- `s.full`, units/MSHR.py:53. -/
def mshrFull (n : BitVec 1) (alloc : Bool) : Bool := (n == 1) || ((n == 0) && alloc)

/-- `s.empty`, units/MSHR.py:54. -/
def mshrEmpty (n : BitVec 1) : Bool := n == 0

end Verif
