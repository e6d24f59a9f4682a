import Verif.RTL
import Verif.Derived

/-!
# Leaf units at the level of wires and bits

Literal transcriptions of the update blocks of the leaf units: multiplexers
with a computed select, loops over bits, bit masks, packed SRAM words and
active-low SRAM pins.  `Units.lean` describes the same units as functions; the
theorems of `NetUnitsEq.lean` show that they agree.

A wire of one bit is a `Bool`; way numbers are one bit wide for both supported
associativities (`bitwidth_clog_asso`, CacheDerivedParams.py:60-63).
-/

namespace Verif.Net
variable {p : Params}

/-- `associativity`, CacheDerivedParams.py:24-36. -/
def assoc (p : Params) : Nat := if p.twoWay then 2 else 1

/-- `bitwidth_tag_array` (= `bitwidth_tag_wben`), CacheDerivedParams.py:70-71. -/
abbrev tagArrayBits (p : Params) : Nat := 1 + p.nWords + p.tagBits

/-! ## Bitstructs: the first field is the most significant one -/

/-- `StructTagArray` to bits, cacheStructs.py:188-194; used by
`tag_array_struct_M0_bits_to_bitstruct`, BlockingCacheDpathRTL.py:140-143. -/
def packEntry (e : Entry p) : BitVec (tagArrayBits p) := (BitVec.ofBool e.val ++ e.dty) ++ e.tag

/-- Bits to `StructTagArray`; used by the input of the tag stall engines,
BlockingCacheDpathRTL.py:194. -/
def unpackEntry (x : BitVec (tagArrayBits p)) : Entry p :=
  ⟨x.getLsbD (p.tagBits + p.nWords), x.extractLsb' p.tagBits p.nWords, x.extractLsb' 0 p.tagBits⟩

/-- `StructAddr` to bits, cacheStructs.py:178-186; used by
BlockingCacheDpathRTL.py:171 (forward), 200 (MSHR), 357-360 (memory request). -/
def packAddr (a : Addr p) : BitVec p.addrBits := a.tag ++ (a.idx ++ a.off)

/-- Bits to `StructAddr`; used by `cachereq_M0_addr_bits_to_bitstruct`,
BlockingCacheDpathRTL.py:86. -/
def unpackAddr (x : BitVec p.addrBits) : Addr p :=
  ⟨x.extractLsb' (p.idxBits + p.offBits) p.tagBits, x.extractLsb' p.offBits p.idxBits,
    x.extractLsb' 0 p.offBits⟩

/-! ## Messages with flat addresses -/

/-- `CacheReqType`, mem_ifcs/MemMsg.py:125-131. -/
structure WReq (p : Params) where
  ty : MType
  opq : Opq p
  addr : BitVec p.addrBits
  len : Len p
  data : Data p
deriving DecidableEq, Repr

/-- `MemReqType`, mem_ifcs/MemMsg.py:112-119. -/
structure WMReq (p : Params) where
  ty : MType
  opq : Opq p
  addr : BitVec p.addrBits
  len : BitVec p.offBits
  wmask : Dty p
  data : Line p
deriving DecidableEq, Repr

/-- `MemRespType`, mem_ifcs/MemMsg.py:173-180, with all its fields. -/
structure WMResp (p : Params) where
  ty : MType
  opq : Opq p
  test : BitVec 2
  len : BitVec p.offBits
  wmask : Dty p
  data : Line p
deriving DecidableEq, Repr

/-- `MSHRMsg`, cacheStructs.py:150-176, with the flat address. -/
structure WMshr (p : Params) where
  ty : MType
  opq : Opq p
  addr : BitVec p.addrBits
  len : Len p
  data : Data p
  repl : Way
  amoHit : Bool
  dirty : Dty p
deriving DecidableEq, Repr

/-! ## SRAM -/

/-- State of `SramGenericPRTL`, sram/SramGenericPRTL.py:33-39: memory array and
output register. -/
structure SramG (ι : Type) (n : Nat) where
  ram : ι → BitVec n
  dout : BitVec n

/-- `read_logic`, `write_logic` and `update_sram`,
sram/SramGenericPRTL.py:41-52, 58-62, with the active-low pins `CSB1` and
`WEB1`; the write loop visits each bit. -/
def SramG.tick {ι : Type} [DecidableEq ι] {n : Nat} (s : SramG ι n) (CSB1 WEB1 : Bool) (A1 : ι)
    (I1 WBM1 : BitVec n) : SramG ι n where
  ram := fun j => mkBits n fun i =>
    if (j = A1 : Bool) && (!CSB1 && !WEB1 && WBM1.getLsbD i) then I1.getLsbD i else (s.ram j).getLsbD i
  dout := if !CSB1 && WEB1 then s.ram A1 else s.dout

/-- `comb_logic`, sram/SramGenericPRTL.py:54-56. -/
def SramG.O1 {ι : Type} {n : Nat} (s : SramG ι n) (OEB1 : Bool) : BitVec n :=
  if !OEB1 then s.dout else 0

/-- Clock edge of `SramPRTL`: inverters in front of the pins,
sram/SramPRTL.py:46-60. -/
def SramG.edge {ι : Type} [DecidableEq ι] {n : Nat} (s : SramG ι n) (port0_val port0_type : Bool)
    (port0_idx : ι) (port0_wdata port0_wben : BitVec n) : SramG ι n :=
  s.tick (!port0_val) (!port0_type) port0_idx port0_wdata port0_wben

/-- `port0_rdata`, sram/SramPRTL.py:55, 60: output enable tied low (active). -/
def SramG.rdata {ι : Type} {n : Nat} (s : SramG ι n) : BitVec n := s.O1 false

/-! ## Data replicator -/

/-- `nreplicators = clog2(bitwidth_data) - 2`, units/arithmetics.py:33. -/
def nreplicators (p : Params) : Nat := clog2 p.dataBits - 2

/-- Inputs of the output multiplexer, units/arithmetics.py:34-65: input 0 the
zero-extended data, inputs `1 ..` the replications of `2**(3+i)` bits, the last
one the double word. -/
def replIn (p : Params) (d : Data p) (k : Nat) : Line p :=
  let ninputs := nreplicators p + 2
  if k = ninputs - 1 then
    if p.dataBits = 32 ∧ 64 ≤ p.lineBits then mkBits _ fun j => (d.setWidth 64).getLsbD (j % 64) else 0
  else if k = 0 then mkBits _ fun j => if j < p.dataBits then d.getLsbD j else false
  else mkBits _ fun j => (d.extractLsb' 0 (2 ^ (3 + (k - 1)))).getLsbD (j % 2 ^ (3 + (k - 1)))

/-- `output_mux_selection_logic`, units/arithmetics.py:70-84. -/
def replSel (p : Params) (amo : Bool) (len : Len p) : BitVec (clog2 (nreplicators p + 2)) := Id.run do
  let ninputs := nreplicators p + 2
  let mut sel : BitVec (clog2 (nreplicators p + 2)) := 0
  if !amo then
    sel := BitVec.ofNat _ (ninputs - 2)
    if len = BitVec.ofNat _ 0 then
      sel := BitVec.ofNat _ (ninputs - 2)
    else if len = BitVec.ofNat _ 3 then
      sel := BitVec.ofNat _ (ninputs - 1)
    else
      sel := (List.range (ninputs - 3)).foldl
        (fun sel i => if len = BitVec.ofNat _ (2 ^ i) then BitVec.ofNat _ i + 1 else sel) sel
  return sel

/-- `DataReplicator`, units/arithmetics.py:18-85. -/
def replicatorW (p : Params) (amo : Bool) (len : Len p) (d : Data p) : Line p :=
  replIn p d (replSel p amo len).toNat

/-! ## Write bit enable generator -/

/-- `req_word_mask_logic`, units/arithmetics.py:177-198.  `trunc(Bits32(c), n)`
is the constant modulo `2**n`. -/
def wordMaskW (p : Params) (len : Len p) : BitVec (p.lineBits / 8) :=
  if len.toNat = 1 then BitVec.ofNat _ 0b1
  else if len.toNat = 2 then BitVec.ofNat _ 0b11
  else if len.toNat = 3 then BitVec.ofNat _ 0b11111111
  else if len = (4#32).setWidth _ then BitVec.ofNat _ 0b1111
  else if len = (8#32).setWidth _ then BitVec.ofNat _ 0b11111111
  else if len = (16#32).setWidth _ then BitVec.ofNat _ 0xffff
  else 0

/-- `shifted`, units/arithmetics.py:200-201. -/
def shiftedW (p : Params) (len : Len p) (off : Off p) : BitVec (p.lineBits / 8) :=
  wordMaskW p len <<< off.setWidth (p.lineBits / 8)

/-- `WriteBitEnGen`, units/arithmetics.py:156-227: commands 1 (request) and 2
(dirty), cache_constants.py:47-49.  The loop constants `i >> 3` and `i >> 5` are
truncated to the width of an index into the byte and word masks. -/
def wbenGenW (p : Params) (cmd : BitVec 2) (dtyMask : Dty p) (off : Off p) (len : Len p) : Line p :=
  let wben_req : Line p := mkBits _ fun i =>
    (shiftedW p len off).getLsbD (BitVec.ofNat (clog2 (p.lineBits / 8)) (i >>> 3)).toNat
  let wben_dirty : Line p := mkBits _ fun i =>
    !(dtyMask.getLsbD (BitVec.ofNat (clog2 p.nWords) (i >>> 5)).toNat)
  if cmd = 1 then wben_req
  else if cmd = 2 then wben_dirty
  else 0

/-! ## Tag array processing unit -/

/-- `word_dirty_logic`, units/arithmetics.py:254-265. -/
def wordDirtyW (p : Params) (tagArray : Way → Entry p) (off : Off p) (wrLen : Len p) : BitVec (assoc p) :=
  mkBits _ fun i =>
    let e := tagArray (i == 1)
    let word : BitVec p.nwBits := off.extractLsb' 2 p.nwBits
    if wrLen.toNat = 3 then e.dty.getLsbD word.toNat && e.dty.getLsbD (word + 1).toNat
    else e.dty.getLsbD word.toNat

/-- `line_dirty_logic`, units/arithmetics.py:267-274. -/
def lineDirtyW (p : Params) (tagArray : Way → Entry p) (en : Bool) : BitVec (assoc p) :=
  mkBits _ fun i =>
    (List.range p.nWords).foldl
      (fun d j => if (tagArray (i == 1)).dty.getLsbD j && en then true else d) false

/-- `comparing_logic`, units/arithmetics.py:276-293; the loop variable ranges
over the ways. -/
def comparingW (p : Params) (isInit en : Bool) (tagArray : Way → Entry p) (addrTag : Tag p)
    (lineDirty : BitVec (assoc p)) : Cmp := Id.run do
  let mut hit := false
  let mut inval_hit := false
  let mut hit_way := false
  if !isInit && en then
    for i in p.ways do
      if (tagArray i).val == true then
        if (tagArray i).tag == addrTag then
          hit := true
          hit_way := i
      if lineDirty.getLsbD i.toNat && ((tagArray i).val == false) then
        if (tagArray i).tag == addrTag then
          inval_hit := true
          hit_way := i
  return ⟨hit, inval_hit, hit_way⟩

/-! ## Update tag array unit -/

/-- `new_tag_array_entry_logic`, units/UpdateTagArrayUnit.py:28-66, with the
command codes of cache_constants.py:35-41. -/
def updateTagW (p : Params) (cmd : BitVec 3) (old : Entry p) (off : Off p) (wrLen : Len p)
    (refillDty : Dty p) : Entry p := Id.run do
  let word : BitVec p.nwBits := off.extractLsb' 2 p.nwBits
  let mut tag := old.tag
  let mut val := old.val
  let mut dty := old.dty
  if cmd = 3 then
    val := true
    dty := 0 ||| refillDty
    dty := setBit dty word.toNat
    if wrLen.toNat = 3 then
      dty := setBit dty (word + 1).toNat
  else if cmd = 4 then
    val := true
    dty := 0 ||| refillDty
  else if cmd = 2 then
    dty := setBit dty word.toNat
    if wrLen.toNat = 3 then
      dty := setBit dty (word + 1).toNat
  else if cmd = 1 then
    tag := 0
    val := false
    dty := 0
  else if cmd = 5 then
    val := false
  return ⟨val, dty, tag⟩

/-! ## Replacement bits -/

/-- `update_register_bits`, units/registers.py:30-38: input of the register. -/
def replRegIn (p : Params) (out : BitVec (2 ^ p.idxBits)) (waddr : Idx p) (wdata : Bool) :
    BitVec (2 ^ p.idxBits) :=
  mkBits _ fun i => if waddr.toNat = i then wdata else out.getLsbD i

/-! ## Data select mux -/

/-- `FastSubInputMux(2**k)`, units/muxes.py:110-129: multiplexer input
`sel[clog2(bw) - 3 : bitwidth_offset]`, zero extended. -/
def subMuxW (p : Params) (k : Nat) (inp : Line p) (off : Off p) : Data p :=
  let sel := off.extractLsb' (clog2 (2 ^ k) - 3) (p.offBits - (clog2 (2 ^ k) - 3))
  let out := inp.extractLsb' (sel.toNat * 2 ^ k) (2 ^ k)
  mkBits _ fun j => if j < 2 ^ k then out.getLsbD j else false

/-- `nmuxes`, units/muxes.py:156-161. -/
def nmuxes (p : Params) : Nat :=
  if p.dataBits < p.lineBits then clog2 p.dataBits - 2 else clog2 p.dataBits - 3

/-- Inputs of the output multiplexer, units/muxes.py:169-181. -/
def selIn (p : Params) (inp : Line p) (off : Off p) (k : Nat) : Data p :=
  if k = 0 then 0
  else if k = 1 then mkBits _ fun j => if j < 32 then inp.getLsbD j else false
  else if k - 2 < nmuxes p then subMuxW p (3 + (k - 2)) inp off
  else inp.extractLsb' 0 p.dataBits

/-- `output_mux_selection_logic`, units/muxes.py:184-196. -/
def selSel (p : Params) (en amo : Bool) (len : Len p) : BitVec (clog2 (clog2 p.dataBits)) := Id.run do
  let ninputs := clog2 p.dataBits
  let mut sel : BitVec (clog2 (clog2 p.dataBits)) := 0
  if amo then
    sel := BitVec.ofNat _ 1
  else if !en then
    sel := 0
  else
    if len.toNat = 0 then
      sel := BitVec.ofNat _ (ninputs - 1)
    else
      sel := (List.range (ninputs - 3)).foldl
        (fun sel i => if len.toNat = 2 ^ i then BitVec.ofNat _ i + 2 else sel) sel
  return sel

/-- `FastDataSelectMux`, units/muxes.py:131-196. -/
def dataSelectW (p : Params) (en amo : Bool) (len : Len p) (off : Off p) (inp : Line p) : Data p :=
  selIn p inp off (selSel p en amo len).toNat

end Verif.Net
