import Verif.NetUnits
import Verif.Sched

/-!
# The cache as a netlist

Control unit, datapath and their wiring, wire by wire: one equation per wire,
grouped into the update blocks of the source.  Registers hold codes (5-bit
transaction types, 3-bit FSM states), tag arrays hold packed words, control
tables are packed words that are sliced.  Nothing is said about the order in
which the blocks run; that is the subject of `PropsNet.lean`.

Compared with `RTL.lean`: a one-bit wire is a `Bool` in both.  A read of a list
of ways with a way number that does not exist (`pick`) gives zero; Python would
raise an exception.  `C51_ways_exist` shows that it does not happen.
-/

namespace Verif.Net
variable {p : Params}

/-! ## Codes -/

/-! Transaction codes, BlockingCacheCtrlRTL.py:54-84. -/
namespace TR
/-- `TRANS_TYPE_INVALID`, blocking_cache/BlockingCacheCtrlRTL.py:56. -/
abbrev INVALID : BitVec 5 := 0#5
/-- `TRANS_TYPE_REFILL`, blocking_cache/BlockingCacheCtrlRTL.py:59. -/
abbrev REFILL : BitVec 5 := 1#5
/-- `TRANS_TYPE_REPLAY_READ`, blocking_cache/BlockingCacheCtrlRTL.py:60. -/
abbrev REPLAY_READ : BitVec 5 := 2#5
/-- `TRANS_TYPE_REPLAY_WRITE`, blocking_cache/BlockingCacheCtrlRTL.py:61. -/
abbrev REPLAY_WRITE : BitVec 5 := 3#5
/-- `TRANS_TYPE_CLEAN_HIT`, blocking_cache/BlockingCacheCtrlRTL.py:62. -/
abbrev CLEAN_HIT : BitVec 5 := 4#5
/-- `TRANS_TYPE_READ_REQ`, blocking_cache/BlockingCacheCtrlRTL.py:63. -/
abbrev READ_REQ : BitVec 5 := 5#5
/-- `TRANS_TYPE_WRITE_REQ`, blocking_cache/BlockingCacheCtrlRTL.py:64. -/
abbrev WRITE_REQ : BitVec 5 := 6#5
/-- `TRANS_TYPE_INIT_REQ`, blocking_cache/BlockingCacheCtrlRTL.py:65. -/
abbrev INIT_REQ : BitVec 5 := 7#5
/-- `TRANS_TYPE_CACHE_INIT`, blocking_cache/BlockingCacheCtrlRTL.py:68. -/
abbrev CACHE_INIT : BitVec 5 := 8#5
/-- `TRANS_TYPE_AMO_REQ`, blocking_cache/BlockingCacheCtrlRTL.py:71. -/
abbrev AMO_REQ : BitVec 5 := 9#5
/-- `TRANS_TYPE_REPLAY_AMO`, blocking_cache/BlockingCacheCtrlRTL.py:72. -/
abbrev REPLAY_AMO : BitVec 5 := 10#5
/-- `TRANS_TYPE_INV_START`, blocking_cache/BlockingCacheCtrlRTL.py:75. -/
abbrev INV_START : BitVec 5 := 11#5
/-- `TRANS_TYPE_INV_WRITE`, blocking_cache/BlockingCacheCtrlRTL.py:76. -/
abbrev INV_WRITE : BitVec 5 := 12#5
/-- `TRANS_TYPE_REPLAY_INV`, blocking_cache/BlockingCacheCtrlRTL.py:77. -/
abbrev REPLAY_INV : BitVec 5 := 13#5
/-- `TRANS_TYPE_FLUSH_START`, blocking_cache/BlockingCacheCtrlRTL.py:80. -/
abbrev FLUSH_START : BitVec 5 := 14#5
/-- `TRANS_TYPE_FLUSH_READ`, blocking_cache/BlockingCacheCtrlRTL.py:81. -/
abbrev FLUSH_READ : BitVec 5 := 15#5
/-- `TRANS_TYPE_FLUSH_WAIT`, blocking_cache/BlockingCacheCtrlRTL.py:82. -/
abbrev FLUSH_WAIT : BitVec 5 := 16#5
/-- `TRANS_TYPE_FLUSH_WRITE`, blocking_cache/BlockingCacheCtrlRTL.py:83. -/
abbrev FLUSH_WRITE : BitVec 5 := 17#5
/-- `TRANS_TYPE_REPLAY_FLUSH`, blocking_cache/BlockingCacheCtrlRTL.py:84. -/
abbrev REPLAY_FLUSH : BitVec 5 := 18#5
end TR

/-! FSM states, BlockingCacheCtrlRTL.py:26-33. -/
namespace FS
/-- `M0_FSM_STATE_INIT`, blocking_cache/BlockingCacheCtrlRTL.py:28. -/
abbrev INIT : BitVec 3 := 0#3
/-- `M0_FSM_STATE_READY`, blocking_cache/BlockingCacheCtrlRTL.py:29. -/
abbrev READY : BitVec 3 := 1#3
/-- `M0_FSM_STATE_REPLAY`, blocking_cache/BlockingCacheCtrlRTL.py:30. -/
abbrev REPLAY : BitVec 3 := 2#3
/-- `M0_FSM_STATE_INV`, blocking_cache/BlockingCacheCtrlRTL.py:31. -/
abbrev INV : BitVec 3 := 3#3
/-- `M0_FSM_STATE_FLUSH`, blocking_cache/BlockingCacheCtrlRTL.py:32. -/
abbrev FLUSH : BitVec 3 := 4#3
/-- `M0_FSM_STATE_FLUSH_WAIT`, blocking_cache/BlockingCacheCtrlRTL.py:33. -/
abbrev FLUSH_WAIT : BitVec 3 := 5#3
end FS

/-! ## Registers and ports -/

/-- All registers and SRAMs; cited as in `RTL.lean` (`St`), here with codes and
packed words. -/
structure Regs (p : Params) where
  /-- `memresp_en_M0`, BlockingCacheCtrlRTL.py:125-127 -/
  memrespEnM0 : Bool
  /-- `FSM_state_M0`, BlockingCacheCtrlRTL.py:160-162 -/
  fsmM0 : BitVec 3
  /-- `counter_M0`, BlockingCacheCtrlRTL.py:139-140 -/
  counterM0 : BitVec p.cntBits
  /-- `trans_M1`, BlockingCacheCtrlRTL.py:444-446 -/
  transM1 : BitVec 5
  /-- `way_ptr_M1`, BlockingCacheCtrlRTL.py:450-452 -/
  wayPtrM1 : Way
  /-- `update_tag_way_M1`, BlockingCacheCtrlRTL.py:454-456 -/
  updTagWayM1 : Way
  /-- `was_stalled`, BlockingCacheCtrlRTL.py:573-574 -/
  wasStalled : Bool
  /-- `trans_M2`, BlockingCacheCtrlRTL.py:663-665 -/
  transM2 : BitVec 5
  /-- `is_evict_M2`, BlockingCacheCtrlRTL.py:667-669 -/
  isEvictM2 : Bool
  /-- `hit_reg_M2`, BlockingCacheCtrlRTL.py:673-675 -/
  hitRegM2 : Bool
  /-- `has_flush_sent_M2`, BlockingCacheCtrlRTL.py:678-680 -/
  flushSentM2 : Bool
  /-- `pipeline_reg_M0`, BlockingCacheDpathRTL.py:45-47 -/
  pipelineRegM0 : WMResp p
  /-- `cachereq_M1`, BlockingCacheDpathRTL.py:154-156 -/
  cachereqM1 : PMsg p
  /-- `flush_idx_M1`, BlockingCacheDpathRTL.py:159-161 -/
  flushIdxM1 : Idx p
  /-- `dty_bits_mask_M1`, BlockingCacheDpathRTL.py:164-166 -/
  dtyBitsMaskM1 : Dty p
  /-- `replacement_register`, units/registers.py:25-26 -/
  replBits : BitVec (2 ^ p.idxBits)
  /-- `tag_arrays_M1`, BlockingCacheDpathRTL.py:182-189 -/
  tagArrays : Way → SramG (Idx p) (tagArrayBits p)
  /-- `tag_array_rdata_M1[i].stall_reg`, BlockingCacheDpathRTL.py:192-195 -/
  tagStall : Way → Entry p
  /-- `num_entries_reg`, units/MSHR.py:37-38 -/
  mshrNum : BitVec 1
  /-- `storage_regs`, units/MSHR.py:57-60 -/
  mshr : WMshr p
  /-- `hit_stall_engine.stall_reg`, BlockingCacheDpathRTL.py:248-252 -/
  hitStall : Bool × Way
  /-- `cachereq_M2`, BlockingCacheDpathRTL.py:309-311 -/
  cachereqM2 : PMsg p
  /-- `write_mask_M2`, BlockingCacheDpathRTL.py:313-315 -/
  writeMaskM2 : Dty p
  /-- `data_array_M2`, BlockingCacheDpathRTL.py:317-322 -/
  dataArray : SramG (BitVec p.cntBits) p.lineBits
  /-- `stall_engine_M2.stall_reg`, BlockingCacheDpathRTL.py:324-326 -/
  dataStall : Line p

/-- Input ports, BlockingCacheRTL.py:44-72. -/
structure PIn (p : Params) where
  reset : Bool
  cachereqEn : Bool
  cachereqMsg : WReq p
  cacherespRdy : Bool
  memreqRdy : Bool
  memrespEn : Bool
  memrespMsg : WMResp p

/-- Output ports, BlockingCacheRTL.py:44-72. -/
structure POut (p : Params) where
  cachereqRdy : Bool
  cacherespEn : Bool
  cacherespMsg : CResp p
  memreqEn : Bool
  memreqMsg : WMReq p
  memrespRdy : Bool

/-! ## Update blocks of the control unit -/

/-- `fsm_M0_next_state`, BlockingCacheCtrlRTL.py:165-221. -/
def fsmNextB {n : Nat} (fsm : BitVec 3) (counter : BitVec n) (memresp_val memresp_wr_ack : Bool)
    (MSHR_type cachereq_type : MType) (MSHR_empty cachereq_en prev_flush_done has_flush_sent : Bool) :
    BitVec 3 := Id.run do
  let mut next := FS.INIT
  if fsm == FS.INIT then
    if counter == 0 then
      next := FS.READY
    else
      next := FS.INIT
  else if fsm == FS.READY then
    if memresp_val && ((MSHR_type == MT.WRITE) || (MSHR_type == MT.READ)) then
      next := FS.REPLAY
    else if MSHR_empty && cachereq_en then
      if cachereq_type == MT.INV then
        next := FS.INV
      else if cachereq_type == MT.FLUSH then
        next := FS.FLUSH
      else
        next := FS.READY
    else
      next := FS.READY
  else if fsm == FS.INV then
    if counter == 0 then
      next := FS.REPLAY
    else
      next := FS.INV
  else if fsm == FS.REPLAY then
    if !MSHR_empty && (MSHR_type == MT.FLUSH) then
      if prev_flush_done then
        next := FS.READY
      else
        next := FS.FLUSH_WAIT
    else
      next := FS.READY
  else if fsm == FS.FLUSH then
    if has_flush_sent then
      next := FS.FLUSH_WAIT
    else if counter == 0 then
      next := FS.REPLAY
    else
      next := FS.FLUSH
  else if fsm == FS.FLUSH_WAIT then
    if memresp_wr_ack then
      if counter == BitVec.ofNat n (2 ^ n - 1) then
        next := FS.REPLAY
      else
        next := FS.FLUSH
    else
      next := FS.FLUSH_WAIT
  return next

/-- `transaction_logic_M0`, BlockingCacheCtrlRTL.py:231-284. -/
def transB (fsm : BitVec 3) (is_write_hit_clean MSHR_empty : Bool) (MSHR_type : MType)
    (prev_flush_done has_flush_sent memresp_wr_ack memresp_val cachereq_en : Bool)
    (cachereq_type : MType) : BitVec 5 := Id.run do
  let mut trans := TR.INVALID
  if fsm == FS.INIT then
    trans := TR.CACHE_INIT
  else if is_write_hit_clean then
    trans := TR.CLEAN_HIT
  else if fsm == FS.REPLAY then
    if !MSHR_empty && (MSHR_type == MT.WRITE) then
      trans := TR.REPLAY_WRITE
    else if !MSHR_empty && (MSHR_type == MT.READ) then
      trans := TR.REPLAY_READ
    else if !MSHR_empty && (MSHR_type == MT.INV) then
      trans := TR.REPLAY_INV
    else if !MSHR_empty && (MSHR_type == MT.FLUSH) then
      if prev_flush_done then
        trans := TR.REPLAY_FLUSH
      else
        trans := TR.FLUSH_WAIT
  else if fsm == FS.INV then
    trans := TR.INV_WRITE
  else if fsm == FS.FLUSH then
    if has_flush_sent then
      trans := TR.FLUSH_WAIT
    else
      trans := TR.FLUSH_READ
  else if fsm == FS.FLUSH_WAIT then
    if memresp_wr_ack then
      trans := TR.FLUSH_WRITE
    else
      trans := TR.FLUSH_WAIT
  else if fsm == FS.READY then
    if memresp_val && !MSHR_empty then
      if (MSHR_type == MT.WRITE) || (MSHR_type == MT.READ) then
        trans := TR.REFILL
      else if decide (MT.AMO.toNat ≤ MSHR_type.toNat) && decide (MSHR_type.toNat < MT.INV.toNat) then
        trans := TR.REPLAY_AMO
    else if MSHR_empty && cachereq_en then
      if cachereq_type == MT.INIT then
        trans := TR.INIT_REQ
      else if cachereq_type == MT.READ then
        trans := TR.READ_REQ
      else if cachereq_type == MT.WRITE then
        trans := TR.WRITE_REQ
      else if decide (MT.AMO.toNat ≤ cachereq_type.toNat) && decide (cachereq_type.toNat < MT.INV.toNat) then
        trans := TR.AMO_REQ
      else if cachereq_type == MT.INV then
        trans := TR.INV_START
      else if cachereq_type == MT.FLUSH then
        trans := TR.FLUSH_START
  return trans

/-- `up_counter_en_logic_M0`, BlockingCacheCtrlRTL.py:288-295. -/
def counterEnB (fsm : BitVec 3) (trans : BitVec 5) : Bool := Id.run do
  let mut en := false
  if (fsm == FS.INIT) || (fsm == FS.INV) then
    en := true
  else if trans == TR.FLUSH_READ then
    en := true
  return en

/-- `update_way_idx_M0_loigc`, BlockingCacheCtrlRTL.py:302-307. -/
def updWayIdxB {n : Nat} (counter : BitVec n) (trans : BitVec 5) : BitVec n := Id.run do
  let mut idx := counter
  if (trans == TR.FLUSH_WRITE) || (trans == TR.REPLAY_FLUSH) then
    idx := counter + 1
  return idx

/-- `wben_val`, BlockingCacheCtrlRTL.py:353-356: `concat(-1, 0, 0)`. -/
def wbenVal (p : Params) : BitVec (tagArrayBits p) :=
  (BitVec.ofInt 1 (-1) ++ BitVec.ofNat p.nWords 0) ++ BitVec.ofNat p.tagBits 0

/-- `wben_dty`, BlockingCacheCtrlRTL.py:353-357: `concat(0, -1, 0)`. -/
def wbenDty (p : Params) : BitVec (tagArrayBits p) :=
  (BitVec.ofNat 1 0 ++ BitVec.ofInt p.nWords (-1)) ++ BitVec.ofNat p.tagBits 0

/-- A row of the M0 table: `concat(..)`, BlockingCacheCtrlRTL.py:370. -/
def row0 (wben : BitVec (tagArrayBits p)) (wdat_mux addr_mux tg_ty : Bool) (tag_update : BitVec 3)
    (tidx_sel up_tag_sel mshr_de : Bool) : BitVec (tagArrayBits p + 9) :=
  wben ++ BitVec.ofBool wdat_mux ++ BitVec.ofBool addr_mux ++ BitVec.ofBool tg_ty ++ tag_update ++
    BitVec.ofBool tidx_sel ++ BitVec.ofBool up_tag_sel ++ BitVec.ofBool mshr_de

/-- `cs_table_M0`, BlockingCacheCtrlRTL.py:360-390; update commands of
cache_constants.py:35-41. -/
def cs0Word (p : Params) (trans : BitVec 5) : BitVec (tagArrayBits p + 9) := Id.run do
  let n := false
  let x := false
  let rd := false
  let y := true
  let wr := true
  let wben_none : BitVec (tagArrayBits p) := BitVec.ofNat _ 0
  let wben_all : BitVec (tagArrayBits p) := BitVec.ofInt _ (-1)
  let wben_val := wbenVal p
  let wben_dty := wbenDty p
  let none := 0#3
  let clear := 1#3
  let wr_hit := 2#3
  let wr_refill := 3#3
  let rd_refill := 4#3
  let inv := 5#3
  let flush := 6#3
  let mut cs := row0 wben_none false false rd none false false n
  if trans == TR.CACHE_INIT then cs := row0 wben_all false false wr clear true false n
  else if trans == TR.REFILL then cs := row0 wben_all true false wr rd_refill false false n
  else if trans == TR.REPLAY_READ then cs := row0 wben_dty x false rd rd_refill false false y
  else if trans == TR.REPLAY_WRITE then cs := row0 wben_all false false wr wr_refill false false y
  else if trans == TR.REPLAY_AMO then cs := row0 wben_all true false wr clear false false y
  else if trans == TR.CLEAN_HIT then cs := row0 wben_all false true wr wr_hit false false n
  else if trans == TR.INIT_REQ then cs := row0 wben_all false false wr rd_refill false false n
  else if trans == TR.READ_REQ then cs := row0 wben_none false false rd none false false n
  else if trans == TR.WRITE_REQ then cs := row0 wben_none false false rd none false false n
  else if trans == TR.AMO_REQ then cs := row0 wben_none false false rd none false false n
  else if trans == TR.INV_START then cs := row0 wben_none false false rd none false false n
  else if trans == TR.INV_WRITE then cs := row0 wben_val false false wr inv true true n
  else if trans == TR.REPLAY_INV then cs := row0 wben_val false false wr inv true true y
  else if trans == TR.FLUSH_START then cs := row0 wben_none false false rd none false false n
  else if trans == TR.FLUSH_READ then cs := row0 wben_none false false rd none true false n
  else if trans == TR.FLUSH_WAIT then cs := row0 wben_none false false rd none false false n
  else if trans == TR.FLUSH_WRITE then cs := row0 wben_dty false false wr flush true true n
  else if trans == TR.REPLAY_FLUSH then cs := row0 wben_dty false false wr flush true true y
  return cs

/-- Assignment of one bit of a vector with one bit per way (`x[i] @= y` as in BlockingCacheCtrlRTL.py:408-438). -/
def setWay (v : BitVec (assoc p)) (k : Way) : BitVec (assoc p) := v ||| BitVec.twoPow _ k.toNat

/-- `tag_array_val_logic_M0`, BlockingCacheCtrlRTL.py:408-438; returns
(`tag_array_val_M0`, `update_tag_way_M0`). -/
def tagValB (p : Params) (trans : BitVec 5) (update_way_idx : BitVec p.cntBits) (MSHR_ptr : Way)
    (amo_hit : Bool) (rep_rd hit_way : Way) : BitVec (assoc p) × Way := Id.run do
  let mut update_tag_way := false
  let mut val : BitVec (assoc p) := 0
  if (trans == TR.CACHE_INIT) || (trans == TR.INV_WRITE) || (trans == TR.REPLAY_INV) ||
      (trans == TR.FLUSH_READ) || (trans == TR.FLUSH_WRITE) || (trans == TR.REPLAY_FLUSH) then
    for i in p.ways do
      if update_way_idx.toNat % assoc p == i.toNat then
        val := setWay val i
        update_tag_way := i
  else if (trans == TR.REFILL) || (trans == TR.REPLAY_WRITE) then
    val := setWay val MSHR_ptr
  else if (trans == TR.REPLAY_AMO) && amo_hit then
    val := setWay val MSHR_ptr
  else if trans == TR.INIT_REQ then
    val := setWay val rep_rd
  else if trans == TR.CLEAN_HIT then
    val := setWay val hit_way
  else if (trans == TR.READ_REQ) || (trans == TR.WRITE_REQ) || (trans == TR.AMO_REQ) then
    for i in p.ways do
      val := setWay val i
  return (val, update_tag_way)

/-- `asso_data_array_offset_way_M1`, BlockingCacheCtrlRTL.py:480-498. -/
def wayOffsetB (trans : BitVec 5) (hit_way way_ptr : Way) (hit inval_hit : Bool)
    (rep_rd amo_hit_way update_tag_way : Way) : Way := Id.run do
  let mut way := hit_way
  if (trans == TR.REPLAY_READ) || (trans == TR.REPLAY_WRITE) || (trans == TR.REFILL) then
    way := way_ptr
  else if (trans == TR.READ_REQ) || (trans == TR.WRITE_REQ) then
    if !hit then
      if inval_hit then
        way := hit_way
      else
        way := rep_rd
  else if trans == TR.AMO_REQ then
    way := amo_hit_way
  else if (trans == TR.FLUSH_READ) || (trans == TR.CACHE_INIT) then
    way := update_tag_way
  return way

/-- `up_flush_tag_read_logic_M1`, BlockingCacheCtrlRTL.py:502-512; returns
(`no_flush_needed_M1_bypass`, `has_flush_sent_M1_bypass`). -/
def flushReadB {n : Nat} (trans : BitVec 5) (dty_line : BitVec n) (update_tag_way : Way) :
    Bool × Bool := Id.run do
  let mut no_flush_needed := false
  let mut has_flush_sent := false
  if trans == TR.FLUSH_READ then
    if dty_line.getLsbD update_tag_way.toNat then
      no_flush_needed := false
      has_flush_sent := true
    else
      no_flush_needed := true
      has_flush_sent := false
  return (no_flush_needed, has_flush_sent)

/-- Wires written by `status_logic_M1` (BlockingCacheCtrlRTL.py:519-593). -/
structure StatusW where
  hit : Bool
  evict : Bool
  isDty : Bool
  cleanHit : Bool
  repEn : Bool
  repIsHit : Bool
  repHitPtr : Way

/-- `status_logic_M1`, BlockingCacheCtrlRTL.py:519-569. -/
def statusB {n : Nat} (trans : BitVec 5) (dty_line dty_word : BitVec n) (status_hit inval_hit : Bool)
    (hit_way rep_rd : Way) : StatusW := Id.run do
  let mut is_evict := false
  let mut is_dty := dty_line.getLsbD rep_rd.toNat
  let mut repreq_is_hit := false
  let mut repreq_en := false
  let mut repreq_hit_ptr := false
  let mut hit := false
  let mut is_write_hit_clean := false
  if (trans == TR.INIT_REQ) || (trans == TR.WRITE_REQ) || (trans == TR.READ_REQ) then
    hit := status_hit
    if hit then
      is_dty := dty_word.getLsbD hit_way.toNat
    if trans == TR.INIT_REQ then
      repreq_en := true
      repreq_is_hit := false
    if !inval_hit then
      if !hit && is_dty then
        is_evict := true
      else if hit && !is_dty then
        if trans == TR.WRITE_REQ then
          is_write_hit_clean := true
    if !is_evict then
      repreq_en := true
      repreq_hit_ptr := hit_way
      repreq_is_hit := hit || inval_hit
  else if trans == TR.AMO_REQ then
    hit := status_hit
    is_dty := dty_line.getLsbD hit_way.toNat
    is_evict := is_dty && (hit || inval_hit)
    if hit || inval_hit then
      repreq_en := true
      repreq_hit_ptr := !hit_way
      repreq_is_hit := true
  return ⟨hit, is_evict, is_dty, is_write_hit_clean, repreq_en, repreq_is_hit, repreq_hit_ptr⟩

/-- A row of the M1 table, BlockingCacheCtrlRTL.py:602. -/
def row1 (wben : BitVec 2) (ty val ostall evict_mux alloc_en : Bool) : BitVec 7 :=
  wben ++ BitVec.ofBool ty ++ BitVec.ofBool val ++ BitVec.ofBool ostall ++ BitVec.ofBool evict_mux ++
    BitVec.ofBool alloc_en

/-- `cs_table_M1`, BlockingCacheCtrlRTL.py:595-624; write-enable commands of
cache_constants.py:47-49. -/
def cs1Word (trans : BitVec 5) (is_evict hit flush : Bool) : BitVec 7 := Id.run do
  let n := false
  let x := false
  let rd := false
  let y := true
  let wr := true
  let none := 0#2
  let req := 1#2
  let dty := 2#2
  let mut cs := row1 none x n n false n
  if trans == TR.INVALID then cs := row1 none x n n false n
  else if trans == TR.CACHE_INIT then cs := row1 dty wr y n true n
  else if trans == TR.REFILL then cs := row1 dty wr y n false n
  else if trans == TR.REPLAY_READ then cs := row1 none rd y n false n
  else if trans == TR.REPLAY_WRITE then cs := row1 req wr y n false n
  else if trans == TR.REPLAY_AMO then cs := row1 none x n n false n
  else if trans == TR.REPLAY_INV then cs := row1 none x n n false n
  else if trans == TR.CLEAN_HIT then cs := row1 none x n n false n
  else if is_evict then cs := row1 none rd y y true y
  else if trans == TR.INIT_REQ then cs := row1 req wr y n false n
  else if trans == TR.AMO_REQ then cs := row1 none x n n false y
  else if trans == TR.INV_START then cs := row1 none x n n false y
  else if trans == TR.INV_WRITE then cs := row1 none x n n false n
  else if trans == TR.FLUSH_START then cs := row1 none x n n false y
  else if trans == TR.FLUSH_READ then cs := row1 none rd flush n true n
  else if trans == TR.FLUSH_WAIT then cs := row1 none x n n false n
  else if trans == TR.FLUSH_WRITE then cs := row1 none x n n false n
  else if trans == TR.REPLAY_FLUSH then cs := row1 none x n n false n
  else if !hit then cs := row1 none x n n false y
  else if hit then
    if trans == TR.READ_REQ then cs := row1 none rd y n false n
    else if trans == TR.WRITE_REQ then cs := row1 req wr y n false n
  return cs

/-- A row of the M2 table, BlockingCacheCtrlRTL.py:702. -/
def row2 (dsize_en rdata_mux ostall : Bool) (memreq_type : MType) (memreq cacheresp : Bool) : BitVec 9 :=
  BitVec.ofBool dsize_en ++ BitVec.ofBool rdata_mux ++ BitVec.ofBool ostall ++ memreq_type ++
    BitVec.ofBool memreq ++ BitVec.ofBool cacheresp

/-- `cs_table_M2`, BlockingCacheCtrlRTL.py:698-727. -/
def cs2Word (trans : BitVec 5) (memreq_rdy cacheresp_rdy is_evict hit flush : Bool) : BitVec 9 := Id.run do
  let n := false
  let y := true
  let fl_sel := if flush then false else true
  let READ := MT.READ
  let WRITE := MT.WRITE
  let AMO := MT.AMO
  let mut cs := row2 n true n READ n n
  if trans == TR.INVALID then cs := row2 n true n READ n n
  else if trans == TR.CACHE_INIT then cs := row2 n true n READ n n
  else if trans == TR.INV_START then cs := row2 n true n READ n n
  else if trans == TR.INV_WRITE then cs := row2 n true n READ n n
  else if trans == TR.CLEAN_HIT then cs := row2 n true n READ n n
  else if trans == TR.FLUSH_START then cs := row2 n true n READ n n
  else if trans == TR.FLUSH_WAIT then cs := row2 n true n READ n n
  else if trans == TR.FLUSH_WRITE then cs := row2 n true n READ n n
  else if !memreq_rdy || !cacheresp_rdy then cs := row2 n true y READ n n
  else if trans == TR.FLUSH_READ then cs := row2 n fl_sel n WRITE flush n
  else if is_evict then cs := row2 n false n WRITE y n
  else if trans == TR.REPLAY_READ then cs := row2 y false n READ n y
  else if trans == TR.REPLAY_WRITE then cs := row2 n true n WRITE n y
  else if trans == TR.REPLAY_AMO then cs := row2 n true n READ n y
  else if trans == TR.REPLAY_INV then cs := row2 n true n READ n y
  else if trans == TR.REPLAY_FLUSH then cs := row2 n true n READ n y
  else if trans == TR.INIT_REQ then cs := row2 n true n READ n y
  else if trans == TR.AMO_REQ then cs := row2 n true n AMO y n
  else if trans == TR.READ_REQ then
    if hit then cs := row2 y false n READ n y
    else if !hit then cs := row2 n true n READ y n
  else if trans == TR.WRITE_REQ then
    if hit then cs := row2 n true n READ n y
    else if !hit then cs := row2 n true n READ y n
  return cs

/-- Element `k` of a list with one entry per way (`old_entries[s.way]`,
units/UpdateTagArrayUnit.py:30-32; `tag_entires[..]`,
BlockingCacheDpathRTL.py:244). -/
def pick (l : Way → Entry p) (k : Way) : Entry p := if k ∈ p.ways then l k else Entry.zero p

/-! ## Wires -/

/-- The wires of `BlockingCacheCtrlRTL`, `BlockingCacheDpathRTL` and the
interfaces of their leaf units.  Names starting with `c` are fields of the
control struct (cacheStructs.py:48-99), names starting with `s` fields of the
status struct (cacheStructs.py:13-46). -/
inductive Wire
  | memrespRdy | memrespValM0 | memrespWrAckM0 | prevFlushDoneM0 | fsmNextM0 | transM0
  | counterEnM0 | counterEn | updWayIdxM0 | stallM0 | cReqMuxSelM0 | cachereqRdy | cs0
  | cTagWbenM0 | cWdataSelM0 | cAddrSelM0 | cTagTypeM0 | cTagCmdM0 | cTagIdxSelM0 | cTagSelM0
  | cDeallocEn | cRegEnM0 | cTagInitIdxM0 | cIsAmoM0 | cTagValM0 | cUpdTagWayM0 | stallM1
  | cRepWrM0 | cWayOffsetM1 | flushRefillM1 | noFlushM1 | flushSentM1 | isEvictM1 | isDtyM1
  | repreqIsHitM1 | repreqEnM1 | repreqHitPtrM1 | hitM1 | writeHitCleanM0 | cRepEnM1
  | evictBypass | cTagProcEnM1 | cs1 | cWbenCmdM1 | cDataTypeM1 | cDataValM1 | ostallM1
  | cEvictSelM1 | cAllocEn | cRegEnM1 | pipeEnM1 | cStallRegEnM1 | cHitStallEnM1 | cIsInitM1
  | cFlushInitEnM1 | cFlushIdxSelM1 | cDirtyMaskM1 | stallM2 | cs2 | cDszEnM2 | cRdSelM2
  | ostallM2 | cMemreqType | memreqEn | cacherespEn | cRegEnM2 | pipeEnM2 | cStallRegEnM2
  | cIsAmoM2 | cHitM2 | mshrDeallocOut | mshrDeallocMuxIn | sAmoHitM0 | reqMuxM0 | addrFwdM1
  | lenFwdM1 | addrMuxM0 | lenMuxM0 | replOutM0 | wdataMuxM0 | cachereqM0 | hitWayBypassM1
  | updWayMuxM0 | updTagOut | tagIdxMuxM0 | tagTagMuxM0 | tagStructM0 | tagWdataM0
  | sMemrespTypeM0 | sCachereqTypeM0 | replRegIn | sRepRdM1 | tagRdataM1 | mshrAllocIn
  | numEntriesIn | sMshrFull | sMshrEmpty | sDtyWordM1 | sDtyLineM1 | sHitM1 | sInvalHitM1
  | sHitWayM1 | tagEntriesM1 | writeMaskM1 | hitStallInM1 | hitStallOutM1 | evictWayMuxM1
  | flushIdxMuxM1 | evictAddrM1 | evictMuxM1 | cachereqM1b | dataWdataM1 | dataIdxM1
  | dataWbenM1 | sCachereqTypeM1 | sMshrPtr | sMshrType | sAmoHitWayM1 | stallEngM2 | rdMuxM2
  | dszMuxM2 | offOM2 | lenOM2 | sCachereqTypeM2 | memreqAddrOut | memreqAddrBits | memreqM2
  | cacherespM2
deriving DecidableEq, Repr

/-- Types of the wires (widths as declared in the source)
(BlockingCacheCtrlRTL.py and BlockingCacheDpathRTL.py, lines at the equations (`net`)). -/
@[reducible] def T (p : Params) : Wire → Type
  | .memrespRdy | .memrespValM0 | .memrespWrAckM0 | .prevFlushDoneM0 | .counterEnM0 | .counterEn
  | .stallM0 | .cReqMuxSelM0 | .cachereqRdy | .cWdataSelM0 | .cAddrSelM0 | .cTagTypeM0
  | .cTagIdxSelM0 | .cTagSelM0 | .cDeallocEn | .cRegEnM0 | .cIsAmoM0 | .stallM1 | .flushRefillM1
  | .noFlushM1 | .flushSentM1 | .isEvictM1 | .isDtyM1 | .repreqIsHitM1 | .repreqEnM1
  | .repreqHitPtrM1 | .hitM1 | .writeHitCleanM0 | .cRepEnM1 | .evictBypass | .cTagProcEnM1
  | .cDataTypeM1 | .cDataValM1 | .ostallM1 | .cEvictSelM1 | .cAllocEn | .cRegEnM1 | .pipeEnM1
  | .cStallRegEnM1 | .cHitStallEnM1 | .cIsInitM1 | .cFlushInitEnM1 | .cFlushIdxSelM1 | .stallM2
  | .cDszEnM2 | .cRdSelM2 | .ostallM2 | .memreqEn | .cacherespEn | .cRegEnM2 | .pipeEnM2
  | .cStallRegEnM2 | .cIsAmoM2 | .sAmoHitM0 | .sMshrFull | .sMshrEmpty | .sHitM1 | .sInvalHitM1 => Bool
  | .fsmNextM0 | .cTagCmdM0 => BitVec 3
  | .transM0 => BitVec 5
  | .updWayIdxM0 | .dataIdxM1 => BitVec p.cntBits
  | .cs0 => BitVec (tagArrayBits p + 9)
  | .cTagWbenM0 | .tagWdataM0 => BitVec (tagArrayBits p)
  | .cTagInitIdxM0 | .tagIdxMuxM0 | .flushIdxMuxM1 => Idx p
  | .cTagValM0 | .sDtyWordM1 | .sDtyLineM1 => BitVec (assoc p)
  | .cUpdTagWayM0 | .cRepWrM0 | .cWayOffsetM1 | .hitWayBypassM1 | .updWayMuxM0 | .sRepRdM1
  | .sHitWayM1 | .sMshrPtr | .sAmoHitWayM1 => Way
  | .cs1 => BitVec 7
  | .cWbenCmdM1 | .cHitM2 => BitVec 2
  | .cDirtyMaskM1 | .writeMaskM1 => Dty p
  | .cs2 => BitVec 9
  | .cMemreqType | .sMemrespTypeM0 | .sCachereqTypeM0 | .sCachereqTypeM1 | .sMshrType
  | .sCachereqTypeM2 => MType
  | .mshrDeallocOut | .mshrAllocIn => WMshr p
  | .mshrDeallocMuxIn | .reqMuxM0 => WReq p
  | .addrFwdM1 | .addrMuxM0 | .memreqAddrBits => BitVec p.addrBits
  | .lenFwdM1 | .lenMuxM0 => Len p
  | .replOutM0 | .wdataMuxM0 | .dataWdataM1 | .dataWbenM1 | .stallEngM2 | .rdMuxM2 => Line p
  | .cachereqM0 | .cachereqM1b => PMsg p
  | .updTagOut | .tagStructM0 => Entry p
  | .tagTagMuxM0 | .evictWayMuxM1 => Tag p
  | .replRegIn => BitVec (2 ^ p.idxBits)
  | .tagRdataM1 | .tagEntriesM1 => Way → Entry p
  | .numEntriesIn => BitVec 1
  | .hitStallInM1 | .hitStallOutM1 => Bool × Way
  | .evictAddrM1 | .evictMuxM1 | .memreqAddrOut => Addr p
  | .dszMuxM2 => Data p
  | .offOM2 => Off p
  | .lenOM2 => BitVec p.offBits
  | .memreqM2 => WMReq p
  | .cacherespM2 => CResp p

/-- The update blocks: `@update` functions (by name), lambdas and connections
(by the wire they drive) (BlockingCacheCtrlRTL.py and BlockingCacheDpathRTL.py, lines at the equations (`net`)). -/
inductive Blk
  | b_memrespRdy | b_memrespValM0 | b_memrespWrAckM0 | b_prevFlushDoneM0 | b_fsm_M0_next_state
  | b_transaction_logic_M0 | b_up_counter_en_logic_M0 | b_counterEn | b_update_way_idx_M0_loigc
  | b_stallM0 | b_cReqMuxSelM0 | b_cachereqRdy | b_cs_table_M0 | b_cRegEnM0 | b_cTagInitIdxM0
  | b_cIsAmoM0 | b_tag_array_val_logic_M0 | b_stallM1 | b_pointer_logic
  | b_asso_data_array_offset_way_M1 | b_flushRefillM1 | b_up_flush_tag_read_logic_M1
  | b_status_logic_M1 | b_evictBypass | b_cTagProcEnM1 | b_cs_table_M1 | b_cRegEnM1 | b_pipeEnM1
  | b_cStallRegEnM1 | b_cHitStallEnM1 | b_cIsInitM1 | b_cFlushInitEnM1 | b_cFlushIdxSelM1
  | b_cDirtyMaskM1 | b_stallM2 | b_cs_table_M2 | b_cRegEnM2 | b_pipeEnM2 | b_cStallRegEnM2
  | b_cIsAmoM2 | b_cHitM2 | b_mshrDeallocOut | b_mshrDeallocMuxIn | b_sAmoHitM0 | b_reqMuxM0
  | b_up_cachereq_addr_M1_forward | b_addrMuxM0 | b_lenMuxM0 | b_replicator_M0 | b_wdataMuxM0
  | b_cachereqM0 | b_hitWayBypassM1 | b_updWayMuxM0 | b_new_tag_array_entry_logic
  | b_tagIdxMuxM0 | b_tagTagMuxM0 | b_tagStructM0 | b_tag_array_struct_M0_bits_to_bitstruct
  | b_sMemrespTypeM0 | b_sCachereqTypeM0 | b_update_register_bits | b_tagRdataM1 | b_mshrAllocIn
  | b_entry_logic | b_full_logic | b_word_dirty_logic | b_line_dirty_logic | b_comparing_logic
  | b_tag_entry_output_logic | b_writeMaskM1 | b_hitStallInM1 | b_hitStallOutM1
  | b_evictWayMuxM1 | b_flushIdxMuxM1 | b_evictAddrM1 | b_evictMuxM1 | b_cachereqM1b
  | b_dataWdataM1 | b_index_logic | b_WbenGen_M1 | b_sCachereqTypeM1 | b_sMshrPtr | b_sMshrType
  | b_sAmoHitWayM1 | b_stallEngM2 | b_rdMuxM2 | b_data_size_mux_M2 | b_offset_selection_logic
  | b_sCachereqTypeM2 | b_memreqAddrOut | b_memreq_addr_bits_to_bitstruct | b_memreqM2
  | b_cacherespM2
deriving DecidableEq, Repr

/-- The block that writes a wire (lines at the equations (`net`)). -/
def blkOf : Wire → Blk
  | .memrespRdy => .b_memrespRdy
  | .memrespValM0 => .b_memrespValM0
  | .memrespWrAckM0 => .b_memrespWrAckM0
  | .prevFlushDoneM0 => .b_prevFlushDoneM0
  | .fsmNextM0 => .b_fsm_M0_next_state
  | .transM0 => .b_transaction_logic_M0
  | .counterEnM0 => .b_up_counter_en_logic_M0
  | .counterEn => .b_counterEn
  | .updWayIdxM0 => .b_update_way_idx_M0_loigc
  | .stallM0 => .b_stallM0
  | .cReqMuxSelM0 => .b_cReqMuxSelM0
  | .cachereqRdy => .b_cachereqRdy
  | .cs0 | .cTagWbenM0 | .cWdataSelM0 | .cAddrSelM0 | .cTagTypeM0 | .cTagCmdM0 | .cTagIdxSelM0
  | .cTagSelM0 | .cDeallocEn => .b_cs_table_M0
  | .cRegEnM0 => .b_cRegEnM0
  | .cTagInitIdxM0 => .b_cTagInitIdxM0
  | .cIsAmoM0 => .b_cIsAmoM0
  | .cTagValM0 | .cUpdTagWayM0 => .b_tag_array_val_logic_M0
  | .stallM1 => .b_stallM1
  | .cRepWrM0 => .b_pointer_logic
  | .cWayOffsetM1 => .b_asso_data_array_offset_way_M1
  | .flushRefillM1 => .b_flushRefillM1
  | .noFlushM1 | .flushSentM1 => .b_up_flush_tag_read_logic_M1
  | .isEvictM1 | .isDtyM1 | .repreqIsHitM1 | .repreqEnM1 | .repreqHitPtrM1 | .hitM1
  | .writeHitCleanM0 | .cRepEnM1 => .b_status_logic_M1
  | .evictBypass => .b_evictBypass
  | .cTagProcEnM1 => .b_cTagProcEnM1
  | .cs1 | .cWbenCmdM1 | .cDataTypeM1 | .cDataValM1 | .ostallM1 | .cEvictSelM1 | .cAllocEn => .b_cs_table_M1
  | .cRegEnM1 => .b_cRegEnM1
  | .pipeEnM1 => .b_pipeEnM1
  | .cStallRegEnM1 => .b_cStallRegEnM1
  | .cHitStallEnM1 => .b_cHitStallEnM1
  | .cIsInitM1 => .b_cIsInitM1
  | .cFlushInitEnM1 => .b_cFlushInitEnM1
  | .cFlushIdxSelM1 => .b_cFlushIdxSelM1
  | .cDirtyMaskM1 => .b_cDirtyMaskM1
  | .stallM2 => .b_stallM2
  | .cs2 | .cDszEnM2 | .cRdSelM2 | .ostallM2 | .cMemreqType | .memreqEn | .cacherespEn => .b_cs_table_M2
  | .cRegEnM2 => .b_cRegEnM2
  | .pipeEnM2 => .b_pipeEnM2
  | .cStallRegEnM2 => .b_cStallRegEnM2
  | .cIsAmoM2 => .b_cIsAmoM2
  | .cHitM2 => .b_cHitM2
  | .mshrDeallocOut => .b_mshrDeallocOut
  | .mshrDeallocMuxIn => .b_mshrDeallocMuxIn
  | .sAmoHitM0 => .b_sAmoHitM0
  | .reqMuxM0 => .b_reqMuxM0
  | .addrFwdM1 | .lenFwdM1 => .b_up_cachereq_addr_M1_forward
  | .addrMuxM0 => .b_addrMuxM0
  | .lenMuxM0 => .b_lenMuxM0
  | .replOutM0 => .b_replicator_M0
  | .wdataMuxM0 => .b_wdataMuxM0
  | .cachereqM0 => .b_cachereqM0
  | .hitWayBypassM1 => .b_hitWayBypassM1
  | .updWayMuxM0 => .b_updWayMuxM0
  | .updTagOut => .b_new_tag_array_entry_logic
  | .tagIdxMuxM0 => .b_tagIdxMuxM0
  | .tagTagMuxM0 => .b_tagTagMuxM0
  | .tagStructM0 => .b_tagStructM0
  | .tagWdataM0 => .b_tag_array_struct_M0_bits_to_bitstruct
  | .sMemrespTypeM0 => .b_sMemrespTypeM0
  | .sCachereqTypeM0 => .b_sCachereqTypeM0
  | .replRegIn | .sRepRdM1 => .b_update_register_bits
  | .tagRdataM1 => .b_tagRdataM1
  | .mshrAllocIn => .b_mshrAllocIn
  | .numEntriesIn => .b_entry_logic
  | .sMshrFull | .sMshrEmpty => .b_full_logic
  | .sDtyWordM1 => .b_word_dirty_logic
  | .sDtyLineM1 => .b_line_dirty_logic
  | .sHitM1 | .sInvalHitM1 | .sHitWayM1 => .b_comparing_logic
  | .tagEntriesM1 => .b_tag_entry_output_logic
  | .writeMaskM1 => .b_writeMaskM1
  | .hitStallInM1 => .b_hitStallInM1
  | .hitStallOutM1 => .b_hitStallOutM1
  | .evictWayMuxM1 => .b_evictWayMuxM1
  | .flushIdxMuxM1 => .b_flushIdxMuxM1
  | .evictAddrM1 => .b_evictAddrM1
  | .evictMuxM1 => .b_evictMuxM1
  | .cachereqM1b => .b_cachereqM1b
  | .dataWdataM1 => .b_dataWdataM1
  | .dataIdxM1 => .b_index_logic
  | .dataWbenM1 => .b_WbenGen_M1
  | .sCachereqTypeM1 => .b_sCachereqTypeM1
  | .sMshrPtr => .b_sMshrPtr
  | .sMshrType => .b_sMshrType
  | .sAmoHitWayM1 => .b_sAmoHitWayM1
  | .stallEngM2 => .b_stallEngM2
  | .rdMuxM2 => .b_rdMuxM2
  | .dszMuxM2 => .b_data_size_mux_M2
  | .offOM2 | .lenOM2 => .b_offset_selection_logic
  | .sCachereqTypeM2 => .b_sCachereqTypeM2
  | .memreqAddrOut => .b_memreqAddrOut
  | .memreqAddrBits => .b_memreq_addr_bits_to_bitstruct
  | .memreqM2 => .b_memreqM2
  | .cacherespM2 => .b_cacherespM2

/-- Level of a wire: its equation only reads wires of lower levels (proof
device). -/
def lvl : Wire → Nat
  | .memrespRdy | .cReqMuxSelM0 | .flushRefillM1 | .evictBypass | .cTagProcEnM1 | .cStallRegEnM1
  | .cIsInitM1 | .cFlushIdxSelM1 | .cStallRegEnM2 | .cIsAmoM2 | .cHitM2 | .mshrDeallocOut
  | .addrFwdM1 | .lenFwdM1 | .sMemrespTypeM0 | .sRepRdM1 | .sMshrEmpty | .dataWdataM1
  | .sCachereqTypeM1 | .sCachereqTypeM2 => 0
  | .memrespValM0 | .memrespWrAckM0 | .cHitStallEnM1 | .cs2 | .cDszEnM2 | .cRdSelM2 | .ostallM2
  | .cMemreqType | .memreqEn | .cacherespEn | .mshrDeallocMuxIn | .sAmoHitM0 | .tagRdataM1
  | .flushIdxMuxM1 | .sMshrPtr | .sMshrType | .stallEngM2 | .offOM2 | .lenOM2 => 1
  | .stallM2 | .reqMuxM0 | .sDtyWordM1 | .sDtyLineM1 | .tagEntriesM1 | .rdMuxM2 | .memreqAddrOut => 2
  | .noFlushM1 | .flushSentM1 | .cRegEnM2 | .sCachereqTypeM0 | .sHitM1 | .sInvalHitM1
  | .sHitWayM1 | .dszMuxM2 | .memreqAddrBits => 3
  | .prevFlushDoneM0 | .isEvictM1 | .isDtyM1 | .repreqIsHitM1 | .repreqEnM1 | .repreqHitPtrM1
  | .hitM1 | .writeHitCleanM0 | .cRepEnM1 | .pipeEnM2 | .hitWayBypassM1 | .hitStallInM1
  | .memreqM2 | .cacherespM2 => 4
  | .fsmNextM0 | .transM0 | .cRepWrM0 | .cs1 | .cWbenCmdM1 | .cDataTypeM1 | .cDataValM1
  | .ostallM1 | .cEvictSelM1 | .cDirtyMaskM1 | .hitStallOutM1 => 5
  | .counterEnM0 | .updWayIdxM0 | .stallM0 | .cs0 | .cTagWbenM0 | .cWdataSelM0 | .cAddrSelM0
  | .cTagTypeM0 | .cTagCmdM0 | .cTagIdxSelM0 | .cTagSelM0 | .cIsAmoM0 | .stallM1 | .replRegIn
  | .dataWbenM1 | .sAmoHitWayM1 => 6
  | .cDeallocEn | .cRegEnM0 | .cTagInitIdxM0 | .cTagValM0 | .cUpdTagWayM0 | .cWayOffsetM1
  | .cAllocEn | .cRegEnM1 | .addrMuxM0 | .lenMuxM0 | .replOutM0 => 7
  | .counterEn | .pipeEnM1 | .wdataMuxM0 | .updWayMuxM0 | .numEntriesIn | .sMshrFull
  | .writeMaskM1 | .evictWayMuxM1 => 8
  | .cachereqRdy | .cFlushInitEnM1 | .cachereqM0 | .mshrAllocIn | .evictAddrM1 => 9
  | .updTagOut | .tagIdxMuxM0 | .evictMuxM1 => 10
  | .tagTagMuxM0 | .cachereqM1b => 11
  | .tagStructM0 | .dataIdxM1 => 12
  | .tagWdataM0 => 13

/-- The equations: what each update block writes to its wires, given the
registers `r`, the input ports `i` and the values `w` of all wires.  The
comment of each wire cites blocking_cache/BlockingCacheCtrlRTL.py (Ctrl),
blocking_cache/BlockingCacheDpathRTL.py (Dpath) or the unit. -/
def net (r : Regs p) (i : PIn p) (w : (x : Wire) → T p x) : (x : Wire) → T p x
  -- Ctrl:119
  | .memrespRdy => true
  -- Ctrl:132
  | .memrespValM0 => r.memrespEnM0 && ((w .sMemrespTypeM0) != MT.WRITE)
  -- Ctrl:136
  | .memrespWrAckM0 => r.memrespEnM0 && ((w .sMemrespTypeM0) == MT.WRITE)
  -- Ctrl:152-153
  | .prevFlushDoneM0 => (w .noFlushM1) || (w .memrespWrAckM0) || (w .flushRefillM1)
  -- Ctrl:165-221
  | .fsmNextM0 => fsmNextB r.fsmM0 r.counterM0 (w .memrespValM0) (w .memrespWrAckM0) (w .sMshrType) (w .sCachereqTypeM0) (w .sMshrEmpty)
    i.cachereqEn (w .prevFlushDoneM0) (w .flushSentM1)
  -- Ctrl:231-284
  | .transM0 => transB r.fsmM0 (w .writeHitCleanM0) (w .sMshrEmpty) (w .sMshrType) (w .prevFlushDoneM0) (w .flushSentM1) (w .memrespWrAckM0)
    (w .memrespValM0) i.cachereqEn (w .sCachereqTypeM0)
  -- Ctrl:288-295
  | .counterEnM0 => counterEnB r.fsmM0 (w .transM0)
  -- Ctrl:298
  | .counterEn => (w .cRegEnM0) && (w .counterEnM0)
  -- Ctrl:302-307
  | .updWayIdxM0 => updWayIdxB r.counterM0 (w .transM0)
  -- Ctrl:319
  | .stallM0 => (w .ostallM1) || (w .ostallM2)
  -- Ctrl:324-325
  | .cReqMuxSelM0 => (r.fsmM0 == FS.REPLAY) || r.memrespEnM0
  -- Ctrl:334-336
  | .cachereqRdy => !((r.fsmM0 == FS.INIT) || (w .writeHitCleanM0) || (w .stallM0) || !(w .sMshrEmpty) || (w .sMshrFull))
  -- Ctrl:342, 371-390
  | .cs0 => cs0Word p (w .transM0)
  -- Ctrl:344, 392
  | .cTagWbenM0 => (cs0Word p (w .transM0)).extractLsb' 9 (tagArrayBits p)
  -- Ctrl:345, 393
  | .cWdataSelM0 => (cs0Word p (w .transM0)).getLsbD 8
  -- Ctrl:346, 394
  | .cAddrSelM0 => (cs0Word p (w .transM0)).getLsbD 7
  -- Ctrl:347, 395
  | .cTagTypeM0 => (cs0Word p (w .transM0)).getLsbD 6
  -- Ctrl:348, 396
  | .cTagCmdM0 => (cs0Word p (w .transM0)).extractLsb' 3 3
  -- Ctrl:349, 397
  | .cTagIdxSelM0 => (cs0Word p (w .transM0)).getLsbD 2
  -- Ctrl:350, 398
  | .cTagSelM0 => (cs0Word p (w .transM0)).getLsbD 1
  -- Ctrl:351, 399
  | .cDeallocEn => (cs0Word p (w .transM0)).getLsbD 0 && !(w .stallM0)
  -- Ctrl:401
  | .cRegEnM0 => !(w .stallM0)
  -- Ctrl:403-404
  | .cTagInitIdxM0 => (w .updWayIdxM0).extractLsb' p.wayBits p.idxBits
  -- Ctrl:405-406
  | .cIsAmoM0 => ((w .transM0) == TR.REPLAY_AMO) || ((w .transM0) == TR.AMO_REQ)
  -- Ctrl:408-438
  | .cTagValM0 => (tagValB p (w .transM0) (w .updWayIdxM0) (w .sMshrPtr) (w .sAmoHitM0) (w .sRepRdM1) (w .sHitWayM1)).1
  -- Ctrl:408-438
  | .cUpdTagWayM0 => (tagValB p (w .transM0) (w .updWayIdxM0) (w .sMshrPtr) (w .sAmoHitM0) (w .sRepRdM1) (w .sHitWayM1)).2
  -- Ctrl:467
  | .stallM1 => (w .ostallM1) || (w .ostallM2)
  -- Ctrl:470-475, units/ReplacementPolicy.py:34-46
  | .cRepWrM0 => replPolicy p (w .repreqEnM1) (w .repreqIsHitM1) (w .repreqHitPtrM1) (w .sRepRdM1)
  -- Ctrl:480-498
  | .cWayOffsetM1 => wayOffsetB r.transM1 (w .sHitWayM1) r.wayPtrM1 (w .hitM1) (w .sInvalHitM1) (w .sRepRdM1) (w .sAmoHitWayM1) r.updTagWayM1
  -- Ctrl:500
  | .flushRefillM1 => r.transM1 == TR.FLUSH_WRITE
  -- Ctrl:502-512
  | .noFlushM1 => (flushReadB r.transM1 (w .sDtyLineM1) r.updTagWayM1).1
  -- Ctrl:502-512
  | .flushSentM1 => (flushReadB r.transM1 (w .sDtyLineM1) r.updTagWayM1).2
  -- Ctrl:519-569
  | .isEvictM1 => (statusB r.transM1 (w .sDtyLineM1) (w .sDtyWordM1) (w .sHitM1) (w .sInvalHitM1) (w .sHitWayM1) (w .sRepRdM1)).evict
  -- Ctrl:519-569
  | .isDtyM1 => (statusB r.transM1 (w .sDtyLineM1) (w .sDtyWordM1) (w .sHitM1) (w .sInvalHitM1) (w .sHitWayM1) (w .sRepRdM1)).isDty
  -- Ctrl:519-569
  | .repreqIsHitM1 => (statusB r.transM1 (w .sDtyLineM1) (w .sDtyWordM1) (w .sHitM1) (w .sInvalHitM1) (w .sHitWayM1) (w .sRepRdM1)).repIsHit
  -- Ctrl:519-569
  | .repreqEnM1 => (statusB r.transM1 (w .sDtyLineM1) (w .sDtyWordM1) (w .sHitM1) (w .sInvalHitM1) (w .sHitWayM1) (w .sRepRdM1)).repEn
  -- Ctrl:519-569
  | .repreqHitPtrM1 => (statusB r.transM1 (w .sDtyLineM1) (w .sDtyWordM1) (w .sHitM1) (w .sInvalHitM1) (w .sHitWayM1) (w .sRepRdM1)).repHitPtr
  -- Ctrl:519-569
  | .hitM1 => (statusB r.transM1 (w .sDtyLineM1) (w .sDtyWordM1) (w .sHitM1) (w .sInvalHitM1) (w .sHitWayM1) (w .sRepRdM1)).hit
  -- Ctrl:519-569
  | .writeHitCleanM0 => (statusB r.transM1 (w .sDtyLineM1) (w .sDtyWordM1) (w .sHitM1) (w .sInvalHitM1) (w .sHitWayM1) (w .sRepRdM1)).cleanHit
  -- Ctrl:571
  | .cRepEnM1 => (statusB r.transM1 (w .sDtyLineM1) (w .sDtyWordM1) (w .sHitM1) (w .sInvalHitM1) (w .sHitWayM1) (w .sRepRdM1)).repEn && !(w .stallM2)
  -- Ctrl:671
  | .evictBypass => r.isEvictM2
  -- Ctrl:577-582
  | .cTagProcEnM1 => !r.isEvictM2 && ((r.transM1 == TR.READ_REQ) || (r.transM1 == TR.WRITE_REQ) ||
    (r.transM1 == TR.AMO_REQ) || (r.transM1 == TR.FLUSH_READ))
  -- Ctrl:588, 603-624
  | .cs1 => (cs1Word r.transM1 (w .isEvictM1) (w .hitM1) (w .flushSentM1))
  -- Ctrl:589, 626
  | .cWbenCmdM1 => (cs1Word r.transM1 (w .isEvictM1) (w .hitM1) (w .flushSentM1)).extractLsb' 5 2
  -- Ctrl:590, 627
  | .cDataTypeM1 => (cs1Word r.transM1 (w .isEvictM1) (w .hitM1) (w .flushSentM1)).getLsbD 4
  -- Ctrl:591, 628
  | .cDataValM1 => (cs1Word r.transM1 (w .isEvictM1) (w .hitM1) (w .flushSentM1)).getLsbD 3
  -- Ctrl:592, 629
  | .ostallM1 => (cs1Word r.transM1 (w .isEvictM1) (w .hitM1) (w .flushSentM1)).getLsbD 2
  -- Ctrl:593, 630
  | .cEvictSelM1 => (cs1Word r.transM1 (w .isEvictM1) (w .hitM1) (w .flushSentM1)).getLsbD 1
  -- Ctrl:594, 631
  | .cAllocEn => (cs1Word r.transM1 (w .isEvictM1) (w .hitM1) (w .flushSentM1)).getLsbD 0 && !(w .stallM1)
  -- Ctrl:634-635
  | .cRegEnM1 => !(w .stallM1) && !(w .isEvictM1) && ((w .transM0) != TR.CACHE_INIT)
  -- Ctrl:638-639
  | .pipeEnM1 => (w .cRegEnM1) || ((w .transM0) == TR.CACHE_INIT)
  -- Ctrl:643
  | .cStallRegEnM1 => !r.wasStalled
  -- Ctrl:644
  | .cHitStallEnM1 => !r.wasStalled && !(w .evictBypass)
  -- Ctrl:645
  | .cIsInitM1 => r.transM1 == TR.INIT_REQ
  -- Ctrl:648
  | .cFlushInitEnM1 => (w .pipeEnM1)
  -- Ctrl:649-651
  | .cFlushIdxSelM1 => (r.transM1 == TR.FLUSH_READ) || (r.transM1 == TR.CACHE_INIT)
  -- Ctrl:655-656
  | .cDirtyMaskM1 => if (w .isEvictM1) then 0 else BitVec.ofInt _ (-1)
  -- Ctrl:683
  | .stallM2 => (w .ostallM2)
  -- Ctrl:689, 703-727
  | .cs2 => (cs2Word r.transM2 i.memreqRdy i.cacherespRdy r.isEvictM2 ((w .cHitM2).getLsbD 0) r.flushSentM2)
  -- Ctrl:691, 729
  | .cDszEnM2 => (cs2Word r.transM2 i.memreqRdy i.cacherespRdy r.isEvictM2 ((w .cHitM2).getLsbD 0) r.flushSentM2).getLsbD 8
  -- Ctrl:692, 730
  | .cRdSelM2 => (cs2Word r.transM2 i.memreqRdy i.cacherespRdy r.isEvictM2 ((w .cHitM2).getLsbD 0) r.flushSentM2).getLsbD 7
  -- Ctrl:693, 731
  | .ostallM2 => (cs2Word r.transM2 i.memreqRdy i.cacherespRdy r.isEvictM2 ((w .cHitM2).getLsbD 0) r.flushSentM2).getLsbD 6
  -- Ctrl:694, 732-735
  | .cMemreqType => if 3 ≤ ((cs2Word r.transM2 i.memreqRdy i.cacherespRdy r.isEvictM2 ((w .cHitM2).getLsbD 0) r.flushSentM2).extractLsb' 2 4).toNat then (w .sCachereqTypeM2)
    else (cs2Word r.transM2 i.memreqRdy i.cacherespRdy r.isEvictM2 ((w .cHitM2).getLsbD 0) r.flushSentM2).extractLsb' 2 4
  -- Ctrl:695, 737
  | .memreqEn => (cs2Word r.transM2 i.memreqRdy i.cacherespRdy r.isEvictM2 ((w .cHitM2).getLsbD 0) r.flushSentM2).getLsbD 1
  -- Ctrl:696, 736
  | .cacherespEn => (cs2Word r.transM2 i.memreqRdy i.cacherespRdy r.isEvictM2 ((w .cHitM2).getLsbD 0) r.flushSentM2).getLsbD 0
  -- Ctrl:742-743
  | .cRegEnM2 => !(w .stallM2) && (r.transM1 != TR.CACHE_INIT)
  -- Ctrl:746-747
  | .pipeEnM2 => (w .cRegEnM2) || (r.transM1 == TR.CACHE_INIT)
  -- Ctrl:749
  | .cStallRegEnM2 => !r.wasStalled
  -- Ctrl:752-754
  | .cIsAmoM2 => ((r.transM2 == TR.AMO_REQ) || (r.transM2 == TR.REPLAY_AMO)) && !r.isEvictM2
  -- Ctrl:676, 756
  | .cHitM2 => 0#1 ++ BitVec.ofBool r.hitRegM2
  -- Dpath:50, 220, units/MSHR.py:57-60
  | .mshrDeallocOut => r.mshr
  -- Dpath:54-56
  | .mshrDeallocMuxIn => ⟨(w .mshrDeallocOut).ty, (w .mshrDeallocOut).opq, (w .mshrDeallocOut).addr, (w .mshrDeallocOut).len,
    (w .mshrDeallocOut).data⟩
  -- Dpath:57
  | .sAmoHitM0 => (w .mshrDeallocOut).amoHit
  -- Dpath:60-63
  | .reqMuxM0 => if (w .cReqMuxSelM0) then (w .mshrDeallocMuxIn) else i.cachereqMsg
  -- Dpath:169-171
  | .addrFwdM1 => packAddr r.cachereqM1.addr
  -- Dpath:169-172
  | .lenFwdM1 => r.cachereqM1.len
  -- Dpath:71-74
  | .addrMuxM0 => if (w .cAddrSelM0) then (w .addrFwdM1) else (w .reqMuxM0).addr
  -- Dpath:79-82
  | .lenMuxM0 => if (w .cAddrSelM0) then (w .lenFwdM1) else (w .reqMuxM0).len
  -- Dpath:90-93
  | .replOutM0 => replicatorW p (w .cIsAmoM0) (w .reqMuxM0).len (w .reqMuxM0).data
  -- Dpath:97-101
  | .wdataMuxM0 => if (w .cWdataSelM0) then r.pipelineRegM0.data else (w .replOutM0)
  -- Dpath:65-67, 84-87, 101
  | .cachereqM0 => ⟨(w .reqMuxM0).ty, (w .reqMuxM0).opq, unpackAddr (w .addrMuxM0), (w .lenMuxM0), (w .wdataMuxM0)⟩
  -- Dpath:243
  | .hitWayBypassM1 => (w .sHitWayM1)
  -- Dpath:106-109
  | .updWayMuxM0 => if (w .cTagSelM0) then (w .cUpdTagWayM0) else (w .hitWayBypassM1)
  -- Dpath:112-121
  | .updTagOut => updateTagW p (w .cTagCmdM0) (pick (w .tagEntriesM1) (w .updWayMuxM0)) (w .cachereqM0).addr.off (w .cachereqM0).len
    (w .mshrDeallocOut).dirty
  -- Dpath:124-127
  | .tagIdxMuxM0 => if (w .cTagIdxSelM0) then (w .cTagInitIdxM0) else (w .cachereqM0).addr.idx
  -- Dpath:130-133
  | .tagTagMuxM0 => if (w .cTagSelM0) then (w .updTagOut).tag else (w .cachereqM0).addr.tag
  -- Dpath:136-139
  | .tagStructM0 => ⟨(w .updTagOut).val, (w .updTagOut).dty, (w .tagTagMuxM0)⟩
  -- Dpath:140-143
  | .tagWdataM0 => packEntry (w .tagStructM0)
  -- Dpath:146
  | .sMemrespTypeM0 => r.pipelineRegM0.ty
  -- Dpath:147
  | .sCachereqTypeM0 => (w .reqMuxM0).ty
  -- Dpath:175-179, units/registers.py:31-36
  | .replRegIn => replRegIn p r.replBits r.cachereqM1.addr.idx (w .cRepWrM0)
  -- Dpath:176, 298, units/registers.py:38
  | .sRepRdM1 => r.replBits.getLsbD r.cachereqM1.addr.idx.toNat
  -- Dpath:192-195, units/StallEngine.py:33-41
  | .tagRdataM1 => fun k => if (w .cStallRegEnM1) then unpackEntry (r.tagArrays k).rdata else r.tagStall k
  -- Dpath:198-209
  | .mshrAllocIn => ⟨r.cachereqM1.ty, r.cachereqM1.opq, packAddr r.cachereqM1.addr, r.cachereqM1.len,
    r.cachereqM1.data.extractLsb' 0 p.dataBits, (w .cWayOffsetM1), (w .hitStallOutM1).1,
    (w .writeMaskM1) &&& (w .cDirtyMaskM1)⟩
  -- units/MSHR.py:40-47
  | .numEntriesIn => if (w .cAllocEn) then r.mshrNum + 1 else if (w .cDeallocEn) then r.mshrNum - 1 else r.mshrNum
  -- units/MSHR.py:49-53, Dpath:216
  | .sMshrFull => (r.mshrNum == 1) || ((r.mshrNum == 0) && (w .cAllocEn))
  -- units/MSHR.py:54, Dpath:217
  | .sMshrEmpty => r.mshrNum == 0
  -- Dpath:224-238
  | .sDtyWordM1 => wordDirtyW p (w .tagRdataM1) r.cachereqM1.addr.off r.cachereqM1.len
  -- Dpath:224-238
  | .sDtyLineM1 => lineDirtyW p (w .tagRdataM1) (w .cTagProcEnM1)
  -- Dpath:224-238
  | .sHitM1 => (comparingW p (w .cIsInitM1) (w .cTagProcEnM1) (w .tagRdataM1) r.cachereqM1.addr.tag (w .sDtyLineM1)).hit
  -- Dpath:224-238
  | .sInvalHitM1 => (comparingW p (w .cIsInitM1) (w .cTagProcEnM1) (w .tagRdataM1) r.cachereqM1.addr.tag (w .sDtyLineM1)).inval
  -- Dpath:224-238
  | .sHitWayM1 => (comparingW p (w .cIsInitM1) (w .cTagProcEnM1) (w .tagRdataM1) r.cachereqM1.addr.tag (w .sDtyLineM1)).way
  -- Dpath:241, units/arithmetics.py:295-303
  | .tagEntriesM1 => fun k => if (w .cTagProcEnM1) then (w .tagRdataM1) k else Entry.zero p
  -- Dpath:244
  | .writeMaskM1 => (pick (w .tagEntriesM1) (w .cWayOffsetM1)).dty
  -- Dpath:249-250
  | .hitStallInM1 => ((w .sHitM1) || (w .sInvalHitM1), (w .sHitWayM1))
  -- Dpath:248-252, units/StallEngine.py:33-41
  | .hitStallOutM1 => if (w .cHitStallEnM1) then (w .hitStallInM1) else r.hitStall
  -- Dpath:255-258
  | .evictWayMuxM1 => ((w .tagRdataM1) (w .cWayOffsetM1)).tag
  -- Dpath:260-263
  | .flushIdxMuxM1 => if (w .cFlushIdxSelM1) then r.flushIdxM1 else r.cachereqM1.addr.idx
  -- Dpath:265-268
  | .evictAddrM1 => ⟨(w .evictWayMuxM1), (w .flushIdxMuxM1), 0⟩
  -- Dpath:272-275
  | .evictMuxM1 => if (w .cEvictSelM1) then (w .evictAddrM1) else r.cachereqM1.addr
  -- Dpath:270, 276, 292-295
  | .cachereqM1b => ⟨r.cachereqM1.ty, r.cachereqM1.opq, (w .evictMuxM1), r.cachereqM1.len, r.cachereqM1.data⟩
  -- Dpath:279-280
  | .dataWdataM1 => r.cachereqM1.data
  -- Dpath:282-284
  | .dataIdxM1 => indexer p (w .cachereqM1b).addr.idx (w .cWayOffsetM1)
  -- Dpath:286-290
  | .dataWbenM1 => wbenGenW p (w .cWbenCmdM1) r.dtyBitsMaskM1 r.cachereqM1.addr.off r.cachereqM1.len
  -- Dpath:299
  | .sCachereqTypeM1 => r.cachereqM1.ty
  -- Dpath:300
  | .sMshrPtr => (w .mshrDeallocOut).repl
  -- Dpath:301
  | .sMshrType => (w .mshrDeallocOut).ty
  -- Dpath:302
  | .sAmoHitWayM1 => (w .hitStallOutM1).2
  -- Dpath:324-326, units/StallEngine.py:33-41
  | .stallEngM2 => if (w .cStallRegEnM2) then r.dataArray.rdata else r.dataStall
  -- Dpath:328-331
  | .rdMuxM2 => if (w .cRdSelM2) then r.cachereqM2.data else (w .stallEngM2)
  -- Dpath:334-339
  | .dszMuxM2 => dataSelectW p (w .cDszEnM2) (w .cIsAmoM2) r.cachereqM2.len r.cachereqM2.addr.off (w .rdMuxM2)
  -- Dpath:342-345
  | .offOM2 => (offLenSel p (w .cIsAmoM2) r.cachereqM2.len r.cachereqM2.addr.off).1
  -- Dpath:342-345
  | .lenOM2 => (offLenSel p (w .cIsAmoM2) r.cachereqM2.len r.cachereqM2.addr.off).2
  -- Dpath:348
  | .sCachereqTypeM2 => r.cachereqM2.ty
  -- Dpath:352-355
  | .memreqAddrOut => ⟨r.cachereqM2.addr.tag, r.cachereqM2.addr.idx, (w .offOM2)⟩
  -- Dpath:357-360
  | .memreqAddrBits => packAddr (w .memreqAddrOut)
  -- Dpath:362-367
  | .memreqM2 => ⟨(w .cMemreqType), r.cachereqM2.opq, (w .memreqAddrBits), (w .lenOM2), r.writeMaskM2, (w .rdMuxM2)⟩
  -- Dpath:370-374
  | .cacherespM2 => ⟨r.cachereqM2.ty, r.cachereqM2.opq, (w .cHitM2), r.cachereqM2.len, (w .dszMuxM2)⟩

/-- Number of levels (proof device). -/
def levels : Nat := 14

/-- The output ports, BlockingCacheRTL.py:56-72. -/
def outOf (w : (x : Wire) → T p x) : POut p where
  cachereqRdy := w .cachereqRdy
  cacherespEn := w .cacherespEn
  cacherespMsg := w .cacherespM2
  memreqEn := w .memreqEn
  memreqMsg := w .memreqM2
  memrespRdy := w .memrespRdy

/-- `RegEnRst` of the PyMTL3 library (used in BlockingCacheCtrlRTL.py:444-678). -/
def regEnRst {α : Type} (reset en : Bool) (rv inp old : α) : α :=
  if reset then rv else if en then inp else old

/-- `RegRst` of the PyMTL3 library (used in BlockingCacheCtrlRTL.py:125-160). -/
def regRst {α : Type} (reset : Bool) (rv inp : α) : α := if reset then rv else inp

/-- `RegEn` of the PyMTL3 library (used in units/StallEngine.py). -/
def regEn {α : Type} (en : Bool) (inp old : α) : α := if en then inp else old

/-- The clock edge: all registers and SRAMs, given the values of the wires.
Lines as in the declarations of `Regs`. -/
def regsNext (r : Regs p) (i : PIn p) (w : (x : Wire) → T p x) : Regs p where
  memrespEnM0 := regEnRst i.reset (w .cRegEnM0) false i.memrespEn r.memrespEnM0
  fsmM0 := regEnRst i.reset (w .cRegEnM0) FS.INIT (w .fsmNextM0) r.fsmM0
  -- units/counters.py:24-32
  counterM0 := if i.reset then BitVec.ofNat _ (2 ^ p.cntBits - 1)
    else if w .counterEn then r.counterM0 - 1 else r.counterM0
  transM1 := regEnRst i.reset (w .pipeEnM1) 0 (w .transM0) r.transM1
  wayPtrM1 := regEnRst i.reset (w .pipeEnM1) false (w .sMshrPtr) r.wayPtrM1
  updTagWayM1 := regEnRst i.reset (w .pipeEnM1) false (w .cUpdTagWayM0) r.updTagWayM1
  wasStalled := regRst i.reset false (w .ostallM2)
  transM2 := regEnRst i.reset (w .pipeEnM2) 0 r.transM1 r.transM2
  isEvictM2 := regEnRst i.reset (w .pipeEnM2) false (w .isEvictM1) r.isEvictM2
  hitRegM2 := regEnRst i.reset (w .pipeEnM2) false (w .hitM1) r.hitRegM2
  flushSentM2 := regEnRst i.reset (w .pipeEnM2) false (w .flushSentM1) r.flushSentM2
  pipelineRegM0 := regEnRst i.reset (w .cRegEnM0) ⟨0, 0, 0, 0, 0, 0⟩ i.memrespMsg r.pipelineRegM0
  cachereqM1 := regEnRst i.reset (w .cRegEnM1) ⟨0, 0, ⟨0, 0, 0⟩, 0, 0⟩ (w .cachereqM0) r.cachereqM1
  flushIdxM1 := regEnRst i.reset (w .cFlushInitEnM1) 0 (w .cTagInitIdxM0) r.flushIdxM1
  dtyBitsMaskM1 := regEnRst i.reset (w .cRegEnM1) 0 (w .mshrDeallocOut).dirty r.dtyBitsMaskM1
  replBits := regEnRst i.reset (w .cRepEnM1) 0 (w .replRegIn) r.replBits
  tagArrays := fun k => (r.tagArrays k).edge ((w .cTagValM0).getLsbD k.toNat) (w .cTagTypeM0)
    (w .tagIdxMuxM0) (w .tagWdataM0) (w .cTagWbenM0)
  tagStall := fun k => regEn (w .cStallRegEnM1) (unpackEntry (r.tagArrays k).rdata) (r.tagStall k)
  mshrNum := regRst i.reset 0 (w .numEntriesIn)
  mshr := regEnRst i.reset (w .cAllocEn) ⟨0, 0, 0, 0, 0, false, false, 0⟩ (w .mshrAllocIn) r.mshr
  hitStall := regEn (w .cHitStallEnM1) (w .hitStallInM1) r.hitStall
  cachereqM2 := regEnRst i.reset (w .cRegEnM2) ⟨0, 0, ⟨0, 0, 0⟩, 0, 0⟩ (w .cachereqM1b) r.cachereqM2
  writeMaskM2 := regEnRst i.reset (w .cRegEnM2) 0 (w .writeMaskM1) r.writeMaskM2
  dataArray := r.dataArray.edge (w .cDataValM1) (w .cDataTypeM1) (w .dataIdxM1) (w .dataWdataM1)
    (w .dataWbenM1)
  dataStall := regEn (w .cStallRegEnM2) r.dataArray.rdata r.dataStall

/-- The wires have settled: no update block would change anything
(PyMTL3: the simulator stops when no block changes anything). Proof device; not in the source. -/
def Settled (r : Regs p) (i : PIn p) (w : (x : Wire) → T p x) : Prop := Sched.Settled (net r i) w

end Verif.Net
