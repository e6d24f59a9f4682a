import Verif.Units

/-!
# Cycle-accurate model of the pipelined blocking cache

One `step` is one clock edge of `BlockingCacheRTL`
(blocking_cache/BlockingCacheRTL.py:52-72), i.e. of `BlockingCacheCtrlRTL` and
`BlockingCacheDpathRTL` wired together.  The combinational update blocks are
evaluated in dependency order: M2 stage, M1 stage, M0 stage, then all
registers.  Signal names follow the Python source.
-/

namespace Verif

/-- M0 FSM states, BlockingCacheCtrlRTL.py:28-33. -/
inductive Fsm | init | ready | replay | inv | flush | flushWait
deriving DecidableEq, Repr

/-- Control transactions, BlockingCacheCtrlRTL.py:56-84. -/
inductive Trans
  | invalid | refill | replayRead | replayWrite | cleanHit | readReq | writeReq | initReq
  | cacheInit | amoReq | replayAmo | invStart | invWrite | replayInv
  | flushStart | flushRead | flushWait | flushWrite | replayFlush
deriving DecidableEq, Repr

/-- All registers and SRAMs of the cache
(BlockingCacheCtrlRTL.py and BlockingCacheDpathRTL.py, lines at the fields). -/
structure St (p : Params) where
  /-- `memresp_en_M0`, BlockingCacheCtrlRTL.py:125-127 -/
  mrespEn0 : Bool
  /-- `FSM_state_M0`, BlockingCacheCtrlRTL.py:160-162 -/
  fsm : Fsm
  /-- `counter_M0`, BlockingCacheCtrlRTL.py:139-140, 297-298 -/
  cnt : BitVec p.cntBits
  /-- `trans_M1`, BlockingCacheCtrlRTL.py:444-446 -/
  t1 : Trans
  /-- `way_ptr_M1`, BlockingCacheCtrlRTL.py:450-452 -/
  wayPtr1 : Way
  /-- `update_tag_way_M1`, BlockingCacheCtrlRTL.py:454-456 -/
  updWay1 : Way
  /-- `was_stalled`, BlockingCacheCtrlRTL.py:573-574 -/
  wasStalled : Bool
  /-- `trans_M2`, BlockingCacheCtrlRTL.py:663-665 -/
  t2 : Trans
  /-- `is_evict_M2`, BlockingCacheCtrlRTL.py:667-669 -/
  evict2 : Bool
  /-- `hit_reg_M2`, BlockingCacheCtrlRTL.py:673-676 -/
  hit2 : Bool
  /-- `has_flush_sent_M2`, BlockingCacheCtrlRTL.py:678-680 -/
  flushSent2 : Bool
  /-- `pipeline_reg_M0`, BlockingCacheDpathRTL.py:45-47 -/
  mresp0 : MResp p
  /-- `cachereq_M1`, BlockingCacheDpathRTL.py:154-156 -/
  req1 : PMsg p
  /-- `flush_idx_M1`, BlockingCacheDpathRTL.py:159-161 -/
  flushIdx1 : Idx p
  /-- `dty_bits_mask_M1`, BlockingCacheDpathRTL.py:164-166 -/
  dtyMask1 : Dty p
  /-- `replacement_bits_M1`, BlockingCacheDpathRTL.py:175-179 -/
  rep : Idx p → Bool
  /-- `tag_arrays_M1[way]` memory arrays, BlockingCacheDpathRTL.py:182-189.  The
  SRAM word is the packed `StructTagArray`; the model keeps the struct. -/
  tagRam : Way → Idx p → Entry p
  /-- `tag_arrays_M1[way]` output registers -/
  tagDout : Way → Entry p
  /-- `tag_array_rdata_M1[way].stall_reg`, BlockingCacheDpathRTL.py:192-195 -/
  tagStall : Way → Entry p
  /-- `mshr.num_entries_reg`, units/MSHR.py:37-38 -/
  mshrNum : BitVec 1
  /-- `mshr.storage_regs`, units/MSHR.py:56-60 -/
  mshr : MshrMsg p
  /-- `hit_stall_engine.stall_reg` (hit, hit_way), BlockingCacheDpathRTL.py:247-252 -/
  hitStall : Bool × Way
  /-- `cachereq_M2`, BlockingCacheDpathRTL.py:309-311 -/
  req2 : PMsg p
  /-- `write_mask_M2`, BlockingCacheDpathRTL.py:313-315 -/
  wmask2 : Dty p
  /-- `data_array_M2`, BlockingCacheDpathRTL.py:317-322 -/
  data : Sram (BitVec p.cntBits) p.lineBits
  /-- `stall_engine_M2.stall_reg`, BlockingCacheDpathRTL.py:324-326 -/
  dataStall : Line p

/-- Input ports of the cache in one cycle.  The message fields are also
present (and arbitrary) when the corresponding enable is low (BlockingCacheRTL.py:47-50). -/
structure In (p : Params) where
  reset : Bool
  reqEn : Bool
  req : CReq p
  respRdy : Bool
  mreqRdy : Bool
  mrespEn : Bool
  mresp : MResp p

/-- Output ports of the cache in one cycle (`memresp_rdy` is constantly high,
BlockingCacheCtrlRTL.py:119). -/
structure Out (p : Params) where
  reqRdy : Bool
  respEn : Bool
  resp : CResp p
  mreqEn : Bool
  mreq : MReq p

/-! ## M2 stage -/

/-- Row of the M2 control table, BlockingCacheCtrlRTL.py:702. -/
structure Cs2 where
  dszEn : Bool
  rdSel : Bool
  ostall : Bool
  mty : MType
  mreqEn : Bool
  respEn : Bool
deriving DecidableEq, Repr

/-- `cs_table_M2`, BlockingCacheCtrlRTL.py:698-727. -/
def cs2 (t2 : Trans) (mreqRdy respRdy evict2 hit2 flush : Bool) : Cs2 :=
  match t2 with
  | .invalid | .cacheInit | .invStart | .invWrite | .cleanHit | .flushStart | .flushWait
  | .flushWrite => ⟨false, true, false, MT.READ, false, false⟩
  | _ =>
    if !mreqRdy || !respRdy then ⟨false, true, true, MT.READ, false, false⟩
    else match t2 with
    | .flushRead => ⟨false, !flush, false, MT.WRITE, flush, false⟩
    | t2 =>
      if evict2 then ⟨false, false, false, MT.WRITE, true, false⟩
      else match t2 with
      | .replayRead => ⟨true, false, false, MT.READ, false, true⟩
      | .replayWrite => ⟨false, true, false, MT.WRITE, false, true⟩
      | .replayAmo => ⟨false, true, false, MT.READ, false, true⟩
      | .replayInv => ⟨false, true, false, MT.READ, false, true⟩
      | .replayFlush => ⟨false, true, false, MT.READ, false, true⟩
      | .initReq => ⟨false, true, false, MT.READ, false, true⟩
      | .amoReq => ⟨false, true, false, MT.AMO, true, false⟩
      | .readReq =>
        if hit2 then ⟨true, false, false, MT.READ, false, true⟩
        else ⟨false, true, false, MT.READ, true, false⟩
      | .writeReq =>
        if hit2 then ⟨false, true, false, MT.READ, false, true⟩
        else ⟨false, true, false, MT.READ, true, false⟩
      | _ => ⟨false, true, false, MT.READ, false, false⟩

variable {p : Params}

/-- The M2 table applied to the registers (BlockingCacheCtrlRTL.py:698-757). -/
def St.cs2 (s : St p) (i : In p) : Cs2 :=
  Verif.cs2 s.t2 i.mreqRdy i.respRdy s.evict2 s.hit2 s.flushSent2

/-- `ctrl.memreq_type`, BlockingCacheCtrlRTL.py:732-735. -/
def memreqType (mty cachereqType : MType) : MType :=
  if mty.toNat ≥ 3 then cachereqType else mty

/-- `stall_engine_M2.out`, BlockingCacheDpathRTL.py:324-326 with
`stall_reg_en_M2`, BlockingCacheCtrlRTL.py:749. -/
def St.effData (s : St p) : Line p := stallOut (!s.wasStalled) s.data.dout s.dataStall

/-- `read_data_mux_M2.out`, BlockingCacheDpathRTL.py:328-331. -/
def St.rdData2 (s : St p) (c : Cs2) : Line p := if c.rdSel then s.req2.data else s.effData

/-- `is_amo_M2`, BlockingCacheCtrlRTL.py:752-754. -/
def St.isAmo2 (s : St p) : Bool :=
  (s.t2 == .amoReq || s.t2 == .replayAmo) && !s.evict2

/-- `memreq_M2`, BlockingCacheDpathRTL.py:342-367. -/
def St.memreq (s : St p) (c : Cs2) : MReq p :=
  let ol := offLenSel p s.isAmo2 s.req2.len s.req2.addr.off
  { ty := memreqType c.mty s.req2.ty
    opq := s.req2.opq
    addr := ⟨s.req2.addr.tag, s.req2.addr.idx, ol.1⟩
    len := ol.2
    wmask := s.wmask2
    data := s.rdData2 c }

/-- `cacheresp_M2`, BlockingCacheDpathRTL.py:334-339, 370-374; `hit_M2` is the
hit register zero extended to two bits (BlockingCacheCtrlRTL.py:676, 756). -/
def St.cacheresp (s : St p) (c : Cs2) : CResp p :=
  { ty := s.req2.ty
    opq := s.req2.opq
    test := (BitVec.ofBool s.hit2).setWidth 2
    len := s.req2.len
    data := dataSelect p c.dszEn s.isAmo2 s.req2.len s.req2.addr.off (s.rdData2 c) }

/-! ## M1 stage -/

/-- `tag_array_rdata_M1[way].out`, BlockingCacheDpathRTL.py:192-195 with
`stall_reg_en_M1`, BlockingCacheCtrlRTL.py:643. -/
def St.effTag (s : St p) (w : Way) : Entry p :=
  stallOut (!s.wasStalled) (s.tagDout w) (s.tagStall w)

/-- `tag_processing_en_M1`, BlockingCacheCtrlRTL.py:577-582. -/
def St.tagEn (s : St p) : Bool :=
  !s.evict2 && (match s.t1 with
    | .readReq | .writeReq | .amoReq | .flushRead => true
    | _ => false)

/-- `tag_array_PU` hit outputs, BlockingCacheDpathRTL.py:224-238, with
`is_init_M1`, BlockingCacheCtrlRTL.py:645. -/
def St.cmp (s : St p) : Cmp :=
  comparing p s.tagEn (s.t1 == .initReq) s.req1.addr.tag s.effTag

/-- `tag_array_PU.tag_entires[way]` (= `tag_entries_M1_bypass`),
BlockingCacheDpathRTL.py:241.  A way that does not exist reads as zero. -/
def St.tagEntry (s : St p) (w : Way) : Entry p :=
  if w ∈ p.ways then tagEntryOut s.tagEn (s.effTag w) else Entry.zero p

/-- `ctrl_bit_dty_rd_line_M1[way]`, BlockingCacheDpathRTL.py:232. -/
def St.lineDty (s : St p) (w : Way) : Bool :=
  decide (w ∈ p.ways) && lineDirty s.tagEn (s.effTag w)

/-- `ctrl_bit_dty_rd_word_M1[way]`, BlockingCacheDpathRTL.py:233. -/
def St.wordDty (s : St p) (w : Way) : Bool :=
  decide (w ∈ p.ways) && wordDirty p (s.effTag w) s.req1.addr.off s.req1.len

/-- `ctrl_bit_rep_rd_M1`, BlockingCacheDpathRTL.py:298. -/
def St.repRd (s : St p) : Way := s.rep s.req1.addr.idx

/-- `hit_stall_eng_en_M1`, BlockingCacheCtrlRTL.py:644, 671. -/
def St.hitStallEn (s : St p) : Bool := !s.wasStalled && !s.evict2

/-- Input of the hit stall engine, BlockingCacheDpathRTL.py:249-250. -/
def St.hitInfoIn (s : St p) : Bool × Way := (s.cmp.hit || s.cmp.inval, s.cmp.way)

/-- `hit_stall_engine.out`: (amo_hit, amo_hit_way), BlockingCacheDpathRTL.py:248-252, 302. -/
def St.hitInfo (s : St p) : Bool × Way := stallOut s.hitStallEn s.hitInfoIn s.hitStall

/-- Results of `status_logic_M1` (BlockingCacheCtrlRTL.py:519-593). -/
structure Status1 where
  hit : Bool
  evict : Bool
  cleanHit : Bool
  repEn : Bool
  repIsHit : Bool
  repHitPtr : Way
deriving DecidableEq, Repr

/-- `status_logic_M1`, BlockingCacheCtrlRTL.py:519-569. -/
def St.status1 (s : St p) : Status1 :=
  let c := s.cmp
  match s.t1 with
  | .initReq | .writeReq | .readReq =>
    let hit := c.hit
    let isDty := if hit then s.wordDty c.way else s.lineDty s.repRd
    let evict := !c.inval && (!hit && isDty)
    let cleanHit := !c.inval && !(!hit && isDty) && (hit && !isDty) && (s.t1 == .writeReq)
    if !evict then
      { hit := hit, evict := evict, cleanHit := cleanHit
        repEn := true, repIsHit := hit || c.inval, repHitPtr := c.way }
    else
      { hit := hit, evict := evict, cleanHit := cleanHit
        repEn := s.t1 == .initReq, repIsHit := false, repHitPtr := false }
  | .amoReq =>
    let hit := c.hit
    let isDty := s.lineDty c.way
    { hit := hit, evict := isDty && (hit || c.inval), cleanHit := false
      repEn := hit || c.inval
      repIsHit := hit || c.inval
      repHitPtr := if hit || c.inval then !c.way else false }
  | _ => ⟨false, false, false, false, false, false⟩

/-- `has_flush_sent_M1_bypass`, BlockingCacheCtrlRTL.py:502-512. -/
def St.flushSent1 (s : St p) : Bool := s.t1 == .flushRead && s.lineDty s.updWay1

/-- `no_flush_needed_M1_bypass`, BlockingCacheCtrlRTL.py:502-512. -/
def St.noFlush1 (s : St p) : Bool := s.t1 == .flushRead && !s.lineDty s.updWay1

/-- `way_offset_M1`, BlockingCacheCtrlRTL.py:480-498. -/
def St.wayOff (s : St p) : Way :=
  match s.t1 with
  | .replayRead | .replayWrite | .refill => s.wayPtr1
  | .readReq | .writeReq =>
    if !s.status1.hit then (if s.cmp.inval then s.cmp.way else s.repRd) else s.cmp.way
  | .amoReq => s.hitInfo.2
  | .flushRead | .cacheInit => s.updWay1
  | _ => s.cmp.way

/-- Row of the M1 control table, BlockingCacheCtrlRTL.py:601. -/
structure Cs1 where
  wben : WbenCmd
  wr : Bool
  val : Bool
  ostall : Bool
  evictSel : Bool
  alloc : Bool
deriving DecidableEq, Repr

/-- `cs_table_M1`, BlockingCacheCtrlRTL.py:595-624. -/
def cs1 (t1 : Trans) (evict hit flush : Bool) : Cs1 :=
  match t1 with
  | .invalid => ⟨.none, false, false, false, false, false⟩
  | .cacheInit => ⟨.dirty, true, true, false, true, false⟩
  | .refill => ⟨.dirty, true, true, false, false, false⟩
  | .replayRead => ⟨.none, false, true, false, false, false⟩
  | .replayWrite => ⟨.req, true, true, false, false, false⟩
  | .replayAmo => ⟨.none, false, false, false, false, false⟩
  | .replayInv => ⟨.none, false, false, false, false, false⟩
  | .cleanHit => ⟨.none, false, false, false, false, false⟩
  | t1 =>
    if evict then ⟨.none, false, true, true, true, true⟩
    else match t1 with
    | .initReq => ⟨.req, true, true, false, false, false⟩
    | .amoReq => ⟨.none, false, false, false, false, true⟩
    | .invStart => ⟨.none, false, false, false, false, true⟩
    | .invWrite => ⟨.none, false, false, false, false, false⟩
    | .flushStart => ⟨.none, false, false, false, false, true⟩
    | .flushRead => ⟨.none, false, flush, false, true, false⟩
    | .flushWait => ⟨.none, false, false, false, false, false⟩
    | .flushWrite => ⟨.none, false, false, false, false, false⟩
    | .replayFlush => ⟨.none, false, false, false, false, false⟩
    | t1 =>
      if !hit then ⟨.none, false, false, false, false, true⟩
      else match t1 with
      | .readReq => ⟨.none, false, true, false, false, false⟩
      | .writeReq => ⟨.req, true, true, false, false, false⟩
      | _ => ⟨.none, false, false, false, false, false⟩

/-- The M1 table applied to the registers (BlockingCacheCtrlRTL.py:595-640). -/
def St.cs1 (s : St p) : Cs1 := Verif.cs1 s.t1 s.status1.evict s.status1.hit s.flushSent1

/-- `stall_M0` = `stall_M1`, BlockingCacheCtrlRTL.py:319, 467. -/
def St.stall (s : St p) (i : In p) : Bool := s.cs1.ostall || (s.cs2 i).ostall

/-- `ctrl.MSHR_alloc_en`, BlockingCacheCtrlRTL.py:631. -/
def St.allocEn (s : St p) (i : In p) : Bool := s.cs1.alloc && !s.stall i

/-- `write_mask_M1`, BlockingCacheDpathRTL.py:244. -/
def St.wmask1 (s : St p) : Dty p := (s.tagEntry s.wayOff).dty

/-- `flush_idx_mux_M1.out`, BlockingCacheDpathRTL.py:260-263 with
`flush_idx_mux_sel_M1`, BlockingCacheCtrlRTL.py:649-651. -/
def St.flushIdxMux (s : St p) : Idx p :=
  match s.t1 with
  | .flushRead | .cacheInit => s.flushIdx1
  | _ => s.req1.addr.idx

/-- `cachereq_M1_2.addr`, BlockingCacheDpathRTL.py:255-276. -/
def St.addr1 (s : St p) : Addr p :=
  if s.cs1.evictSel then ⟨(s.effTag s.wayOff).tag, s.flushIdxMux, 0⟩ else s.req1.addr

/-- `MSHR_alloc_in`, BlockingCacheDpathRTL.py:198-209, with
`dirty_evict_mask_M1`, BlockingCacheCtrlRTL.py:656. -/
def St.mshrIn (s : St p) : MshrMsg p :=
  { ty := s.req1.ty
    opq := s.req1.opq
    addr := s.req1.addr
    len := s.req1.len
    data := s.req1.data.setWidth _
    repl := s.wayOff
    amoHit := s.hitInfo.1
    dirty := if s.status1.evict then 0 else s.wmask1 }

/-! ## M0 stage -/

/-- `memresp_val_M0`, BlockingCacheCtrlRTL.py:132. -/
def St.mrespVal0 (s : St p) : Bool := s.mrespEn0 && (s.mresp0.ty != MT.WRITE)

/-- `memresp_wr_ack_M0`, BlockingCacheCtrlRTL.py:136. -/
def St.wrAck0 (s : St p) : Bool := s.mrespEn0 && (s.mresp0.ty == MT.WRITE)

/-- `prev_flush_done_M0`, BlockingCacheCtrlRTL.py:152-153, 500. -/
def St.prevFlushDone (s : St p) : Bool :=
  s.noFlush1 || s.wrAck0 || (s.t1 == .flushWrite)

/-- `MSHR_dealloc_mux_in_M0`, BlockingCacheDpathRTL.py:54-56. -/
def MshrMsg.toReq (m : MshrMsg p) : CReq p := ⟨m.ty, m.opq, m.addr, m.len, m.data⟩

/-- `cachereq_memresp_mux_M0.out`, BlockingCacheDpathRTL.py:60-63 with its
select, BlockingCacheCtrlRTL.py:324-325. -/
def St.req0 (s : St p) (i : In p) : CReq p :=
  if s.fsm == .replay || s.mrespEn0 then s.mshr.toReq else i.req

/-- `status.MSHR_empty`, BlockingCacheDpathRTL.py:217. -/
def St.mshrEmpty (s : St p) : Bool := Verif.mshrEmpty s.mshrNum

/-- `cachereq_rdy`, BlockingCacheCtrlRTL.py:334-336. -/
def St.reqRdy (s : St p) (i : In p) : Bool :=
  !((s.fsm == .init) || s.status1.cleanHit || s.stall i || !s.mshrEmpty ||
    mshrFull s.mshrNum (s.allocEn i))

/-- `fsm_M0_next_state`, BlockingCacheCtrlRTL.py:165-221. -/
def St.fsmNext (s : St p) (i : In p) : Fsm :=
  let mt := s.mshr.ty
  match s.fsm with
  | .init => if s.cnt = 0 then .ready else .init
  | .ready =>
    if s.mrespVal0 && (mt == MT.WRITE || mt == MT.READ) then .replay
    else if s.mshrEmpty && i.reqEn then
      (if (s.req0 i).ty = MT.INV then .inv
       else if (s.req0 i).ty = MT.FLUSH then .flush else .ready)
    else .ready
  | .inv => if s.cnt = 0 then .replay else .inv
  | .replay =>
    if !s.mshrEmpty && mt == MT.FLUSH then (if s.prevFlushDone then .ready else .flushWait)
    else .ready
  | .flush =>
    if s.flushSent1 then .flushWait
    else if s.cnt = 0 then .replay else .flush
  | .flushWait =>
    if s.wrAck0 then
      (if s.cnt = BitVec.ofNat _ (2 ^ p.cntBits - 1) then .replay else .flush)
    else .flushWait

/-- `transaction_logic_M0`, BlockingCacheCtrlRTL.py:231-284. -/
def St.trans0 (s : St p) (i : In p) : Trans :=
  let mt := s.mshr.ty
  let ct := (s.req0 i).ty
  if s.fsm = .init then .cacheInit
  else if s.status1.cleanHit then .cleanHit
  else match s.fsm with
  | .replay =>
    if !s.mshrEmpty && mt == MT.WRITE then .replayWrite
    else if !s.mshrEmpty && mt == MT.READ then .replayRead
    else if !s.mshrEmpty && mt == MT.INV then .replayInv
    else if !s.mshrEmpty && mt == MT.FLUSH then
      (if s.prevFlushDone then .replayFlush else .flushWait)
    else .invalid
  | .inv => .invWrite
  | .flush => if s.flushSent1 then .flushWait else .flushRead
  | .flushWait => if s.wrAck0 then .flushWrite else .flushWait
  | .ready =>
    if s.mrespVal0 && !s.mshrEmpty then
      (if mt == MT.WRITE || mt == MT.READ then .refill
       else if MT.isAmo mt then .replayAmo else .invalid)
    else if s.mshrEmpty && i.reqEn then
      (if ct = MT.INIT then .initReq
       else if ct = MT.READ then .readReq
       else if ct = MT.WRITE then .writeReq
       else if MT.isAmo ct then .amoReq
       else if ct = MT.INV then .invStart
       else if ct = MT.FLUSH then .flushStart
       else .invalid)
    else .invalid
  | .init => .invalid

/-- Field masks used as tag-array write bit enables (`wben_none`, `wben_all`,
`wben_val`, `wben_dty`), BlockingCacheCtrlRTL.py:353-363. -/
inductive TagWben | none | all | val | dty
deriving DecidableEq, Repr

/-- Row of the M0 control table, BlockingCacheCtrlRTL.py:371. -/
structure Cs0 where
  wben : TagWben
  wdataSel : Bool
  addrSel : Bool
  wr : Bool
  cmd : TagCmd
  idxSel : Bool
  tagSel : Bool
  dealloc : Bool
deriving DecidableEq, Repr

/-- `cs_table_M0`, BlockingCacheCtrlRTL.py:360-390. -/
def cs0 : Trans → Cs0
  | .cacheInit => ⟨.all, false, false, true, .clear, true, false, false⟩
  | .refill => ⟨.all, true, false, true, .rdRefill, false, false, false⟩
  | .replayRead => ⟨.dty, false, false, false, .rdRefill, false, false, true⟩
  | .replayWrite => ⟨.all, false, false, true, .wrRefill, false, false, true⟩
  | .replayAmo => ⟨.all, true, false, true, .clear, false, false, true⟩
  | .cleanHit => ⟨.all, false, true, true, .wrHit, false, false, false⟩
  | .initReq => ⟨.all, false, false, true, .rdRefill, false, false, false⟩
  | .invWrite => ⟨.val, false, false, true, .inv, true, true, false⟩
  | .replayInv => ⟨.val, false, false, true, .inv, true, true, true⟩
  | .flushRead => ⟨.none, false, false, false, .none, true, false, false⟩
  | .flushWrite => ⟨.dty, false, false, true, .flush, true, true, false⟩
  | .replayFlush => ⟨.dty, false, false, true, .flush, true, true, true⟩
  | .invalid | .readReq | .writeReq | .amoReq | .invStart | .flushStart | .flushWait =>
    ⟨.none, false, false, false, .none, false, false, false⟩

/-- `update_way_idx_M0`, BlockingCacheCtrlRTL.py:302-307. -/
def St.updIdx0 (s : St p) (t0 : Trans) : BitVec p.cntBits :=
  match t0 with
  | .flushWrite | .replayFlush => s.cnt + 1
  | _ => s.cnt

/-- Way part of a line number: `update_way_idx_M0 % associativity`,
BlockingCacheCtrlRTL.py:422. -/
def cntWay (p : Params) (c : BitVec p.cntBits) : Way := p.twoWay && c.getLsbD 0

/-- Index part of a line number:
`update_way_idx_M0[clog_asso : bitwidth_num_lines]`, BlockingCacheCtrlRTL.py:403-404. -/
def cntIdx (p : Params) (c : BitVec p.cntBits) : Idx p := (c >>> p.wayBits).setWidth _

/-- `tag_array_val_M0[way]`, BlockingCacheCtrlRTL.py:408-438. -/
def St.tagVal0 (s : St p) (t0 : Trans) (w : Way) : Bool :=
  decide (w ∈ p.ways) && match t0 with
  | .cacheInit | .invWrite | .replayInv | .flushRead | .flushWrite | .replayFlush =>
    w == cntWay p (s.updIdx0 t0)
  | .refill | .replayWrite => w == s.mshr.repl
  | .replayAmo => s.mshr.amoHit && (w == s.mshr.repl)
  | .initReq => w == s.repRd
  | .cleanHit => w == s.cmp.way
  | .readReq | .writeReq | .amoReq => true
  | _ => false

/-- `update_tag_way_M0`, BlockingCacheCtrlRTL.py:411-424. -/
def St.updWay0 (s : St p) (t0 : Trans) : Way :=
  match t0 with
  | .cacheInit | .invWrite | .replayInv | .flushRead | .flushWrite | .replayFlush =>
    cntWay p (s.updIdx0 t0)
  | _ => false

/-- `is_amo_M0`, BlockingCacheCtrlRTL.py:405-406. -/
def isAmo0 (t0 : Trans) : Bool := t0 == .replayAmo || t0 == .amoReq

/-- `cachereq_M0`, BlockingCacheDpathRTL.py:65-101. -/
def St.pmsg0 (s : St p) (i : In p) (t0 : Trans) : PMsg p :=
  let c := cs0 t0
  let r := s.req0 i
  { ty := r.ty
    opq := r.opq
    addr := if c.addrSel then s.req1.addr else r.addr
    len := if c.addrSel then s.req1.len else r.len
    data := if c.wdataSel then s.mresp0.data else replicator p (isAmo0 t0) r.len r.data }

/-- `tag_array_idx_mux_M0.out`, BlockingCacheDpathRTL.py:124-127. -/
def St.tagIdx0 (s : St p) (i : In p) (t0 : Trans) : Idx p :=
  if (cs0 t0).idxSel then cntIdx p (s.updIdx0 t0) else (s.pmsg0 i t0).addr.idx

/-- `tag_array_struct_M0`, BlockingCacheDpathRTL.py:104-139. -/
def St.tagWdata0 (s : St p) (i : In p) (t0 : Trans) : Entry p :=
  let c := cs0 t0
  let m := s.pmsg0 i t0
  let way := if c.tagSel then s.updWay0 t0 else s.cmp.way
  let u := updateTag p c.cmd (s.tagEntry way) m.addr.off m.len s.mshr.dirty
  { val := u.val, dty := u.dty, tag := if c.tagSel then u.tag else m.addr.tag }

/-- Masked write of a tag-array word with a field mask,
sram/SramGenericPRTL.py:50-52. -/
def tagMerge (m : TagWben) (old new : Entry p) : Entry p :=
  match m with
  | .none => old
  | .all => new
  | .val => { old with val := new.val }
  | .dty => { old with dty := new.dty }

/-- `counter_en_M0`, BlockingCacheCtrlRTL.py:288-295. -/
def St.cntEn0 (s : St p) (t0 : Trans) : Bool :=
  s.fsm == .init || s.fsm == .inv || t0 == .flushRead

/-! ## Outputs and next state -/

/-- Output ports in a cycle (BlockingCacheRTL.py:56-72). -/
def St.out (s : St p) (i : In p) : Out p :=
  let c := s.cs2 i
  { reqRdy := s.reqRdy i
    respEn := c.respEn
    resp := s.cacheresp c
    mreqEn := c.mreqEn
    mreq := s.memreq c }

/-- Register update without reset
(the registers of BlockingCacheCtrlRTL.py and BlockingCacheDpathRTL.py, lines at the fields of `St`). -/
def St.next (s : St p) (i : In p) : St p :=
  let c2 := s.cs2 i
  let st1 := s.status1
  let c1 := s.cs1
  let stall := s.stall i
  let t0 := s.trans0 i
  let c0 := cs0 t0
  let alloc := s.allocEn i
  -- BlockingCacheCtrlRTL.py:399
  let dealloc := c0.dealloc && !stall
  -- BlockingCacheCtrlRTL.py:401
  let en0 := !stall
  -- BlockingCacheCtrlRTL.py:634-639
  let en1 := !stall && !st1.evict && (t0 != .cacheInit)
  let cen1 := en1 || (t0 == .cacheInit)
  -- BlockingCacheCtrlRTL.py:742-747
  let en2 := !c2.ostall && (s.t1 != .cacheInit)
  let cen2 := en2 || (s.t1 == .cacheInit)
  let tagIdx := s.tagIdx0 i t0
  let tagW := s.tagWdata0 i t0
  let a1 := s.addr1
  { mrespEn0 := if en0 then i.mrespEn else s.mrespEn0
    fsm := if en0 then s.fsmNext i else s.fsm
    cnt := counterNext (en0 && s.cntEn0 t0) true s.cnt
    t1 := if cen1 then t0 else s.t1
    wayPtr1 := if cen1 then s.mshr.repl else s.wayPtr1
    updWay1 := if cen1 then s.updWay0 t0 else s.updWay1
    wasStalled := c2.ostall
    t2 := if cen2 then s.t1 else s.t2
    evict2 := if cen2 then st1.evict else s.evict2
    hit2 := if cen2 then st1.hit else s.hit2
    flushSent2 := if cen2 then s.flushSent1 else s.flushSent2
    mresp0 := if en0 then i.mresp else s.mresp0
    req1 := if en1 then s.pmsg0 i t0 else s.req1
    flushIdx1 := if cen1 then cntIdx p (s.updIdx0 t0) else s.flushIdx1
    dtyMask1 := if en1 then s.mshr.dirty else s.dtyMask1
    -- BlockingCacheCtrlRTL.py:470-475, 571
    rep := replBitsNext s.rep (st1.repEn && !c2.ostall) s.req1.addr.idx
      (replPolicy p st1.repEn st1.repIsHit st1.repHitPtr s.repRd)
    tagRam := fun w j =>
      if s.tagVal0 t0 w && c0.wr && (j = tagIdx : Bool) then tagMerge c0.wben (s.tagRam w j) tagW
      else s.tagRam w j
    tagDout := fun w => if s.tagVal0 t0 w && !c0.wr then s.tagRam w tagIdx else s.tagDout w
    tagStall := fun w => stallNext (!s.wasStalled) (s.tagDout w) (s.tagStall w)
    mshrNum := mshrNumNext alloc dealloc s.mshrNum
    mshr := if alloc then s.mshrIn else s.mshr
    hitStall := stallNext s.hitStallEn s.hitInfoIn s.hitStall
    -- BlockingCacheDpathRTL.py:292-295, 309-311
    req2 := if en2 then { s.req1 with addr := a1 } else s.req2
    wmask2 := if en2 then s.wmask1 else s.wmask2
    -- BlockingCacheDpathRTL.py:279-290, 317-322
    data := s.data.step c1.val c1.wr (indexer p a1.idx s.wayOff) s.req1.data
      (writeBitEn p c1.wben s.dtyMask1 s.req1.addr.off s.req1.len)
    dataStall := stallNext (!s.wasStalled) s.data.dout s.dataStall }

/-- Reset values of the resettable registers (`RegEnRst`, `RegRst`,
`CounterEnRst`); SRAMs, SRAM output registers and stall engines (`RegEn`) are
not reset (BlockingCacheCtrlRTL.py:125, 160, 444-678, units/counters.py:26-27, units/registers.py:27). -/
def St.rst (s : St p) : St p :=
  { s with
    mrespEn0 := false
    fsm := .init
    cnt := BitVec.ofNat _ (2 ^ p.cntBits - 1)
    t1 := .invalid
    wayPtr1 := false
    updWay1 := false
    wasStalled := false
    t2 := .invalid
    evict2 := false
    hit2 := false
    flushSent2 := false
    mresp0 := default
    req1 := default
    flushIdx1 := 0
    dtyMask1 := 0
    rep := fun _ => false
    mshrNum := 0
    mshr := default
    req2 := default
    wmask2 := 0 }

/-- One clock edge (PyMTL3 registers, units/counters.py:24-32, units/registers.py:27). -/
def St.step (s : St p) (i : In p) : St p := if i.reset then (s.next i).rst else s.next i

end Verif
