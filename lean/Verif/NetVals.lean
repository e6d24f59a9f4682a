import Verif.NetSim

/-!
# The values of the wires

For settled wires over registers that hold the state `s`, each wire has the
value of the corresponding function of `RTL.lean`.
-/

namespace Verif.Net
variable {p : Params}

/-- Values of the wires in terms of the cycle model. Proof device; not in the source. -/
structure Vals (r : Regs p) (s : St p) (j : In p) (w : (x : Wire) → T p x) : Prop where
  -- M2 stage
  ostallM2 : w .ostallM2 = (s.cs2 j).ostall
  memreqEn : w .memreqEn = (s.cs2 j).mreqEn
  cacherespEn : w .cacherespEn = (s.cs2 j).respEn
  memreqM2 : w .memreqM2 = encMReq (s.memreq (s.cs2 j))
  cacherespM2 : w .cacherespM2 = s.cacheresp (s.cs2 j)
  cRegEnM2 : w .cRegEnM2 = (!(s.cs2 j).ostall && (s.t1 != .cacheInit))
  pipeEnM2 : w .pipeEnM2 = (!(s.cs2 j).ostall && (s.t1 != .cacheInit) || (s.t1 == .cacheInit))
  cStallRegEnM2 : w .cStallRegEnM2 = !s.wasStalled
  -- M1 stage
  cStallRegEnM1 : w .cStallRegEnM1 = !s.wasStalled
  cHitStallEnM1 : w .cHitStallEnM1 = s.hitStallEn
  hitStallInM1 : w .hitStallInM1 = s.hitInfoIn
  isEvictM1 : w .isEvictM1 = s.status1.evict
  hitM1 : w .hitM1 = s.status1.hit
  flushSentM1 : w .flushSentM1 = s.flushSent1
  cRepEnM1 : w .cRepEnM1 = (s.status1.repEn && !(s.cs2 j).ostall)
  replRegIn : w .replRegIn = replRegIn p r.replBits s.req1.addr.idx
    (replPolicy p s.status1.repEn s.status1.repIsHit s.status1.repHitPtr s.repRd)
  writeMaskM1 : w .writeMaskM1 = s.wmask1
  cAllocEn : w .cAllocEn = s.allocEn j
  mshrAllocIn : w .mshrAllocIn = encMshr s.mshrIn
  cachereqM1b : w .cachereqM1b = { s.req1 with addr := s.addr1 }
  cDataValM1 : w .cDataValM1 = s.cs1.val
  cDataTypeM1 : w .cDataTypeM1 = s.cs1.wr
  dataIdxM1 : w .dataIdxM1 = indexer p s.addr1.idx s.wayOff
  dataWdataM1 : w .dataWdataM1 = s.req1.data
  dataWbenM1 : w .dataWbenM1 = writeBitEn p s.cs1.wben s.dtyMask1 s.req1.addr.off s.req1.len
  cRegEnM1 : w .cRegEnM1 = (!s.stall j && !s.status1.evict && (s.trans0 j != .cacheInit))
  pipeEnM1 : w .pipeEnM1 = (!s.stall j && !s.status1.evict && (s.trans0 j != .cacheInit) ||
    (s.trans0 j == .cacheInit))
  cFlushInitEnM1 : w .cFlushInitEnM1 = (!s.stall j && !s.status1.evict && (s.trans0 j != .cacheInit) ||
    (s.trans0 j == .cacheInit))
  -- M0 stage
  cachereqRdy : w .cachereqRdy = s.reqRdy j
  memrespRdy : w .memrespRdy = true
  cRegEnM0 : w .cRegEnM0 = !s.stall j
  transM0 : w .transM0 = encTrans (s.trans0 j)
  fsmNextM0 : w .fsmNextM0 = encFsm (s.fsmNext j)
  counterEn : w .counterEn = (!s.stall j && s.cntEn0 (s.trans0 j))
  sMshrPtr : w .sMshrPtr = s.mshr.repl
  mshrDeallocOut : w .mshrDeallocOut = encMshr s.mshr
  cUpdTagWayM0 : w .cUpdTagWayM0 = s.updWay0 (s.trans0 j)
  cTagInitIdxM0 : w .cTagInitIdxM0 = cntIdx p (s.updIdx0 (s.trans0 j))
  cachereqM0 : w .cachereqM0 = s.pmsg0 j (s.trans0 j)
  cTagValM0 : ∀ k : Way, (w .cTagValM0).getLsbD k.toNat = s.tagVal0 (s.trans0 j) k
  cTagTypeM0 : w .cTagTypeM0 = (cs0 (s.trans0 j)).wr
  cTagWbenM0 : w .cTagWbenM0 = encTagWben p (cs0 (s.trans0 j)).wben
  tagIdxMuxM0 : w .tagIdxMuxM0 = s.tagIdx0 j (s.trans0 j)
  tagWdataM0 : w .tagWdataM0 = packEntry (s.tagWdata0 j (s.trans0 j))
  numEntriesIn : w .numEntriesIn = mshrNumNext (s.allocEn j) ((cs0 (s.trans0 j)).dealloc && !s.stall j) s.mshrNum

theorem extractLsb'_eq_setWidth {n : Nat} (x : BitVec n) (m : Nat) : x.extractLsb' 0 m = x.setWidth m := by
  apply BitVec.eq_of_getLsbD_eq
  intro k hk
  simp [hk]

set_option maxHeartbeats 4000000 in
theorem vals (wf : p.WF) {r : Regs p} {s : St p} (hE : Enc r s) {i : PIn p} {w : (x : Wire) → T p x}
    (hw : Settled r i w) : Vals r s (decIn i) w := by
  have hmr : r.pipelineRegM0.ty = s.mresp0.ty := by rw [← hE.pipelineRegM0]; rfl
  have hmd : r.pipelineRegM0.data = s.mresp0.data := by rw [← hE.pipelineRegM0]; rfl
  generalize hj : decIn i = j
  have hj1 : i.cachereqEn = j.reqEn := by rw [← hj]; rfl
  have hj2 : i.cacherespRdy = j.respRdy := by rw [← hj]; rfl
  have hj3 : i.memreqRdy = j.mreqRdy := by rw [← hj]; rfl
  have hj4 : i.cachereqMsg = encReq j.req := by rw [← hj]; exact (enc_decReq _).symm
  -- M2
  have cHitM2 : w .cHitM2 = (BitVec.ofBool s.hit2).setWidth 2 := by
    rw [← hw .cHitM2]; simp only [net, hE.hitRegM2]; cases s.hit2 <;> rfl
  have cHitB : (w .cHitM2).getLsbD 0 = s.hit2 := by rw [cHitM2]; cases s.hit2 <;> rfl
  have hcs2 : cs2Word r.transM2 i.memreqRdy i.cacherespRdy r.isEvictM2 ((w .cHitM2).getLsbD 0) r.flushSentM2 =
      row2 (s.cs2 j).dszEn (s.cs2 j).rdSel (s.cs2 j).ostall (s.cs2 j).mty (s.cs2 j).mreqEn (s.cs2 j).respEn := by
    rw [cHitB, hE.transM2, hj2, hj3, hE.isEvictM2, hE.flushSentM2, cs2Word_eq]; rfl
  have b2 := row2_bits (s.cs2 j).dszEn (s.cs2 j).rdSel (s.cs2 j).ostall (s.cs2 j).mty (s.cs2 j).mreqEn
    (s.cs2 j).respEn
  have ostallM2 : w .ostallM2 = (s.cs2 j).ostall := by
    rw [← hw .ostallM2]; simp only [net, hcs2, b2]
  have memreqEn : w .memreqEn = (s.cs2 j).mreqEn := by
    rw [← hw .memreqEn]; simp only [net, hcs2, b2]
  have cacherespEn : w .cacherespEn = (s.cs2 j).respEn := by
    rw [← hw .cacherespEn]; simp only [net, hcs2, b2]
  have cDszEnM2 : w .cDszEnM2 = (s.cs2 j).dszEn := by
    rw [← hw .cDszEnM2]; simp only [net, hcs2, b2]
  have cRdSelM2 : w .cRdSelM2 = (s.cs2 j).rdSel := by
    rw [← hw .cRdSelM2]; simp only [net, hcs2, b2]
  have stallM2 : w .stallM2 = (s.cs2 j).ostall := by
    rw [← hw .stallM2]; simp only [net, ostallM2]
  have sCachereqTypeM2 : w .sCachereqTypeM2 = s.req2.ty := by
    rw [← hw .sCachereqTypeM2]; simp only [net, hE.cachereqM2]
  have cMemreqType : w .cMemreqType = memreqType (s.cs2 j).mty s.req2.ty := by
    rw [← hw .cMemreqType]; simp only [net, hcs2, b2, sCachereqTypeM2]; rfl
  have cIsAmoM2 : w .cIsAmoM2 = s.isAmo2 := by
    rw [← hw .cIsAmoM2]
    simp only [net, hE.transM2, hE.isEvictM2, show TR.AMO_REQ = encTrans .amoReq from rfl,
      show TR.REPLAY_AMO = encTrans .replayAmo from rfl, encTrans_beq]
    rfl
  have cStallRegEnM2 : w .cStallRegEnM2 = !s.wasStalled := by
    rw [← hw .cStallRegEnM2]; simp only [net, hE.wasStalled]
  have stallEngM2 : w .stallEngM2 = s.effData := by
    rw [← hw .stallEngM2]
    simp only [net, cStallRegEnM2, SramG.rdata_eq, hE.dataDout, hE.dataStall]; rfl
  have rdMuxM2 : w .rdMuxM2 = s.rdData2 (s.cs2 j) := by
    rw [← hw .rdMuxM2]; simp only [net, cRdSelM2, stallEngM2, hE.cachereqM2]; rfl
  have dszMuxM2 : w .dszMuxM2 = dataSelect p (s.cs2 j).dszEn s.isAmo2 s.req2.len s.req2.addr.off
      (s.rdData2 (s.cs2 j)) := by
    rw [← hw .dszMuxM2]; simp only [net, cDszEnM2, cIsAmoM2, rdMuxM2, hE.cachereqM2, dataSelectW_eq wf]
  have offOM2 : w .offOM2 = (offLenSel p s.isAmo2 s.req2.len s.req2.addr.off).1 := by
    rw [← hw .offOM2]; simp only [net, cIsAmoM2, hE.cachereqM2]
  have lenOM2 : w .lenOM2 = (offLenSel p s.isAmo2 s.req2.len s.req2.addr.off).2 := by
    rw [← hw .lenOM2]; simp only [net, cIsAmoM2, hE.cachereqM2]
  have memreqAddrOut : w .memreqAddrOut = ⟨s.req2.addr.tag, s.req2.addr.idx,
      (offLenSel p s.isAmo2 s.req2.len s.req2.addr.off).1⟩ := by
    rw [← hw .memreqAddrOut]; simp only [net, offOM2, hE.cachereqM2]
  have memreqAddrBits : w .memreqAddrBits = packAddr ⟨s.req2.addr.tag, s.req2.addr.idx,
      (offLenSel p s.isAmo2 s.req2.len s.req2.addr.off).1⟩ := by
    rw [← hw .memreqAddrBits]; simp only [net, memreqAddrOut]
  have memreqM2 : w .memreqM2 = encMReq (s.memreq (s.cs2 j)) := by
    rw [← hw .memreqM2]
    simp only [net, memreqAddrBits, cMemreqType, lenOM2, rdMuxM2, hE.cachereqM2, hE.writeMaskM2]; rfl
  have cacherespM2 : w .cacherespM2 = s.cacheresp (s.cs2 j) := by
    rw [← hw .cacherespM2]; simp only [net, cHitM2, dszMuxM2, hE.cachereqM2]; rfl
  have ci : TR.CACHE_INIT = encTrans .cacheInit := rfl
  have cRegEnM2 : w .cRegEnM2 = (!(s.cs2 j).ostall && (s.t1 != .cacheInit)) := by
    rw [← hw .cRegEnM2]; simp only [net, stallM2, hE.transM1, ci, encTrans_bne]
  have pipeEnM2 : w .pipeEnM2 = (!(s.cs2 j).ostall && (s.t1 != .cacheInit) || (s.t1 == .cacheInit)) := by
    rw [← hw .pipeEnM2]; simp only [net, cRegEnM2, hE.transM1, ci, encTrans_beq]
  -- M1
  have cStallRegEnM1 : w .cStallRegEnM1 = !s.wasStalled := by
    rw [← hw .cStallRegEnM1]; simp only [net, hE.wasStalled]
  have evictBypass : w .evictBypass = s.evict2 := by
    rw [← hw .evictBypass]; simp only [net, hE.isEvictM2]
  have cHitStallEnM1 : w .cHitStallEnM1 = s.hitStallEn := by
    rw [← hw .cHitStallEnM1]; simp only [net, hE.wasStalled, evictBypass]; rfl
  have cTagProcEnM1 : w .cTagProcEnM1 = s.tagEn := by
    rw [← hw .cTagProcEnM1]
    simp only [net, hE.transM1, hE.isEvictM2]
    unfold St.tagEn
    cases s.t1 <;> rfl
  have cIsInitM1 : w .cIsInitM1 = (s.t1 == .initReq) := by
    rw [← hw .cIsInitM1]
    simp only [net, hE.transM1, show TR.INIT_REQ = encTrans .initReq from rfl, encTrans_beq]
  have tagRdataM1 : w .tagRdataM1 = s.effTag := by
    rw [← hw .tagRdataM1]
    simp only [net, cStallRegEnM1, SramG.rdata_eq, hE.tagDout, hE.tagStall, unpack_packEntry]; rfl
  have sDtyLineM1 : w .sDtyLineM1 = lineDirtyW p s.effTag s.tagEn := by
    rw [← hw .sDtyLineM1]; simp only [net, tagRdataM1, cTagProcEnM1]
  have hline : ∀ k : Way, (w .sDtyLineM1).getLsbD k.toNat = s.lineDty k := by
    intro k; rw [sDtyLineM1, lineDirtyW_eq]; rfl
  have hword : ∀ k : Way, (w .sDtyWordM1).getLsbD k.toNat = s.wordDty k := by
    intro k
    rw [← hw .sDtyWordM1]; simp only [net, tagRdataM1, hE.cachereqM1, wordDirtyW_eq]; rfl
  have sHitM1 : w .sHitM1 = s.cmp.hit := by
    rw [← hw .sHitM1]
    simp only [net, cIsInitM1, cTagProcEnM1, tagRdataM1, sDtyLineM1, hE.cachereqM1, comparingW_eq]; rfl
  have sInvalHitM1 : w .sInvalHitM1 = s.cmp.inval := by
    rw [← hw .sInvalHitM1]
    simp only [net, cIsInitM1, cTagProcEnM1, tagRdataM1, sDtyLineM1, hE.cachereqM1, comparingW_eq]; rfl
  have sHitWayM1 : w .sHitWayM1 = s.cmp.way := by
    rw [← hw .sHitWayM1]
    simp only [net, cIsInitM1, cTagProcEnM1, tagRdataM1, sDtyLineM1, hE.cachereqM1, comparingW_eq]; rfl
  have hpick : ∀ k, pick (w .tagEntriesM1) k = s.tagEntry k := by
    intro k
    rw [← hw .tagEntriesM1]; simp only [net, tagRdataM1, cTagProcEnM1]; rfl
  have sRepRdM1 : w .sRepRdM1 = s.repRd := by
    rw [← hw .sRepRdM1]; simp only [net, hE.cachereqM1, hE.replBits]; rfl
  have hst := statusB_eq s (w .sDtyLineM1) (w .sDtyWordM1) hline hword
  obtain ⟨hs1, hs2, hs3, hs4, hs5, hs6⟩ := hst
  have isEvictM1 : w .isEvictM1 = s.status1.evict := by
    rw [← hw .isEvictM1]; simp only [net, hE.transM1, sHitM1, sInvalHitM1, sHitWayM1, sRepRdM1, hs2]
  have hitM1 : w .hitM1 = s.status1.hit := by
    rw [← hw .hitM1]; simp only [net, hE.transM1, sHitM1, sInvalHitM1, sHitWayM1, sRepRdM1, hs1]
  have writeHitCleanM0 : w .writeHitCleanM0 = s.status1.cleanHit := by
    rw [← hw .writeHitCleanM0]; simp only [net, hE.transM1, sHitM1, sInvalHitM1, sHitWayM1, sRepRdM1, hs3]
  have repreqEnM1 : w .repreqEnM1 = s.status1.repEn := by
    rw [← hw .repreqEnM1]; simp only [net, hE.transM1, sHitM1, sInvalHitM1, sHitWayM1, sRepRdM1, hs4]
  have repreqIsHitM1 : w .repreqIsHitM1 = s.status1.repIsHit := by
    rw [← hw .repreqIsHitM1]; simp only [net, hE.transM1, sHitM1, sInvalHitM1, sHitWayM1, sRepRdM1, hs5]
  have repreqHitPtrM1 : w .repreqHitPtrM1 = s.status1.repHitPtr := by
    rw [← hw .repreqHitPtrM1]; simp only [net, hE.transM1, sHitM1, sInvalHitM1, sHitWayM1, sRepRdM1, hs6]
  have cRepEnM1 : w .cRepEnM1 = (s.status1.repEn && !(s.cs2 j).ostall) := by
    rw [← hw .cRepEnM1]
    simp only [net, hE.transM1, sHitM1, sInvalHitM1, sHitWayM1, sRepRdM1, hs4, stallM2]
  have cRepWrM0 : w .cRepWrM0 = replPolicy p s.status1.repEn s.status1.repIsHit s.status1.repHitPtr s.repRd := by
    rw [← hw .cRepWrM0]; simp only [net, repreqEnM1, repreqIsHitM1, repreqHitPtrM1, sRepRdM1]
  have hreplRegIn : w .replRegIn = replRegIn p r.replBits s.req1.addr.idx
      (replPolicy p s.status1.repEn s.status1.repIsHit s.status1.repHitPtr s.repRd) := by
    rw [← hw .replRegIn]; simp only [net, cRepWrM0, hE.cachereqM1]
  have noFlushM1 : w .noFlushM1 = s.noFlush1 := by
    rw [← hw .noFlushM1]; simp only [net, hE.transM1, hE.updTagWayM1, flushReadB_eq, hline]; rfl
  have flushSentM1 : w .flushSentM1 = s.flushSent1 := by
    rw [← hw .flushSentM1]; simp only [net, hE.transM1, hE.updTagWayM1, flushReadB_eq, hline]; rfl
  have flushRefillM1 : w .flushRefillM1 = (s.t1 == .flushWrite) := by
    rw [← hw .flushRefillM1]
    simp only [net, hE.transM1, show TR.FLUSH_WRITE = encTrans .flushWrite from rfl, encTrans_beq]
  have hitStallInM1 : w .hitStallInM1 = s.hitInfoIn := by
    rw [← hw .hitStallInM1]; simp only [net, sHitM1, sInvalHitM1, sHitWayM1]; rfl
  have hitStallOutM1 : w .hitStallOutM1 = s.hitInfo := by
    rw [← hw .hitStallOutM1]; simp only [net, hitStallInM1, cHitStallEnM1, hE.hitStall]; rfl
  have sAmoHitWayM1 : w .sAmoHitWayM1 = s.hitInfo.2 := by
    rw [← hw .sAmoHitWayM1]; simp only [net, hitStallOutM1]
  have cWayOffsetM1 : w .cWayOffsetM1 = s.wayOff := by
    rw [← hw .cWayOffsetM1]
    simp only [net, hE.transM1, hE.wayPtrM1, hE.updTagWayM1, sHitWayM1, hitM1, sInvalHitM1, sRepRdM1,
      sAmoHitWayM1, wayOffsetB_eq]
  have writeMaskM1 : w .writeMaskM1 = s.wmask1 := by
    rw [← hw .writeMaskM1]; simp only [net, cWayOffsetM1, hpick]; rfl
  have hcs1 : cs1Word r.transM1 (w .isEvictM1) (w .hitM1) (w .flushSentM1) =
      row1 (encWben s.cs1.wben) s.cs1.wr s.cs1.val s.cs1.ostall s.cs1.evictSel s.cs1.alloc := by
    rw [hE.transM1, isEvictM1, hitM1, flushSentM1, cs1Word_eq]; rfl
  have b1 := row1_bits (encWben s.cs1.wben) s.cs1.wr s.cs1.val s.cs1.ostall s.cs1.evictSel s.cs1.alloc
  have cWbenCmdM1 : w .cWbenCmdM1 = encWben s.cs1.wben := by
    rw [← hw .cWbenCmdM1]; simp only [net, hcs1, b1]
  have cDataTypeM1 : w .cDataTypeM1 = s.cs1.wr := by
    rw [← hw .cDataTypeM1]; simp only [net, hcs1, b1]
  have cDataValM1 : w .cDataValM1 = s.cs1.val := by
    rw [← hw .cDataValM1]; simp only [net, hcs1, b1]
  have ostallM1 : w .ostallM1 = s.cs1.ostall := by
    rw [← hw .ostallM1]; simp only [net, hcs1, b1]
  have cEvictSelM1 : w .cEvictSelM1 = s.cs1.evictSel := by
    rw [← hw .cEvictSelM1]; simp only [net, hcs1, b1]
  have stallM1 : w .stallM1 = s.stall j := by
    rw [← hw .stallM1]; simp only [net, ostallM1, ostallM2]; rfl
  have stallM0 : w .stallM0 = s.stall j := by
    rw [← hw .stallM0]; simp only [net, ostallM1, ostallM2]; rfl
  have cAllocEn : w .cAllocEn = s.allocEn j := by
    rw [← hw .cAllocEn]; simp only [net, hcs1, b1, stallM1]; rfl
  have evictWayMuxM1 : w .evictWayMuxM1 = (s.effTag s.wayOff).tag := by
    rw [← hw .evictWayMuxM1]; simp only [net, tagRdataM1, cWayOffsetM1]
  have cFlushIdxSelM1 : w .cFlushIdxSelM1 = (s.t1 == .flushRead || s.t1 == .cacheInit) := by
    rw [← hw .cFlushIdxSelM1]
    simp only [net, hE.transM1, show TR.FLUSH_READ = encTrans .flushRead from rfl, ci, encTrans_beq]
  have flushIdxMuxM1 : w .flushIdxMuxM1 = s.flushIdxMux := by
    rw [← hw .flushIdxMuxM1]
    simp only [net, cFlushIdxSelM1, hE.flushIdxM1, hE.cachereqM1]
    unfold St.flushIdxMux
    cases s.t1 <;> rfl
  have evictAddrM1 : w .evictAddrM1 = ⟨(s.effTag s.wayOff).tag, s.flushIdxMux, 0⟩ := by
    rw [← hw .evictAddrM1]; simp only [net, evictWayMuxM1, flushIdxMuxM1]
  have evictMuxM1 : w .evictMuxM1 = s.addr1 := by
    rw [← hw .evictMuxM1]; simp only [net, evictAddrM1, cEvictSelM1, hE.cachereqM1]; rfl
  have cachereqM1b : w .cachereqM1b = { s.req1 with addr := s.addr1 } := by
    rw [← hw .cachereqM1b]; simp only [net, evictMuxM1, hE.cachereqM1]
  have dataWdataM1 : w .dataWdataM1 = s.req1.data := by
    rw [← hw .dataWdataM1]; simp only [net, hE.cachereqM1]
  have dataIdxM1 : w .dataIdxM1 = indexer p s.addr1.idx s.wayOff := by
    rw [← hw .dataIdxM1]; simp only [net, cachereqM1b, cWayOffsetM1]
  have dataWbenM1 : w .dataWbenM1 = writeBitEn p s.cs1.wben s.dtyMask1 s.req1.addr.off s.req1.len := by
    rw [← hw .dataWbenM1]; simp only [net, cWbenCmdM1, hE.cachereqM1, hE.dtyBitsMaskM1, wbenGenW_eq]
  have cDirtyMaskM1 : w .cDirtyMaskM1 = if s.status1.evict then 0 else BitVec.allOnes _ := by
    rw [← hw .cDirtyMaskM1]; simp only [net, isEvictM1, ofInt_neg_one]
  have mshrAllocIn : w .mshrAllocIn = encMshr s.mshrIn := by
    rw [← hw .mshrAllocIn]
    simp only [net, hE.cachereqM1, cWayOffsetM1, hitStallOutM1, writeMaskM1, cDirtyMaskM1,
      extractLsb'_eq_setWidth]
    unfold encMshr St.mshrIn
    cases s.status1.evict <;> simp
  -- M0
  have mshrDeallocOut : w .mshrDeallocOut = encMshr s.mshr := by
    rw [← hw .mshrDeallocOut]; simp only [net, hE.mshr]
  have sAmoHitM0 : w .sAmoHitM0 = s.mshr.amoHit := by
    rw [← hw .sAmoHitM0]; simp only [net, mshrDeallocOut]; rfl
  have sMshrPtr : w .sMshrPtr = s.mshr.repl := by
    rw [← hw .sMshrPtr]; simp only [net, mshrDeallocOut]; rfl
  have sMshrType : w .sMshrType = s.mshr.ty := by
    rw [← hw .sMshrType]; simp only [net, mshrDeallocOut]; rfl
  have sMshrEmpty : w .sMshrEmpty = s.mshrEmpty := by
    rw [← hw .sMshrEmpty]; simp only [net, hE.mshrNum]; rfl
  have sMshrFull : w .sMshrFull = mshrFull s.mshrNum (s.allocEn j) := by
    rw [← hw .sMshrFull]; simp only [net, hE.mshrNum, cAllocEn]; rfl
  have sMemrespTypeM0 : w .sMemrespTypeM0 = s.mresp0.ty := by
    rw [← hw .sMemrespTypeM0]; simp only [net, hmr]
  have memrespValM0 : w .memrespValM0 = s.mrespVal0 := by
    rw [← hw .memrespValM0]; simp only [net, sMemrespTypeM0, hE.memrespEnM0]; rfl
  have memrespWrAckM0 : w .memrespWrAckM0 = s.wrAck0 := by
    rw [← hw .memrespWrAckM0]; simp only [net, sMemrespTypeM0, hE.memrespEnM0]; rfl
  have prevFlushDoneM0 : w .prevFlushDoneM0 = s.prevFlushDone := by
    rw [← hw .prevFlushDoneM0]; simp only [net, noFlushM1, memrespWrAckM0, flushRefillM1]; rfl
  have mshrDeallocMuxIn : w .mshrDeallocMuxIn = encReq s.mshr.toReq := by
    rw [← hw .mshrDeallocMuxIn]; simp only [net, mshrDeallocOut]; rfl
  have cReqMuxSelM0 : w .cReqMuxSelM0 = (s.fsm == .replay || s.mrespEn0) := by
    rw [← hw .cReqMuxSelM0]; simp only [net, hE.fsmM0, hE.memrespEnM0]
    cases s.fsm <;> rfl
  have reqMuxM0 : w .reqMuxM0 = encReq (s.req0 j) := by
    rw [← hw .reqMuxM0]; simp only [net, cReqMuxSelM0, mshrDeallocMuxIn, hj4]
    unfold St.req0
    cases (s.fsm == .replay || s.mrespEn0) <;> rfl
  have sCachereqTypeM0 : w .sCachereqTypeM0 = (s.req0 j).ty := by
    rw [← hw .sCachereqTypeM0]; simp only [net, reqMuxM0]; rfl
  have transM0 : w .transM0 = encTrans (s.trans0 j) := by
    rw [← hw .transM0]
    simp only [net, hE.fsmM0, writeHitCleanM0, sMshrEmpty, sMshrType, prevFlushDoneM0, flushSentM1,
      memrespWrAckM0, memrespValM0, hj1, sCachereqTypeM0, transB_eq]
  have fsmNextM0 : w .fsmNextM0 = encFsm (s.fsmNext j) := by
    rw [← hw .fsmNextM0]
    simp only [net, hE.fsmM0, hE.counterM0, memrespValM0, memrespWrAckM0, sMshrType, sCachereqTypeM0,
      sMshrEmpty, hj1, prevFlushDoneM0, flushSentM1, fsmNextB_eq]
  have cRegEnM0 : w .cRegEnM0 = !s.stall j := by
    rw [← hw .cRegEnM0]; simp only [net, stallM0]
  have counterEnM0 : w .counterEnM0 = s.cntEn0 (s.trans0 j) := by
    rw [← hw .counterEnM0]; simp only [net, hE.fsmM0, transM0, counterEnB_eq]
  have counterEn : w .counterEn = (!s.stall j && s.cntEn0 (s.trans0 j)) := by
    rw [← hw .counterEn]; simp only [net, counterEnM0, cRegEnM0]
  have updWayIdxM0 : w .updWayIdxM0 = s.updIdx0 (s.trans0 j) := by
    rw [← hw .updWayIdxM0]; simp only [net, hE.counterM0, transM0, updWayIdxB_eq]
  have cachereqRdy : w .cachereqRdy = s.reqRdy j := by
    rw [← hw .cachereqRdy]; simp only [net, writeHitCleanM0, stallM0, sMshrEmpty, sMshrFull, hE.fsmM0]
    unfold St.reqRdy
    cases s.fsm <;> rfl
  have hcs0 : cs0Word p (w .transM0) = row0 (encTagWben p (cs0 (s.trans0 j)).wben) (cs0 (s.trans0 j)).wdataSel
      (cs0 (s.trans0 j)).addrSel (cs0 (s.trans0 j)).wr (encTagCmd (cs0 (s.trans0 j)).cmd)
      (cs0 (s.trans0 j)).idxSel (cs0 (s.trans0 j)).tagSel (cs0 (s.trans0 j)).dealloc := by
    rw [transM0, cs0Word_eq]
  have b0 := row0_bits (encTagWben p (cs0 (s.trans0 j)).wben) (cs0 (s.trans0 j)).wdataSel
      (cs0 (s.trans0 j)).addrSel (cs0 (s.trans0 j)).wr (encTagCmd (cs0 (s.trans0 j)).cmd)
      (cs0 (s.trans0 j)).idxSel (cs0 (s.trans0 j)).tagSel (cs0 (s.trans0 j)).dealloc
  have cTagWbenM0 : w .cTagWbenM0 = encTagWben p (cs0 (s.trans0 j)).wben := by
    rw [← hw .cTagWbenM0]; simp only [net, hcs0, row0_wben]
  have cWdataSelM0 : w .cWdataSelM0 = (cs0 (s.trans0 j)).wdataSel := by
    rw [← hw .cWdataSelM0]; simp only [net, hcs0, b0]
  have cAddrSelM0 : w .cAddrSelM0 = (cs0 (s.trans0 j)).addrSel := by
    rw [← hw .cAddrSelM0]; simp only [net, hcs0, b0]
  have cTagTypeM0 : w .cTagTypeM0 = (cs0 (s.trans0 j)).wr := by
    rw [← hw .cTagTypeM0]; simp only [net, hcs0, b0]
  have cTagCmdM0 : w .cTagCmdM0 = encTagCmd (cs0 (s.trans0 j)).cmd := by
    rw [← hw .cTagCmdM0]; simp only [net, hcs0, row0_cmd]
  have cTagIdxSelM0 : w .cTagIdxSelM0 = (cs0 (s.trans0 j)).idxSel := by
    rw [← hw .cTagIdxSelM0]; simp only [net, hcs0, b0]
  have cTagSelM0 : w .cTagSelM0 = (cs0 (s.trans0 j)).tagSel := by
    rw [← hw .cTagSelM0]; simp only [net, hcs0, b0]
  have cDeallocEn : w .cDeallocEn = ((cs0 (s.trans0 j)).dealloc && !s.stall j) := by
    rw [← hw .cDeallocEn]; simp only [net, hcs0, b0, stallM0]
  have cTagInitIdxM0 : w .cTagInitIdxM0 = cntIdx p (s.updIdx0 (s.trans0 j)) := by
    rw [← hw .cTagInitIdxM0]; simp only [net, updWayIdxM0]
    unfold cntIdx
    apply BitVec.eq_of_getLsbD_eq
    intro k hk
    simp [hk]
  have cIsAmoM0 : w .cIsAmoM0 = isAmo0 (s.trans0 j) := by
    rw [← hw .cIsAmoM0]
    simp only [net, transM0, show TR.REPLAY_AMO = encTrans .replayAmo from rfl,
      show TR.AMO_REQ = encTrans .amoReq from rfl, encTrans_beq]
    rfl
  have htv := tagValB_eq s (s.trans0 j)
  have cTagValM0 : ∀ k : Way, (w .cTagValM0).getLsbD k.toNat = s.tagVal0 (s.trans0 j) k := by
    intro k
    rw [← hw .cTagValM0]
    simp only [net, transM0, updWayIdxM0, sMshrPtr, sAmoHitM0, sRepRdM1, sHitWayM1, htv.1]
  have cUpdTagWayM0 : w .cUpdTagWayM0 = s.updWay0 (s.trans0 j) := by
    rw [← hw .cUpdTagWayM0]
    simp only [net, transM0, updWayIdxM0, sMshrPtr, sAmoHitM0, sRepRdM1, sHitWayM1, htv.2]
  have addrFwdM1 : w .addrFwdM1 = packAddr s.req1.addr := by
    rw [← hw .addrFwdM1]; simp only [net, hE.cachereqM1]
  have lenFwdM1 : w .lenFwdM1 = s.req1.len := by
    rw [← hw .lenFwdM1]; simp only [net, hE.cachereqM1]
  have addrMuxM0 : unpackAddr (w .addrMuxM0) =
      if (cs0 (s.trans0 j)).addrSel then s.req1.addr else (s.req0 j).addr := by
    rw [← hw .addrMuxM0]; simp only [net, cAddrSelM0, addrFwdM1, reqMuxM0]
    cases (cs0 (s.trans0 j)).addrSel <;> simp [encReq, unpack_packAddr]
  have lenMuxM0 : w .lenMuxM0 = if (cs0 (s.trans0 j)).addrSel then s.req1.len else (s.req0 j).len := by
    rw [← hw .lenMuxM0]; simp only [net, cAddrSelM0, lenFwdM1, reqMuxM0]; rfl
  have replOutM0 : w .replOutM0 = replicator p (isAmo0 (s.trans0 j)) (s.req0 j).len (s.req0 j).data := by
    rw [← hw .replOutM0]; simp only [net, cIsAmoM0, reqMuxM0, replicatorW_eq wf]; rfl
  have wdataMuxM0 : w .wdataMuxM0 = if (cs0 (s.trans0 j)).wdataSel then s.mresp0.data
      else replicator p (isAmo0 (s.trans0 j)) (s.req0 j).len (s.req0 j).data := by
    rw [← hw .wdataMuxM0]; simp only [net, cWdataSelM0, hmd, replOutM0]
  have cachereqM0 : w .cachereqM0 = s.pmsg0 j (s.trans0 j) := by
    rw [← hw .cachereqM0]; simp only [net, addrMuxM0, lenMuxM0, wdataMuxM0, reqMuxM0]; rfl
  have hitWayBypassM1 : w .hitWayBypassM1 = s.cmp.way := by
    rw [← hw .hitWayBypassM1]; simp only [net, sHitWayM1]
  have updWayMuxM0 : w .updWayMuxM0 =
      if (cs0 (s.trans0 j)).tagSel then s.updWay0 (s.trans0 j) else s.cmp.way := by
    rw [← hw .updWayMuxM0]; simp only [net, cTagSelM0, cUpdTagWayM0, hitWayBypassM1]
  have updTagOut : w .updTagOut = updateTag p (cs0 (s.trans0 j)).cmd
      (s.tagEntry (if (cs0 (s.trans0 j)).tagSel then s.updWay0 (s.trans0 j) else s.cmp.way))
      (s.pmsg0 j (s.trans0 j)).addr.off (s.pmsg0 j (s.trans0 j)).len s.mshr.dirty := by
    rw [← hw .updTagOut]
    simp only [net, cTagCmdM0, updWayMuxM0, hpick, cachereqM0, mshrDeallocOut, updateTagW_eq]; rfl
  have tagIdxMuxM0 : w .tagIdxMuxM0 = s.tagIdx0 j (s.trans0 j) := by
    rw [← hw .tagIdxMuxM0]; simp only [net, cTagIdxSelM0, cTagInitIdxM0, cachereqM0]; rfl
  have tagTagMuxM0 : w .tagTagMuxM0 = if (cs0 (s.trans0 j)).tagSel then (w .updTagOut).tag
      else (s.pmsg0 j (s.trans0 j)).addr.tag := by
    rw [← hw .tagTagMuxM0]; simp only [net, cTagSelM0, cachereqM0]
  have tagStructM0 : w .tagStructM0 = s.tagWdata0 j (s.trans0 j) := by
    rw [← hw .tagStructM0]; simp only [net, tagTagMuxM0, updTagOut]; rfl
  have tagWdataM0 : w .tagWdataM0 = packEntry (s.tagWdata0 j (s.trans0 j)) := by
    rw [← hw .tagWdataM0]; simp only [net, tagStructM0]
  have numEntriesIn : w .numEntriesIn =
      mshrNumNext (s.allocEn j) ((cs0 (s.trans0 j)).dealloc && !s.stall j) s.mshrNum := by
    rw [← hw .numEntriesIn]; simp only [net, cAllocEn, cDeallocEn, hE.mshrNum]; rfl
  have memrespRdy : w .memrespRdy = true := by
    rw [← hw .memrespRdy]; simp only [net]
  have cRegEnM1 : w .cRegEnM1 = (!s.stall j && !s.status1.evict && (s.trans0 j != .cacheInit)) := by
    rw [← hw .cRegEnM1]; simp only [net, stallM1, isEvictM1, transM0, ci, encTrans_bne]
  have pipeEnM1 : w .pipeEnM1 = (!s.stall j && !s.status1.evict && (s.trans0 j != .cacheInit) ||
      (s.trans0 j == .cacheInit)) := by
    rw [← hw .pipeEnM1]; simp only [net, cRegEnM1, transM0, ci, encTrans_beq]
  have cFlushInitEnM1 : w .cFlushInitEnM1 = (!s.stall j && !s.status1.evict && (s.trans0 j != .cacheInit) ||
      (s.trans0 j == .cacheInit)) := by
    rw [← hw .cFlushInitEnM1]; simp only [net, pipeEnM1]
  exact ⟨ostallM2, memreqEn, cacherespEn, memreqM2, cacherespM2, cRegEnM2, pipeEnM2, cStallRegEnM2,
    cStallRegEnM1, cHitStallEnM1, hitStallInM1, isEvictM1, hitM1, flushSentM1, cRepEnM1, hreplRegIn,
    writeMaskM1, cAllocEn, mshrAllocIn, cachereqM1b, cDataValM1, cDataTypeM1, dataIdxM1, dataWdataM1,
    dataWbenM1, cRegEnM1, pipeEnM1, cFlushInitEnM1, cachereqRdy, memrespRdy, cRegEnM0, transM0, fsmNextM0, counterEn,
    sMshrPtr, mshrDeallocOut, cUpdTagWayM0, cTagInitIdxM0, cachereqM0, cTagValM0, cTagTypeM0, cTagWbenM0,
    tagIdxMuxM0, tagWdataM0, numEntriesIn⟩

/-! ## Outputs and clock edge -/

/-- The output ports are those of the cycle model. -/
theorem sim_out (wf : p.WF) {r : Regs p} {s : St p} (hE : Enc r s) {i : PIn p} {w : (x : Wire) → T p x}
    (hw : Settled r i w) : outOf w = encOut (s.out (decIn i)) := by
  have v := vals wf hE hw
  simp only [outOf, v.cachereqRdy, v.cacherespEn, v.cacherespM2, v.memreqEn, v.memreqM2, v.memrespRdy]
  rfl

private theorem regEn3 {α : Type} (en : Bool) (rv inp old : α) :
    regEnRst false en rv inp old = if en then inp else old := rfl

/-- The clock edge without reset. -/
theorem sim_next (wf : p.WF) {r : Regs p} {s : St p} (hE : Enc r s) {i : PIn p} {w : (x : Wire) → T p x}
    (hw : Settled r i w) (hr : i.reset = false) : Enc (regsNext r i w) (s.next (decIn i)) := by
  have v := vals wf hE hw
  constructor <;> simp only [regsNext, hr, regEn3, regRst, regEn, Bool.false_eq_true, if_false]
  · simp only [v.cRegEnM0, hE.memrespEnM0]; rfl
  · simp only [v.cRegEnM0, v.fsmNextM0, hE.fsmM0, St.next]
    cases s.stall (decIn i) <;> rfl
  · simp only [v.counterEn, hE.counterM0]; rfl
  · simp only [v.pipeEnM1, v.transM0, hE.transM1, St.next, apply_ite encTrans]
  · simp only [v.pipeEnM1, v.sMshrPtr, hE.wayPtrM1]; rfl
  · simp only [v.pipeEnM1, v.cUpdTagWayM0, hE.updTagWayM1]; rfl
  · simp only [v.ostallM2]; rfl
  · simp only [v.pipeEnM2, hE.transM1, hE.transM2, St.next, apply_ite encTrans]
  · simp only [v.pipeEnM2, v.isEvictM1, hE.isEvictM2]; rfl
  · simp only [v.pipeEnM2, v.hitM1, hE.hitRegM2]; rfl
  · simp only [v.pipeEnM2, v.flushSentM1, hE.flushSentM2]; rfl
  · simp only [v.cRegEnM0, apply_ite decMResp, hE.pipelineRegM0]; rfl
  · simp only [v.cRegEnM1, v.cachereqM0, hE.cachereqM1]; rfl
  · simp only [v.cFlushInitEnM1, v.cTagInitIdxM0, hE.flushIdxM1]; rfl
  · simp only [v.cRegEnM1, v.mshrDeallocOut, hE.dtyBitsMaskM1]; rfl
  · intro x
    simp only [v.cRepEnM1, v.replRegIn, St.next, replBitsNext]
    cases (s.status1.repEn && !(s.cs2 (decIn i)).ostall)
    · simp [hE.replBits]
    · simp [replRegIn_eq, hE.replBits]
  · intro k j
    simp only [SramG.edge_ram, v.cTagValM0, v.cTagTypeM0, v.tagIdxMuxM0, v.tagWdataM0, v.cTagWbenM0, hE.tagRam,
      merge_packEntry, St.next, apply_ite packEntry]
  · intro k
    simp only [SramG.edge_dout, v.cTagValM0, v.cTagTypeM0, v.tagIdxMuxM0, hE.tagRam, hE.tagDout, St.next,
      apply_ite packEntry]
  · intro k
    simp only [v.cStallRegEnM1, SramG.rdata_eq, hE.tagDout, unpack_packEntry, hE.tagStall]; rfl
  · simp only [v.numEntriesIn]; rfl
  · simp only [v.cAllocEn, v.mshrAllocIn, hE.mshr, St.next, apply_ite encMshr]
  · simp only [v.cHitStallEnM1, v.hitStallInM1, hE.hitStall]; rfl
  · simp only [v.cRegEnM2, v.cachereqM1b, hE.cachereqM2]; rfl
  · simp only [v.cRegEnM2, v.writeMaskM1, hE.writeMaskM2]; rfl
  · intro j
    simp only [SramG.edge_ram, v.cDataValM1, v.cDataTypeM1, v.dataIdxM1, v.dataWdataM1, v.dataWbenM1,
      hE.dataRam]; rfl
  · simp only [SramG.edge_dout, v.cDataValM1, v.cDataTypeM1, v.dataIdxM1, hE.dataRam, hE.dataDout]; rfl
  · simp only [v.cStallRegEnM2, SramG.rdata_eq, hE.dataDout, hE.dataStall]; rfl

/-- Reset values of the registers with a reset; the SRAMs and the registers of
the stall engines do not have one. Proof device; not in the source. -/
def rstRegs (r : Regs p) : Regs p :=
  { r with
    memrespEnM0 := false
    fsmM0 := FS.INIT
    counterM0 := BitVec.ofNat _ (2 ^ p.cntBits - 1)
    transM1 := 0
    wayPtrM1 := false
    updTagWayM1 := false
    wasStalled := false
    transM2 := 0
    isEvictM2 := false
    hitRegM2 := false
    flushSentM2 := false
    pipelineRegM0 := ⟨0, 0, 0, 0, 0, 0⟩
    cachereqM1 := ⟨0, 0, ⟨0, 0, 0⟩, 0, 0⟩
    flushIdxM1 := 0
    dtyBitsMaskM1 := 0
    replBits := 0
    mshrNum := 0
    mshr := ⟨0, 0, 0, 0, 0, false, false, 0⟩
    cachereqM2 := ⟨0, 0, ⟨0, 0, 0⟩, 0, 0⟩
    writeMaskM2 := 0 }

theorem regsNext_reset (r : Regs p) (i : PIn p) (w : (x : Wire) → T p x) (hr : i.reset = true) :
    regsNext r i w = rstRegs (regsNext r { i with reset := false } w) := by
  simp only [regsNext, rstRegs, hr, regEnRst, regRst, if_true]

theorem packAddr_zero : packAddr (⟨0, 0, 0⟩ : Addr p) = 0 := by
  apply BitVec.eq_of_getLsbD_eq
  intro i hi
  rw [getLsbD_packAddr]
  simp

theorem enc_rst {r : Regs p} {s : St p} (hE : Enc r s) : Enc (rstRegs r) s.rst := by
  constructor
  case replBits => intro x; show (0 : BitVec _).getLsbD _ = false; simp
  case mshr =>
    show (⟨0, 0, 0, 0, 0, false, false, 0⟩ : WMshr p) = ⟨0, 0, packAddr ⟨0, 0, 0⟩, 0, 0, false, false, 0⟩
    rw [packAddr_zero]
  case tagRam => exact hE.tagRam
  case tagDout => exact hE.tagDout
  case tagStall => exact hE.tagStall
  case hitStall => exact hE.hitStall
  case dataRam => exact hE.dataRam
  case dataDout => exact hE.dataDout
  case dataStall => exact hE.dataStall
  all_goals rfl

/-- **The clock edge is that of the cycle model.** -/
theorem sim (wf : p.WF) {r : Regs p} {s : St p} (hE : Enc r s) {i : PIn p} {w : (x : Wire) → T p x}
    (hw : Settled r i w) :
    outOf w = encOut (s.out (decIn i)) ∧ Enc (regsNext r i w) (s.step (decIn i)) := by
  refine ⟨sim_out wf hE hw, ?_⟩
  cases hr : i.reset
  · have := sim_next wf hE hw hr
    have h2 : (decIn i).reset = false := hr
    simpa [St.step, h2] using this
  · have hw' : Settled r { i with reset := false } w := by
      intro x
      rw [← hw x]
      rfl
    have h1 := sim_next wf hE hw' rfl
    have h2 : (decIn i).reset = true := hr
    rw [regsNext_reset r i w hr]
    have h3 : s.step (decIn i) = (s.next (decIn { i with reset := false })).rst := by
      simp only [St.step, h2, if_true]
      rfl
    rw [h3]
    exact enc_rst h1

end Verif.Net
