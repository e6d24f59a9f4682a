import Verif.NetEnc
import Verif.NetSched

/-!
# The netlist and the cycle model

`Enc r s`: the registers `r` of the netlist hold the encoding of the state `s`
of `RTL.lean`.  The theorem `sim` shows that for settled wires the output ports
and the registers after the clock edge are those of the cycle model.
-/

namespace Verif.Net
variable {p : Params}

/-- A processor request as a message with a flat address. Proof device; not in the source. -/
def encReq (q : CReq p) : WReq p := ⟨q.ty, q.opq, packAddr q.addr, q.len, q.data⟩
/-- The request in a message. Proof device; not in the source. -/
def decReq (q : WReq p) : CReq p := ⟨q.ty, q.opq, unpackAddr q.addr, q.len, q.data⟩
/-- A memory request as a message with a flat address. Proof device; not in the source. -/
def encMReq (q : MReq p) : WMReq p := ⟨q.ty, q.opq, packAddr q.addr, q.len, q.wmask, q.data⟩
/-- The memory request in a message. Proof device; not in the source. -/
def decMReq (q : WMReq p) : MReq p := ⟨q.ty, q.opq, unpackAddr q.addr, q.len, q.wmask, q.data⟩
/-- The fields of a memory response the cache looks at. Proof device; not in the source. -/
def decMResp (q : WMResp p) : MResp p := ⟨q.ty, q.opq, q.data⟩
/-- An MSHR entry as a message with a flat address. Proof device; not in the source. -/
def encMshr (m : MshrMsg p) : WMshr p :=
  ⟨m.ty, m.opq, packAddr m.addr, m.len, m.data, m.repl, m.amoHit, m.dirty⟩

/-- Input ports as inputs of the cycle model. Proof device; not in the source. -/
def decIn (i : PIn p) : In p :=
  ⟨i.reset, i.cachereqEn, decReq i.cachereqMsg, i.cacherespRdy, i.memreqRdy, i.memrespEn, decMResp i.memrespMsg⟩

/-- Outputs of the cycle model as output ports. Proof device; not in the source. -/
def encOut (o : Out p) : POut p where
  cachereqRdy := o.reqRdy
  cacherespEn := o.respEn
  cacherespMsg := o.resp
  memreqEn := o.mreqEn
  memreqMsg := encMReq o.mreq
  memrespRdy := true

theorem enc_decReq (q : WReq p) : encReq (decReq q) = q := by
  cases q; simp [encReq, decReq, pack_unpackAddr]

theorem dec_encReq (q : CReq p) : decReq (encReq q) = q := by
  cases q; simp [encReq, decReq, unpack_packAddr]

theorem enc_decMReq (q : WMReq p) : encMReq (decMReq q) = q := by
  cases q; simp [encMReq, decMReq, pack_unpackAddr]

theorem dec_encMReq (q : MReq p) : decMReq (encMReq q) = q := by
  cases q; simp [encMReq, decMReq, unpack_packAddr]

/-- The registers `r` hold the state `s`. Proof device; not in the source. -/
structure Enc (r : Regs p) (s : St p) : Prop where
  memrespEnM0 : r.memrespEnM0 = s.mrespEn0
  fsmM0 : r.fsmM0 = encFsm s.fsm
  counterM0 : r.counterM0 = s.cnt
  transM1 : r.transM1 = encTrans s.t1
  wayPtrM1 : r.wayPtrM1 = s.wayPtr1
  updTagWayM1 : r.updTagWayM1 = s.updWay1
  wasStalled : r.wasStalled = s.wasStalled
  transM2 : r.transM2 = encTrans s.t2
  isEvictM2 : r.isEvictM2 = s.evict2
  hitRegM2 : r.hitRegM2 = s.hit2
  flushSentM2 : r.flushSentM2 = s.flushSent2
  pipelineRegM0 : decMResp r.pipelineRegM0 = s.mresp0
  cachereqM1 : r.cachereqM1 = s.req1
  flushIdxM1 : r.flushIdxM1 = s.flushIdx1
  dtyBitsMaskM1 : r.dtyBitsMaskM1 = s.dtyMask1
  replBits : ∀ x : Idx p, r.replBits.getLsbD x.toNat = s.rep x
  tagRam : ∀ k j, (r.tagArrays k).ram j = packEntry (s.tagRam k j)
  tagDout : ∀ k, (r.tagArrays k).dout = packEntry (s.tagDout k)
  tagStall : ∀ k, r.tagStall k = s.tagStall k
  mshrNum : r.mshrNum = s.mshrNum
  mshr : r.mshr = encMshr s.mshr
  hitStall : r.hitStall = s.hitStall
  cachereqM2 : r.cachereqM2 = s.req2
  writeMaskM2 : r.writeMaskM2 = s.wmask2
  dataRam : ∀ j, r.dataArray.ram j = s.data.ram j
  dataDout : r.dataArray.dout = s.data.dout
  dataStall : r.dataStall = s.dataStall

/-! ## The update blocks of the control unit -/

theorem fsmNextB_eq (s : St p) (i : In p) :
    fsmNextB (encFsm s.fsm) s.cnt s.mrespVal0 s.wrAck0 s.mshr.ty (s.req0 i).ty s.mshrEmpty i.reqEn
      s.prevFlushDone s.flushSent1 = encFsm (s.fsmNext i) := by
  unfold fsmNextB St.fsmNext
  generalize s.mrespVal0 = a
  generalize s.wrAck0 = b
  generalize s.mshrEmpty = c
  generalize s.prevFlushDone = d
  generalize s.flushSent1 = e
  generalize (s.req0 i).ty = ct
  generalize i.reqEn = q
  generalize s.mshr.ty = mt
  have e1 : encFsm .init = 0#3 := rfl
  have e2 : encFsm .ready = 1#3 := rfl
  have e3 : encFsm .replay = 2#3 := rfl
  have e4 : encFsm .inv = 3#3 := rfl
  have e5 : encFsm .flush = 4#3 := rfl
  have e6 : encFsm .flushWait = 5#3 := rfl
  cases s.fsm <;> simp [FS.INIT, FS.READY, FS.REPLAY, FS.INV, FS.FLUSH, FS.FLUSH_WAIT, apply_ite encFsm,
    apply_ite (f := Id.run), e1, e2, e3, e4, e5, e6]

theorem transB_eq (s : St p) (i : In p) :
    transB (encFsm s.fsm) s.status1.cleanHit s.mshrEmpty s.mshr.ty s.prevFlushDone s.flushSent1 s.wrAck0
      s.mrespVal0 i.reqEn (s.req0 i).ty = encTrans (s.trans0 i) := by
  unfold transB St.trans0
  generalize s.mrespVal0 = a
  generalize s.wrAck0 = b
  generalize s.mshrEmpty = c
  generalize s.prevFlushDone = d
  generalize s.flushSent1 = e
  generalize (s.req0 i).ty = ct
  generalize i.reqEn = q
  generalize s.mshr.ty = mt
  generalize s.status1.cleanHit = h
  have e1 : encFsm .init = 0#3 := rfl
  have e2 : encFsm .ready = 1#3 := rfl
  have e3 : encFsm .replay = 2#3 := rfl
  have e4 : encFsm .inv = 3#3 := rfl
  have e5 : encFsm .flush = 4#3 := rfl
  have e6 : encFsm .flushWait = 5#3 := rfl
  cases s.fsm <;> simp [FS.INIT, FS.READY, FS.REPLAY, FS.INV, FS.FLUSH, FS.FLUSH_WAIT, apply_ite encTrans,
    apply_ite (f := Id.run), e1, e2, e3, e4, e5, e6, MT.isAmo]
  all_goals rfl

theorem counterEnB_eq (s : St p) (t : Trans) :
    counterEnB (encFsm s.fsm) (encTrans t) = s.cntEn0 t := by
  unfold counterEnB St.cntEn0
  generalize s.fsm = f
  cases f <;> cases t <;> rfl

theorem updWayIdxB_eq (s : St p) (t : Trans) : updWayIdxB s.cnt (encTrans t) = s.updIdx0 t := by
  cases t <;> rfl

theorem flushReadB_eq {n : Nat} (t : Trans) (d : BitVec n) (k : Way) :
    flushReadB (encTrans t) d k =
      ((t == .flushRead) && !d.getLsbD k.toNat, (t == .flushRead) && d.getLsbD k.toNat) := by
  unfold flushReadB
  generalize d.getLsbD k.toNat = b
  cases t <;> cases b <;> rfl

theorem wayOffsetB_eq (s : St p) :
    wayOffsetB (encTrans s.t1) s.cmp.way s.wayPtr1 s.status1.hit s.cmp.inval s.repRd s.hitInfo.2 s.updWay1 =
      s.wayOff := by
  unfold wayOffsetB St.wayOff
  generalize s.cmp.way = a
  generalize s.status1.hit = b
  generalize s.cmp.inval = c
  cases s.t1 <;> cases b <;> cases c <;> rfl

theorem statusB_eq {n : Nat} (s : St p) (dl dw : BitVec n) (hl : ∀ k : Way, dl.getLsbD k.toNat = s.lineDty k)
    (hd : ∀ k : Way, dw.getLsbD k.toNat = s.wordDty k) :
    let o := statusB (encTrans s.t1) dl dw s.cmp.hit s.cmp.inval s.cmp.way s.repRd
    o.hit = s.status1.hit ∧ o.evict = s.status1.evict ∧ o.cleanHit = s.status1.cleanHit ∧
    o.repEn = s.status1.repEn ∧ o.repIsHit = s.status1.repIsHit ∧ o.repHitPtr = s.status1.repHitPtr := by
  unfold statusB St.status1
  simp only [hl, hd]
  generalize s.wordDty s.cmp.way = a
  generalize s.lineDty s.repRd = b
  generalize s.lineDty s.cmp.way = c
  generalize s.cmp.way = k
  generalize s.cmp.hit = h
  generalize s.cmp.inval = v
  cases s.t1
  case initReq | writeReq | readReq =>
    cases h <;> cases v <;> cases a <;> cases b <;> exact ⟨rfl, rfl, rfl, rfl, rfl, rfl⟩
  case amoReq => cases h <;> cases v <;> cases c <;> exact ⟨rfl, rfl, rfl, rfl, rfl, rfl⟩
  all_goals exact ⟨rfl, rfl, rfl, rfl, rfl, rfl⟩

theorem getLsbD_setWay (v : BitVec (assoc p)) (k j : Way) :
    (setWay v k).getLsbD j.toNat = (v.getLsbD j.toNat || (decide (j ∈ p.ways) && (j == k))) := by
  simp only [setWay, BitVec.getLsbD_or, BitVec.getLsbD_twoPow, way_mem_iff]
  cases j <;> cases k <;> simp

theorem cntWay_eq (c : BitVec p.cntBits) (k : Way) (hk : k ∈ p.ways) :
    (c.toNat % assoc p == k.toNat) = (k == cntWay p c) := by
  have h0 : c.getLsbD 0 = (c.toNat % 2 == 1) := by
    rw [BitVec.getLsbD, Nat.testBit_zero]
    rfl
  cases h : p.twoWay
  · simp only [Params.ways, h] at hk
    have : k = false := by simpa using hk
    subst this
    simp [assoc, cntWay, h, Nat.mod_one]
  · simp only [assoc, cntWay, h, if_true, Bool.true_and, h0]
    have := Nat.mod_two_eq_zero_or_one c.toNat
    rcases this with h1 | h1 <;> rw [h1] <;> cases k <;> rfl

private theorem tagLoop (c : BitVec p.cntBits) :
    (Id.run (do
      let mut update_tag_way := false
      let mut val : BitVec (assoc p) := 0
      for i in p.ways do
        if c.toNat % assoc p == i.toNat then
          val := setWay val i
          update_tag_way := i
      return (val, update_tag_way))) = (setWay 0 (cntWay p c), cntWay p c) := by
  cases h : p.twoWay
  · have hw : p.ways = [false] := by simp [Params.ways, h]
    have e := cntWay_eq c false (by simp [hw])
    have hc : cntWay p c = false := by simp [cntWay, h]
    simp only [hw, List.forIn_cons, List.forIn_nil, e, hc]
    rfl
  · have hw : p.ways = [false, true] := by simp [Params.ways, h]
    have e := cntWay_eq c false (by simp [hw])
    have e' := cntWay_eq c true (by simp [hw])
    simp only [hw, List.forIn_cons, List.forIn_nil, e, e']
    generalize cntWay p c = k
    cases k <;> rfl

private theorem allLoop (k : Way) :
    ((Id.run (do
      let mut val : BitVec (assoc p) := 0
      for i in p.ways do
        val := setWay val i
      return val)).getLsbD k.toNat) = decide (k ∈ p.ways) := by
  cases h : p.twoWay
  · have hw : p.ways = [false] := by simp [Params.ways, h]
    simp only [hw, List.forIn_cons, List.forIn_nil]
    show (setWay 0 false : BitVec (assoc p)).getLsbD k.toNat = _
    rw [getLsbD_setWay, hw]
    cases k <;> simp
  · have hw : p.ways = [false, true] := by simp [Params.ways, h]
    simp only [hw, List.forIn_cons, List.forIn_nil]
    show (setWay (setWay 0 false) true : BitVec (assoc p)).getLsbD k.toNat = _
    rw [getLsbD_setWay, getLsbD_setWay, hw]
    cases k <;> simp

theorem tagValB_eq (s : St p) (t : Trans) :
    (∀ k : Way, (tagValB p (encTrans t) (s.updIdx0 t) s.mshr.repl s.mshr.amoHit s.repRd s.cmp.way).1.getLsbD
      k.toNat = s.tagVal0 t k) ∧
    (tagValB p (encTrans t) (s.updIdx0 t) s.mshr.repl s.mshr.amoHit s.repRd s.cmp.way).2 = s.updWay0 t := by
  have hloop : ∀ t, (t = .cacheInit ∨ t = .invWrite ∨ t = .replayInv ∨ t = .flushRead ∨ t = .flushWrite ∨
      t = .replayFlush) →
      tagValB p (encTrans t) (s.updIdx0 t) s.mshr.repl s.mshr.amoHit s.repRd s.cmp.way =
        (setWay 0 (cntWay p (s.updIdx0 t)), cntWay p (s.updIdx0 t)) := by
    intro t ht
    rw [← tagLoop]
    rcases ht with rfl | rfl | rfl | rfl | rfl | rfl <;> rfl
  have hall : ∀ t, (t = .readReq ∨ t = .writeReq ∨ t = .amoReq) →
      tagValB p (encTrans t) (s.updIdx0 t) s.mshr.repl s.mshr.amoHit s.repRd s.cmp.way =
        (Id.run (do
          let mut val : BitVec (assoc p) := 0
          for i in p.ways do
            val := setWay val i
          return val), false) := by
    intro t ht
    rcases ht with rfl | rfl | rfl <;> rfl
  have h0 : ∀ k : Way, (0 : BitVec (assoc p)).getLsbD k.toNat = false := by simp
  cases t
  case cacheInit | invWrite | replayInv | flushRead | flushWrite | replayFlush =>
    rw [hloop _ (by simp)]
    exact ⟨fun k => by rw [getLsbD_setWay, h0, Bool.false_or]; rfl, rfl⟩
  case readReq | writeReq | amoReq =>
    rw [hall _ (by simp)]
    exact ⟨fun k => by rw [allLoop]; simp [St.tagVal0], rfl⟩
  case replayAmo =>
    cases h : s.mshr.amoHit
    · exact ⟨fun k => by rw [show (tagValB p (encTrans .replayAmo) (s.updIdx0 .replayAmo) s.mshr.repl false
        s.repRd s.cmp.way).1 = 0 from rfl, h0]; simp [St.tagVal0, h], rfl⟩
    · exact ⟨fun k => by rw [show (tagValB p (encTrans .replayAmo) (s.updIdx0 .replayAmo) s.mshr.repl true
        s.repRd s.cmp.way).1 = setWay 0 s.mshr.repl from rfl, getLsbD_setWay, h0]; simp [St.tagVal0, h], rfl⟩
  case refill | replayWrite =>
    exact ⟨fun k => (getLsbD_setWay 0 s.mshr.repl k).trans (by rw [h0, Bool.false_or]; rfl), rfl⟩
  case initReq =>
    exact ⟨fun k => (getLsbD_setWay 0 s.repRd k).trans (by rw [h0, Bool.false_or]; rfl), rfl⟩
  case cleanHit =>
    exact ⟨fun k => (getLsbD_setWay 0 s.cmp.way k).trans (by rw [h0, Bool.false_or]; rfl), rfl⟩
  all_goals exact ⟨fun k => (h0 k).trans (by simp [St.tagVal0]), rfl⟩

end Verif.Net
