import Verif.SimInv

/-!
# Simulation of the RTL by the event-level machine: flush
-/

namespace Verif
variable {p : Params} {U : Prop}

theorem lineNo_toNat {c : Nat} (h : c < 2 ^ p.cntBits) : (lineNo p c).toNat = c := by
  simp [lineNo, Nat.mod_eq_of_lt h]

theorem lineNo_eq (c : BitVec p.cntBits) : lineNo p c.toNat = c := by
  apply BitVec.eq_of_toNat_eq; exact lineNo_toNat c.isLt

theorem cnt_of_succ_zero {c : BitVec p.cntBits} (h : c + 1 = lineNo p 0) : c = cntMax p := by
  have : c = lineNo p 0 - 1 := by rw [← h]; exact (BitVec.add_sub_cancel _ _).symm
  rw [this]; exact zero_sub_one

theorem cnt_of_succ {c : BitVec p.cntBits} {n : Nat} (h : c + 1 = lineNo p (n + 1)) :
    c = lineNo p n := by
  have : lineNo p (n + 1) = lineNo p n + 1 := by simp [lineNo, BitVec.ofNat_add]
  rw [this] at h
  simpa using h

theorem flush_tagRam (s : St p) (i : In p) (hT : s.trans0 i = .flushWrite ∨ s.trans0 i = .replayFlush)
    {w : Way} (hw : w ∈ p.ways) (j : Idx p) :
    (s.next i).tagRam w j = if w = cntWay p (s.cnt + 1) ∧ j = cntIdx p (s.cnt + 1) then
      { s.tagRam w j with dty := (s.tagEntry (cntWay p (s.cnt + 1))).dty } else s.tagRam w j := by
  rcases hT with hT | hT <;>
  · simp only [St.next, hT, St.tagVal0, St.updIdx0, St.tagIdx0, St.tagWdata0, cs0, updateTag, hw,
      St.updWay0, decide_true, Bool.true_and, Bool.and_true, if_true, tagMerge]
    by_cases h1 : w = cntWay p (s.cnt + 1) <;> by_cases h2 : j = cntIdx p (s.cnt + 1) <;>
      simp [h1, h2]

/-- Start reading line `c`. -/
theorem to_fl1 (s : St p) (i : In p) (L L0 : L1 p) (q : CReq p) (c : Nat)
    (hl : LegalU U s [] i) (hlt : c < 2 ^ p.cntBits) (hcnt : s.cnt = lineNo p c)
    (hC : FlC U s L L0 q (c + 1)) (hst1 : s.status1 = ⟨false, false, false, false, false, false⟩)
    (hwr : s.cs1.wr = false)
    (hst : s.stall i = false) (hf : s.fsm = .flush) (hfs : s.flushSent1 = false)
    (hnum : s.mshrNum = if s.cs1.alloc then 0 else 1)
    (hm : if s.cs1.alloc then MshrQ s.mshrIn q else MshrQ s.mshr q)
    (hadv : s.adv.msgs = []) :
    PhU U (s.next i) L (L0.flushMsgs (c + 1) ++ [.resp (mkResp q false 0)]) [] := by
  have hme := no_mresp hl
  have hg := go s i hst (by rw [hst1]) (by rw [hf]; simp)
  have hT : s.trans0 i = .flushRead := by simp [St.trans0, hf, hst1, hfs]
  have hfn : s.fsmNext i = if c = 0 then .replay else .flush := by
    simp only [St.fsmNext, hf, hfs, hcnt]
    by_cases hc : c = 0
    · simp [hc, lineNo]
    · have : lineNo p c ≠ 0 := by
        intro h
        have := congrArg BitVec.toNat h
        rw [lineNo_toNat hlt] at this
        simp at this; exact hc this
      simp only [if_neg this, if_neg hc]; rfl
  have hu : (s.next i).updWay1 = cntWay p (lineNo p c) := by
    rw [hg.updWay1, hT]; simp [St.updWay0, St.updIdx0, hcnt]
  refine .fl1 L0 q c ⟨⟨hC.cur, hC.qty, tags_of_eq hC.tags (tagRam_same s i (by rw [hT]; rfl)),
    hC.clr, ?_, hC.ldat, ?_, hC.clean, hC.uq⟩, ⟨by rw [hg.mrespEn0, hme], rfl, by rw [hg.slot, hadv]; rfl⟩,
    hlt, by rw [hg.fsm, hfn], ?_, ?_, by rw [hg.t1, hT], ?_, hg.evict2, hu, ?_, ?_, rfl⟩
  · rw [hg.data, dataNext_ram_of_not_wr s hwr]; exact hC.dat
  · rw [hg.rep, hst1, replBitsNext_false, hC.rep]
  · rw [hg.num, hT, hnum]; cases s.cs1.alloc <;> rfl
  · rw [hg.mshr]
    cases ha : s.cs1.alloc <;> simp only [ha, Bool.false_eq_true, if_false, if_true] at hm ⊢ <;> exact hm
  · have : s.cntEn0 .flushRead = true := by simp [St.cntEn0]
    rw [hg.cnt, hT, this, hcnt]; exact BitVec.sub_add_cancel _ _
  · rw [hg.flushIdx1, hT]; simp [St.updIdx0, hcnt]
  · rw [hu, hg.effTag, hg.tagDout, hT]
    have hwm := cntWay_mem (p := p) (lineNo p c)
    simp only [St.tagVal0, St.updIdx0, hcnt, St.tagIdx0, cs0, hwm, decide_true, Bool.true_and,
      beq_self_eq_true, Bool.not_false, Bool.and_self, if_true]
    exact hC.tags _ hwm _

/-- The response to the flush. -/
theorem to_flow_fl (s : St p) (i : In p) (L L0 : L1 p) (q : CReq p)
    (hl : LegalU U s [] i) (hcnt : s.cnt = cntMax p) (n : Nat)
    (hC : FlC U s L L0 q n) (hst1 : s.status1 = ⟨false, false, false, false, false, false⟩)
    (hcs : s.cs1.wr = false ∧ s.cs1.alloc = false)
    (hst : s.stall i = false) (hf : s.fsm = .replay) (hnum : s.mshrNum = 1)
    (hm : MshrQ s.mshr q) (hfd : s.prevFlushDone = true)
    (hd : (s.tagEntry (cntWay p (lineNo p 0))).dty = 0)
    (hclean : ∀ c : BitVec p.cntBits, 0 < c.toNat → (L0.ent (cntWay p c) (cntIdx p c)).dty = 0)
    (hadv : s.adv.msgs = []) :
    PhU U (s.next i) L [.resp (mkResp q false 0)] [] := by
  have hme := no_mresp hl
  have hg := go s i hst (by rw [hst1]) (by rw [hf]; simp)
  have hemp : s.mshrEmpty = false := by simp [St.mshrEmpty, mshrEmpty, hnum]
  have hT : s.trans0 i = .replayFlush := by
    simp [St.trans0, hf, hst1, hemp, hm.ty, hC.qty, hfd]
  have hfn : s.fsmNext i = .ready := by
    simp [St.fsmNext, hf, hemp, hm.ty, hC.qty, hfd]
  have hreq0 : s.req0 i = s.mshr.toReq := by simp [St.req0, hf]
  have ht1 : (s.next i).t1 = .replayFlush := by rw [hg.t1, hT]
  have hst1' : (s.next i).status1 = ⟨false, false, false, false, false, false⟩ := by
    simp [St.status1, ht1]
  have hcs' : (s.next i).cs1 = ⟨.none, false, false, false, false, false⟩ := by
    simp [St.cs1, ht1, hst1', cs1]
  have hrest : [.resp (mkResp q false 0)] = (s.next i).adv.msgs := by
    simp only [M2.msgs, St.adv, hst1', ht1, hg.req1, hT, cs2]
    simp [mkResp, dataSelect, St.pmsg0, hreq0, MshrMsg.toReq, hm.ty, hm.opq, hm.len, cs0]
  have hc0 : s.cnt + 1 = lineNo p 0 := by
    rw [hcnt, ← zero_sub_one]; exact BitVec.sub_add_cancel _ _
  refine .flow ⟨?_, by rw [hg.fsm, hfn], ?_, ⟨by rw [hg.mrespEn0, hme], rfl,
    by rw [hg.slot, hadv]; rfl⟩, by rw [ht1]; rfl, by rw [ht1]; simp, hC.cur, ⟨?_, ?_, ?_⟩, hrest, ?_⟩
  · have : s.cntEn0 .replayFlush = false := by simp [St.cntEn0, hf]
    rw [hg.cnt, hT, this]; simp [counterNext, hcnt]
  · rw [hg.num, hT, hcs.2, hnum]; rfl
  · intro w hw j
    rw [flush_tagRam s i (.inr hT) hw, hc0, hd, hC.clr w hw j, hC.tags w hw j]
    split
    · rfl
    · rename_i hne
      have h0 : 0 < (numOf p w j).toNat := by
        rcases Nat.eq_zero_or_pos (numOf p w j).toNat with h0 | h0
        · exfalso; apply hne
          have : numOf p w j = lineNo p 0 := BitVec.eq_of_toNat_eq (by simpa [lineNo] using h0)
          rw [← this, cntWay_numOf w j hw, cntIdx_numOf w j hw]; exact ⟨rfl, rfl⟩
        · exact h0
      have := hclean _ h0
      rw [cntWay_numOf w j hw, cntIdx_numOf w j hw] at this
      rw [← this]
  · rw [dataNext_ram_of_not_wr _ (by rw [hcs']), hg.data, dataNext_ram_of_not_wr s hcs.1, hC.ldat]
    exact hC.dat
  · rw [hg.rep, hst1, replBitsNext_false, hC.rep]
  · rfl

theorem step_fl0 (s : St p) (i : In p) (L : L1 p) (rest : List (Msg p))
    (O : List MType) (L0 : L1 p) (q : CReq p) (hl : LegalU U s O i) (h : PFl0 U s L rest O L0 q) :
    StepOk U s i L rest O := by
  have hO := h.quiet.out
  subst hO
  have hme := no_mresp hl
  have hst1 : s.status1 = ⟨false, false, false, false, false, false⟩ := by simp [St.status1, h.t1]
  have hcs : s.cs1 = ⟨.none, false, false, false, false, true⟩ := by
    simp [St.cs1, h.t1, hst1, cs1]
  have hre : i.reqEn = false := no_req hl (by simp [hcs])
  have hfs : s.flushSent1 = false := by simp [St.flushSent1, h.t1]
  have hT : s.trans0 i = .flushRead := by simp [St.trans0, h.fsm, hst1, hfs]
  have hadv : s.adv.msgs = [] := adv_nonblocking s (by rw [h.t1]; rfl)
  have htags := tags_of_eq h.tags (tagRam_same s i (by rw [hT]; rfl))
  refine ⟨fun ho => ?_, fun ho => ?_⟩
  · have hst : s.stall i = true := by simp [St.stall, ho]
    have hci : s.t1 ≠ .cacheInit := by rw [h.t1]; simp
    have he := next_M1Eq s i ho hci (by rw [h.fsm]; simp)
    obtain ⟨g1, g2, g3, g4, g5, g6⟩ := next_hold s i hst
    have hsl := next_slot_stall s i ho hci
    refine ⟨cycle_nothing hre hme, ?_⟩
    rw [outTail_nil]
    exact .fl0 L0 q ⟨⟨h.cur, h.qty, htags, h.clr,
      by rw [next_data, dataNext_ram_of_not_wr s (by rw [hcs])]; exact h.dat, h.ldat,
      by rw [he.rep, h.rep], h.clean, h.uq⟩, ⟨by rw [g3, h.quiet.mem], rfl, by rw [hsl, h.quiet.slot]⟩,
      by rw [g1, h.fsm], by rw [g6, h.num], by rw [he.t1, h.t1], by rw [g2, h.cnt],
      by rw [he.req1, h.req1], h.restEq⟩
  · have hst : s.stall i = false := by simp [St.stall, ho, hcs]
    rw [cycle_nothing hre hme, hadv, h.quiet.slot, outTail_nil]
    refine ⟨rest, by simp, ?_⟩
    have hpos := Nat.two_pow_pos p.cntBits
    have e : 2 ^ p.cntBits - 1 + 1 = 2 ^ p.cntBits := by omega
    have := to_fl1 s i L L0 q (2 ^ p.cntBits - 1) hl (by omega) h.cnt (by rw [e]; exact h.toFlC) hst1
      (by rw [hcs]) hst h.fsm hfs (by rw [hcs]; exact h.num)
      (by rw [hcs]; simp only [if_true]; constructor <;> simp [St.mshrIn, h.req1, reqPMsg]) hadv
    rw [e, ← h.restEq] at this
    exact this

theorem step_fl1 (s : St p) (i : In p) (L : L1 p) (rest : List (Msg p))
    (O : List MType) (L0 : L1 p) (q : CReq p) (c : Nat) (hl : LegalU U s O i)
    (h : PFl1 U s L rest O L0 q c) : StepOk U s i L rest O := by
  have hO := h.quiet.out
  subst hO
  have hme := no_mresp hl
  have hre : i.reqEn = false := no_req hl (by simp [h.num])
  have hst1 : s.status1 = ⟨false, false, false, false, false, false⟩ := by simp [St.status1, h.t1]
  have hwm := cntWay_mem (p := p) (lineNo p c)
  have hen : s.tagEn = true := by simp [St.tagEn, h.evict2, h.t1]
  have hld : s.lineDty s.updWay1 =
      ((L0.ent (cntWay p (lineNo p c)) (cntIdx p (lineNo p c))).dty != 0) := by
    rw [St.lineDty, h.eff, h.way]; simp [hwm, lineDirty, hen]
  have hte : s.tagEntry (cntWay p (lineNo p c)) = L0.ent (cntWay p (lineNo p c)) (cntIdx p (lineNo p c)) := by
    rw [St.tagEntry, if_pos hwm, tagEntryOut, if_pos hen, ← h.way, h.eff, h.way]
  have hwo : s.wayOff = cntWay p (lineNo p c) := by simp [St.wayOff, h.t1, h.way]
  have hcs : s.cs1 = ⟨.none, false, s.flushSent1, false, true, false⟩ := by
    simp [St.cs1, h.t1, hst1, cs1]
  have hemp : s.mshrEmpty = false := by simp [St.mshrEmpty, mshrEmpty, h.num]
  have hack : s.wrAck0 = false := by simp [St.wrAck0, h.quiet.mem]
  have hdat' : DatAre s.dataNext.ram L0.dat := by
    rw [dataNext_ram_of_not_wr s (by rw [hcs])]; exact h.dat
  -- the tag array does not change
  have htags : (L0.ent (cntWay p (lineNo p c)) (cntIdx p (lineNo p c))).dty = 0 ∧ c = 0 ∨
      (cs0 (s.trans0 i)).wr = false → TagsAre (s.next i) L0.ent := by
    rintro (⟨hd, hc⟩ | hw)
    · subst hc
      have hT : s.trans0 i = .replayFlush := by
        simp [St.trans0, h.fsm, hst1, hemp, h.mshr.ty, h.qty, St.prevFlushDone, St.noFlush1, h.t1, hld, hd]
      intro w hw j
      rw [flush_tagRam s i (.inr hT) hw, h.cnt, hte, hd, h.tags w hw j]
      split
      · rename_i he; rw [he.1, he.2, ← hd]
      · rfl
    · exact tags_of_eq h.tags (tagRam_same s i hw)
  by_cases hd : (L0.ent (cntWay p (lineNo p c)) (cntIdx p (lineNo p c))).dty = 0
  · -- clean line
    have hfs : s.flushSent1 = false := by simp [St.flushSent1, hld, hd]
    have hnf : s.prevFlushDone = true := by simp [St.prevFlushDone, St.noFlush1, h.t1, hld, hd]
    have hadv : s.adv.msgs = [] := by
      simp [M2.msgs, St.adv, h.t1, hst1, hfs, cs2]
    have hrest : rest = L0.flushMsgs c ++ [.resp (mkResp q false 0)] := by
      rw [h.restEq, L1.flushMsgs, hd]; simp
    refine ⟨fun ho => ?_, fun ho => ?_⟩
    · have hst : s.stall i = true := by simp [St.stall, ho]
      have hci : s.t1 ≠ .cacheInit := by rw [h.t1]; simp
      have hni : s.fsm ≠ .init := by rw [h.fsm]; split <;> simp
      have he := next_M1Eq s i ho hci hni
      obtain ⟨g1, g2, g3, g4, g5, g6⟩ := next_hold s i hst
      have hsl := next_slot_stall s i ho hci
      refine ⟨cycle_nothing hre hme, ?_⟩
      rw [outTail_nil]
      refine .fl1 L0 q c ⟨⟨h.cur, h.qty, htags ?_, h.clr,
        by rw [next_data]; exact hdat', h.ldat,
        by rw [he.rep, h.rep], h.clean, h.uq⟩, ⟨by rw [g3, h.quiet.mem], rfl, by rw [hsl, h.quiet.slot]⟩,
        h.lt, by rw [g1, h.fsm], by rw [g6, h.num], by rw [g5]; exact h.mshr, by rw [he.t1, h.t1],
        by rw [g2, h.cnt], by rw [he.evict2, h.evict2], by rw [he.updWay1, h.way],
        by rw [he.flushIdx1, h.idx], by rw [he.updWay1, he.effTag, h.eff], h.restEq⟩
      by_cases hc : c = 0
      · exact .inl ⟨hd, hc⟩
      · right
        have hf := h.fsm
        rw [if_neg hc] at hf
        have hT : s.trans0 i = .flushRead := by simp [St.trans0, hf, hst1, hfs]
        rw [hT]; rfl
    · have hst : s.stall i = false := by simp [St.stall, ho, hcs]
      rw [cycle_nothing hre hme, hadv, h.quiet.slot, outTail_nil]
      refine ⟨rest, by simp, ?_⟩
      cases c with
      | zero =>
        rw [hrest]
        refine to_flow_fl s i L L0 q hl (cnt_of_succ_zero h.cnt) _ h.toFlC hst1
          (by rw [hcs]; exact ⟨rfl, rfl⟩) hst (by rw [h.fsm]; rfl) h.num h.mshr hnf ?_ ?_ hadv
        · rw [hte, hd]
        · intro c hc; exact h.clean c (by omega)
      | succ c =>
        rw [hrest]
        have hlt := h.lt
        refine to_fl1 s i L L0 q c hl (by omega) (cnt_of_succ h.cnt) ?_ hst1 (by rw [hcs]) hst
          (by rw [h.fsm]; simp) hfs (by rw [hcs]; exact h.num) (by rw [hcs]; exact h.mshr) hadv
        refine ⟨h.cur, h.qty, h.tags, h.clr, h.dat, h.ldat, h.rep, ?_, h.uq⟩
        intro c' hc'
        by_cases hcc : c' = lineNo p (c + 1)
        · rw [hcc]; exact hd
        · apply h.clean
          have : c'.toNat ≠ c + 1 := by
            intro he; apply hcc; rw [← he, lineNo_eq]
          omega
  · -- dirty line
    have hd' : ((L0.ent (cntWay p (lineNo p c)) (cntIdx p (lineNo p c))).dty != 0) = true := by
      simpa using hd
    have hfs : s.flushSent1 = true := by simp [St.flushSent1, h.t1]; rw [hld, hd']
    have hnf : s.prevFlushDone = false := by
      simp only [St.prevFlushDone, St.noFlush1, h.t1, hld, hd', hack]; rfl
    have hT : s.trans0 i = .flushWait := by
      have hf := h.fsm
      by_cases hc : c = 0
      · rw [if_pos hc] at hf
        simp [St.trans0, hf, hst1, hemp, h.mshr.ty, h.qty, hnf]
      · rw [if_neg hc] at hf
        simp [St.trans0, hf, hst1, hfs]
    have hfn : s.fsmNext i = .flushWait := by
      have hf := h.fsm
      by_cases hc : c = 0
      · rw [if_pos hc] at hf
        simp [St.fsmNext, hf, hemp, h.mshr.ty, h.qty, hnf]
      · rw [if_neg hc] at hf
        simp [St.fsmNext, hf, hfs]
    have ht' := htags (.inr (by rw [hT]; rfl))
    have hni : s.fsm ≠ .init := by rw [h.fsm]; split <;> simp
    refine ⟨fun ho => ?_, fun ho => ?_⟩
    · have hst : s.stall i = true := by simp [St.stall, ho]
      have hci : s.t1 ≠ .cacheInit := by rw [h.t1]; simp
      have he := next_M1Eq s i ho hci hni
      obtain ⟨g1, g2, g3, g4, g5, g6⟩ := next_hold s i hst
      have hsl := next_slot_stall s i ho hci
      refine ⟨cycle_nothing hre hme, ?_⟩
      rw [outTail_nil]
      exact .fl1 L0 q c ⟨⟨h.cur, h.qty, ht', h.clr, by rw [next_data]; exact hdat', h.ldat,
        by rw [he.rep, h.rep], h.clean, h.uq⟩, ⟨by rw [g3, h.quiet.mem], rfl, by rw [hsl, h.quiet.slot]⟩,
        h.lt, by rw [g1, h.fsm], by rw [g6, h.num], by rw [g5]; exact h.mshr, by rw [he.t1, h.t1],
        by rw [g2, h.cnt], by rw [he.evict2, h.evict2], by rw [he.updWay1, h.way],
        by rw [he.flushIdx1, h.idx], by rw [he.updWay1, he.effTag, h.eff], h.restEq⟩
    · have hst : s.stall i = false := by simp [St.stall, ho, hcs]
      have hg := go s i hst (by rw [hst1]) hni
      have ha : s.addr1 = ⟨(L0.ent (cntWay p (lineNo p c)) (cntIdx p (lineNo p c))).tag,
          cntIdx p (lineNo p c), 0⟩ := by
        simp only [St.addr1, hcs, if_true, hwo, St.flushIdxMux, h.t1, h.idx, ← h.way, h.eff]
      have hdout : s.dataNext.dout = L0.dat (cntWay p (lineNo p c)) (cntIdx p (lineNo p c)) := by
        have : s.dataNext.dout = s.data.ram (indexer p (cntIdx p (lineNo p c)) (cntWay p (lineNo p c))) := by
          simp [St.dataNext, Sram.step, hcs, hfs, ha, hwo]
        rw [this]; exact h.dat _ hwm _
      have hadv : s.adv.msgs = [L0.wb (cntWay p (lineNo p c)) (cntIdx p (lineNo p c))] := by
        simp only [M2.msgs, St.adv, h.t1, hst1, hfs, ha, hdout, St.wmask1, hwo, hte, cs2]
        simp [memreqType, offLenSel, MReq.canon, L1.wb, MReq.wr]
      rw [cycle_nothing hre hme, hadv, h.quiet.slot, outTail_nil]
      refine ⟨L0.flushMsgs c ++ [.resp (mkResp q false 0)], ?_, ?_⟩
      · rw [h.restEq, L1.flushMsgs, if_pos hd']; simp
      · have ht1 : (s.next i).t1 = .flushWait := by rw [hg.t1, hT]
        refine .fl2 L0 q c ⟨⟨h.cur, h.qty, ht', h.clr, by rw [next_data]; exact hdat', h.ldat, ?_,
          h.clean, h.uq⟩, h.lt, by rw [hg.fsm, hfn], ?_, ?_, ht1, ?_, rfl, .inl ⟨by rw [hg.mrespEn0, hme], ?_, rfl⟩⟩
        · rw [hg.rep, hst1, replBitsNext_false, h.rep]
        · rw [hg.num, hT, hcs, h.num]; rfl
        · rw [hg.mshr, hcs]; exact h.mshr
        · have : s.cntEn0 .flushWait = false := by
            have hf := h.fsm
            by_cases hc : c = 0
            · rw [if_pos hc] at hf; simp [St.cntEn0, hf]
            · rw [if_neg hc] at hf; simp [St.cntEn0, hf]
          rw [hg.cnt, hT, this]; exact h.cnt
        · rw [hg.slot, hadv]; rfl

theorem flushMsgs_congr (L L' : L1 p) (n : Nat) (hd : L.dat = L'.dat)
    (h : ∀ c < n, L.ent (cntWay p (lineNo p c)) (cntIdx p (lineNo p c)) =
      L'.ent (cntWay p (lineNo p c)) (cntIdx p (lineNo p c))) :
    L.flushMsgs n = L'.flushMsgs n := by
  induction n with
  | zero => rfl
  | succ n ih =>
    simp only [L1.flushMsgs, L1.wb, hd, h n (by omega)]
    rw [ih (fun c hc => h c (by omega))]

theorem step_fl2 (s : St p) (i : In p) (L : L1 p) (rest : List (Msg p))
    (O : List MType) (L0 : L1 p) (q : CReq p) (c : Nat) (hl : LegalU U s O i)
    (h : PFl2 U s L rest O L0 q c) : StepOk U s i L rest O := by
  have hre : i.reqEn = false := no_req hl (by simp [h.num])
  have hst1 : s.status1 = ⟨false, false, false, false, false, false⟩ := by simp [St.status1, h.t1]
  have hcs : s.cs1 = ⟨.none, false, false, false, false, false⟩ := by
    simp [St.cs1, h.t1, hst1, cs1]
  have hadv : s.adv.msgs = [] := adv_nonblocking s (by rw [h.t1]; rfl)
  have hni : s.fsm ≠ .init := by rw [h.fsm]; simp
  have hdat' : DatAre s.dataNext.ram L0.dat := by
    rw [dataNext_ram_of_not_wr s (by rw [hcs])]; exact h.dat
  have hwait : s.mrespEn0 = false → s.trans0 i = .flushWait ∧ s.fsmNext i = .flushWait := by
    intro hm
    have hack : s.wrAck0 = false := by simp [St.wrAck0, hm]
    exact ⟨by simp [St.trans0, h.fsm, hst1, hack], by simp [St.fsmNext, h.fsm, hack]⟩
  have adv0 : (s.cs2 i).ostall = false → s.mrespEn0 = false →
      (s.next i).mrespEn0 = i.mrespEn → (s.next i).mresp0 = i.mresp →
      ∀ O', ((s.next i).mrespEn0 = false ∧ (s.next i).t2 = .flushWait ∧ O' = [MT.WRITE] ∨
        (s.next i).mrespEn0 = true ∧ (s.next i).mresp0.ty = MT.WRITE ∧ (s.next i).t2 = .flushWait ∧ O' = []) →
      PhU U (s.next i) L rest O' := by
    intro ho hm _ _ O' hO'
    obtain ⟨hT, hfn⟩ := hwait hm
    have hst : s.stall i = false := by simp [St.stall, ho, hcs]
    have hg := go s i hst (by rw [hst1]) hni
    refine .fl2 L0 q c ⟨⟨h.cur, h.qty, tags_of_eq h.tags (tagRam_same s i (by rw [hT]; rfl)), h.clr,
      by rw [next_data]; exact hdat', h.ldat, by rw [hg.rep, hst1, replBitsNext_false, h.rep],
      h.clean, h.uq⟩, h.lt, by rw [hg.fsm, hfn], ?_, by rw [hg.mshr, hcs]; exact h.mshr, by rw [hg.t1, hT], ?_,
      h.restEq, .inr hO'⟩
    · rw [hg.num, hT, hcs, h.num]; rfl
    · have : s.cntEn0 .flushWait = false := by simp [St.cntEn0, h.fsm]
      rw [hg.cnt, hT, this]; exact h.cnt
  rcases h.out with ⟨hm, hsl, hO⟩ | ⟨hm, ht2, hO⟩ | ⟨hm, hty, ht2, hO⟩
  · -- the write-back is still in M2
    subst hO
    have hme := no_mresp hl
    obtain ⟨hT, hfn⟩ := hwait hm
    refine ⟨fun ho => ?_, fun ho => ?_⟩
    · have hst : s.stall i = true := by simp [St.stall, ho]
      have hci : s.t1 ≠ .cacheInit := by rw [h.t1]; simp
      have he := next_M1Eq s i ho hci hni
      obtain ⟨g1, g2, g3, g4, g5, g6⟩ := next_hold s i hst
      have hsl' := next_slot_stall s i ho hci
      refine ⟨cycle_nothing hre hme, ?_⟩
      rw [outTail_nil]
      exact .fl2 L0 q c ⟨⟨h.cur, h.qty, tags_of_eq h.tags (tagRam_same s i (by rw [hT]; rfl)), h.clr,
        by rw [next_data]; exact hdat', h.ldat, by rw [he.rep, h.rep], h.clean, h.uq⟩, h.lt,
        by rw [g1, h.fsm], by rw [g6, h.num], by rw [g5]; exact h.mshr, by rw [he.t1, h.t1],
        by rw [g2, h.cnt], h.restEq, .inl ⟨by rw [g3, hm], by rw [hsl', hsl], rfl⟩⟩
    · have hst : s.stall i = false := by simp [St.stall, ho, hcs]
      have hg := go s i hst (by rw [hst1]) hni
      rw [cycle_nothing hre hme, hadv, hsl, outTail_nil]
      exact ⟨rest, by simp, adv0 ho hm hg.mrespEn0 hg.mresp0 _
        (.inl ⟨by rw [hg.mrespEn0, hme], by rw [hg.t2, h.t1], rfl⟩)⟩
  · -- waiting for the acknowledgement
    subst hO
    have ho := ostall_nonblocking s i (by rw [ht2]; rfl)
    have hsl : s.slot.msgs = [] := slot_nil (by rw [ht2]; rfl)
    refine ⟨fun ho' => (by rw [ho] at ho'; cases ho'), fun _ => ?_⟩
    have hst : s.stall i = false := by simp [St.stall, ho, hcs]
    have hg := go s i hst (by rw [hst1]) hni
    rw [hadv, hsl]
    cases hme : i.mrespEn
    · rw [cycle_nothing hre hme]
      refine ⟨rest, by simp, adv0 ho hm hg.mrespEn0 hg.mresp0 _
        (.inl ⟨by rw [hg.mrespEn0, hme], by rw [hg.t2, h.t1], by simp [outTail, hme]⟩)⟩
    · obtain ⟨O', hO'⟩ := hl.mem hme
      simp only [List.cons.injEq] at hO'
      have hcyc : s.cyc L i = (L, []) := by simp [St.cyc, L1.cycle, hre, ← hO'.1]
      rw [hcyc]
      refine ⟨rest, by simp, adv0 ho hm hg.mrespEn0 hg.mresp0 _
        (.inr ⟨by rw [hg.mrespEn0, hme], by rw [hg.mresp0, ← hO'.1], by rw [hg.t2, h.t1],
          by simp [outTail, hme]⟩)⟩
  · -- the acknowledgement is in M0
    subst hO
    have hme := no_mresp hl
    have ho := ostall_nonblocking s i (by rw [ht2]; rfl)
    have hsl : s.slot.msgs = [] := slot_nil (by rw [ht2]; rfl)
    refine ⟨fun ho' => (by rw [ho] at ho'; cases ho'), fun _ => ?_⟩
    have hst : s.stall i = false := by simp [St.stall, ho, hcs]
    have hg := go s i hst (by rw [hst1]) hni
    have hack : s.wrAck0 = true := by simp [St.wrAck0, hm, hty]
    have hT : s.trans0 i = .flushWrite := by simp [St.trans0, h.fsm, hst1, hack]
    have hfn : s.fsmNext i = if c = 0 then .replay else .flush := by
      simp only [St.fsmNext, h.fsm, hack, if_true]
      by_cases hc : c = 0
      · have := h.cnt; rw [hc] at this
        have := cnt_of_succ_zero this
        simp only [cntMax] at this
        simp [hc, this]
      · have : s.cnt ≠ BitVec.ofNat _ (2 ^ p.cntBits - 1) := by
          intro he
          have h2 := h.cnt
          rw [he] at h2
          have : cntMax p + 1 = lineNo p c := h2
          rw [← zero_sub_one, BitVec.sub_add_cancel] at this
          have := congrArg BitVec.toNat this
          rw [lineNo_toNat h.lt] at this
          exact hc this.symm
        simp only [if_neg this, if_neg hc]
    have hte : (s.tagEntry (cntWay p (s.cnt + 1))).dty = 0 := by
      simp [St.tagEntry, St.tagEn, h.t1, tagEntryOut, Entry.zero]
    rw [cycle_nothing hre hme, hadv, hsl, outTail_nil]
    refine ⟨rest, by simp, ?_⟩
    let w0 := cntWay p (lineNo p c)
    let j0 := cntIdx p (lineNo p c)
    let L0' : L1 p := { L0 with ent := setAt L0.ent w0 j0 { L0.ent w0 j0 with dty := 0 } }
    refine .fl3 L0' q c ⟨⟨h.cur, h.qty, ?_, ?_, by rw [next_data]; exact hdat', h.ldat,
      by rw [hg.rep, hst1, replBitsNext_false, h.rep], ?_, ?_⟩, ⟨by rw [hg.mrespEn0, hme], rfl,
      by rw [hg.slot, hadv]; rfl⟩, h.lt, by rw [hg.fsm, hfn], ?_, by rw [hg.mshr, hcs]; exact h.mshr,
      by rw [hg.t1, hT], by rw [hg.t2, h.t1], ?_, ?_⟩
    · refine setAt_tag h.tags ?_
      intro w hw j
      rw [flush_tagRam s i (.inl hT) hw, hte, h.cnt]
      split
      · rename_i he; rw [he.1, he.2, h.tags _ (cntWay_mem _) _]
      · rfl
    · intro w hw j
      rw [h.clr w hw j]
      simp only [L0', setAt]
      split
      · rename_i he; rw [he.1, he.2]
      · rfl
    · intro c' hc'
      simp only [L0', setAt]
      split
      · rfl
      · rename_i hne
        apply h.clean
        have : c'.toNat ≠ c := by
          intro he; apply hne
          have : c' = lineNo p c := by rw [← he, lineNo_eq]
          rw [this]; exact ⟨rfl, rfl⟩
        omega
    · refine fun hU => (h.uq hU).shrink fun w hw j hp => ?_
      simp only [L0', setAt] at hp ⊢
      split at hp
      · rename_i hc
        rw [if_pos hc, hc.1, hc.2]
        rcases hp with hp | hp
        · exact ⟨.inl hp, rfl⟩
        · exact absurd rfl hp
      · rename_i hc
        rw [if_neg hc]; exact ⟨hp, rfl⟩
    · rw [hg.num, hT, hcs, h.num]; rfl
    · have : s.cntEn0 .flushWrite = false := by simp [St.cntEn0, h.fsm]
      rw [hg.cnt, hT, this]; exact h.cnt
    · rw [h.restEq, flushMsgs_congr L0 L0' c rfl]
      intro c' hc'
      have hlt := h.lt
      simp only [L0', setAt]
      split
      · rename_i he
        have := cnt_ext (p := p) he.1 he.2
        have := congrArg BitVec.toNat this
        rw [lineNo_toNat (by omega), lineNo_toNat hlt] at this
        omega
      · rfl

theorem step_fl3 (s : St p) (i : In p) (L : L1 p) (rest : List (Msg p))
    (O : List MType) (L0 : L1 p) (q : CReq p) (c : Nat) (hl : LegalU U s O i)
    (h : PFl3 U s L rest O L0 q c) : StepOk U s i L rest O := by
  have hO := h.quiet.out
  subst hO
  have hme := no_mresp hl
  have hre : i.reqEn = false := no_req hl (by simp [h.num])
  have hst1 : s.status1 = ⟨false, false, false, false, false, false⟩ := by simp [St.status1, h.t1]
  have hcs : s.cs1 = ⟨.none, false, false, false, false, false⟩ := by
    simp [St.cs1, h.t1, hst1, cs1]
  have hadv : s.adv.msgs = [] := adv_nonblocking s (by rw [h.t1]; rfl)
  have ho := ostall_nonblocking s i (by rw [h.t2]; rfl)
  have hfs : s.flushSent1 = false := by simp [St.flushSent1, h.t1]
  have hfd : s.prevFlushDone = true := by simp [St.prevFlushDone, h.t1]
  refine ⟨fun ho' => (by rw [ho] at ho'; cases ho'), fun _ => ?_⟩
  have hst : s.stall i = false := by simp [St.stall, ho, hcs]
  rw [cycle_nothing hre hme, hadv, h.quiet.slot, outTail_nil]
  refine ⟨rest, by simp, ?_⟩
  cases c with
  | zero =>
    rw [h.restEq]
    refine to_flow_fl s i L L0 q hl (cnt_of_succ_zero h.cnt) _ h.toFlC hst1
      (by rw [hcs]; exact ⟨rfl, rfl⟩) hst (by rw [h.fsm]; rfl) h.num h.mshr hfd ?_ ?_ hadv
    · simp [St.tagEntry, St.tagEn, h.t1, tagEntryOut, Entry.zero]
    · intro c hc; exact h.clean c (by omega)
  | succ c =>
    rw [h.restEq]
    have hlt := h.lt
    exact to_fl1 s i L L0 q c hl (by omega) (cnt_of_succ h.cnt) h.toFlC hst1 (by rw [hcs]) hst
      (by rw [h.fsm]; simp) hfs (by rw [hcs]; exact h.num) (by rw [hcs]; exact h.mshr) hadv

end Verif
