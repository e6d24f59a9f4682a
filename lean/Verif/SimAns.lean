import Verif.SimWait

/-!
# Simulation of the RTL by the event-level machine: answers of memory
-/

namespace Verif
variable {p : Params} {U : Prop}

theorem setAt_tag {s s' : St p} {f : Way → Idx p → Entry p} {w : Way} {j : Idx p} {e : Entry p}
    (h : TagsAre s f) (hn : ∀ w' ∈ p.ways, ∀ j', s'.tagRam w' j' =
      if w' = w ∧ j' = j then e else s.tagRam w' j') : TagsAre s' (setAt f w j e) := by
  intro w' hw' j'
  rw [hn w' hw' j', setAt]
  split
  · rfl
  · exact h w' hw' j'

theorem step_ans (s : St p) (i : In p) (L : L1 p) (rest : List (Msg p)) (O : List MType)
    (L0 : L1 p) (hl : LegalU U s O i) (h : PAns U s L rest O L0) : StepOk U s i L rest O := by
  have hO := h.out
  subst hO
  have hme := no_mresp hl
  have hre : i.reqEn = false := no_req hl (by simp [h.num])
  obtain ⟨hst1, hcs⟩ := invalid_status s h.t1
  have hW := mty_ne_W h.ok.wk h.mshr
  have ho := ostall_nonblocking s i (by rw [h.t2]; rfl)
  have hsl : s.slot.msgs = [] := M2.msgs_nonblocking s.slot (by show blocking s.t2 = false; rw [h.t2]; rfl)
  have hv0 : s.mrespVal0 = true := by
    have := h.memTy
    simp only [St.mrespVal0, h.mem, this]; simpa using hW
  have hemp : s.mshrEmpty = false := by simp [St.mshrEmpty, mshrEmpty, h.num]
  have hadv : s.adv.msgs = [] := adv_nonblocking s (by rw [h.t1]; rfl)
  refine ⟨fun ho' => (by rw [ho] at ho'; cases ho'), fun _ => ?_⟩
  have hst : s.stall i = false := by simp [St.stall, ho, hcs]
  have hg := go s i hst (by rw [hst1]) (by rw [h.fsm]; simp)
  rw [cycle_nothing hre hme, hadv, hsl, outTail_nil]
  refine ⟨rest, by simp, ?_⟩
  have hreq0 : s.req0 i = s.mshr.toReq := by simp [St.req0, h.mem]
  have hrep : (s.next i).rep = L0.rep := by rw [hg.rep, hst1, replBitsNext_false, h.arr.rep]
  have hmshr : (s.next i).mshr = s.mshr := by rw [hg.mshr, hcs]; simp
  have hm := h.mshr
  have hcnt : ∀ T, s.trans0 i = T → T ≠ .flushRead → (s.next i).cnt = cntMax p := by
    intro T hT hne
    have : s.cntEn0 T = false := by simp [St.cntEn0, h.fsm, hne]
    rw [hg.cnt, hT, this]; simp [counterNext, h.cnt]
  cases hc : L0.cur with
  | idle => rw [hc] at hm; exact hm.elim
  | fill q w d =>
    rw [hc] at hm
    obtain ⟨m1, m2, m3, m4, m5, m6, m7⟩ := hm
    obtain ⟨hwm, hq⟩ := ok_fill h.ok.wk hc
    have hrw : (s.mshr.ty == MT.WRITE || s.mshr.ty == MT.READ) = true := by
      rw [m1]; rcases hq with hq | hq <;> simp [hq]
    have hT : s.trans0 i = .refill := by
      simp [St.trans0, h.fsm, hst1, hv0, hemp]
      rcases hq with hq | hq <;> simp [m1, hq]
    have hfn : s.fsmNext i = .replay := by
      simp only [St.fsmNext, h.fsm, hv0, hrw]; simp
    have hpa : (s.pmsg0 i .refill).addr = q.addr := by
      simp [St.pmsg0, cs0, hreq0, MshrMsg.toReq, m3]
    have htags : TagsAre (s.next i) (setAt L0.ent w q.addr.idx ⟨true, d, q.addr.tag⟩) := by
      refine setAt_tag h.arr.tags ?_
      intro w' hw' j'
      have hix : s.tagIdx0 i .refill = q.addr.idx := by simp [St.tagIdx0, cs0, hpa]
      have hwd : s.tagWdata0 i .refill = ⟨true, d, q.addr.tag⟩ := by
        simp [St.tagWdata0, cs0, hpa, updateTag, m7]
      have htv : s.tagVal0 .refill w' = (w' == w) := by simp [St.tagVal0, hw', m6]
      rw [hg.tagRam, hT]
      simp only [htv, hix, hwd]
      by_cases h1 : w' = w <;> by_cases h2 : j' = q.addr.idx <;> simp [h1, h2, cs0, tagMerge]
    have hr1 := hg.req1
    rw [hT] at hr1
    refine .refill L0 q w d ⟨hcnt _ hT (by simp), by rw [hg.fsm, hfn], ?_, by rw [hg.t1, hT],
      by rw [hg.t2, h.t1], by rw [hg.mrespEn0, hme], rfl, hc, ?_, h.ok, by rw [hr1, hpa],
      by rw [hg.dtyMask1, m7], by rw [hg.wayPtr1, m6], htags, by rw [hg.data]; exact h.arr.dat, hrep,
      ?_⟩
    · rw [hg.num, hT, hcs, h.num]; rfl
    · rw [hmshr]; exact h.mshr
    · rw [hr1]
      have : (s.pmsg0 i .refill).data = s.mresp0.data := by simp [St.pmsg0, cs0]
      rw [this]; exact h.ans
  | amo q a w =>
    rw [hc] at hm
    obtain ⟨m1, m2, m3, m4, m5, m6⟩ := hm
    obtain ⟨hwm, hq⟩ := ok_amo h.ok.wk hc
    have hne := isAmo_ne hq
    have hT : s.trans0 i = .replayAmo := by
      simp [St.trans0, h.fsm, hst1, hv0, hemp, m1, hne, hq]
    have hfn : s.fsmNext i = .ready := by
      simp [St.fsmNext, h.fsm, hv0, m1, hne, hemp]
    have hans := h.ans
    simp only [L1.answer, hc] at hans
    have hpa : (s.pmsg0 i .replayAmo).addr = q.addr := by
      simp [St.pmsg0, cs0, hreq0, MshrMsg.toReq, m3]
    have hix : s.tagIdx0 i .replayAmo = q.addr.idx := by simp [St.tagIdx0, cs0, hpa]
    have hwd : s.tagWdata0 i .replayAmo = ⟨false, 0, q.addr.tag⟩ := by
      simp [St.tagWdata0, cs0, hpa, updateTag]
    have htags : TagsAre (s.next i) L.ent := by
      rw [fst_eq hans]
      simp only
      cases a
      · intro w' hw' j'
        rw [hg.tagRam, hT]
        have htv : s.tagVal0 .replayAmo w' = false := by simp [St.tagVal0, m6]
        simp only [htv, Bool.false_and, Bool.false_eq_true, if_false]
        exact h.arr.tags w' hw' j'
      · rw [if_pos rfl]
        refine setAt_tag h.arr.tags ?_
        intro w' hw' j'
        have htv : s.tagVal0 .replayAmo w' = (w' == w) := by simp [St.tagVal0, hw', m6, m5]
        rw [hg.tagRam, hT]
        simp only [htv, hix, hwd]
        by_cases h1 : w' = w <;> by_cases h2 : j' = q.addr.idx <;> simp [h1, h2, cs0, tagMerge]
    have ht1 : (s.next i).t1 = .replayAmo := by rw [hg.t1, hT]
    have hcs' : (s.next i).cs1 = ⟨.none, false, false, false, false, false⟩ := by
      simp [St.cs1, ht1, cs1]
    have hst1' : (s.next i).status1 = ⟨false, false, false, false, false, false⟩ := by
      simp [St.status1, ht1]
    have hr1 : (s.next i).req1 = ⟨q.ty, q.opq, q.addr, q.len, s.mresp0.data⟩ := by
      rw [hg.req1, hT]
      simp [St.pmsg0, cs0, hreq0, MshrMsg.toReq, m1, m2, m3, m4]
    have ha : (s.next i).addr1 = q.addr := by simp [St.addr1, hcs', hr1]
    have hrest : rest = (s.next i).adv.msgs := by
      rw [snd_eq hans]
      simp only [M2.msgs, St.adv, hst1', ht1, ha, hr1, cs2]
      simp [mkResp, dataSelect]
    refine .flow ⟨hcnt _ hT (by simp), by rw [hg.fsm, hfn], ?_, ⟨by rw [hg.mrespEn0, hme], rfl,
      by rw [hg.slot, hadv]; rfl⟩, by rw [ht1]; rfl, by rw [ht1]; simp, by rw [fst_eq hans],
      ⟨htags, ?_, ?_⟩, hrest, ?_⟩
    · rw [hg.num, hT, hcs, h.num]; rfl
    · rw [dataNext_ram_of_not_wr _ (by rw [hcs']), hg.data, fst_eq hans]; exact h.arr.dat
    · rw [hrep, fst_eq hans]
    · rw [snd_eq hans]; rfl

theorem DatAre.set {r : BitVec p.cntBits → Line p} {f : Way → Idx p → Line p} (h : DatAre r f)
    {w : Way} {j : Idx p} (hw : w ∈ p.ways) (l : Line p) :
    DatAre (fun k => if k = indexer p j w then l else r k) (setAt f w j l) := by
  intro w' hw' j'
  simp only [setAt, indexer_inj hw' hw]
  split
  · rfl
  · exact h w' hw' j'

theorem sram_write_ram (r : Sram (BitVec p.cntBits) p.lineBits) (k : BitVec p.cntBits) (d m : Line p) :
    (r.step true true k d m).ram = fun k' => if k' = k then merge m (r.ram k) d else r.ram k' := by
  funext k'
  by_cases h : k' = k <;> simp [Sram.step, h]

theorem step_refill (wf : p.WF) (s : St p) (i : In p) (L : L1 p) (rest : List (Msg p))
    (O : List MType) (L0 : L1 p) (q : CReq p) (w : Way) (d : Dty p)
    (hl : LegalU U s O i) (h : PRefill U s L rest O L0 q w d) : StepOk U s i L rest O := by
  have hO := h.out
  subst hO
  have hme := no_mresp hl
  have hre : i.reqEn = false := no_req hl (by simp [h.num])
  have hst1 : s.status1 = ⟨false, false, false, false, false, false⟩ := by simp [St.status1, h.t1]
  have hcs : s.cs1 = ⟨.dirty, true, true, false, false, false⟩ := by simp [St.cs1, h.t1, cs1]
  have ho := ostall_nonblocking s i (by rw [h.t2]; rfl)
  have hsl : s.slot.msgs = [] := M2.msgs_nonblocking s.slot (by show blocking s.t2 = false; rw [h.t2]; rfl)
  have hemp : s.mshrEmpty = false := by simp [St.mshrEmpty, mshrEmpty, h.num]
  have hadv : s.adv.msgs = [] := by simp [M2.msgs, St.adv, h.t1, hst1, cs2]
  refine ⟨fun ho' => (by rw [ho] at ho'; cases ho'), fun _ => ?_⟩
  have hst : s.stall i = false := by simp [St.stall, ho, hcs]
  have hg := go s i hst (by rw [hst1]) (by rw [h.fsm]; simp)
  rw [cycle_nothing hre hme, hadv, hsl, outTail_nil]
  refine ⟨rest, by simp, ?_⟩
  have hreq0 : s.req0 i = s.mshr.toReq := by simp [St.req0, h.fsm]
  have hrep : (s.next i).rep = L0.rep := by rw [hg.rep, hst1, replBitsNext_false, h.rep]
  have hm := h.mshr
  rw [h.cur] at hm
  obtain ⟨m1, m2, m3, m4, m5, m6, m7⟩ := hm
  obtain ⟨hwm, hq⟩ := ok_fill h.ok.wk h.cur
  have ha1 : s.addr1 = q.addr := by simp [St.addr1, hcs, h.reqA]
  have hwo : s.wayOff = w := by simp [St.wayOff, h.t1, h.way]
  -- the data array after the refill
  let l := merge (~~~ expand p d) (L0.dat w q.addr.idx) s.req1.data
  have hd1 : DatAre s.dataNext.ram (setAt L0.dat w q.addr.idx l) := by
    have : s.dataNext.ram = fun k => if k = indexer p q.addr.idx w then l else s.data.ram k := by
      simp only [St.dataNext, hcs, ha1, hwo, sram_write_ram, writeBitEn, h.dty]
      rw [h.dat w hwm]
    rw [this]; exact h.dat.set hwm l
  have hans := h.ans
  simp only [L1.answer, h.cur] at hans
  have hfn : s.fsmNext i = .ready := by
    simp only [St.fsmNext, h.fsm, m1]
    rcases hq with hq | hq <;> simp [hq]
  have hcnt : ∀ T, s.trans0 i = T → T ≠ .flushRead → (s.next i).cnt = cntMax p := by
    intro T hT hne
    have : s.cntEn0 T = false := by simp [St.cntEn0, h.fsm, hne]
    rw [hg.cnt, hT, this]; simp [counterNext, h.cnt]
  rcases hq with hq | hq
  · -- replay of a read
    have hT : s.trans0 i = .replayRead := by
      simp [St.trans0, h.fsm, hst1, hemp, m1, hq]
    have hW : ¬ (q.ty = MT.WRITE) := by simp [hq]
    simp only [hq, MT.READ_ne_WRITE, if_false] at hans
    have ht1 : (s.next i).t1 = .replayRead := by rw [hg.t1, hT]
    have hcs' : (s.next i).cs1 = ⟨.none, false, true, false, false, false⟩ := by
      simp [St.cs1, ht1, cs1]
    have hst1' : (s.next i).status1 = ⟨false, false, false, false, false, false⟩ := by
      simp [St.status1, ht1]
    have hr1 : (s.next i).req1 = ⟨q.ty, q.opq, q.addr, q.len, (s.next i).req1.data⟩ := by
      rw [hg.req1, hT]
      simp [St.pmsg0, cs0, hreq0, MshrMsg.toReq, m1, m2, m3, m4]
    have ha : (s.next i).addr1 = q.addr := by rw [St.addr1, hcs', hr1]; simp
    have hwo' : (s.next i).wayOff = w := by simp [St.wayOff, ht1, hg.wayPtr1, m6]
    have hdout : (s.next i).dataNext.dout = l := by
      have : (s.next i).dataNext.dout = (s.next i).data.ram (indexer p q.addr.idx w) := by
        simp [St.dataNext, Sram.step, hcs', ha, hwo']
      rw [this, hg.data, hd1 w hwm]; simp [setAt]
    have hrest : rest = (s.next i).adv.msgs := by
      rw [snd_eq hans]
      simp only [M2.msgs, St.adv, hst1', ht1, ha, hdout, cs2]
      rw [hr1]
      simp [mkResp, readLine, l]; rfl
    refine .flow ⟨hcnt _ hT (by simp), by rw [hg.fsm, hfn], ?_, ⟨by rw [hg.mrespEn0, hme], rfl,
      by rw [hg.slot, hadv]; rfl⟩, by rw [ht1]; rfl, by rw [ht1]; simp, by rw [fst_eq hans],
      ⟨?_, ?_, ?_⟩, hrest, ?_⟩
    · rw [hg.num, hT, hcs, h.num]; rfl
    · rw [fst_eq hans]; exact tags_of_eq h.tags (tagRam_same s i (by rw [hT]; rfl))
    · rw [dataNext_ram_of_not_wr _ (by rw [hcs']), hg.data, fst_eq hans]; exact hd1
    · rw [hrep, fst_eq hans]
    · rw [snd_eq hans]; rfl
  · -- replay of a write
    have hT : s.trans0 i = .replayWrite := by
      simp [St.trans0, h.fsm, hst1, hemp, m1, hq]
    simp only [hq, if_true] at hans
    have ht1 : (s.next i).t1 = .replayWrite := by rw [hg.t1, hT]
    have hcs' : (s.next i).cs1 = ⟨.req, true, true, false, false, false⟩ := by
      simp [St.cs1, ht1, cs1]
    have hst1' : (s.next i).status1 = ⟨false, false, false, false, false, false⟩ := by
      simp [St.status1, ht1]
    have hr1 : (s.next i).req1 = ⟨q.ty, q.opq, q.addr, q.len, replicator p false q.len q.data⟩ := by
      rw [hg.req1, hT]
      simp [St.pmsg0, cs0, hreq0, MshrMsg.toReq, m1, m2, m3, m4, m5]
      exact replicator_trunc wf _ _
    have ha : (s.next i).addr1 = q.addr := by rw [St.addr1, hcs', hr1]; simp
    have hwo' : (s.next i).wayOff = w := by simp [St.wayOff, ht1, hg.wayPtr1, m6]
    have hd2 : DatAre (s.next i).dataNext.ram (setAt (setAt L0.dat w q.addr.idx l) w q.addr.idx
        (writeLine q l)) := by
      have : (s.next i).dataNext.ram = fun k => if k = indexer p q.addr.idx w then writeLine q l
          else s.dataNext.ram k := by
        have e : (s.next i).dataNext.ram = (s.dataNext.step true true (indexer p q.addr.idx w)
            (replicator p false q.len q.data) (wbenReq p q.len q.addr.off)).ram := by
          rw [← hg.data]
          simp only [St.dataNext, hcs', ha, hwo', writeBitEn, hr1]
        rw [e, sram_write_ram, hd1 w hwm]
        simp [writeLine, setAt]
      rw [this]; exact hd1.set hwm _
    have hset : setAt (setAt L0.dat w q.addr.idx l) w q.addr.idx (writeLine q l) =
        setAt L0.dat w q.addr.idx (writeLine q l) := by
      funext w' j'; simp only [setAt]; split <;> simp_all
    have hpa : (s.pmsg0 i .replayWrite).addr = q.addr := by
      simp [St.pmsg0, cs0, hreq0, MshrMsg.toReq, m3]
    have hpl : (s.pmsg0 i .replayWrite).len = q.len := by
      simp [St.pmsg0, cs0, hreq0, MshrMsg.toReq, m4]
    have htags : TagsAre (s.next i) L.ent := by
      rw [fst_eq hans]
      intro w' hw' j'
      have hix : s.tagIdx0 i .replayWrite = q.addr.idx := by simp [St.tagIdx0, cs0, hpa]
      have hwd : s.tagWdata0 i .replayWrite = ⟨true, markDirty p d q.addr.off q.len, q.addr.tag⟩ := by
        simp [St.tagWdata0, cs0, hpa, hpl, updateTag, m7]
      have htv : s.tagVal0 .replayWrite w' = (w' == w) := by simp [St.tagVal0, hw', m6]
      rw [hg.tagRam, hT]
      simp only [htv, hix, hwd, setAt]
      have := h.tags w' hw' j'
      simp only [setAt] at this
      by_cases h1 : w' = w <;> by_cases h2 : j' = q.addr.idx <;> simp_all [cs0, tagMerge]
    have hrest : rest = (s.next i).adv.msgs := by
      rw [snd_eq hans]
      simp only [M2.msgs, St.adv, hst1', ht1, ha, hr1, cs2]
      simp [mkResp, dataSelect, hq]
    refine .flow ⟨hcnt _ hT (by simp), by rw [hg.fsm, hfn], ?_, ⟨by rw [hg.mrespEn0, hme], rfl,
      by rw [hg.slot, hadv]; rfl⟩, by rw [ht1]; rfl, by rw [ht1]; simp, by rw [fst_eq hans],
      ⟨htags, ?_, ?_⟩, hrest, ?_⟩
    · rw [hg.num, hT, hcs, h.num]; rfl
    · rw [fst_eq hans]; rw [hset] at hd2; exact hd2
    · rw [hrep, fst_eq hans]
    · rw [snd_eq hans]; rfl

end Verif
