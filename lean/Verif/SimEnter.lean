import Verif.SimReq

/-!
# Simulation of the RTL by the event-level machine: accepting a request
-/

namespace Verif
variable {p : Params} {U : Prop}

theorem M2.msgs_nonblocking (m : M2 p) (h : blocking m.t2 = false) : m.msgs = [] := by
  obtain ⟨t2, e, hit, fl, r, wm, l⟩ := m
  cases t2 <;> first | rfl | simp [blocking] at h

theorem adv_nonblocking (s : St p) (h : blocking s.t1 = false) : s.adv.msgs = [] :=
  M2.msgs_nonblocking _ h

theorem ostall_nonblocking (s : St p) (i : In p) (h : blocking s.t2 = false) :
    (s.cs2 i).ostall = false := by
  simp [St.cs2, cs2_ostall, h]

/-- The tag array does not change in a cycle whose M0 transaction does not write it. -/
theorem tagRam_same (s : St p) (i : In p) (h : (cs0 (s.trans0 i)).wr = false) :
    (s.next i).tagRam = s.tagRam := by
  funext w j; simp [St.next, h]

theorem tags_of_eq {s s' : St p} {f : Way → Idx p → Entry p} (h : TagsAre s f)
    (he : s'.tagRam = s.tagRam) : TagsAre s' f := by
  intro w hw j; rw [he]; exact h w hw j

theorem TagsAre.uniq {s : St p} {f : Way → Idx p → Entry p} (h : TagsAre s f) (hu : UniqF f) :
    UniqF s.tagRam :=
  hu.shrink fun w hw j hp => by rw [h w hw j] at hp ⊢; exact ⟨hp, rfl⟩

theorem enter_init (s : St p) (i : In p) (L : L1 p) (hU : ¬ U)
    (hf : s.fsm = .ready) (hm : s.mrespEn0 = false) (hcnt : s.cnt = cntMax p)
    (hg : Go s i (s.next i)) (hr : i.reqEn = true) (hi : i.req.ty = MT.INIT)
    (ht : s.trans0 i = .initReq) (hfn : s.fsmNext i = .ready)
    (hnum : mshrNumNext s.cs1.alloc false s.mshrNum = 0) (hquiet : Quiet (s.next i) [])
    (hcur : L.cur = .idle) (htags : TagsAre s L.ent) (hdat : DatAre s.dataNext.ram L.dat)
    (hrep : (s.next i).rep = L.rep) :
    PhU U (s.next i) (s.cyc L i).1 (s.cyc L i).2 [] := by
  have hc : s.cyc L i = L.initOp i.req s.repRd s.mshr.dirty := by simp [St.cyc, hr, hi]
  rw [hc]
  have hreq0 : s.req0 i = i.req := by simp [St.req0, hf, hm]
  have ham : MT.isAmo i.req.ty = false := by rw [hi]; rfl
  have hpm : s.pmsg0 i .initReq = reqPMsg i.req := by
    simp only [St.pmsg0, cs0, hreq0, isAmo0, reqPMsg, ham]; rfl
  have ht1 : (s.next i).t1 = .initReq := by rw [hg.t1, ht]
  have hr1 : (s.next i).req1 = reqPMsg i.req := by rw [hg.req1, ht, hpm]
  have hen : (s.next i).tagEn = false := by simp [St.tagEn, ht1]
  have hcmp : (s.next i).cmp = ⟨false, false, false⟩ := by
    simp [St.cmp, ht1, comparing]
  have hld : ∀ w, (s.next i).lineDty w = false := by intro w; simp [St.lineDty, lineDirty, hen]
  have hst : (s.next i).status1 = ⟨false, false, false, true, false, false⟩ := by
    simp only [St.status1, ht1, hcmp, hld]; rfl
  have hcs : (s.next i).cs1 = ⟨.req, true, true, false, false, false⟩ := by
    simp only [St.cs1, ht1, hst]; rfl
  have hwo : (s.next i).wayOff = false := by simp [St.wayOff, ht1, hcmp]
  have ha : (s.next i).addr1 = i.req.addr := by simp [St.addr1, hcs, hr1, reqPMsg]
  have hadv : (s.next i).adv.msgs = [.resp (mkResp i.req false 0)] := by
    simp only [M2.msgs, St.adv, ht1, hst, cs2, hr1, reqPMsg, mkResp]
    simp [dataSelect]
  refine .ini hU ⟨?_, ?_, ?_, hquiet, ht1, hcur, ?_, ?_, ?_, ?_, by simp [L1.initOp, memTypes]⟩
  · rw [hg.cnt]; simp [St.cntEn0, hf, ht, counterNext, hcnt]
  · rw [hg.fsm, hfn]
  · rw [hg.num, ht]; exact hnum
  · intro w hw j
    rw [hg.tagRam, ht]
    have hix : s.tagIdx0 i .initReq = i.req.addr.idx := by simp [St.tagIdx0, cs0, hpm, reqPMsg]
    simp only [St.tagVal0, hw, cs0, hix, L1.initOp, setAt, decide_true, Bool.true_and, Bool.and_true,
      St.tagWdata0, hpm, reqPMsg, updateTag, tagMerge, Bool.and_eq_true, beq_iff_eq, decide_eq_true_eq]
    split
    · rfl
    · exact htags w hw j
  · intro w hw j
    have hD : (s.next i).data.ram (indexer p j w) = L.dat w j := by rw [hg.data]; exact hdat w hw j
    simp only [St.dataNext, hcs, ha, hwo, hr1, reqPMsg, Sram.step, L1.initOp, setAt,
      indexer_inj hw mem_ways_false, Bool.true_and, decide_eq_true_eq]
    split
    · next he => rw [hD, writeLine, he.1, he.2, ham]; rfl
    · exact hD
  · rw [hr1, hrep]
    have : (s.next i).repRd = L.rep i.req.addr.idx := by simp [St.repRd, hr1, hrep, reqPMsg]
    rw [this]
    funext j; by_cases h : j = i.req.addr.idx <;> simp [replBitsNext, setRep, h, L1.initOp, reqPMsg]
  · rw [hadv]; rfl

theorem enter (s : St p) (i : In p) (L : L1 p) (O : List MType) (hl : LegalU U s O i)
    (hf : s.fsm = .ready) (hn : s.mshrNum = 0) (hcnt : s.cnt = cntMax p) (hq : Quiet s O)
    (hst : s.stall i = false)
    (hcl : s.status1.cleanHit = false) (hev : s.status1.evict = false) (hal : s.cs1.alloc = false)
    (hcur : L.cur = .idle) (hok : L.OkU U) (htags : TagsAre s L.ent)
    (hdat : DatAre s.dataNext.ram L.dat) (hrep : (s.next i).rep = L.rep)
    (hadv : memTypes s.adv.msgs = []) :
    PhU U (s.next i) (s.cyc L i).1 (s.cyc L i).2 [] := by
  have hO := hq.out
  subst hO
  have hme := no_mresp hl
  have hg := go s i hst hev (by rw [hf]; simp)
  have ht := trans0_ready s i hf hn hq.mem hcl
  have hfn := fsmNext_ready s i hf hn hq.mem
  have hreq0 : s.req0 i = i.req := by simp [St.req0, hf, hq.mem]
  have hnum : mshrNumNext s.cs1.alloc false s.mshrNum = 0 := by simp [hal, mshrNumNext, hn]
  have hquiet : Quiet (s.next i) [] := ⟨by rw [hg.mrespEn0, hme], rfl, by rw [hg.slot, hadv]⟩
  have hcn : s.trans0 i ≠ .flushRead → (s.next i).cnt = cntMax p := by
    intro h
    have : s.cntEn0 (s.trans0 i) = false := by simp [St.cntEn0, hf, h]
    rw [hg.cnt, this]; simp [counterNext, hcnt]
  cases hr : i.reqEn
  · -- no request
    simp only [hr, Bool.false_eq_true, if_false] at ht hfn
    have hc : s.cyc L i = (L, []) := by simp [St.cyc, L1.cycle, hr, hme]
    rw [hc]
    have ht1 : (s.next i).t1 = .invalid := by rw [hg.t1, ht]
    have hwr : (s.next i).cs1.wr = false := by simp [St.cs1, ht1, cs1]
    refine .flow ⟨?_, ?_, ?_, hquiet, ?_, ?_, hcur, ⟨?_, ?_, hrep⟩, ?_, rfl⟩
    · exact hcn (by rw [ht]; simp)
    · rw [hg.fsm, hfn]
    · rw [hg.num, ht]; exact hnum
    · rw [ht1]; rfl
    · rw [ht1]; simp
    · exact tags_of_eq htags (tagRam_same s i (by rw [ht]; rfl))
    · rw [dataNext_ram_of_not_wr _ hwr, hg.data]; exact hdat
    · rw [adv_nonblocking]; rw [ht1]; rfl
  · obtain ⟨hrdy, hni⟩ := hl.req hr
    simp only [hr, if_true] at ht hfn
    by_cases hi : i.req.ty = MT.INIT
    · exact enter_init s i L (fun hU => hni hU hi) hf hq.mem hcnt hg hr hi (by simpa [hi] using ht)
        (by simpa [hi] using hfn) hnum hquiet hcur htags hdat hrep
    have hni := hi
    simp only [hni, if_false] at ht
    have hc : s.cyc L i = L.accept i.req := by simp [St.cyc, L1.cycle, hr, hni]
    rw [hc]
    -- the request classes
    have hcore : ∀ T, (T = .readReq ∨ T = .writeReq ∨ T = .amoReq) → s.trans0 i = T →
        T = reqTrans i.req.ty →
        (i.req.ty = MT.READ ∨ i.req.ty = MT.WRITE ∨ MT.isAmo i.req.ty = true) →
        s.fsmNext i = .ready → PhU U (s.next i) (L.accept i.req).1 (L.accept i.req).2 [] := by
      intro T hT hT0 hTt hty hfn'
      have hcs : cs0 T = ⟨.none, false, false, false, .none, false, false, false⟩ := by
        rcases hT with rfl | rfl | rfl <;> rfl
      have hamo : isAmo0 T = MT.isAmo i.req.ty := by
        rcases hty with h | h | h
        · rw [hTt, h]; rfl
        · rw [hTt, h]; rfl
        · rw [hTt, h]; have := isAmo_ne h; simp [reqTrans, this, isAmo0]
      have hpm : s.pmsg0 i T = reqPMsg i.req := by
        simp [St.pmsg0, hcs, hreq0, hamo, reqPMsg]
      have htr : (s.next i).tagRam = s.tagRam := tagRam_same s i (by rw [hT0, hcs])
      have hrc : ReqCore (s.next i) L i.req := by
        refine ⟨hty, by rw [hg.t1, hT0, hTt], hg.evict2, by rw [hg.req1, hT0, hpm], ?_,
          hg.hitInfo, hok.wk, hrep⟩
        intro w hw
        have hv : s.tagVal0 T w = true := by
          rcases hT with rfl | rfl | rfl <;> simp [St.tagVal0, hw]
        have hix : s.tagIdx0 i T = i.req.addr.idx := by
          simp [St.tagIdx0, hcs, hpm, reqPMsg]
        rw [hg.effTag, hg.tagDout, hT0]
        simp only [hv, hcs, hix, Bool.not_false, Bool.and_self, if_true]
        exact htags w hw _
      have hd : DatAre (s.next i).data.ram L.dat := by rw [hg.data]; exact hdat
      refine .req L i.req ⟨hrc, ?_, ?_, ?_, hquiet, hcur, ?_, hrc.dat_accept hd, rfl, hok.full⟩
      · apply hcn; rw [hT0]; rcases hT with rfl | rfl | rfl <;> simp
      · rw [hg.fsm, hfn']
      · rw [hg.num, hT0, hcs]; exact hnum
      · exact Or.inl (tags_of_eq htags htr)
    rcases mtype_cases i.req.ty with h | h | h | h | h | h
    · exact absurd h hni
    · refine hcore .readReq (by simp) ?_ ?_ (by simp [h]) ?_
      · rw [ht]; simp [h]
      · simp [reqTrans, h]
      · rw [hfn]; simp [h]
    · refine hcore .writeReq (by simp) ?_ ?_ (by simp [h]) ?_
      · rw [ht]; simp [h]
      · simp [reqTrans, h]
      · rw [hfn]; simp [h]
    · have hne := isAmo_ne h
      refine hcore .amoReq (by simp) ?_ ?_ (by simp [h]) ?_
      · rw [ht]; simp [h, hne]
      · simp [reqTrans, hne]
      · rw [hfn]; simp [hne]
    · -- INV
      have hT0 : s.trans0 i = .invStart := by rw [ht]; simp [h]
      have hfn' : s.fsmNext i = .inv := by rw [hfn]; simp [h]
      have ht1 : (s.next i).t1 = .invStart := by rw [hg.t1, hT0]
      have hwr : (s.next i).cs1.wr = false := by simp [St.cs1, ht1, cs1, St.status1]
      have htr : (s.next i).tagRam = s.tagRam := tagRam_same s i (by rw [hT0]; rfl)
      have ham : MT.isAmo i.req.ty = false := by rw [h]; rfl
      have hacc : L.accept i.req = ({ L with ent := fun w j => { L.ent w j with val := false } },
          [.resp (mkResp i.req false 0)]) := by
        simp [L1.accept, h]
      rw [hacc]
      refine .inv0 i.req ⟨⟨hquiet, hcur, h, ?_, ?_, hrep, rfl, ?_⟩, ?_, ?_, ht1, ?_, ?_⟩
      · intro w hw j; rw [htr, htags w hw j]
      · rw [dataNext_ram_of_not_wr _ hwr, hg.data]; exact hdat
      · intro hU; rw [htr]; exact htags.uniq (hok.full hU).uniq
      · rw [hg.fsm, hfn']
      · rw [hg.num, hT0]; exact hnum
      · apply hcn; rw [hT0]; simp
      · rw [hg.req1, hT0]
        simp [St.pmsg0, cs0, hreq0, isAmo0, reqPMsg, ham]; rfl
    · -- FLUSH
      have hT0 : s.trans0 i = .flushStart := by rw [ht]; simp [h]
      have hfn' : s.fsmNext i = .flush := by rw [hfn]; simp [h]
      have ht1 : (s.next i).t1 = .flushStart := by rw [hg.t1, hT0]
      have htr : (s.next i).tagRam = s.tagRam := tagRam_same s i (by rw [hT0]; rfl)
      have ham : MT.isAmo i.req.ty = false := by rw [h]; rfl
      have hacc : L.accept i.req = ({ L with ent := fun w j => { L.ent w j with dty := 0 } },
          L.flushMsgs (2 ^ p.cntBits) ++ [.resp (mkResp i.req false 0)]) := by
        simp [L1.accept, h]
      rw [hacc]
      refine .fl0 L i.req ⟨⟨hcur, h, tags_of_eq htags htr, fun _ _ _ => rfl, ?_, rfl, hrep, ?_, fun hU => (hok.full hU).uniq⟩,
        hquiet, ?_, ?_, ht1, ?_, ?_, rfl⟩
      · rw [hg.data]; exact hdat
      · intro c hc; have := c.isLt; omega
      · rw [hg.fsm, hfn']
      · rw [hg.num, hT0]; exact hnum
      · apply hcn; rw [hT0]; simp
      · rw [hg.req1, hT0]
        simp [St.pmsg0, cs0, hreq0, isAmo0, reqPMsg, ham]; rfl

end Verif
