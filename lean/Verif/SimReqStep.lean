import Verif.SimFlow

/-!
# Simulation of the RTL by the event-level machine: step of the phase request
-/

namespace Verif
variable {p : Params} {U : Prop}

theorem fst_eq {α β : Type} {x : α × β} {a b} (h : x = (a, b)) : a = x.1 := by rw [h]
theorem snd_eq {α β : Type} {x : α × β} {a b} (h : x = (a, b)) : b = x.2 := by rw [h]

theorem replBitsNext_true (r : Idx p → Bool) (a : Idx p) (d : Bool) :
    replBitsNext r true a d = setRep r a d := by
  funext j; by_cases h : j = a <;> simp [replBitsNext, setRep, h]

theorem replBitsNext_false (r : Idx p → Bool) (a : Idx p) (d : Bool) :
    replBitsNext r false a d = r := by
  funext j; simp [replBitsNext]

theorem rw_or_amo {q : CReq p} (h : q.ty = MT.READ ∨ q.ty = MT.WRITE ∨ MT.isAmo q.ty = true) :
    (q.ty = MT.READ ∨ q.ty = MT.WRITE) ∨ MT.isAmo q.ty = true := by
  rcases h with h | h | h <;> simp [h]

theorem accept_rw {L : L1 p} {q : CReq p} (h : q.ty = MT.READ ∨ q.ty = MT.WRITE) :
    L.accept q = L.rw q := by simp [L1.accept, h]

theorem accept_amo {L : L1 p} {q : CReq p} (h : MT.isAmo q.ty = true) :
    L.accept q = L.amo q := by
  have := isAmo_ne h; simp [L1.accept, h, this]

/-- `L1.rw` on a hit. -/
theorem rw_hit {L : L1 p} {q : CReq p} (hh : (L.lookup q.addr).hit = true) :
    L.rw q =
      ({ L with
          ent := if q.ty = MT.WRITE ∧ (L.lookup q.addr).inval = false ∧
              wordDirty p (L.ent (L.lookup q.addr).way q.addr.idx) q.addr.off q.len = false then
              setAt L.ent (L.lookup q.addr).way q.addr.idx
                ⟨(L.ent (L.lookup q.addr).way q.addr.idx).val,
                 markDirty p (L.ent (L.lookup q.addr).way q.addr.idx).dty q.addr.off q.len,
                 q.addr.tag⟩
            else L.ent
          dat := if q.ty = MT.WRITE then setAt L.dat (L.lookup q.addr).way q.addr.idx
              (writeLine q (L.dat (L.lookup q.addr).way q.addr.idx)) else L.dat
          rep := setRep L.rep q.addr.idx
            (replPolicy p true true (L.lookup q.addr).way (L.rep q.addr.idx)) },
       [.resp (mkResp q true (if q.ty = MT.WRITE then 0
         else readLine q (L.dat (L.lookup q.addr).way q.addr.idx)))]) := by
  by_cases hw : q.ty = MT.WRITE
  · simp [L1.rw, hh, hw]
  · simp [L1.rw, hh, hw]

/-- `L1.rw` on an invalidated dirty line. -/
theorem rw_inval {L : L1 p} {q : CReq p} (hh : (L.lookup q.addr).hit = false)
    (hi : (L.lookup q.addr).inval = true) :
    L.rw q =
      ({ L with
          rep := setRep L.rep q.addr.idx
            (replPolicy p true true (L.lookup q.addr).way (L.rep q.addr.idx))
          cur := .fill q (L.lookup q.addr).way (L.ent (L.lookup q.addr).way q.addr.idx).dty },
       [.mem (.rd q.addr.la)]) := by
  simp [L1.rw, hh, hi]

/-- `L1.rw` on a miss. -/
theorem rw_miss {L : L1 p} {q : CReq p} (hh : (L.lookup q.addr).hit = false)
    (hi : (L.lookup q.addr).inval = false) :
    L.rw q =
      ({ L with
          rep := setRep L.rep q.addr.idx
            (replPolicy p true false (L.lookup q.addr).way (L.rep q.addr.idx))
          cur := .fill q (L.rep q.addr.idx) 0 },
       (if (L.ent (L.rep q.addr.idx) q.addr.idx).dty != 0 then
          [L.wb (L.rep q.addr.idx) q.addr.idx] else []) ++ [.mem (.rd q.addr.la)]) := by
  simp [L1.rw, hh, hi]

/-- In the phase request, M0 does nothing except the clean-hit tag update. -/
theorem trans0_preq (s : St p) (i : In p) (hf : s.fsm = .ready) (hn : s.mshrNum = 0)
    (hm : s.mrespEn0 = false) (hr : i.reqEn = false) :
    s.trans0 i = if s.status1.cleanHit then .cleanHit else .invalid := by
  by_cases hc : s.status1.cleanHit = true
  · simp [St.trans0, hf, hc]
  · have hc : s.status1.cleanHit = false := by simpa using hc
    rw [trans0_ready s i hf hn hm hc]; simp [hr, hc]

/-- Effect of a request on the tag array before it leaves M1. -/
theorem preq_tags {s : St p} {i : In p} {L : L1 p} {rest O L0 q} (h : PReq U s L rest O L0 q)
    (hT : s.trans0 i = if s.status1.cleanHit then .cleanHit else .invalid) :
    TagsAre (s.next i) L.ent := by
  have hcore := h.toReqCore
  have hwm := ReqCore.way_mem (L0 := L0) (q := q)
  by_cases hc : s.status1.cleanHit = true
  · rw [hc, if_pos rfl] at hT
    have hq : q.ty = MT.READ ∨ q.ty = MT.WRITE := by
      rcases rw_or_amo h.ty with hq | hq
      · exact hq
      · rw [hcore.status_amo hq] at hc; simp at hc
    have hst := hcore.status_rw hq
    rw [hst] at hc
    simp only [Bool.and_eq_true, Bool.not_eq_true', beq_iff_eq] at hc
    obtain ⟨⟨⟨hinv, hhit⟩, hwd⟩, hwr⟩ := hc
    have hacc := h.acc
    rw [accept_rw hq] at hacc
    simp only [L1.rw, hhit, hwr, hinv, hwd, if_true, Bool.not_false, Bool.and_self] at hacc
    have hL := (Prod.mk.inj hacc).1
    subst hL
    intro w hw j
    have hpa : (s.pmsg0 i .cleanHit).addr = q.addr := by
      simp [St.pmsg0, cs0, h.req1, reqPMsg]
    have hpl : (s.pmsg0 i .cleanHit).len = q.len := by
      simp [St.pmsg0, cs0, h.req1, reqPMsg]
    have hix : s.tagIdx0 i .cleanHit = q.addr.idx := by
      simp [St.tagIdx0, cs0, hpa]
    have hwd : s.tagWdata0 i .cleanHit = ⟨(L0.ent (L0.lookup q.addr).way q.addr.idx).val,
        markDirty p (L0.ent (L0.lookup q.addr).way q.addr.idx).dty q.addr.off q.len, q.addr.tag⟩ := by
      simp [St.tagWdata0, cs0, hpa, hpl, hcore.cmp, hcore.tagEntry hwm, updateTag]
    have htv : s.tagVal0 .cleanHit w = (w == (L0.lookup q.addr).way) := by
      simp [St.tagVal0, hw, hcore.cmp]
    have hwr : (cs0 .cleanHit).wr = true := rfl
    have hwb : (cs0 .cleanHit).wben = .all := rfl
    simp only [St.next, hT, htv, hix, hwd, hwr, hwb, Bool.and_true, tagMerge, setAt]
    by_cases he : w = (L0.lookup q.addr).way ∧ j = q.addr.idx
    · simp [he]
    · have hne : (w == (L0.lookup q.addr).way && decide (j = q.addr.idx)) = false := by
        cases h1 : (w == (L0.lookup q.addr).way)
        · rfl
        · simp at h1; simp [h1] at he; simp [he]
      rw [hne]
      simp only [Bool.false_eq_true, if_false, he]
      rcases h.tags with ht | ht
      · exact ht w hw j
      · rw [ht w hw j]; simp [setAt, he]
  · have hc : s.status1.cleanHit = false := by simpa using hc
    rw [hc] at hT
    have hsame := tagRam_same s i (by rw [hT]; rfl)
    have hLe : L.ent = L0.ent := by
      have hacc := h.acc
      rcases rw_or_amo h.ty with hq | hq
      · rw [accept_rw hq] at hacc
        have hst := hcore.status_rw hq
        rw [hst] at hc
        rw [fst_eq hacc]
        cases hhit : (L0.lookup q.addr).hit
        · cases hi : (L0.lookup q.addr).inval
          · rw [rw_miss hhit hi]
          · rw [rw_inval hhit hi]
        · rw [rw_hit hhit]
          simp only [hhit, Bool.and_true] at hc
          have : ¬ (q.ty = MT.WRITE ∧ (L0.lookup q.addr).inval = false ∧
              wordDirty p (L0.ent (L0.lookup q.addr).way q.addr.idx) q.addr.off q.len = false) := by
            rintro ⟨h1, h2, h3⟩
            simp [h1, h2, h3] at hc
          simp [this]
      · rw [accept_amo hq] at hacc
        rw [fst_eq hacc, L1.amo]
    rcases h.tags with ht | ht
    · rw [hLe]; exact tags_of_eq ht hsame
    · exact tags_of_eq ht hsame

theorem reqTrans_ne_ci {t : MType} : reqTrans t ≠ .cacheInit := by
  simp only [reqTrans]; split
  · simp
  · split <;> simp

theorem step_req_stall (s : St p) (i : In p) (L : L1 p) (rest : List (Msg p)) (O : List MType)
    (L0 : L1 p) (q : CReq p) (hl : LegalU U s O i) (h : PReq U s L rest O L0 q)
    (ho : (s.cs2 i).ostall = true) :
    s.cyc L i = (L, []) ∧ PhU U (s.next i) L rest (outTail O i) := by
  have hO := h.quiet.out
  subst hO
  have hme := no_mresp hl
  have hst : s.stall i = true := by simp [St.stall, ho]
  have hre : i.reqEn = false := no_req hl (by simp [hst])
  have hci : s.t1 ≠ .cacheInit := by rw [h.t1]; exact reqTrans_ne_ci
  have he := next_M1Eq s i ho hci (by rw [h.fsm]; simp)
  obtain ⟨g1, g2, g3, g4, g5, g6⟩ := next_hold s i hst
  have hsl := next_slot_stall s i ho hci
  refine ⟨cycle_nothing hre hme, ?_⟩
  rw [outTail_nil]
  refine .req L0 q ⟨⟨h.ty, by rw [he.t1, h.t1], by rw [he.evict2, h.evict2], by rw [he.req1, h.req1],
    by rw [he.effTag]; exact h.eff, by rw [he.hitInfo, he.hitInfoIn, h.hitInfo], h.ok,
    by rw [he.rep, h.rep]⟩, by rw [g2, h.cnt], by rw [g1, h.fsm], by rw [g6, h.num],
    ⟨by rw [g3, h.quiet.mem], rfl, by rw [hsl, h.quiet.slot]⟩, h.cur,
    .inr (preq_tags h (trans0_preq s i h.fsm h.num h.quiet.mem hre)),
    by rw [he.dataNext_stall]; exact h.dat, h.acc, h.full⟩

/-- Leaving M1 with a hit. -/
theorem step_req_hit (s : St p) (i : In p) (L : L1 p) (rest : List (Msg p)) (O : List MType)
    (L0 : L1 p) (q : CReq p) (hl : LegalU U s O i) (hok : L.OkU U) (h : PReq U s L rest O L0 q)
    (ho : (s.cs2 i).ostall = false) (hq : q.ty = MT.READ ∨ q.ty = MT.WRITE)
    (hhit : (L0.lookup q.addr).hit = true) :
    ∃ rest', rest ++ (s.cyc L i).2 = s.adv.msgs ++ rest' ∧
    PhU U (s.next i) (s.cyc L i).1 rest' (outTail O i ++ memTypes s.slot.msgs) := by
  have hO := h.quiet.out
  subst hO
  have hme := no_mresp hl
  have hcore := h.toReqCore
  have hst1 := hcore.status_rw hq
  have hev : s.status1.evict = false := by simp [hst1, hhit]
  have hhit1 : s.status1.hit = true := by simp [hst1, hhit]
  have hcs := hcore.cs1_rw hq
  have hal : s.cs1.alloc = false := by rw [hcs]; simp [hev, hhit1]; split <;> rfl
  have hos : s.cs1.ostall = false := by rw [hcs]; simp [hev, hhit1]; split <;> rfl
  have hst : s.stall i = false := by simp [St.stall, ho, hos]
  have hg := go s i hst hev (by rw [h.fsm]; simp)
  have hacc := h.acc
  rw [accept_rw hq] at hacc
  -- L and rest
  have hLcur : L.cur = .idle := by
    rw [fst_eq hacc, rw_hit hhit]; exact h.cur
  have hLrep : (s.next i).rep = L.rep := by
    rw [hg.rep, fst_eq hacc, hst1, hcore.repRd, h.rep, h.req1, rw_hit hhit]
    simp [hhit, replBitsNext_true, reqPMsg]
  have hrest : rest = s.adv.msgs := by
    have hd : q.ty = MT.READ → DatAre s.data.ram L0.dat := by
      intro hr
      have hwr : s.cs1.wr = false := by rw [hcs]; simp [hev, hhit1, hr]
      have := h.dat
      rw [dataNext_ram_of_not_wr s hwr] at this
      have hLd : L.dat = L0.dat := by
        rw [fst_eq hacc, rw_hit hhit]; simp [hr]
      rw [← hLd]; exact this
    rw [hcore.adv_hit hq hhit hd, snd_eq hacc, rw_hit hhit]
  have hadv : memTypes s.adv.msgs = [] := by
    rw [← hrest, snd_eq hacc, rw_hit hhit]
    simp
  rw [outTail_nil, h.quiet.slot]
  by_cases hc : s.status1.cleanHit = true
  · have hre : i.reqEn = false := no_req hl (by simp [hc])
    rw [cycle_nothing hre hme]
    refine ⟨[], by rw [hrest], ?_⟩
    have hT := trans0_preq s i h.fsm h.num h.quiet.mem hre
    have htags := preq_tags h hT
    rw [hc, if_pos rfl] at hT
    have ht1 : (s.next i).t1 = .cleanHit := by rw [hg.t1, hT]
    have hwr : (s.next i).cs1.wr = false := by simp [St.cs1, ht1, cs1]
    refine .flow ⟨?_, ?_, ?_, ⟨?_, rfl, ?_⟩, ?_, ?_, hLcur, ⟨htags, ?_, hLrep⟩, ?_, rfl⟩
    · rw [hg.cnt, hT]
      have : s.cntEn0 .cleanHit = false := by simp [St.cntEn0, h.fsm]
      rw [this]; simp [counterNext, h.cnt]
    · rw [hg.fsm, fsmNext_ready s i h.fsm h.num h.quiet.mem]; simp [hre]
    · rw [hg.num, hT, hal, h.num]; rfl
    · rw [hg.mrespEn0, hme]
    · rw [hg.slot, hadv]
    · rw [ht1]; rfl
    · rw [ht1]; simp
    · rw [dataNext_ram_of_not_wr _ hwr, hg.data]; exact h.dat
    · rw [adv_nonblocking]; rw [ht1]; rfl
  · have hc : s.status1.cleanHit = false := by simpa using hc
    refine ⟨(s.cyc L i).2, by rw [hrest], ?_⟩
    have htags : TagsAre s L.ent := by
      -- no tag update: use the generic lemma in a cycle without request
      let i' : In p := { i with reqEn := false }
      have hT := trans0_preq s i' h.fsm h.num h.quiet.mem rfl
      have := preq_tags h hT
      rw [hc] at hT
      have hsame := tagRam_same s i' (by rw [hT]; rfl)
      intro w hw j
      rw [← this w hw j, hsame]
    exact enter s i L [] hl h.fsm h.num h.cnt h.quiet hst hc hev hal hLcur hok htags h.dat hLrep hadv

end Verif
