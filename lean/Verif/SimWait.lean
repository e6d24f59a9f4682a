import Verif.SimMiss

/-!
# Simulation of the RTL by the event-level machine: second pass of an eviction, waiting for memory
-/

namespace Verif
variable {p : Params} {U : Prop}

theorem mem_mty {q : CReq p} : (MReq.amo q).ty = q.ty := rfl

theorem ok_fill {L : L1 p} {q w d} (h : L.Wk) (hc : L.cur = .fill q w d) :
    w ∈ p.ways ∧ (q.ty = MT.READ ∨ q.ty = MT.WRITE) := by
  have := h.cur; rw [hc] at this; exact this

theorem ok_amo {L : L1 p} {q a w} (h : L.Wk) (hc : L.cur = .amo q a w) :
    w ∈ p.ways ∧ MT.isAmo q.ty = true := by
  have := h.cur; rw [hc] at this; exact this

theorem step_pass2 (s : St p) (i : In p) (L : L1 p) (rest : List (Msg p)) (O : List MType)
    (q : CReq p) (hl : LegalU U s O i) (hok : L.Wk) (h : PPass2 s L rest O q) :
    StepOk U s i L rest O := by
  have hO := h.out
  subst hO
  have hme := no_mresp hl
  obtain ⟨hcmp, hte, hst1, hcs⟩ := pass2_status s q.ty h.t1 h.evict2
  have hcl : s.status1.cleanHit = false := by rw [hst1]
  have hev : s.status1.evict = false := by rw [hst1]
  have hhit : s.status1.hit = false := by rw [hst1]
  have hci : s.t1 ≠ .cacheInit := by rw [h.t1]; exact reqTrans_ne_ci
  have hhi : s.hitInfo = s.hitStall := by simp [St.hitInfo, St.hitStallEn, h.evict2, stallOut]
  refine ⟨fun ho => ?_, fun ho => ?_⟩
  · have hst : s.stall i = true := by simp [St.stall, ho]
    have hre : i.reqEn = false := no_req hl (by simp [hst])
    have he := next_M1Eq s i ho hci (by rw [h.fsm]; simp)
    obtain ⟨g1, g2, g3, g4, g5, g6⟩ := next_hold s i hst
    have hsl := next_slot_stall s i ho hci
    have hT := trans0_preq s i h.fsm h.num h.mem hre
    rw [hcl] at hT
    have hhs : (s.next i).hitStall = s.hitStall := by
      rw [← hhi]; rfl
    refine ⟨cycle_nothing hre hme, ?_⟩
    rw [outTail_nil]
    refine .pass2 q ⟨by rw [g2, h.cnt], by rw [g1, h.fsm], by rw [g6, h.num], by rw [g3, h.mem],
      rfl, by rw [hsl, h.slot], by rw [he.t1, h.t1], by rw [he.evict2, h.evict2],
      by rw [he.req1, h.req1], tags_of_eq h.tags (tagRam_same s i (by rw [hT]; rfl)),
      by rw [he.dataNext_stall]; exact h.dat, ?_⟩
    rw [he.rep, hhs]; exact h.cur
  · have hst : s.stall i = false := by simp [St.stall, ho, hcs]
    have hg := go s i hst hev (by rw [h.fsm]; simp)
    have ha : s.addr1 = q.addr := by simp [St.addr1, hcs, h.req1, reqPMsg]
    rcases h.cur with ⟨hc, hrep, hrest⟩ | ⟨a, w, hc, hhs, hrep, hrest⟩
    · obtain ⟨hwm, hq⟩ := ok_fill hok hc
      have ht1 : s.t1 = .readReq ∨ s.t1 = .writeReq := by
        rw [h.t1]; rcases hq with hq | hq <;> simp [reqTrans, hq]
      have hadv : s.adv.msgs = [.mem (.rd q.addr.la)] := by
        rcases ht1 with h2 | h2 <;>
        · simp only [M2.msgs, St.adv, hev, hhit, h2, ha, h.req1, reqPMsg, cs2]
          simp [MReq.canon, memreqType, MReq.rd, offLenSel, Addr.la]
      have hwo : s.wayOff = s.rep q.addr.idx := by
        have hr : s.repRd = s.rep q.addr.idx := by simp [St.repRd, h.req1, reqPMsg]
        rcases ht1 with h2 | h2 <;> simp [St.wayOff, h2, hst1, hcmp, hr]
      rw [hrest]
      refine to_wait s i L (.rd q.addr.la) [MT.WRITE] hl h.cnt h.fsm h.num h.mem hst hcl hev
        (by rw [hcs]) ?_ h.tags h.dat ?_ hadv ?_ h.slot (.inr rfl)
      · rw [hc]
        have hrp : replicator p (MT.isAmo q.ty) q.len q.data = replicator p false q.len q.data := by
          rw [ReqCore.isAmo_rw hq]
        simp [MshrOk, St.mshrIn, h.req1, reqPMsg, hwo, hev, St.wmask1, hte, Entry.zero, hrp]
      · rw [hg.rep, hrep, hst1]
        have hne : (s.t1 != Trans.amoReq) = true := by rcases ht1 with h2 | h2 <;> rw [h2] <;> rfl
        simp only [hne, replBitsNext_true, h.req1, reqPMsg, St.repRd]
      · rw [hc]; rfl
    · obtain ⟨hwm, hq⟩ := ok_amo hok hc
      have hne := isAmo_ne hq
      have ht1 : s.t1 = .amoReq := by rw [h.t1]; simp [reqTrans, hne]
      have hadv : s.adv.msgs = [.mem (.amo q)] := by
        simp only [M2.msgs, St.adv, hev, hhit, ht1, ha, h.req1, reqPMsg, cs2, hq]
        simp [MReq.canon, memreqType, MReq.amo, offLenSel, replicator, hne]
      have hwo : s.wayOff = w := by simp [St.wayOff, ht1, hhi, hhs]
      rw [hrest]
      refine to_wait s i L (.amo q) [MT.WRITE] hl h.cnt h.fsm h.num h.mem hst hcl hev
        (by rw [hcs]) ?_ h.tags h.dat ?_ hadv ?_ h.slot (.inr rfl)
      · rw [hc]
        simp [MshrOk, St.mshrIn, h.req1, reqPMsg, hwo, hhi, hhs]
      · rw [hg.rep, hst1, ht1, ← hrep]
        exact replBitsNext_false _ _ _
      · rw [hc]; rfl

theorem mty_ne_W {L : L1 p} {m : MshrMsg p} (hok : L.Wk) (hm : MshrOk m L.cur) :
    L.cur.mty ≠ MT.WRITE := by
  cases hc : L.cur with
  | idle => rw [hc] at hm; exact hm.elim
  | fill q w d => simp [Cur.mty]
  | amo q a w => exact (isAmo_ne (ok_amo hok hc).2).2.2.1

theorem invalid_status (s : St p) (h : s.t1 = .invalid) :
    s.status1 = ⟨false, false, false, false, false, false⟩ ∧
    s.cs1 = ⟨.none, false, false, false, false, false⟩ := by
  have hs : s.status1 = ⟨false, false, false, false, false, false⟩ := by simp [St.status1, h]
  exact ⟨hs, by simp [St.cs1, h, cs1]⟩

theorem memTypes_slot_nonblocking {s : St p} {t : MType} (h : memTypes s.slot.msgs = [t]) :
    blocking s.t2 = true := by
  cases hb : blocking s.t2
  · rw [M2.msgs_nonblocking _ hb] at h; simp at h
  · rfl

theorem step_wait (s : St p) (i : In p) (L : L1 p) (rest : List (Msg p)) (O : List MType)
    (hl : LegalU U s O i) (hok : L.OkU U) (h : PWait s L rest O) : StepOk U s i L rest O := by
  have hr := h.restEq
  subst hr
  obtain ⟨hst1, hcs⟩ := invalid_status s h.t1
  have hW := mty_ne_W hok.wk h.mshr
  have hre : i.reqEn = false := no_req hl (by simp [h.num])
  have hv0 : s.mrespVal0 = false := by
    simp only [St.mrespVal0]
    cases hm : s.mrespEn0
    · rfl
    · simp [h.mem hm]
  have hemp : s.mshrEmpty = false := by simp [St.mshrEmpty, mshrEmpty, h.num]
  have hT : s.trans0 i = .invalid := by simp [St.trans0, h.fsm, hst1, hv0, hemp]
  have hfn : s.fsmNext i = .ready := by simp [St.fsmNext, h.fsm, hv0, hemp]
  have hadv : s.adv.msgs = [] := adv_nonblocking s (by rw [h.t1]; rfl)
  refine ⟨fun ho => ?_, fun ho => ?_⟩
  · have hst : s.stall i = true := by simp [St.stall, ho]
    have hci : s.t1 ≠ .cacheInit := by rw [h.t1]; simp
    have he := next_M1Eq s i ho hci (by rw [h.fsm]; simp)
    obtain ⟨g1, g2, g3, g4, g5, g6⟩ := next_hold s i hst
    have hsl := next_slot_stall s i ho hci
    rcases h.out with ⟨h2, _⟩ | ⟨h2, h3⟩
    · rw [ostall_nonblocking s i (by rw [h2]; rfl)] at ho; cases ho
    · have hcyc : s.cyc L i = (L, []) := by
        rw [cyc_noReq hre]; simp only [L1.cycle, hre, Bool.false_eq_true, if_false]
        cases hm : i.mrespEn
        · simp
        · obtain ⟨O', hO'⟩ := hl.mem hm
          have : i.mresp.ty = MT.WRITE := by
            rcases h3 with h3 | h3 <;> rw [h3] at hO' <;> simp at hO'; exact hO'.1.symm
          simp [this]
      refine ⟨hcyc, .wait ⟨by rw [g2, h.cnt], by rw [g1, h.fsm], by rw [g6, h.num],
        by rw [he.t1, h.t1], rfl, by rw [g5]; exact h.mshr,
        ⟨tags_of_eq h.arr.tags (tagRam_same s i (by rw [hT]; rfl)),
         by rw [he.dataNext_stall]; exact h.arr.dat, by rw [he.rep, h.arr.rep]⟩,
        by rw [g3, g4]; exact h.mem, .inr ⟨by rw [hsl, h2], ?_⟩⟩⟩
      simp only [outTail]
      rcases h3 with h3 | h3 <;> rw [h3] <;> cases i.mrespEn <;> simp
  · have hst : s.stall i = false := by simp [St.stall, ho, hcs]
    have hg := go s i hst (by rw [hst1]) (by rw [h.fsm]; simp)
    have ht1 : (s.next i).t1 = .invalid := by rw [hg.t1, hT]
    have ht2 : (s.next i).t2 = .invalid := by rw [hg.t2, h.t1]
    have hcnt : (s.next i).cnt = cntMax p := by
      rw [hg.cnt, hT]
      have : s.cntEn0 .invalid = false := by simp [St.cntEn0, h.fsm]
      rw [this]; simp [counterNext, h.cnt]
    have hfsm : (s.next i).fsm = .ready := by rw [hg.fsm, hfn]
    have hnum : (s.next i).mshrNum = 1 := by rw [hg.num, hT, hcs, h.num]; rfl
    have hmshr : (s.next i).mshr = s.mshr := by rw [hg.mshr, hcs]; simp
    have hwr : (s.next i).cs1.wr = false := by simp [St.cs1, ht1, cs1]
    have hrep : (s.next i).rep = L.rep := by
      rw [hg.rep, hst1, replBitsNext_false, h.arr.rep]
    have harr : Arr (s.next i) L := ⟨tags_of_eq h.arr.tags (tagRam_same s i (by rw [hT]; rfl)),
      by rw [dataNext_ram_of_not_wr _ hwr, hg.data]; exact h.arr.dat, hrep⟩
    have stay : s.cyc L i = (L, []) → (i.mrespEn = true → i.mresp.ty = MT.WRITE) →
        (outTail O i ++ memTypes s.slot.msgs = [L.cur.mty] ∨
          outTail O i ++ memTypes s.slot.msgs = [MT.WRITE, L.cur.mty]) →
        ∃ rest', [] ++ (s.cyc L i).2 = s.adv.msgs ++ rest' ∧
          PhU U (s.next i) (s.cyc L i).1 rest' (outTail O i ++ memTypes s.slot.msgs) := by
      intro hc hmw hO
      rw [hc, hadv]
      exact ⟨[], rfl, .wait ⟨hcnt, hfsm, hnum, ht1, rfl, by rw [hmshr]; exact h.mshr, harr,
        by rw [hg.mrespEn0, hg.mresp0]; exact hmw, .inl ⟨ht2, hO⟩⟩⟩
    cases hm : i.mrespEn
    · apply stay
      · exact cycle_nothing hre hm
      · intro hh; rw [hm] at hh; cases hh
      · simp only [outTail, hm, Bool.false_eq_true, if_false]
        rcases h.out with ⟨h2, h3⟩ | ⟨h2, h3⟩
        · rw [M2.msgs_nonblocking s.slot (by show blocking s.t2 = false; rw [h2]; rfl)]
          simpa using h3
        · rcases h3 with h3 | h3 <;> simp [h2, h3]
    · obtain ⟨O', hO'⟩ := hl.mem hm
      have hmT : memTypes s.slot.msgs = [] ∨ memTypes s.slot.msgs = [L.cur.mty] := by
        rcases h.out with ⟨h2, h3⟩ | ⟨h2, h3⟩
        · left; rw [M2.msgs_nonblocking s.slot (by show blocking s.t2 = false; rw [h2]; rfl)]; rfl
        · exact .inr h2
      have wcase : i.mresp.ty = MT.WRITE → s.cyc L i = (L, []) := by
        intro hw; simp [St.cyc, L1.cycle, hre, hw]
      rcases h.out with ⟨h2, h3⟩ | ⟨h2, h3⟩
      · have hsl : s.slot.msgs = [] :=
          M2.msgs_nonblocking s.slot (by show blocking s.t2 = false; rw [h2]; rfl)
        rcases h3 with h3 | h3
        · -- the answer
          rw [h3] at hO'
          simp only [List.cons.injEq] at hO'
          have hne : (i.mresp.ty != MT.WRITE) = true := by
            rw [← hO'.1]; simpa using hW
          have hc : s.cyc L i = L.answer i.mresp.data := by
            simp [St.cyc, L1.cycle, hre, hm]; intro hh; rw [hh] at hne; simp at hne
          rw [hc, hadv, hsl, h3]
          refine ⟨(L.answer i.mresp.data).2, rfl, ?_⟩
          simp only [outTail, hm, if_true, List.tail_cons, memTypes_nil, List.append_nil]
          exact .ans L ⟨hcnt, hfsm, hnum, ht1, ht2, rfl, by rw [hmshr]; exact h.mshr, hok, harr,
            by rw [hg.mrespEn0, hm], by rw [hg.mresp0, ← hO'.1], by rw [hg.mresp0]⟩
        · rw [h3] at hO'
          simp only [List.cons.injEq] at hO'
          apply stay (wcase hO'.1.symm) (fun _ => hO'.1.symm)
          left; simp [outTail, hm, h3, hsl]
      · rcases h3 with h3 | h3
        · rw [h3] at hO'; simp at hO'
        · rw [h3] at hO'
          simp only [List.cons.injEq] at hO'
          apply stay (wcase hO'.1.symm) (fun _ => hO'.1.symm)
          left; simp [outTail, hm, h3, h2]

end Verif
