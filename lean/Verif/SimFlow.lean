import Verif.SimEnter

/-!
# Simulation of the RTL by the event-level machine: steps of the phases flow and request
-/

namespace Verif
variable {p : Params} {U : Prop}

/-- One clock cycle preserves the relation. Proof device; not in the source. -/
structure StepOk (U : Prop) (s : St p) (i : In p) (L : L1 p) (rest : List (Msg p)) (O : List MType) : Prop where
  stall : (s.cs2 i).ostall = true → s.cyc L i = (L, []) ∧ PhU U (s.next i) L rest (outTail O i)
  adv : (s.cs2 i).ostall = false → ∃ rest', rest ++ (s.cyc L i).2 = s.adv.msgs ++ rest' ∧
    PhU U (s.next i) (s.cyc L i).1 rest' (outTail O i ++ memTypes s.slot.msgs)

theorem flow_status (s : St p) (h : flowT s.t1 = true) :
    s.status1 = ⟨false, false, false, false, false, false⟩ ∧ s.cs1.ostall = false ∧
    s.cs1.alloc = false := by
  have hs : s.status1 = ⟨false, false, false, false, false, false⟩ := by
    revert h; cases ht : s.t1 <;> simp [flowT, St.status1, ht]
  refine ⟨hs, ?_⟩
  simp only [St.cs1, hs]
  revert h; cases ht : s.t1 <;> simp [flowT, cs1]

theorem cycle_nothing {s : St p} {L : L1 p} {i : In p} (h1 : i.reqEn = false) (h2 : i.mrespEn = false) :
    s.cyc L i = (L, []) := by simp [St.cyc, L1.cycle, h1, h2]

theorem outTail_nil (i : In p) : outTail [] i = [] := by simp [outTail]

theorem step_flow (s : St p) (i : In p) (L : L1 p) (rest : List (Msg p)) (O : List MType)
    (hl : LegalU U s O i) (hok : L.OkU U) (h : PFlow s L rest O) : StepOk U s i L rest O := by
  obtain ⟨hs, hos, hal⟩ := flow_status s h.t1
  have hO := h.quiet.out
  subst hO
  have hme := no_mresp hl
  refine ⟨fun ho => ?_, fun ho => ?_⟩
  · have hst : s.stall i = true := by simp [St.stall, ho]
    have hre : i.reqEn = false := no_req hl (by simp [hst])
    have hci : s.t1 ≠ .cacheInit := by
      intro hc
      have := ostall_nonblocking s i (h.ci hc)
      rw [this] at ho; cases ho
    have he := next_M1Eq s i ho hci (by rw [h.fsm]; simp)
    obtain ⟨g1, g2, g3, g4, g5, g6⟩ := next_hold s i hst
    have ht : s.trans0 i = .invalid := by
      rw [trans0_ready s i h.fsm h.num h.quiet.mem (by simp [hs])]; simp [hre]
    have hsl := next_slot_stall s i ho hci
    refine ⟨cycle_nothing hre hme, ?_⟩
    rw [outTail_nil]
    refine .flow ⟨by rw [g2, h.cnt], by rw [g1, h.fsm], by rw [g6, h.num],
      ⟨by rw [g3, h.quiet.mem], rfl, by rw [hsl, h.quiet.slot]⟩, by rw [he.t1, h.t1],
      by rw [he.t1]; intro hc; exact absurd hc hci, h.cur,
      ⟨tags_of_eq h.arr.tags (tagRam_same s i (by rw [ht]; rfl)),
       by rw [he.dataNext_stall]; exact h.arr.dat, by rw [he.rep, h.arr.rep]⟩,
      by rw [he.adv_stall, h.restEq], h.restMem⟩
  · have hst : s.stall i = false := by simp [St.stall, ho, hos]
    have hg := go s i hst (by simp [hs]) (by rw [h.fsm]; simp)
    refine ⟨(s.cyc L i).2, by rw [h.restEq], ?_⟩
    rw [outTail_nil, h.quiet.slot]
    apply enter s i L [] hl h.fsm h.num h.cnt h.quiet hst (by simp [hs]) (by simp [hs]) hal h.cur hok
      h.arr.tags h.arr.dat
    · rw [hg.rep, hs, ← h.arr.rep]; funext j; simp [replBitsNext]
    · rw [← h.restEq]; exact h.restMem

theorem ini_status (s : St p) (h : s.t1 = .initReq) :
    s.status1 = ⟨false, false, false, true, false, false⟩ ∧ s.cs1.ostall = false ∧
    s.cs1.alloc = false := by
  have hen : s.tagEn = false := by simp [St.tagEn, h]
  have hcmp : s.cmp = ⟨false, false, false⟩ := by simp [St.cmp, h, comparing]
  have hld : ∀ w, s.lineDty w = false := by intro w; simp [St.lineDty, lineDirty, hen]
  have hs : s.status1 = ⟨false, false, false, true, false, false⟩ := by
    simp only [St.status1, h, hcmp, hld]; rfl
  refine ⟨hs, ?_⟩
  simp only [St.cs1, hs, h]
  exact ⟨rfl, rfl⟩

theorem step_ini (s : St p) (i : In p) (L : L1 p) (rest : List (Msg p)) (O : List MType) (hU : ¬ U)
    (hl : LegalU U s O i) (hok : L.OkU U) (h : PIni s L rest O) : StepOk U s i L rest O := by
  obtain ⟨hs, hos, hal⟩ := ini_status s h.t1
  have hO := h.quiet.out
  subst hO
  have hme := no_mresp hl
  refine ⟨fun ho => ?_, fun ho => ?_⟩
  · have hst : s.stall i = true := by simp [St.stall, ho]
    have hre : i.reqEn = false := no_req hl (by simp [hst])
    have hci : s.t1 ≠ .cacheInit := by rw [h.t1]; simp
    have he := next_M1Eq s i ho hci (by rw [h.fsm]; simp)
    obtain ⟨g1, g2, g3, g4, g5, g6⟩ := next_hold s i hst
    have ht : s.trans0 i = .invalid := by
      rw [trans0_ready s i h.fsm h.num h.quiet.mem (by simp [hs])]; simp [hre]
    have hsl := next_slot_stall s i ho hci
    refine ⟨cycle_nothing hre hme, ?_⟩
    rw [outTail_nil]
    refine .ini hU ⟨by rw [g2, h.cnt], by rw [g1, h.fsm], by rw [g6, h.num],
      ⟨by rw [g3, h.quiet.mem], rfl, by rw [hsl, h.quiet.slot]⟩, by rw [he.t1, h.t1], h.cur,
      tags_of_eq h.tags (tagRam_same s i (by rw [ht]; rfl)),
      by rw [he.dataNext_stall]; exact h.dat, by rw [he.rep, he.req1, he.repRd, h.rep],
      by rw [he.adv_stall, h.restEq], h.restMem⟩
  · have hst : s.stall i = false := by simp [St.stall, ho, hos]
    have hg := go s i hst (by simp [hs]) (by rw [h.fsm]; simp)
    refine ⟨(s.cyc L i).2, by rw [h.restEq], ?_⟩
    rw [outTail_nil, h.quiet.slot]
    apply enter s i L [] hl h.fsm h.num h.cnt h.quiet hst (by simp [hs]) (by simp [hs]) hal h.cur hok
      h.tags h.dat
    · rw [hg.rep, hs, ← h.rep]
    · rw [← h.restEq]; exact h.restMem

/-! ## Messages of a request leaving M1 -/

namespace ReqCore
variable {s : St p} {L0 : L1 p} {q : CReq p} (h : ReqCore s L0 q)
include h

theorem addr1_of (hs : s.cs1.evictSel = false) : s.addr1 = q.addr := by
  simp [St.addr1, hs, h.req1, reqPMsg]

theorem flushIdxMux : s.flushIdxMux = q.addr.idx := by
  rcases h.t1_cases with h1 | h1 | h1 <;> simp [St.flushIdxMux, h1, h.req1, reqPMsg]

theorem addr1_evict (hs : s.cs1.evictSel = true) (hw : s.wayOff ∈ p.ways) :
    s.addr1 = ⟨(L0.ent s.wayOff q.addr.idx).tag, q.addr.idx, 0⟩ := by
  simp [St.addr1, hs, h.flushIdxMux, h.eff _ hw]

/-- Write-back message of an eviction. -/
theorem adv_evict (hev : s.status1.evict = true) (hcs : s.cs1 = ⟨.none, false, true, true, true, true⟩)
    (hw : s.wayOff ∈ p.ways) (hd : DatAre s.data.ram L0.dat) :
    s.adv.msgs = [L0.wb s.wayOff q.addr.idx] := by
  have ha := h.addr1_evict (by rw [hcs]) hw
  have hdout : s.dataNext.dout = L0.dat s.wayOff q.addr.idx := by
    simp [St.dataNext, Sram.step, hcs, ha]; exact hd _ hw _
  have hwm : s.wmask1 = (L0.ent s.wayOff q.addr.idx).dty := by simp [St.wmask1, h.tagEntry hw]
  have hc : cs2 s.t1 true true true s.status1.hit s.flushSent1 =
      ⟨false, false, false, MT.WRITE, true, false⟩ := by
    rcases h.t1_cases with h1 | h1 | h1 <;> simp [cs2, h1]
  simp only [M2.msgs, St.adv, hev, hc, ha, hwm, hdout]
  simp [memreqType, offLenSel, MReq.canon, L1.wb, MReq.wr]

/-- Response message of a hit. -/
theorem adv_hit (hq : q.ty = MT.READ ∨ q.ty = MT.WRITE) (hh : (L0.lookup q.addr).hit = true)
    (hd : q.ty = MT.READ → DatAre s.data.ram L0.dat) :
    s.adv.msgs = [.resp (mkResp q true (if q.ty = MT.WRITE then 0
      else readLine q (L0.dat (L0.lookup q.addr).way q.addr.idx)))] := by
  have hst := h.status_rw hq
  have hwm := way_mem (L0 := L0) (q := q)
  have hev : s.status1.evict = false := by simp [hst, hh]
  have hhit : s.status1.hit = true := by simp [hst, hh]
  have hwo : s.wayOff = (L0.lookup q.addr).way := by rw [h.wayOff_rw hq]; simp [hh]
  have hcs := h.cs1_rw hq
  rcases h.t1_rw hq with ⟨h1, h2⟩ | ⟨h1, h2⟩
  · have hcs : s.cs1 = ⟨.none, false, true, false, false, false⟩ := by rw [hcs]; simp [hev, hhit, h1]
    have ha : s.addr1 = q.addr := h.addr1_of (by rw [hcs])
    have hdout : s.dataNext.dout = L0.dat (L0.lookup q.addr).way q.addr.idx := by
      simp [St.dataNext, Sram.step, hcs, ha, hwo]; exact hd h1 _ hwm _
    simp only [M2.msgs, St.adv, hev, hhit, h2, ha, hdout, h.req1, reqPMsg, cs2]
    simp [h1, readLine, mkResp]
    rfl
  · have hcs : s.cs1 = ⟨.req, true, true, false, false, false⟩ := by rw [hcs]; simp [hev, hhit, h1]
    have ha : s.addr1 = q.addr := h.addr1_of (by rw [hcs])
    simp only [M2.msgs, St.adv, hev, hhit, h2, ha, h.req1, reqPMsg, cs2]
    simp [h1, mkResp, dataSelect]

/-- Refill request of a miss. -/
theorem adv_miss (hq : q.ty = MT.READ ∨ q.ty = MT.WRITE) (hh : s.status1.hit = false)
    (hev : s.status1.evict = false) : s.adv.msgs = [.mem (.rd q.addr.la)] := by
  have hcs := h.cs1_rw hq
  have hcs : s.cs1 = ⟨.none, false, false, false, false, true⟩ := by rw [hcs]; simp [hev, hh]
  have ha : s.addr1 = q.addr := h.addr1_of (by rw [hcs])
  rcases h.t1_rw hq with ⟨h1, h2⟩ | ⟨h1, h2⟩ <;>
  · simp only [M2.msgs, St.adv, hev, hh, h2, ha, h.req1, reqPMsg, cs2]
    simp [MReq.canon, memreqType, MReq.rd, offLenSel, Addr.la]

/-- Memory request of an AMO. -/
theorem adv_amo (hq : MT.isAmo q.ty = true) (hev : s.status1.evict = false) :
    s.adv.msgs = [.mem (.amo q)] := by
  have hcs : s.cs1 = ⟨.none, false, false, false, false, true⟩ := by rw [h.cs1_amo hq]; simp [hev]
  have ha : s.addr1 = q.addr := h.addr1_of (by rw [hcs])
  have hne := isAmo_ne hq
  simp only [M2.msgs, St.adv, hev, h.t1_amo hq, ha, h.req1, reqPMsg, cs2, hq]
  simp [MReq.canon, memreqType, MReq.amo, offLenSel, replicator, hne]

end ReqCore

end Verif
