import Verif.SimReqStep

/-!
# Simulation of the RTL by the event-level machine: misses, evictions, AMOs
-/

namespace Verif
variable {p : Params} {U : Prop}

/-- A request leaves M1 with an MSHR allocation. -/
theorem to_wait (s : St p) (i : In p) (L : L1 p) (m : MReq p) (T : List MType)
    (hl : LegalU U s [] i) (hcnt : s.cnt = cntMax p)
    (hf : s.fsm = .ready) (hn : s.mshrNum = 0) (hm : s.mrespEn0 = false)
    (hst : s.stall i = false) (hcl : s.status1.cleanHit = false) (hev : s.status1.evict = false)
    (hal : s.cs1.alloc = true) (hmshr : MshrOk s.mshrIn L.cur) (htags : TagsAre s L.ent)
    (hdat : DatAre s.dataNext.ram L.dat) (hrep : (s.next i).rep = L.rep)
    (hadv : s.adv.msgs = [.mem m]) (hmty : m.ty = L.cur.mty)
    (hslot : memTypes s.slot.msgs = T) (hT : T = [] ∨ T = [MT.WRITE]) :
    ∃ rest', [.mem m] ++ (s.cyc L i).2 = s.adv.msgs ++ rest' ∧
    PhU U (s.next i) (s.cyc L i).1 rest' (outTail [] i ++ memTypes s.slot.msgs) := by
  have hme := no_mresp hl
  have hre : i.reqEn = false := no_req hl (by simp [hal])
  have hg := go s i hst hev (by rw [hf]; simp)
  have ht := trans0_ready s i hf hn hm hcl
  simp only [hre, Bool.false_eq_true, if_false] at ht
  have hfn := fsmNext_ready s i hf hn hm
  simp only [hre, Bool.false_eq_true, if_false] at hfn
  have ht1 : (s.next i).t1 = .invalid := by rw [hg.t1, ht]
  have hwr : (s.next i).cs1.wr = false := by simp [St.cs1, ht1, cs1]
  rw [cycle_nothing hre hme]
  refine ⟨[], by rw [hadv], ?_⟩
  rw [outTail_nil, hslot]
  refine .wait ⟨?_, ?_, ?_, ht1, rfl, ?_, ⟨?_, ?_, hrep⟩, ?_, .inr ⟨?_, ?_⟩⟩
  · rw [hg.cnt, ht]
    have : s.cntEn0 .invalid = false := by simp [St.cntEn0, hf]
    rw [this]; simp [counterNext, hcnt]
  · rw [hg.fsm, hfn]
  · rw [hg.num, hal, hn]; rfl
  · rw [hg.mshr, hal, if_pos rfl]; exact hmshr
  · exact tags_of_eq htags (tagRam_same s i (by rw [ht]; rfl))
  · rw [dataNext_ram_of_not_wr _ hwr, hg.data]; exact hdat
  · rw [hg.mrespEn0, hme]; simp
  · rw [hg.slot, hadv]; simp [hmty]
  · simpa using hT

/-- Tags in the phase request if there is no clean hit. -/
theorem preq_tags_now {s : St p} {L : L1 p} {rest O L0 q} (h : PReq U s L rest O L0 q) (i : In p)
    (hc : s.status1.cleanHit = false) : TagsAre s L.ent := by
  let i' : In p := { i with reqEn := false }
  have hT := trans0_preq s i' h.fsm h.num h.quiet.mem rfl
  have := preq_tags h hT
  rw [hc] at hT
  have hsame := tagRam_same s i' (by rw [hT]; rfl)
  intro w hw j
  rw [← this w hw j, hsame]

/-- A missing read or write without eviction leaves M1. -/
theorem step_req_miss (s : St p) (i : In p) (L : L1 p) (rest : List (Msg p)) (O : List MType)
    (L0 : L1 p) (q : CReq p) (hl : LegalU U s O i) (h : PReq U s L rest O L0 q)
    (ho : (s.cs2 i).ostall = false) (hq : q.ty = MT.READ ∨ q.ty = MT.WRITE)
    (hhit : (L0.lookup q.addr).hit = false) (hev : s.status1.evict = false) :
    ∃ rest', rest ++ (s.cyc L i).2 = s.adv.msgs ++ rest' ∧
    PhU U (s.next i) (s.cyc L i).1 rest' (outTail O i ++ memTypes s.slot.msgs) := by
  have hO := h.quiet.out
  subst hO
  have hcore := h.toReqCore
  have hst1 := hcore.status_rw hq
  have hwm := ReqCore.way_mem (L0 := L0) (q := q)
  have hvm := h.ok.rep q.addr.idx
  have hhit1 : s.status1.hit = false := by simp [hst1, hhit]
  have hcl : s.status1.cleanHit = false := by simp [hst1, hhit]
  have hcs : s.cs1 = ⟨.none, false, false, false, false, true⟩ := by
    rw [hcore.cs1_rw hq]; simp [hev, hhit1]
  have hst : s.stall i = false := by simp [St.stall, ho, hcs]
  have hg := go s i hst hev (by rw [h.fsm]; simp)
  have hacc := h.acc
  rw [accept_rw hq] at hacc
  have hadv := hcore.adv_miss hq hhit1 hev
  have hev' := hev
  simp only [hst1, hhit, Bool.not_false, Bool.true_and] at hev'
  have hrest : rest = [.mem (.rd q.addr.la)] := by
    rw [snd_eq hacc]
    cases hi : (L0.lookup q.addr).inval
    · rw [rw_miss hhit hi]
      simp only [hi, Bool.not_false, Bool.true_and] at hev'
      have hdz : (L0.ent (L0.rep q.addr.idx) q.addr.idx).dty = 0 := by simpa using hev'
      simp [hdz]
    · rw [rw_inval hhit hi]
  have hwo := hcore.wayOff_rw hq
  rw [hrest]
  refine to_wait s i L (.rd q.addr.la) [] hl h.cnt h.fsm h.num h.quiet.mem hst hcl hev (by rw [hcs])
    ?_ (preq_tags_now h i hcl) h.dat ?_ hadv ?_ h.quiet.slot (.inl rfl)
  · rw [fst_eq hacc]
    have hrep : replicator p (MT.isAmo q.ty) q.len q.data = replicator p false q.len q.data := by
      rw [ReqCore.isAmo_rw hq]
    cases hi : (L0.lookup q.addr).inval
    · rw [rw_miss hhit hi]
      simp only [hi, hhit, Bool.or_self, Bool.false_eq_true, if_false] at hwo
      simp only [hi, Bool.not_false, Bool.true_and] at hev'
      have : (L0.ent (L0.rep q.addr.idx) q.addr.idx).dty = 0 := by simpa using hev'
      simp [MshrOk, St.mshrIn, h.req1, reqPMsg, hwo, hrep, hev, St.wmask1, hcore.tagEntry hvm, this]
    · rw [rw_inval hhit hi]
      simp only [hi, hhit, Bool.or_true, if_true] at hwo
      simp [MshrOk, St.mshrIn, h.req1, reqPMsg, hwo, hrep, hev, St.wmask1, hcore.tagEntry hwm]
  · rw [hg.rep, fst_eq hacc, hst1, hcore.repRd, h.rep, h.req1]
    cases hi : (L0.lookup q.addr).inval
    · rw [rw_miss hhit hi]
      simp only [hi, Bool.not_false, Bool.true_and] at hev'
      have hdz : (L0.ent (L0.rep q.addr.idx) q.addr.idx).dty = 0 := by simpa using hev'
      simp [hdz, hhit, reqPMsg, replBitsNext_true, hi, replPolicy]
    · rw [rw_inval hhit hi]
      simp [hhit, reqPMsg, replBitsNext_true, hi]
  · rw [fst_eq hacc]
    cases hi : (L0.lookup q.addr).inval
    · rw [rw_miss hhit hi]; rfl
    · rw [rw_inval hhit hi]; rfl

/-- An AMO without eviction leaves M1. -/
theorem step_req_amo (s : St p) (i : In p) (L : L1 p) (rest : List (Msg p)) (O : List MType)
    (L0 : L1 p) (q : CReq p) (hl : LegalU U s O i) (h : PReq U s L rest O L0 q)
    (ho : (s.cs2 i).ostall = false) (hq : MT.isAmo q.ty = true) (hev : s.status1.evict = false) :
    ∃ rest', rest ++ (s.cyc L i).2 = s.adv.msgs ++ rest' ∧
    PhU U (s.next i) (s.cyc L i).1 rest' (outTail O i ++ memTypes s.slot.msgs) := by
  have hO := h.quiet.out
  subst hO
  have hcore := h.toReqCore
  have hst1 := hcore.status_amo hq
  have hcl : s.status1.cleanHit = false := by simp [hst1]
  have hcs : s.cs1 = ⟨.none, false, false, false, false, true⟩ := by
    rw [hcore.cs1_amo hq]; simp [hev]
  have hst : s.stall i = false := by simp [St.stall, ho, hcs]
  have hg := go s i hst hev (by rw [h.fsm]; simp)
  have hacc := h.acc
  rw [accept_amo hq] at hacc
  have hadv := hcore.adv_amo hq hev
  have hev' := hev
  simp only [hst1] at hev'
  have hrest : rest = [.mem (.amo q)] := by
    rw [snd_eq hacc]; simp only [L1.amo]; rw [hev']; rfl
  rw [hrest]
  refine to_wait s i L (.amo q) [] hl h.cnt h.fsm h.num h.quiet.mem hst hcl hev (by rw [hcs])
    ?_ (preq_tags_now h i hcl) h.dat ?_ hadv ?_ h.quiet.slot (.inl rfl)
  · rw [fst_eq hacc]
    simp [L1.amo, MshrOk, St.mshrIn, h.req1, reqPMsg, hcore.wayOff_amo hq, h.hitInfo, St.hitInfoIn,
      hcore.cmp]
  · rw [hg.rep, fst_eq hacc, hst1, hcore.repRd, h.rep, h.req1]
    simp only [L1.amo, reqPMsg]
    cases hh : ((L0.lookup q.addr).hit || (L0.lookup q.addr).inval)
    · simp [replBitsNext_false]
    · simp [replBitsNext_true]
  · rw [fst_eq hacc]; rfl

/-- M1 signals in the second pass of an eviction. -/
theorem pass2_status (s : St p) (ty : MType) (h1 : s.t1 = reqTrans ty) (h2 : s.evict2 = true) :
    s.cmp = ⟨false, false, false⟩ ∧ (∀ w, s.tagEntry w = Entry.zero p) ∧
    s.status1 = ⟨false, false, false, (s.t1 != .amoReq), false, false⟩ ∧
    s.cs1 = ⟨.none, false, false, false, false, true⟩ := by
  have hen : s.tagEn = false := by simp [St.tagEn, h2]
  have hcmp : s.cmp = ⟨false, false, false⟩ := by simp [St.cmp, comparing, hen]
  have hte : ∀ w, s.tagEntry w = Entry.zero p := by
    intro w; simp [St.tagEntry, tagEntryOut, hen]
  have hld : ∀ w, s.lineDty w = false := by intro w; simp [St.lineDty, lineDirty, hen]
  have ht : s.t1 = .readReq ∨ s.t1 = .writeReq ∨ s.t1 = .amoReq := by
    rw [h1, reqTrans]; split
    · simp
    · split <;> simp
  have hs : s.status1 = ⟨false, false, false, (s.t1 != .amoReq), false, false⟩ := by
    rcases ht with h | h | h <;> simp [St.status1, h, hcmp, hld] <;> decide
  refine ⟨hcmp, hte, hs, ?_⟩
  rcases ht with h | h | h <;> simp [St.cs1, hs, h, cs1]

/-- First pass of an eviction. -/
theorem step_req_evict (s : St p) (i : In p) (L : L1 p) (rest : List (Msg p)) (O : List MType)
    (L0 : L1 p) (q : CReq p) (hl : LegalU U s O i) (h : PReq U s L rest O L0 q)
    (ho : (s.cs2 i).ostall = false) (hev : s.status1.evict = true) :
    ∃ rest', rest ++ (s.cyc L i).2 = s.adv.msgs ++ rest' ∧
    PhU U (s.next i) (s.cyc L i).1 rest' (outTail O i ++ memTypes s.slot.msgs) := by
  have hO := h.quiet.out
  subst hO
  have hme := no_mresp hl
  have hcore := h.toReqCore
  have hcs : s.cs1 = ⟨.none, false, true, true, true, true⟩ := by
    rcases rw_or_amo h.ty with hq | hq
    · rw [hcore.cs1_rw hq, if_pos hev]
    · rw [hcore.cs1_amo hq, if_pos hev]
  have hcl : s.status1.cleanHit = false := by
    rcases rw_or_amo h.ty with hq | hq
    · have := hcore.status_rw hq
      rw [this] at hev ⊢
      simp only [Bool.and_eq_true, Bool.not_eq_true'] at hev
      simp [hev.2.1]
    · rw [hcore.status_amo hq]
  have hst : s.stall i = true := by simp [St.stall, hcs]
  have hre : i.reqEn = false := no_req hl (by simp [hst])
  have hci : s.t1 ≠ .cacheInit := by rw [h.t1]; exact reqTrans_ne_ci
  have hci' : (s.t1 == Trans.cacheInit) = false := by simpa using hci
  have hT := trans0_preq s i h.fsm h.num h.quiet.mem hre
  rw [hcl] at hT
  have hT : s.trans0 i = .invalid := hT
  have htags := tags_of_eq (preq_tags_now h i hcl) (tagRam_same s i (by rw [hT]; rfl))
  obtain ⟨g1, g2, g3, g4, g5, g6⟩ := next_hold s i hst
  have hslot := next_slot_adv s i ho
  have ht1 : (s.next i).t1 = s.t1 := by simp [St.next, hst, hT]
  have hr1 : (s.next i).req1 = s.req1 := by simp [St.next, hst]
  have he2 : (s.next i).evict2 = true := by simp [St.next, ho, hci', bne, hev]
  obtain ⟨_, _, _, hcs'⟩ := pass2_status (s.next i) q.ty (by rw [ht1, h.t1]) he2
  have hdat : DatAre (s.next i).dataNext.ram L.dat := by
    rw [dataNext_ram_of_not_wr _ (by rw [hcs']), next_data]; exact h.dat
  have hhs : (s.next i).hitStall = s.hitInfo := rfl
  have hrep0 : (s.next i).rep = replBitsNext s.rep s.status1.repEn s.req1.addr.idx
      (replPolicy p s.status1.repEn s.status1.repIsHit s.status1.repHitPtr s.repRd) := by
    simp [St.next, ho]
  rw [outTail_nil, h.quiet.slot, cycle_nothing hre hme]
  have hacc := h.acc
  have hd0 : L.dat = L0.dat → DatAre s.data.ram L0.dat := by
    intro hLd
    have := h.dat
    rw [dataNext_ram_of_not_wr s (by rw [hcs]), hLd] at this
    exact this
  rcases rw_or_amo h.ty with hq | hq
  · rw [accept_rw hq] at hacc
    have hst1 := hcore.status_rw hq
    have hev' := hev
    rw [hst1] at hev'
    simp only [Bool.and_eq_true, Bool.not_eq_true'] at hev'
    obtain ⟨hi, hhit, hvd⟩ := hev'
    have hwo := hcore.wayOff_rw hq
    simp only [hi, hhit, Bool.or_self, Bool.false_eq_true, if_false] at hwo
    have hvm := h.ok.rep q.addr.idx
    have hdz : ¬ (L0.ent (L0.rep q.addr.idx) q.addr.idx).dty = 0 := by simpa using hvd
    have hrest : rest = [L0.wb (L0.rep q.addr.idx) q.addr.idx, .mem (.rd q.addr.la)] := by
      rw [snd_eq hacc, rw_miss hhit hi]
      show (if (_ != _) = true then _ else _) ++ _ = _
      rw [if_pos hvd]; rfl
    have hadv := hcore.adv_evict hev hcs (by rw [hwo]; exact hvm)
      (hd0 (by rw [fst_eq hacc, rw_miss hhit hi]))
    rw [hwo] at hadv
    refine ⟨[.mem (.rd q.addr.la)], by rw [hrest, hadv]; rfl, ?_⟩
    have hrep : (s.next i).rep = L0.rep := by
      rw [hrep0, hst1]
      simp only [hi, hhit, hvd, Bool.not_false, Bool.true_and, Bool.not_true]
      rw [replBitsNext_false, h.rep]
    refine .pass2 q ⟨by rw [g2, h.cnt], by rw [g1, h.fsm], by rw [g6, h.num], by rw [g3, h.quiet.mem],
      rfl, ?_, by rw [ht1, h.t1], he2, by rw [hr1, h.req1], htags, hdat, .inl ⟨?_, ?_, rfl⟩⟩
    · rw [hslot, hadv]; rfl
    · rw [hrep, fst_eq hacc, rw_miss hhit hi]
    · rw [hrep, fst_eq hacc, rw_miss hhit hi]; simp [replPolicy]
  · rw [accept_amo hq] at hacc
    have hst1 := hcore.status_amo hq
    have hev' := hev
    rw [hst1] at hev'
    have hwo := hcore.wayOff_amo hq
    have hwm := ReqCore.way_mem (L0 := L0) (q := q)
    have hrest : rest = [L0.wb (L0.lookup q.addr).way q.addr.idx, .mem (.amo q)] := by
      rw [snd_eq hacc]; simp only [L1.amo]; rw [if_pos hev']; rfl
    have hadv := hcore.adv_evict hev hcs (by rw [hwo]; exact hwm)
      (hd0 (by rw [fst_eq hacc]; rfl))
    rw [hwo] at hadv
    have hh : ((L0.lookup q.addr).hit || (L0.lookup q.addr).inval) = true := by
      simp only [Bool.and_eq_true] at hev'; exact hev'.2
    refine ⟨[.mem (.amo q)], by rw [hrest, hadv]; rfl, ?_⟩
    have hrep : (s.next i).rep = L.rep := by
      rw [hrep0, hst1, fst_eq hacc]
      simp [hh, replBitsNext_true, h.rep, L1.amo, h.req1, reqPMsg, hcore.repRd]
    refine .pass2 q ⟨by rw [g2, h.cnt], by rw [g1, h.fsm], by rw [g6, h.num], by rw [g3, h.quiet.mem],
      rfl, ?_, by rw [ht1, h.t1], he2, by rw [hr1, h.req1], htags, hdat,
      .inr ⟨true, (L0.lookup q.addr).way, ?_, ?_, hrep, rfl⟩⟩
    · rw [hslot, hadv]; rfl
    · rw [fst_eq hacc]; simp [L1.amo, hh]
    · rw [hhs, h.hitInfo, St.hitInfoIn, hcore.cmp, hh]

theorem step_req (s : St p) (i : In p) (L : L1 p) (rest : List (Msg p)) (O : List MType)
    (L0 : L1 p) (q : CReq p) (hl : LegalU U s O i) (hok : L.OkU U) (h : PReq U s L rest O L0 q) :
    StepOk U s i L rest O := by
  refine ⟨step_req_stall s i L rest O L0 q hl h, fun ho => ?_⟩
  by_cases hev : s.status1.evict = true
  · exact step_req_evict s i L rest O L0 q hl h ho hev
  · have hev : s.status1.evict = false := by simpa using hev
    rcases rw_or_amo h.ty with hq | hq
    · cases hhit : (L0.lookup q.addr).hit
      · exact step_req_miss s i L rest O L0 q hl h ho hq hhit hev
      · exact step_req_hit s i L rest O L0 q hl hok h ho hq hhit
    · exact step_req_amo s i L rest O L0 q hl h ho hq hev

end Verif
