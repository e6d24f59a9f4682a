import Verif.SimPhase

/-!
# Simulation of the RTL by the event-level machine: generic step lemmas
-/

namespace Verif
variable {p : Params} {U : Prop}

/-- Registers after a cycle in which nothing stalls. Proof device; not in the source. -/
structure Go (s : St p) (i : In p) (s' : St p) : Prop where
  t1 : s'.t1 = s.trans0 i
  t2 : s'.t2 = s.t1
  evict2 : s'.evict2 = false
  wayPtr1 : s'.wayPtr1 = s.mshr.repl
  updWay1 : s'.updWay1 = s.updWay0 (s.trans0 i)
  req1 : s'.req1 = s.pmsg0 i (s.trans0 i)
  flushIdx1 : s'.flushIdx1 = cntIdx p (s.updIdx0 (s.trans0 i))
  dtyMask1 : s'.dtyMask1 = s.mshr.dirty
  fsm : s'.fsm = s.fsmNext i
  cnt : s'.cnt = counterNext (s.cntEn0 (s.trans0 i)) true s.cnt
  mrespEn0 : s'.mrespEn0 = i.mrespEn
  mresp0 : s'.mresp0 = i.mresp
  wasStalled : s'.wasStalled = false
  num : s'.mshrNum = mshrNumNext s.cs1.alloc (cs0 (s.trans0 i)).dealloc s.mshrNum
  mshr : s'.mshr = if s.cs1.alloc then s.mshrIn else s.mshr
  slot : s'.slot.msgs = s.adv.msgs
  rep : s'.rep = replBitsNext s.rep s.status1.repEn s.req1.addr.idx
    (replPolicy p s.status1.repEn s.status1.repIsHit s.status1.repHitPtr s.repRd)
  tagRam : s'.tagRam = fun w j =>
    if s.tagVal0 (s.trans0 i) w && (cs0 (s.trans0 i)).wr && (j = s.tagIdx0 i (s.trans0 i) : Bool)
      then tagMerge (cs0 (s.trans0 i)).wben (s.tagRam w j) (s.tagWdata0 i (s.trans0 i))
      else s.tagRam w j
  tagDout : s'.tagDout = fun w =>
    if s.tagVal0 (s.trans0 i) w && !(cs0 (s.trans0 i)).wr then s.tagRam w (s.tagIdx0 i (s.trans0 i))
    else s.tagDout w
  data : s'.data = s.dataNext
  effTag : s'.effTag = s'.tagDout
  hitInfo : s'.hitInfo = s'.hitInfoIn

theorem go (s : St p) (i : In p) (hst : s.stall i = false) (hev : s.status1.evict = false)
    (hf : s.fsm ≠ .init) : Go s i (s.next i) := by
  have ht : (s.trans0 i == Trans.cacheInit) = false := by
    have := mt (trans0_cacheInit s i).1 hf; simpa using this
  have ho : (s.cs2 i).ostall = false := by
    simp only [St.stall, Bool.or_eq_false_iff] at hst; exact hst.2
  have hcen : (((!(s.cs2 i).ostall && (s.t1 != Trans.cacheInit)) || (s.t1 == Trans.cacheInit))) = true := by
    cases h : (s.t1 == Trans.cacheInit) <;> simp [ho, bne, h]
  have h1 : (s.next i).wasStalled = false := by simp [St.next, ho]
  have h2 : (s.next i).evict2 = false := by
    simp only [St.next]; rw [hcen]; simp [hev]
  have h3 : (s.next i).hitStallEn = true := by simp [St.hitStallEn, h1, h2]
  constructor
  case slot => exact next_slot_adv s i ho
  case effTag => funext w; simp [St.effTag, h1, stallOut]
  case hitInfo => simp [St.hitInfo, h3, stallOut]
  case wasStalled => exact h1
  case evict2 => exact h2
  case data => rfl
  case t2 => simp only [St.next]; rw [hcen]; simp
  all_goals simp [St.next, hst, hev, ht, ho, bne, St.allocEn]

/-- Trans0 when the FSM is ready and nothing is pending. -/
theorem trans0_ready (s : St p) (i : In p) (hf : s.fsm = .ready) (hn : s.mshrNum = 0)
    (hm : s.mrespEn0 = false) (hc : s.status1.cleanHit = false) :
    s.trans0 i = if i.reqEn then
      (if i.req.ty = MT.INIT then .initReq
       else if i.req.ty = MT.READ then .readReq
       else if i.req.ty = MT.WRITE then .writeReq
       else if MT.isAmo i.req.ty then .amoReq
       else if i.req.ty = MT.INV then .invStart
       else if i.req.ty = MT.FLUSH then .flushStart
       else .invalid) else .invalid := by
  simp only [St.trans0, hf, hc, St.mrespVal0, hm, St.mshrEmpty, mshrEmpty, hn, St.req0]
  simp

theorem fsmNext_ready (s : St p) (i : In p) (hf : s.fsm = .ready) (hn : s.mshrNum = 0)
    (hm : s.mrespEn0 = false) :
    s.fsmNext i = if i.reqEn then
      (if i.req.ty = MT.INV then .inv else if i.req.ty = MT.FLUSH then .flush else .ready)
      else .ready := by
  simp only [St.fsmNext, hf, St.mrespVal0, hm, St.mshrEmpty, mshrEmpty, hn, St.req0]
  simp

theorem mtype_cases (t : MType) : t = MT.INIT ∨ t = MT.READ ∨ t = MT.WRITE ∨
    MT.isAmo t = true ∨ t = MT.INV ∨ t = MT.FLUSH := by
  revert t; decide

theorem isAmo_ne {t : MType} (h : MT.isAmo t = true) : t ≠ MT.INIT ∧ t ≠ MT.READ ∧ t ≠ MT.WRITE ∧
    t ≠ MT.INV ∧ t ≠ MT.FLUSH := by
  revert t; decide

theorem dataNext_ram_of_not_wr (s : St p) (h : s.cs1.wr = false) : s.dataNext.ram = s.data.ram := by
  funext j; simp [St.dataNext, Sram.step, h]

theorem legal_rdy {s : St p} {O : List MType} {i : In p} (h : LegalU U s O i) (hr : i.reqEn = true) :
    s.fsm ≠ .init ∧ s.status1.cleanHit = false ∧ s.stall i = false ∧ s.mshrNum = 0 ∧
    s.cs1.alloc = false := by
  have := (h.req hr).1
  simp only [St.reqRdy, Bool.not_eq_true', Bool.or_eq_false_iff, St.mshrEmpty, mshrEmpty,
    mshrFull] at this
  obtain ⟨⟨⟨⟨h1, h2⟩, h3⟩, h4⟩, h5, h6⟩ := this
  refine ⟨by simpa using h1, h2, h3, by simpa using h4, ?_⟩
  have h4 : s.mshrNum = 0 := by simpa using h4
  simpa [h4, St.allocEn, h3] using h6

theorem no_req {s : St p} {O : List MType} {i : In p} (h : LegalU U s O i)
    (hn : s.fsm = .init ∨ s.status1.cleanHit = true ∨ s.stall i = true ∨ s.mshrNum ≠ 0 ∨
      s.cs1.alloc = true) : i.reqEn = false := by
  cases hr : i.reqEn
  · rfl
  · obtain ⟨h1, h2, h3, h4, h5⟩ := legal_rdy h hr
    rcases hn with h | h | h | h | h <;> simp_all

theorem no_mresp {s : St p} {i : In p} (h : LegalU U s [] i) : i.mrespEn = false := by
  cases hr : i.mrespEn
  · rfl
  · obtain ⟨O', h⟩ := h.mem hr; simp at h

end Verif
