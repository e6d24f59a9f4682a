import Verif.InitSys

/-!
# The RTL system with WRITE_INIT requests refines the event-level system
-/

namespace Verif
variable {p : Params}

/-! ## What a WRITE_INIT finds in the registers -/

/-- The registers while nothing but WRITE_INITs was accepted. Proof device; not in the source. -/
structure JInv (s : St p) : Prop where
  fsm : s.fsm = .init ∨ s.fsm = .ready
  num : s.mshrNum = 0
  mem : s.mrespEn0 = false
  t1 : s.t1 = .invalid ∨ s.t1 = .cacheInit ∨ s.t1 = .initReq
  t2 : s.t2 = .invalid ∨ s.t2 = .cacheInit ∨ s.t2 = .initReq
  ev : s.evict2 = false
  dty : s.mshr.dirty = 0

theorem JInv.start (s : St p) (i : In p) (hi : i.reset = true) : JInv (s.step i) := by
  simp only [St.step, hi, if_true, St.rst]
  exact ⟨.inl rfl, rfl, rfl, .inl rfl, .inl rfl, rfl, rfl⟩

theorem JInv.evict {s : St p} (h : JInv s) : s.status1.evict = false := by
  have hl : ∀ w, s.t1 = .initReq → s.lineDty w = false := by
    intro w ht
    simp [St.lineDty, St.tagEn, ht, lineDirty]
  rcases h.t1 with ht | ht | ht
  · simp [St.status1, ht]
  · simp [St.status1, ht]
  · have := hl s.repRd ht
    simp only [St.status1, ht, this]
    cases s.cmp.hit <;> simp

theorem JInv.clean {s : St p} (h : JInv s) : s.status1.cleanHit = false := by
  rcases h.t1 with ht | ht | ht
  · simp [St.status1, ht]
  · simp [St.status1, ht]
  · simp only [St.status1, ht]
    have e : (Trans.initReq == Trans.writeReq) = false := rfl
    rw [e]
    generalize (if s.cmp.hit = true then s.wordDty s.cmp.way else s.lineDty s.repRd) = x
    cases s.cmp.inval <;> cases s.cmp.hit <;> cases x <;> rfl

theorem JInv.next {s : St p} (h : JInv s) {i : In p} (hm : i.mrespEn = false)
    (hr : i.reqEn = true → i.req.ty = MT.INIT) : JInv (s.next i) := by
  have hev := h.evict
  have hcl := h.clean
  have hal : s.cs1.alloc = false := by
    simp only [St.cs1, hev]
    rcases h.t1 with ht | ht | ht <;> rw [ht] <;> rfl
  have hem : s.mshrEmpty = true := by simp [St.mshrEmpty, mshrEmpty, h.num]
  have hv : s.mrespVal0 = false := by simp [St.mrespVal0, h.mem]
  have ht0 : s.trans0 i = .invalid ∨ s.trans0 i = .cacheInit ∨ s.trans0 i = .initReq := by
    rcases h.fsm with hf | hf
    · right; left; simp [St.trans0, hf]
    · simp only [St.trans0, hf, hcl, hv, hem]
      cases hre : i.reqEn
      · left; rfl
      · right; right
        have : (s.req0 i).ty = MT.INIT := by simp [St.req0, hf, h.mem, hr hre, show (Fsm.ready == Fsm.replay) = false from rfl]
        simp [this]
  have hfn : s.fsmNext i = .init ∨ s.fsmNext i = .ready := by
    rcases h.fsm with hf | hf
    · simp only [St.fsmNext, hf]; split <;> simp
    · right
      simp only [St.fsmNext, hf, hv, hem]
      cases hre : i.reqEn
      · rfl
      · have : (s.req0 i).ty = MT.INIT := by simp [St.req0, hf, h.mem, hr hre, show (Fsm.ready == Fsm.replay) = false from rfl]
        simp [this]
  have hde : (cs0 (s.trans0 i)).dealloc = false := by
    rcases ht0 with ht | ht | ht <;> rw [ht] <;> rfl
  refine ⟨?_, ?_, ?_, ?_, ?_, ?_, ?_⟩
  · simp only [St.next]; split
    · exact hfn
    · exact h.fsm
  · simp [St.next, St.allocEn, hal, hde, mshrNumNext, h.num]
  · simp only [St.next, hm, h.mem]; split <;> rfl
  · simp only [St.next]; split
    · exact ht0
    · exact h.t1
  · simp only [St.next]; split
    · exact h.t1
    · exact h.t2
  · simp only [St.next]; split
    · exact hev
    · exact h.ev
  · simp [St.next, St.allocEn, hal, h.dty]

theorem JInv.noMem {s : St p} (h : JInv s) (i : In p) : (s.out i).mreqEn = false := by
  simp only [St.out, St.cs2, h.ev]
  rcases h.t2 with ht | ht | ht
  · rw [ht]; rfl
  · rw [ht]; rfl
  · rw [ht]; cases i.mreqRdy <;> cases i.respRdy <;> rfl

/-- The registers before the first request. Proof device; not in the source. -/
structure J0 (s : St p) : Prop where
  t1 : s.t1 = .invalid ∨ s.t1 = .cacheInit
  rep : s.rep = fun _ => false

theorem J0.start (s : St p) (i : In p) (hi : i.reset = true) : J0 (s.step i) := by
  simp only [St.step, hi, if_true, St.rst]
  exact ⟨.inl rfl, rfl⟩

theorem J0.next {s : St p} (h : J0 s) (hj : JInv s) {i : In p} (hr : i.reqEn = false) : J0 (s.next i) := by
  have hrep : s.status1.repEn = false := by
    rcases h.t1 with ht | ht <;> simp [St.status1, ht]
  have ht0 : s.trans0 i = .invalid ∨ s.trans0 i = .cacheInit := by
    rcases hj.fsm with hf | hf
    · right; simp [St.trans0, hf]
    · left
      have hv : s.mrespVal0 = false := by simp [St.mrespVal0, hj.mem]
      simp [St.trans0, hf, hj.clean, hv, hr]
  refine ⟨?_, ?_⟩
  · simp only [St.next]; split
    · exact ht0
    · exact h.t1
  · simp only [St.next, hrep]
    rw [h.rep]
    funext j
    simp [replBitsNext]

/-- What is known about the hints: the way exists; as long as only WRITE_INITs
were accepted the dirty bits are zero, and the first request finds way 0. Proof device; not in the source. -/
structure HintsOk (hs : List (HReq p)) : Prop where
  way : ∀ x ∈ hs, x.w ∈ p.ways
  dty : ∀ n x, hs[n]? = some x → (∀ y ∈ hs.take n, y.q.ty = MT.INIT) → x.d = 0
  first : ∀ x, hs.head? = some x → x.w = false

theorem HintsOk.nil : HintsOk ([] : List (HReq p)) := ⟨by simp, by simp, by simp⟩

theorem HintsOk.snoc {hs : List (HReq p)} (h : HintsOk hs) {x : HReq p} (hw : x.w ∈ p.ways)
    (hd : (∀ y ∈ hs, y.q.ty = MT.INIT) → x.d = 0) (hf : hs = [] → x.w = false) : HintsOk (hs ++ [x]) := by
  refine ⟨?_, ?_, ?_⟩
  · intro y hy
    rw [List.mem_append, List.mem_singleton] at hy
    rcases hy with hy | rfl
    · exact h.way y hy
    · exact hw
  · intro n y hy hall
    by_cases hn : n < hs.length
    · rw [List.getElem?_append_left hn] at hy
      rw [List.take_append_of_le_length (by omega)] at hall
      exact h.dty n y hy hall
    · rw [List.getElem?_append_right (by omega)] at hy
      have : n - hs.length = 0 := by
        have := (List.getElem?_eq_some_iff.1 hy).1
        simp at this; omega
      rw [this] at hy
      simp only [List.getElem?_cons_zero, Option.some.injEq] at hy
      subst hy
      apply hd
      intro y hy
      apply hall
      have : n = hs.length := by omega
      rw [this, List.take_left']
      · exact hy
      · rfl
  · intro y hy
    cases hs with
    | nil => simp at hy; subst hy; exact hf rfl
    | cons z l => exact h.first y (by simpa using hy)

/-- Replacement pointers name existing ways. Proof device; not in the source. -/
def RepOk (s : St p) : Prop := ∀ j, s.rep j ∈ p.ways

theorem RepOk.start (s : St p) (i : In p) (hi : i.reset = true) : RepOk (s.step i) := by
  simp only [St.step, hi, if_true, St.rst]
  exact fun _ => mem_ways_false

theorem RepOk.next {s : St p} (h : RepOk s) (i : In p) : RepOk (s.next i) := by
  intro j
  simp only [St.next, replBitsNext]
  split
  · exact replPolicy_mem _ _ _ _ (h _)
  · exact h j

/-! ## Refinement -/

/-- Proof device; not in the source. -/
structure RelI (S : Sys Unit p) (T : ESys Unit p) : Prop where
  cache : RIU False (S.cache ()) (T.L ()) (T.E ()) (outTys (S.respQ ()) (S.reqQ ()))
  reqQ : T.reqQ () = (S.reqQ ()).map MReq.canon
  respQ : T.respQ () = (S.respQ ()).map MResp.strip
  mem : T.mem = S.mem

/-- Inputs the environment may drive: as `Sys.CanClock`, WRITE_INIT included. Proof device; not in the source. -/
structure Sys.CanClockI (S : Sys Unit p) (i : In p) : Prop where
  noReset : i.reset = false
  req : i.reqEn = true → ((S.cache ()).out i).reqRdy = true
  mem : i.mrespEn = true → ∃ l, S.respQ () = i.mresp :: l

/-- The hinted request of a clock edge. Proof device; not in the source. -/
def hintOf (S : Sys Unit p) (i : In p) : List (HReq p) :=
  if i.reqEn then [⟨i.req, (S.cache ()).repRd, (S.cache ()).mshr.dirty⟩] else []

theorem clock_inI {S : Sys Unit p} {T : ESys Unit p} {i : In p} (hr : RelI S T) (hc : S.CanClockI i) :
    IRun T (inEvs () i) (hintOf S i) { T with
      L := upd T.L () ((S.cache ()).cyc (T.L ()) i).1
      E := upd T.E () (T.E () ++ ((S.cache ()).cyc (T.L ()) i).2)
      respQ := upd T.respQ () (if i.mrespEn then (T.respQ ()).tail else T.respQ ()) } := by
  have hRI := hr.cache
  cases hre : i.reqEn
  · rw [cyc_noReq hre]
    simp only [inEvs, hintOf, hre]
    cases hm : i.mrespEn
    · simp only [L1.cycle, hre, hm, Bool.false_and, Bool.false_eq_true, if_false, List.append_nil,
        upd_eq_self]
      exact .refl T
    · obtain ⟨l, hl⟩ := hc.mem hm
      have h := EStep.deliver T () i.mresp.strip (l.map MResp.strip) (by rw [hr.respQ, hl]; rfl)
      have h2 : (T.respQ ()).tail = l.map MResp.strip := by rw [hr.respQ, hl]; rfl
      have h3 : (T.L ()).cycle i = (T.L ()).deliver i.mresp.strip := by
        simp [L1.cycle, hre, hm, L1.deliver, MResp.strip]
      simp only [Bool.false_eq_true, if_false, if_true]
      rw [h2, h3]
      exact .one (.old h rfl)
  · have hrdy := hc.req hre
    obtain ⟨h1, h2, h3⟩ := hRI.ready hrdy
    obtain ⟨h4, h5⟩ := outTys_nil h3
    have hm : i.mrespEn = false := by
      cases hm : i.mrespEn
      · rfl
      · obtain ⟨l, hl⟩ := hc.mem hm; rw [h4] at hl; cases hl
    simp only [inEvs, hintOf, hre, hm, if_true, Bool.false_eq_true, if_false, upd_eq_self]
    by_cases hty : i.req.ty = MT.INIT
    · have hcy : (S.cache ()).cyc (T.L ()) i =
          (T.L ()).initOp i.req (S.cache ()).repRd (S.cache ()).mshr.dirty := by
        simp [St.cyc, hre, hty]
      rw [hcy]
      exact .one (.init T ⟨i.req, (S.cache ()).repRd, (S.cache ()).mshr.dirty⟩ h1 h2
        (by rw [hr.reqQ, h5]; rfl) (by rw [hr.respQ, h4]; rfl) hty)
    · have hcy : (S.cache ()).cyc (T.L ()) i = (T.L ()).accept i.req := by
        simp [St.cyc, hty, L1.cycle, hre]
      rw [hcy]
      have h := EStep.acc T () i.req h1 h2 (by rw [hr.reqQ, h5]; rfl) (by rw [hr.respQ, h4]; rfl) hty
      exact .one (.old h rfl)

theorem refine_clockI (wf : p.WF) {S : Sys Unit p} {T : ESys Unit p} {i : In p} (hr : RelI S T)
    (hc : S.CanClockI i) :
    ∃ T', IRun T ((S.clockEvs () i).map Ev.canon) (hintOf S i) T' ∧ RelI (S.clock () i) T' := by
  have hRI := hr.cache
  have hleg : LegalU False (S.cache ()) (outTys (S.respQ ()) (S.reqQ ())) i := by
    refine ⟨hc.noReset, fun h => ⟨hc.req h, fun h => h.elim⟩, fun hm => ?_⟩
    obtain ⟨l, hl⟩ := hc.mem hm
    exact ⟨outTys l (S.reqQ ()), by rw [hl]; rfl⟩
  obtain ⟨E', hE, hRI'⟩ := simI wf hleg hRI
  have hin := clock_inI hr hc
  have hstep : (S.cache ()).step i = (S.cache ()).next i := by simp [St.step, hc.noReset]
  have hot : outTail (outTys (S.respQ ()) (S.reqQ ())) i =
      outTys (if i.mrespEn then (S.respQ ()).tail else S.respQ ()) (S.reqQ ()) := by
    simp only [outTail]
    cases hm : i.mrespEn
    · rfl
    · obtain ⟨l, hl⟩ := hc.mem hm
      rw [hl]; rfl
  have hev : (S.clockEvs () i).map Ev.canon = inEvs () i ++
      ((if ((S.cache ()).out i).mreqEn then [.mreq () ((S.cache ()).out i).mreq.canon] else []) ++
      (if ((S.cache ()).out i).respEn then [.resp () ((S.cache ()).out i).resp] else [])) := by
    simp only [Sys.clockEvs, inEvs, List.map_append, List.append_assoc]
    congr 1
    · split <;> rfl
    · congr 1 <;> split <;> rfl
  have hrq : (if i.mrespEn then (T.respQ ()).tail else T.respQ ()) =
      (if i.mrespEn then (S.respQ ()).tail else S.respQ ()).map MResp.strip := by
    rw [hr.respQ]; split
    · rw [List.map_tail]
    · rfl
  rw [hrq] at hin
  generalize hcy : (S.cache ()).cyc (T.L ()) i = cy at *
  have hrel : ∀ T' : ESys Unit p, T'.L = upd T.L () cy.1 → T'.E = upd T.E () E' →
      T'.respQ = upd T.respQ () ((if i.mrespEn then (S.respQ ()).tail else S.respQ ()).map MResp.strip) →
      T'.reqQ = upd T.reqQ () (T.reqQ () ++
        if ((S.cache ()).out i).mreqEn then [((S.cache ()).out i).mreq.canon] else []) →
      T'.mem = T.mem → RelI (S.clock () i) T' := by
    intro T' h1 h2 h3 h4 h5
    refine ⟨?_, ?_, ?_, ?_⟩
    · simp only [h1, h2, Sys.clock, upd_same]
      rw [hstep]
      rw [hot] at hRI'
      have : outTys (if i.mrespEn then (S.respQ ()).tail else S.respQ ()) (S.reqQ ()) ++
          memTypes ((S.cache ()).out i).msgs =
          outTys (if i.mrespEn then (S.respQ ()).tail else S.respQ ()) (S.reqQ () ++
            if ((S.cache ()).out i).mreqEn then [((S.cache ()).out i).mreq] else []) := by
        simp only [outTys, List.map_append, List.append_assoc, Out.msgs, memTypes_append]
        congr 2
        cases ((S.cache ()).out i).mreqEn <;> cases ((S.cache ()).out i).respEn <;>
          simp [MReq.canon_ty]
      rw [← this]; exact hRI'
    · simp only [h4, Sys.clock, upd_same]
      rw [hr.reqQ, List.map_append]
      congr 1
      split <;> rfl
    · simp only [h3, Sys.clock, upd_same]
    · rw [h5, hr.mem]; rfl
  rw [hev]
  have hout := slot_le_one (S.cache ()).slot
  have hmem : ∀ m, m ∈ ((S.cache ()).out i).msgs → m ∈ (S.cache ()).slot.msgs :=
    fun m h => out_msgs_sub _ _ h
  simp only [Out.msgs] at hE
  have hnil : ∀ {T T' : ESys Unit p} {a b : List (Ev Unit p)} {x : List (HReq p)} {T'' : ESys Unit p},
      IRun T a x T' → IRun T' b [] T'' → IRun T (a ++ b) x T'' := by
    intro T T' a b x T'' h h'
    have := h.trans h'
    rwa [List.append_nil] at this
  cases h1 : ((S.cache ()).out i).mreqEn <;> cases h2 : ((S.cache ()).out i).respEn
  · simp only [h1, h2] at hE ⊢
    simp only [Bool.false_eq_true, if_false, if_true, List.append_nil, List.nil_append]
    refine ⟨_, hin, hrel _ rfl ?_ rfl ?_ rfl⟩
    · simp at hE; simp [hE]
    · simp [h1, upd_eq_self]
  · simp only [h1, h2] at hE ⊢
    have hq : outTys (S.respQ ()) (S.reqQ ()) = [] :=
      hRI.resp_quiet (i := i) (r := ((S.cache ()).out i).resp) (by simp [Out.msgs, h2])
    obtain ⟨hq1, hq2⟩ := outTys_nil hq
    have he := EStep.emitResp { T with
        L := upd T.L () cy.1
        E := upd T.E () (T.E () ++ cy.2)
        respQ := upd T.respQ () ((if i.mrespEn then (S.respQ ()).tail else S.respQ ()).map MResp.strip) }
      () ((S.cache ()).out i).resp E' (by simpa using hE) (by simp [hr.reqQ, hq2])
      (by simp [hq1])
    have := hnil hin (.one (.old he rfl))
    simp only [Bool.false_eq_true, if_false, if_true, List.append_nil, List.nil_append]
    refine ⟨_, this, hrel _ rfl ?_ rfl ?_ rfl⟩
    · simp [upd_upd]
    · simp [h1, upd_eq_self]
  · simp only [h1, h2] at hE ⊢
    have he := EStep.emitMem { T with
        L := upd T.L () cy.1
        E := upd T.E () (T.E () ++ cy.2)
        respQ := upd T.respQ () ((if i.mrespEn then (S.respQ ()).tail else S.respQ ()).map MResp.strip) }
      () ((S.cache ()).out i).mreq.canon E' (by simpa using hE)
    have := hnil hin (.one (.old he rfl))
    simp only [Bool.false_eq_true, if_false, if_true, List.append_nil, List.nil_append]
    refine ⟨_, this, hrel _ rfl ?_ rfl ?_ rfl⟩
    · simp [upd_upd]
    · simp [h1]
  · exfalso
    have g1 := hmem (.mem ((S.cache ()).out i).mreq.canon) (by simp [Out.msgs, h1])
    have g2 := hmem (.resp ((S.cache ()).out i).resp) (by simp [Out.msgs, h2])
    rcases hout with h | ⟨_, h⟩ | ⟨_, h⟩ <;> rw [h] at g1 g2 <;> simp at g1 g2

theorem refine_execI {S : Sys Unit p} {T : ESys Unit p} {m : MReq p} {ms : List (MReq p)}
    (hr : RelI S T) (h : S.reqQ () = m :: ms) :
    ∃ T', IRun T [Ev.canon (.exec () m (memExec S.mem m).2)] [] T' ∧ RelI (S.exec () m) T' := by
  have he := EStep.exec T () m.canon (ms.map MReq.canon) (by rw [hr.reqQ, h]; rfl)
  rw [hr.mem, memExec_strip, (memExec_canon S.mem m).1] at he
  refine ⟨_, .one (.old he rfl), ?_, ?_, ?_, rfl⟩
  · have := hr.cache
    simp only [Sys.exec, upd_same]
    have e : outTys (S.respQ () ++ [(memExec S.mem m).2]) (S.reqQ ()).tail =
        outTys (S.respQ ()) (S.reqQ ()) := by
      simp [outTys, h]
    rw [e]; exact this
  · simp only [Sys.exec, upd_same]
    rw [h]; rfl
  · simp only [Sys.exec, upd_same]
    rw [List.map_append, hr.respQ]; rfl

/-- **Refinement, WRITE_INIT included.** -/
theorem refineI (wf : p.WF) {S S' : Sys Unit p} {tr : List (Ev Unit p)} (h0 : Start S)
    (h : InitRun S tr S') :
    ∃ T hs, IRun (ESys.init Unit p S.mem) (tr.map Ev.canon) hs T ∧ RelI S' T ∧ HintsOk hs ∧
      ((∀ x ∈ hs, x.q.ty = MT.INIT) → JInv (S'.cache ()) ∧ S'.reqQ () = [] ∧ S'.respQ () = []) ∧
      (hs = [] → J0 (S'.cache ())) ∧ RepOk (S'.cache ()) := by
  induction h with
  | refl =>
    obtain ⟨s, i, hi, hc⟩ := h0.reset ()
    refine ⟨_, [], .refl _, ⟨?_, ?_, ?_, rfl⟩, .nil, ?_, ?_, by rw [hc]; exact .start s i hi⟩
    · rw [hc, h0.reqQ (), h0.respQ ()]
      exact RIU.start s i hi
    · rw [h0.reqQ ()]; rfl
    · rw [h0.respQ ()]; rfl
    · intro _; rw [hc]; exact ⟨.start s i hi, h0.reqQ (), h0.respQ ()⟩
    · intro _; rw [hc]; exact .start s i hi
  | @clock S1 tr h k i nr rq mm ih =>
    cases k
    obtain ⟨T, hs, h1, h2, h3, h4, h5, hR⟩ := ih
    have hc : S1.CanClockI i := ⟨nr, rq, mm⟩
    obtain ⟨T', h6, h7⟩ := refine_clockI wf h2 hc
    have hstep : (S1.cache ()).step i = (S1.cache ()).next i := by simp [St.step, nr]
    have hcache : (S1.clock () i).cache () = (S1.cache ()).next i := by
      simp only [Sys.clock, upd_same]; exact hstep
    refine ⟨T', hs ++ hintOf S1 i, by rw [List.map_append]; exact h1.trans h6, h7, ?_, ?_, ?_, by rw [hcache]; exact hR.next i⟩
    · simp only [hintOf]
      cases hre : i.reqEn
      · simpa using h3
      · refine h3.snoc ?_ ?_ ?_
        · exact hR _
        · intro hall; exact (h4 hall).1.dty
        · intro hnil; simp only [St.repRd]; rw [(h5 hnil).rep]
    · intro hall
      obtain ⟨hj, hq1, hq2⟩ := h4 (fun x hx => hall x (by simp [hx]))
      have hm : i.mrespEn = false := by
        cases hm : i.mrespEn
        · rfl
        · obtain ⟨l, hl⟩ := mm hm; rw [hq2] at hl; cases hl
      refine ⟨?_, ?_, ?_⟩
      · rw [hcache]
        refine hj.next hm (fun hre => ?_)
        exact hall ⟨i.req, _, _⟩ (by simp [hintOf, hre]; exact .inr ⟨rfl, rfl⟩)
      · simp only [Sys.clock, upd_same, hq1, hj.noMem]; rfl
      · simp only [Sys.clock, upd_same, hq2, hm]; rfl
    · intro hnil
      obtain ⟨hn1, hn2⟩ := List.append_eq_nil_iff.1 hnil
      have hre : i.reqEn = false := by
        cases hre : i.reqEn
        · rfl
        · simp [hintOf, hre] at hn2
      rw [hcache]
      subst hn1
      exact (h5 rfl).next (h4 (by simp)).1 hre
  | @exec S1 tr h k m ms hm ih =>
    cases k
    obtain ⟨T, hs, h1, h2, h3, h4, h5, hR⟩ := ih
    obtain ⟨T', h6, h7⟩ := refine_execI h2 hm
    refine ⟨T', hs, ?_, h7, h3, ?_, h5, hR⟩
    · rw [List.map_append]
      have := h1.trans h6
      rwa [List.append_nil] at this
    · intro hall
      have := (h4 hall).2.1
      rw [hm] at this; cases this

/-- Everything a run of the RTL system with WRITE_INITs says about the log of
performed requests. Proof device; not in the source. -/
structure LoggedI (S S' : Sys Unit p) (tr : List (Ev Unit p)) (hs : List (HReq p)) : Prop where
  acc : hs.map (·.q) = accepted () tr
  hints : HintsOk hs
  log : ∃ rest, ((L1.init p).opsI S.mem hs).2.2 = emitted () (tr.map Ev.canon) ++ rest ∧
    (respMsgs rest).length ≤ 2
  mem : (memRun S.mem (memMsgs (emitted () (tr.map Ev.canon)))).1 =
    (memRun S'.mem ((S'.reqQ ()).map MReq.canon)).1

theorem loggedI (wf : p.WF) {S S' : Sys Unit p} {tr : List (Ev Unit p)} (h0 : Start S)
    (h : InitRun S tr S') : ∃ hs, LoggedI S S' tr hs := by
  obtain ⟨T, hs, h1, h2, h3, _, _, _⟩ := refineI wf h0 h
  have hl := IInv.run h1
  refine ⟨hs, ?_, h3, ?_, ?_⟩
  · rw [h1.hints, accepted_canon]
  · refine ⟨T.E () ++ ((T.L ()).answer (lastData (T.pend ()))).2, ?_, ?_⟩
    · rw [hl.ops, List.append_assoc]
    · have h3 := h2.cache.two
      have h4 := answer_nResp (T.L ()) (lastData (T.pend ()))
      rw [answer_idle] at h4
      rw [respMsgs_append, List.length_append, ← nResp_eq, ← nResp_eq]
      have h5 : (Cur.idle : Cur p).pend = 0 := rfl
      omega
  · rw [hl.mem, h2.mem, h2.reqQ]

/-- Responses delivered so far are a prefix of the responses of the log. -/
theorem LoggedI.resp {S S' : Sys Unit p} {tr : List (Ev Unit p)} {hs : List (HReq p)}
    (h : LoggedI S S' tr hs) :
    ∃ rest, respMsgs ((L1.init p).opsI S.mem hs).2.2 = responses () tr ++ rest ∧ rest.length ≤ 2 := by
  obtain ⟨rest, h1, h2⟩ := h.log
  refine ⟨respMsgs rest, ?_, h2⟩
  rw [h1, respMsgs_append, respMsgs_emitted, responses_canon]

end Verif
