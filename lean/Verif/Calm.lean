import Verif.SramSim

/-!
# Facts that hold in every state after reset when the processor obeys `rdy`

and never sends WRITE_INIT.  Memory may respond whenever and whatever it likes.
-/

namespace Verif
variable {p : Params}

/-- A transaction taken from the request port and the request type it comes from. Proof device; not in the source. -/
def TyOk (t : Trans) (ty : MType) : Prop :=
  match t with
  | .readReq => ty = MT.READ
  | .writeReq => ty = MT.WRITE
  | .amoReq => MT.isAmo ty = true
  | .invStart => ty = MT.INV
  | .flushStart => ty = MT.FLUSH
  | .initReq => ty = MT.INIT
  | _ => True

/-- The processor obeys `rdy` and does not send WRITE_INIT. Proof device; not in the source. -/
def Polite (s : St p) (i : In p) : Prop :=
  i.reqEn = true → (s.out i).reqRdy = true ∧ i.req.ty ≠ MT.INIT

/-- Proof device; not in the source. -/
structure Calm (s : St p) : Prop where
  tidy : Tidy s
  noInit : s.t1 ≠ .initReq
  ty : TyOk s.t1 s.req1.ty
  mshr : s.mshr.ty ≠ MT.INIT
  start : s.t1 = .flushStart → s.fsm = .flush
  flush : s.fsm = .flush ∨ s.fsm = .flushWait → s.t1 = .flushStart ∨
    ((s.t1 = .flushRead ∨ s.t1 = .flushWait ∨ s.t1 = .flushWrite) ∧ s.mshr.ty = MT.FLUSH)
  read : s.t1 = .flushRead → (s.fsm = .flush ∨ s.fsm = .replay) ∧ s.mshr.ty = MT.FLUSH
  replay : s.fsm = .replay → s.mshr.ty = MT.FLUSH → s.t1 ≠ .readReq ∧ s.t1 ≠ .writeReq ∧ s.t1 ≠ .amoReq ∧
    s.t1 ≠ .invStart
  same : s.t1 = .flushRead → (s.effTag s.updWay1).dty = (s.tagRam s.updWay1 (cntIdx p (s.cnt + 1))).dty
  amo : s.t1 = .amoReq → s.evict2 = false → s.wasStalled = true → s.hitStall = s.hitInfoIn

variable {s : St p}

/-! ## What the M0 transaction says about the state -/

theorem cleanHit_t1 (h : s.status1.cleanHit = true) : s.t1 = .writeReq := by
  cases h1 : s.t1 <;> simp only [St.status1, h1] at h
  all_goals first | rfl | exact absurd h (by decide) | skip
  all_goals
    exfalso
    have e1 : (Trans.readReq == Trans.writeReq) = false := by decide
    have e2 : (Trans.initReq == Trans.writeReq) = false := by decide
    simp only [e1, e2, Bool.and_false] at h
    repeat' split at h
    all_goals exact Bool.noConfusion h

theorem trans0_req {i : In p} {t : Trans} (h : s.trans0 i = t)
    (ht : t = .readReq ∨ t = .writeReq ∨ t = .amoReq ∨ t = .invStart ∨ t = .flushStart ∨ t = .initReq) :
    s.fsm = .ready ∧ s.mshrEmpty = true ∧ i.reqEn = true ∧ TyOk t (s.req0 i).ty := by
  unfold St.trans0 at h
  dsimp only at h
  repeat' split at h
  all_goals first
    | (subst h; simp at ht; done)
    | skip
  all_goals
    subst h
    simp_all [TyOk]

theorem trans0_flush {i : In p} (hf : s.fsm = .flush) (hc : s.status1.cleanHit = false) :
    (s.trans0 i = .flushWait ∧ s.flushSent1 = true) ∨ (s.trans0 i = .flushRead ∧ s.flushSent1 = false) := by
  unfold St.trans0
  dsimp only
  rw [hf, hc]
  cases s.flushSent1 <;> simp

theorem trans0_flushRead {i : In p} (h : s.trans0 i = .flushRead) : s.fsm = .flush ∧ s.flushSent1 = false := by
  unfold St.trans0 at h
  dsimp only at h
  repeat' split at h
  all_goals first | (exact absurd h (by decide)) | skip
  exact ⟨by assumption, by simp_all⟩

theorem trans0_flushWrite {i : In p} (h : s.trans0 i = .flushWrite) : s.fsm = .flushWait := by
  unfold St.trans0 at h
  dsimp only at h
  repeat' split at h
  all_goals first | (exact absurd h (by decide)) | skip
  assumption

theorem trans0_replayFlush {i : In p} (h : s.trans0 i = .replayFlush) : s.fsm = .replay ∧ s.mshr.ty = MT.FLUSH := by
  unfold St.trans0 at h
  dsimp only at h
  repeat' split at h
  all_goals first | (exact absurd h (by decide)) | skip
  simp_all

theorem trans0_replay {i : In p} (hf : s.fsm = .replay) (hm : s.mshr.ty = MT.FLUSH) (hc : s.status1.cleanHit = false) :
    s.trans0 i = .replayFlush ∨ s.trans0 i = .flushWait ∨ s.trans0 i = .invalid := by
  unfold St.trans0
  dsimp only
  rw [hf, hc, hm]
  simp only [Bool.false_eq_true, if_false]
  have h1 : (MT.FLUSH == MT.WRITE) = false := by decide
  have h2 : (MT.FLUSH == MT.READ) = false := by decide
  have h3 : (MT.FLUSH == MT.INV) = false := by decide
  have h4 : (MT.FLUSH == MT.FLUSH) = true := by decide
  rw [h1, h2, h3, h4]
  cases s.mshrEmpty <;> cases s.prevFlushDone <;> simp

theorem trans0_flushWait {i : In p} (hf : s.fsm = .flushWait) (hc : s.status1.cleanHit = false) :
    s.trans0 i = .flushWrite ∨ s.trans0 i = .flushWait := by
  unfold St.trans0
  dsimp only
  rw [hf, hc]
  cases s.wrAck0 <;> simp

/-- A transaction in M1 that writes the MSHR. -/
theorem alloc_cases {i : In p} (h : s.allocEn i = true) : s.stall i = false ∧
    (s.t1 = .readReq ∨ s.t1 = .writeReq ∨ s.t1 = .amoReq ∨ s.t1 = .invStart ∨ s.t1 = .flushStart) := by
  simp only [St.allocEn, Bool.and_eq_true, Bool.not_eq_true'] at h
  refine ⟨h.2, ?_⟩
  have h := h.1
  unfold St.cs1 Verif.cs1 at h
  cases h1 : s.t1 <;> simp [h1] at h ⊢
  all_goals
    have he : s.status1.evict = false := by
      cases he : s.status1.evict
      · rfl
      · rcases (evict_spec he).1 with h2 | h2 | h2 <;> rw [h1] at h2 <;> exact absurd h2 (by decide)
    rw [he] at h
    simp at h

theorem next_mshr (s : St p) (i : In p) : (s.next i).mshr = if s.allocEn i then s.mshrIn else s.mshr := rfl

theorem TyOk.ne_init {t : Trans} {ty : MType} (h : TyOk t ty)
    (ht : t = .readReq ∨ t = .writeReq ∨ t = .amoReq ∨ t = .invStart ∨ t = .flushStart) : ty ≠ MT.INIT := by
  rcases ht with rfl | rfl | rfl | rfl | rfl <;> intro h' <;> subst h' <;> exact absurd h (by unfold TyOk; decide)

theorem TyOk.ne_flush {t : Trans} {ty : MType} (h : TyOk t ty)
    (ht : t = .readReq ∨ t = .writeReq ∨ t = .amoReq ∨ t = .invStart) : ty ≠ MT.FLUSH := by
  rcases ht with rfl | rfl | rfl | rfl <;> intro h' <;> subst h' <;> exact absurd h (by unfold TyOk; decide)

/-- M1 moves on, cache initialises, or M1 stays. -/
theorem next_cases (s : St p) (i : In p) :
    (s.stall i = false ∧ s.trans0 i ≠ .cacheInit ∧ (s.next i).t1 = s.trans0 i ∧ (s.next i).updWay1 = s.updWay0 (s.trans0 i) ∧
      (s.next i).req1 = s.pmsg0 i (s.trans0 i) ∧ (s.next i).fsm = s.fsmNext i ∧ (s.next i).wasStalled = false) ∨
    (s.fsm = .init ∧ s.trans0 i = .cacheInit ∧ (s.next i).t1 = .cacheInit ∧ (s.next i).req1 = s.req1) ∨
    (s.stall i = true ∧ s.fsm ≠ .init ∧ (s.next i).t1 = s.t1 ∧ (s.next i).updWay1 = s.updWay1 ∧
      (s.next i).req1 = s.req1 ∧ (s.next i).fsm = s.fsm ∧ (s.next i).mshr = s.mshr ∧ (s.next i).cnt = s.cnt) := by
  have er : (s.next i).req1 = if !s.stall i && !s.status1.evict && (s.trans0 i != .cacheInit) then s.pmsg0 i (s.trans0 i) else s.req1 := rfl
  have ef : (s.next i).fsm = if !s.stall i then s.fsmNext i else s.fsm := rfl
  rcases cen1_cases s i with ⟨h1, h2, h3, h4⟩ | ⟨h0, h1⟩ | ⟨h1, h2, h3, h4⟩
  · by_cases hc : s.trans0 i = .cacheInit
    · right; left
      refine ⟨trans0_init hc, hc, h3.trans hc, ?_⟩
      rw [er, hc]; simp
    · left
      refine ⟨h1, hc, h3, h4, ?_, ?_, not_stall h1⟩
      · rw [er, h1, h2]; simp [hc]
      · rw [ef, h1]; rfl
  · right; left
    refine ⟨trans0_init h0, h0, h1, ?_⟩
    rw [er, h0]; simp
  · right; right
    refine ⟨h1, fun h => h2 (trans0_of_init h i), h3, h4, ?_, ?_, ?_, ?_⟩
    · rw [er, h1]; rfl
    · rw [ef, h1]; rfl
    · rw [next_mshr]
      have : s.allocEn i = false := by simp [St.allocEn, h1]
      rw [this]; rfl
    · show counterNext (!s.stall i && _) true s.cnt = s.cnt
      rw [h1]; rfl

theorem fsmNext_flush {i : In p} (h : s.fsmNext i = .flush) :
    (s.fsm = .ready ∧ s.mshrEmpty = true ∧ i.reqEn = true ∧ (s.req0 i).ty = MT.FLUSH) ∨
    (s.fsm = .flush ∧ s.flushSent1 = false) ∨ (s.fsm = .flushWait ∧ s.wrAck0 = true) := by
  unfold St.fsmNext at h
  dsimp only at h
  repeat' split at h
  all_goals first | (exact absurd h (by decide)) | skip
  · next h1 _ _ h2 _ _ => simp_all
  · simp_all
  · simp_all

theorem fsmNext_flushWait {i : In p} (h : s.fsmNext i = .flushWait) :
    (s.fsm = .replay ∧ s.mshrEmpty = false ∧ s.mshr.ty = MT.FLUSH ∧ s.prevFlushDone = false) ∨ (s.fsm = .flush ∧ s.flushSent1 = true) ∨
    (s.fsm = .flushWait ∧ s.wrAck0 = false) := by
  unfold St.fsmNext at h
  dsimp only at h
  repeat' split at h
  all_goals first | (exact absurd h (by decide)) | skip
  · simp_all
  · simp_all
  · simp_all

theorem fsmNext_replay {i : In p} (h : s.fsmNext i = .replay) :
    (s.fsm = .ready ∧ (s.mshr.ty = MT.WRITE ∨ s.mshr.ty = MT.READ)) ∨ s.fsm = .inv ∨ s.fsm = .flush ∨ s.fsm = .flushWait := by
  unfold St.fsmNext at h
  dsimp only at h
  repeat' split at h
  all_goals first | (exact absurd h (by decide)) | skip
  all_goals simp_all

/-! ## Preservation -/

theorem tagRam_keep (s : St p) (i : In p) {w : Way} {j : Idx p} (h : (cs0 (s.trans0 i)).wr = false) :
    (s.next i).tagRam w j = s.tagRam w j := by
  show (if s.tagVal0 (s.trans0 i) w && (cs0 (s.trans0 i)).wr && decide (j = s.tagIdx0 i (s.trans0 i)) then _ else _) = _
  rw [h]; simp

theorem flushRead_evict2 (T : Tidy s) (h : s.t1 = .flushRead) : s.evict2 = false := by
  cases he : s.evict2
  · rfl
  · have := T.evict he; rw [h] at this; simp at this

theorem flushRead_not_clean (h : s.t1 = .flushRead) : s.status1.cleanHit = false := by
  cases hc : s.status1.cleanHit
  · rfl
  · have := cleanHit_t1 hc; rw [h] at this; exact absurd this (by decide)

theorem clean_of_flush (C : Calm s) (h : s.fsm = .flush ∨ s.fsm = .flushWait) : s.status1.cleanHit = false := by
  cases hc : s.status1.cleanHit
  · rfl
  · have h1 := cleanHit_t1 hc
    rcases C.flush h with h2 | ⟨h2 | h2 | h2, _⟩ <;> rw [h1] at h2 <;> exact absurd h2 (by decide)

theorem clean_of_replay (C : Calm s) (h : s.fsm = .replay) (hm : s.mshr.ty = MT.FLUSH) : s.status1.cleanHit = false := by
  cases hc : s.status1.cleanHit
  · rfl
  · exact absurd (cleanHit_t1 hc) (C.replay h hm).2.1

theorem Polite.rdy {i : In p} (h : Polite s i) (hr : i.reqEn = true) :
    s.fsm ≠ .init ∧ s.status1.cleanHit = false ∧ s.stall i = false ∧ s.mshrEmpty = true ∧ s.allocEn i = false := by
  have h := (h hr).1
  have h : s.reqRdy i = true := h
  simp only [St.reqRdy, Bool.not_eq_true', Bool.or_eq_false_iff] at h
  obtain ⟨⟨⟨⟨h1, h2⟩, h3⟩, h4⟩, h5⟩ := h
  have h4 : s.mshrEmpty = true := by simpa using h4
  refine ⟨by intro hh; rw [hh] at h1; exact absurd h1 (by decide), h2, h3, h4, ?_⟩
  have hn : s.mshrNum = 0 := by
    have : (s.mshrNum == 0) = true := h4
    simpa using this
  rw [hn] at h5
  cases ha : s.allocEn i
  · rfl
  · rw [ha] at h5; exact absurd h5 (by decide)

/-- MSHR type after the edge, if a FLUSH is in progress. -/
theorem mshr_flush (C : Calm s) {i : In p} (hs : s.stall i = false) (h : s.fsm = .flush ∨ s.fsm = .flushWait) :
    (s.next i).mshr.ty = MT.FLUSH := by
  rw [next_mshr]
  rcases C.flush h with h1 | ⟨h1, h2⟩
  · have ha : s.allocEn i = true := by
      have he : s.status1.evict = false := by simp only [St.status1, h1]
      simp [St.allocEn, hs, St.cs1, Verif.cs1, h1, he]
    rw [ha]
    have := C.ty
    rw [h1] at this
    exact this
  · have ha : s.allocEn i = false := by
      cases ha : s.allocEn i
      · rfl
      · have := (alloc_cases ha).2
        rcases h1 with h1 | h1 | h1 <;> rw [h1] at this <;> simp at this
    rw [ha]; exact h2

theorem Calm.next (C : Calm s) {i : In p} (hp : Polite s i) : Calm (s.next i) where
  tidy := C.tidy.next i
  noInit := by
    rcases next_cases s i with ⟨h1, h2, h3, h4, h5, h6, h7⟩ | ⟨h1, h2, h3, h4⟩ | ⟨h1, h2, h3, h4, h5, h6, h7, h8⟩
    · rw [h3]
      intro h
      obtain ⟨_, _, hr, ht⟩ := trans0_req h (by simp)
      have ht : (s.req0 i).ty = MT.INIT := ht
      unfold St.req0 at ht
      split at ht
      · exact C.mshr ht
      · exact (hp hr).2 ht
    · rw [h3]; decide
    · rw [h3]; exact C.noInit
  ty := by
    rcases next_cases s i with ⟨h1, h2, h3, h4, h5, h6, h7⟩ | ⟨h1, h2, h3, h4⟩ | ⟨h1, h2, h3, h4, h5, h6, h7, h8⟩
    · rw [h3, h5]
      show TyOk (s.trans0 i) (s.req0 i).ty
      cases ht : s.trans0 i
      case readReq => exact (trans0_req ht (by simp)).2.2.2
      case writeReq => exact (trans0_req ht (by simp)).2.2.2
      case amoReq => exact (trans0_req ht (by simp)).2.2.2
      case invStart => exact (trans0_req ht (by simp)).2.2.2
      case flushStart => exact (trans0_req ht (by simp)).2.2.2
      case initReq => exact (trans0_req ht (by simp)).2.2.2
      all_goals exact trivial
    · rw [h3]; exact trivial
    · rw [h3, h5]; exact C.ty
  mshr := by
    rw [next_mshr]
    split
    · next h => exact C.ty.ne_init (alloc_cases h).2
    · exact C.mshr
  start h := by
    rcases next_cases s i with ⟨h1, h2, h3, h4, h5, h6, h7⟩ | ⟨h1, h2, h3, h4⟩ | ⟨h1, h2, h3, h4, h5, h6, h7, h8⟩
    · rw [h3] at h
      obtain ⟨hf, he, hr, ht⟩ := trans0_req h (by simp)
      have ht : (s.req0 i).ty = MT.FLUSH := ht
      rw [h6]
      unfold St.fsmNext
      rw [hf]
      dsimp only
      have hm : (s.mrespVal0 && (s.mshr.ty == MT.WRITE || s.mshr.ty == MT.READ)) = false := by
        cases hm : s.mrespVal0 && (s.mshr.ty == MT.WRITE || s.mshr.ty == MT.READ)
        · rfl
        · exfalso
          simp only [Bool.and_eq_true, St.mrespVal0, Bool.or_eq_true, beq_iff_eq] at hm
          have : (s.req0 i).ty = s.mshr.ty := by
            unfold St.req0
            rw [hm.1.1]; simp; rfl
          rw [this] at ht
          rcases hm.2 with h' | h' <;> rw [h'] at ht <;> exact absurd ht (by decide)
      rw [hm, he, hr, ht]
      decide
    · rw [h3] at h; exact absurd h (by decide)
    · rw [h3] at h; rw [h6]; exact C.start h
  flush h := by
    rcases next_cases s i with ⟨h1, h2, h3, h4, h5, h6, h7⟩ | ⟨h1, h2, h3, h4⟩ | ⟨h1, h2, h3, h4, h5, h6, h7, h8⟩
    · rw [h6] at h
      rw [h3]
      rcases h with h | h
      · rcases fsmNext_flush h with ⟨g1, g2, g3, g4⟩ | ⟨g1, g2⟩ | ⟨g1, g2⟩
        · left
          have hc := (hp.rdy g3).2.1
          unfold St.trans0
          dsimp only
          rw [g1, hc, g2, g3, g4]
          simp only [Bool.not_true, Bool.and_false, Bool.false_eq_true, if_false, Bool.and_self, if_true]
          decide
        · right
          refine ⟨?_, mshr_flush C h1 (.inl g1)⟩
          rcases trans0_flush g1 (clean_of_flush C (.inl g1)) (i := i) with g | g
          · exact .inr (.inl g.1)
          · exact .inl g.1
        · right
          refine ⟨?_, mshr_flush C h1 (.inr g1)⟩
          rcases trans0_flushWait g1 (clean_of_flush C (.inr g1)) (i := i) with g | g
          · exact .inr (.inr g)
          · exact .inr (.inl g)
      · rcases fsmNext_flushWait h with ⟨g1, g2, g3, g4⟩ | ⟨g1, g2⟩ | ⟨g1, g2⟩
        · right
          have hc := clean_of_replay C g1 g3
          constructor
          · right; left
            unfold St.trans0
            dsimp only
            rw [g1, hc, g2, g3, g4]
            rfl
          · rw [next_mshr]
            split
            · next ha =>
              rcases (alloc_cases ha).2 with g | g | g | g | g
              · exact absurd g (C.replay g1 g3).1
              · exact absurd g (C.replay g1 g3).2.1
              · exact absurd g (C.replay g1 g3).2.2.1
              · exact absurd g (C.replay g1 g3).2.2.2
              · exact absurd (C.start g) (by rw [g1]; decide)
            · exact g3
        · right
          refine ⟨?_, mshr_flush C h1 (.inl g1)⟩
          rcases trans0_flush g1 (clean_of_flush C (.inl g1)) (i := i) with g | g
          · exact .inr (.inl g.1)
          · exact .inl g.1
        · right
          refine ⟨?_, mshr_flush C h1 (.inr g1)⟩
          rcases trans0_flushWait g1 (clean_of_flush C (.inr g1)) (i := i) with g | g
          · exact .inr (.inr g)
          · exact .inr (.inl g)
    · exfalso
      have hf : s.fsmNext i = .flush ∨ s.fsmNext i = .flushWait ∨ s.fsm = .flush ∨ s.fsm = .flushWait := by
        have ef : (s.next i).fsm = if !s.stall i then s.fsmNext i else s.fsm := rfl
        rw [ef] at h
        split at h
        · rcases h with h | h
          · exact .inl h
          · exact .inr (.inl h)
        · exact .inr (.inr h)
      rcases hf with hf | hf | hf | hf
      · rcases fsmNext_flush hf with ⟨g1, _⟩ | ⟨g1, _⟩ | ⟨g1, _⟩ <;> rw [h1] at g1 <;> exact absurd g1 (by decide)
      · rcases fsmNext_flushWait hf with ⟨g1, _⟩ | ⟨g1, _⟩ | ⟨g1, _⟩ <;> rw [h1] at g1 <;> exact absurd g1 (by decide)
      · rw [h1] at hf; exact absurd hf (by decide)
      · rw [h1] at hf; exact absurd hf (by decide)
    · rw [h6] at h
      rw [h3, h7]
      exact C.flush h
  read h := by
    rcases next_cases s i with ⟨h1, h2, h3, h4, h5, h6, h7⟩ | ⟨h1, h2, h3, h4⟩ | ⟨h1, h2, h3, h4, h5, h6, h7, h8⟩
    · rw [h3] at h
      obtain ⟨g1, g2⟩ := trans0_flushRead h
      refine ⟨?_, mshr_flush C h1 (.inl g1)⟩
      rw [h6]
      unfold St.fsmNext
      rw [g1, g2]
      dsimp only
      simp only [Bool.false_eq_true, if_false]
      split
      · exact .inr rfl
      · exact .inl rfl
    · rw [h3] at h; exact absurd h (by decide)
    · rw [h3] at h
      rw [h6, h7]
      exact C.read h
  replay hf hm := by
    rcases next_cases s i with ⟨h1, h2, h3, h4, h5, h6, h7⟩ | ⟨h1, h2, h3, h4⟩ | ⟨h1, h2, h3, h4, h5, h6, h7, h8⟩
    · rw [h6] at hf
      rw [h3]
      have key : s.fsm ≠ .ready → s.trans0 i ≠ .readReq ∧ s.trans0 i ≠ .writeReq ∧ s.trans0 i ≠ .amoReq ∧
          s.trans0 i ≠ .invStart := fun hn =>
        ⟨fun h => hn (trans0_req h (by simp)).1, fun h => hn (trans0_req h (by simp)).1, fun h => hn (trans0_req h (by simp)).1,
          fun h => hn (trans0_req h (by simp)).1⟩
      rcases fsmNext_replay hf with ⟨g1, g2⟩ | g1 | g1 | g1
      · exfalso
        rw [next_mshr] at hm
        split at hm
        · next ha =>
          have hc := (alloc_cases ha).2
          have hm : s.req1.ty = MT.FLUSH := hm
          rcases hc with g | g | g | g | g
          · exact C.ty.ne_flush (.inl g) hm
          · exact C.ty.ne_flush (.inr (.inl g)) hm
          · exact C.ty.ne_flush (.inr (.inr (.inl g))) hm
          · exact C.ty.ne_flush (.inr (.inr (.inr g))) hm
          · exact absurd (C.start g) (by rw [g1]; decide)
        · rcases g2 with g | g <;> rw [g] at hm <;> exact absurd hm (by decide)
      · exact key (by rw [g1]; decide)
      · exact key (by rw [g1]; decide)
      · exact key (by rw [g1]; decide)
    · rw [h3]; decide
    · rw [h6] at hf
      rw [h7] at hm
      rw [h3]
      exact C.replay hf hm
  same h := by
    rcases next_cases s i with ⟨h1, h2, h3, h4, h5, h6, h7⟩ | ⟨h1, h2, h3, h4⟩ | ⟨h1, h2, h3, h4, h5, h6, h7, h8⟩
    · rw [h3] at h
      have hr : s.tagRead i (cntWay p s.cnt) = true :=
        live_read (cntWay_way _) (by simp [h]) (fun _ => rfl)
      have ew : (s.next i).updWay1 = cntWay p s.cnt := by rw [h4, h]; rfl
      have ec : (s.next i).cnt = counterNext (!s.stall i && s.cntEn0 (s.trans0 i)) true s.cnt := rfl
      have e1 : (s.next i).cnt + 1 = s.cnt := by
        rw [ec, h, h1]
        simp [counterNext, St.cntEn0, BitVec.sub_add_cancel]
      rw [ew, e1, tagRam_keep s i (by rw [h]; rfl)]
      have e2 : (s.next i).effTag (cntWay p s.cnt) = (s.next i).tagDout (cntWay p s.cnt) := by
        unfold St.effTag
        rw [h7]; rfl
      have e3 : (s.next i).tagDout (cntWay p s.cnt) = if s.tagRead i (cntWay p s.cnt) then
          s.tagRam (cntWay p s.cnt) (s.tagIdx0 i (s.trans0 i)) else s.tagDout (cntWay p s.cnt) := rfl
      rw [e2, e3, hr, h]
      rfl
    · rw [h3] at h; exact absurd h (by decide)
    · rw [h3] at h
      have hs := C.same h
      have ho : (s.cs2 i).ostall = true := by
        rcases stall_cases h1 with g | g
        · exact g
        · rcases (evict_spec g).1 with g | g | g <;> rw [h] at g <;> exact absurd g (by decide)
      have e1 : (s.next i).effTag s.updWay1 = s.effTag s.updWay1 := by
        show stallOut (!(s.cs2 i).ostall) _ (s.effTag s.updWay1) = _
        rw [ho]; rfl
      rw [h4, h8, e1, hs]
      have hc := flushRead_not_clean h
      obtain ⟨hf, hm⟩ := C.read h
      have hcase : s.trans0 i = .replayFlush ∨ (cs0 (s.trans0 i)).wr = false := by
        rcases hf with hf | hf
        · rcases trans0_flush hf hc (i := i) with g | g <;> rw [g.1] <;> exact .inr rfl
        · rcases trans0_replay hf hm hc (i := i) with g | g | g
          · exact .inl g
          · rw [g]; exact .inr rfl
          · rw [g]; exact .inr rfl
      rcases hcase with ht | ht
      · show _ = (if s.tagVal0 (s.trans0 i) s.updWay1 && (cs0 (s.trans0 i)).wr &&
          decide (cntIdx p (s.cnt + 1) = s.tagIdx0 i (s.trans0 i)) then
          tagMerge (cs0 (s.trans0 i)).wben (s.tagRam s.updWay1 (cntIdx p (s.cnt + 1))) (s.tagWdata0 i (s.trans0 i))
          else s.tagRam s.updWay1 (cntIdx p (s.cnt + 1))).dty
        split
        · rw [ht]
          have he := flushRead_evict2 C.tidy h
          have hen : s.tagEn = true := by simp [St.tagEn, h, he]
          have hu : s.updWay0 .replayFlush = s.updWay1 := (C.tidy.upd h).symm
          have hw : s.updWay1 ∈ p.ways := by rw [C.tidy.upd h]; exact cntWay_way _
          show _ = (s.tagWdata0 i .replayFlush).dty
          rw [← hs]
          simp only [St.tagWdata0, cs0, if_true, hu, updateTag, St.tagEntry, if_pos hw, tagEntryOut, hen]
        · rfl
      · rw [tagRam_keep s i ht]
  amo h he hw := by
    have ho : (s.cs2 i).ostall = true := hw
    rcases next_cases s i with ⟨h1, h2, h3, h4, h5, h6, h7⟩ | ⟨h1, h2, h3, h4⟩ | ⟨h1, h2, h3, h4, h5, h6, h7, h8⟩
    · rw [not_stall h1] at ho; exact absurd ho (by decide)
    · rw [h3] at h; exact absurd h (by decide)
    · have h' := h
      rw [h3] at h
      have he' : s.evict2 = false := by
        rcases cen2_cases s i with ⟨g1, _⟩ | ⟨g1, _⟩ | ⟨g1, g2, g3, _⟩
        · rw [g1] at ho; exact absurd ho (by decide)
        · rw [h] at g1; exact absurd g1 (by decide)
        · rw [← g3]; exact he
      have hin : (s.next i).hitInfoIn = s.hitInfoIn := by
        have e1 : (s.next i).effTag = s.effTag := by
          funext w
          show stallOut (!(s.cs2 i).ostall) _ (s.effTag w) = _
          rw [ho]; rfl
        have e2 : (s.next i).tagEn = s.tagEn := by
          unfold St.tagEn
          rw [he, he', h', h]
        unfold St.hitInfoIn St.cmp
        rw [e1, e2, h', h, h5]
      rw [hin]
      show stallNext s.hitStallEn s.hitInfoIn s.hitStall = _
      unfold stallNext
      split
      · rfl
      · next hn =>
        refine C.amo h he' ?_
        cases hw : s.wasStalled
        · exact absurd (by simp [St.hitStallEn, hw, he']) hn
        · rfl

theorem Calm.rst (s : St p) : Calm s.rst where
  tidy := Tidy.rst s
  noInit := fun h => absurd h (by simp [St.rst])
  ty := trivial
  mshr := by show (default : MshrMsg p).ty ≠ MT.INIT; exact (by decide : (0 : MType) ≠ MT.INIT)
  start h := absurd h (by simp [St.rst])
  flush h := absurd h (by simp [St.rst])
  read h := absurd h (by simp [St.rst])
  replay h := absurd h (by simp [St.rst])
  same h := absurd h (by simp [St.rst])
  amo h := absurd h (by simp [St.rst])

theorem Calm.step (C : Calm s) {i : In p} (hp : i.reset = false → Polite s i) : Calm (s.step i) := by
  unfold St.step
  cases hr : i.reset
  · exact C.next (hp hr)
  · exact Calm.rst _

end Verif
