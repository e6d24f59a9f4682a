import Verif.Calm
import Verif.SpecMsg

/-!
# Messages are ignored while `en` is low

Two states of the cache that differ only in what was taken from a message port while its
`en` was low.
-/

namespace Verif
variable {p : Params}

/-- M1 does not use its request register for this transaction. Proof device; not in the source. -/
def Trans.dead : Trans → Bool
  | .invalid | .invWrite | .flushRead | .flushWait | .flushWrite | .cleanHit => true
  | _ => false

/-- Entries that mean the same: the tag of an invalid clean entry does not matter. Proof device; not in the source. -/
structure ESim (e e' : Entry p) : Prop where
  val : e.val = e'.val
  dty : e.dty = e'.dty
  tag : e'.val = true ∨ e'.dty ≠ 0 → e.tag = e'.tag

theorem ESim.rfl' {e : Entry p} : ESim e e := ⟨rfl, rfl, fun _ => rfl⟩

/-- The registers that may differ. Proof device; not in the source. -/
structure Alt (p : Params) where
  m : MResp p
  r1 : PMsg p
  r2 : PMsg p
  c : Bool × Way
  ram : Way → Idx p → Entry p
  a : Way → Entry p
  b : Way → Entry p

/-- Proof device; not in the source. -/
def St.alt (s : St p) (v : Alt p) : St p :=
  { s with mresp0 := v.m, req1 := v.r1, req2 := v.r2, hitStall := v.c, tagRam := v.ram, tagDout := v.a, tagStall := v.b }

/-- They agree where it matters. Proof device; not in the source. -/
structure Mute (s : St p) (v : Alt p) : Prop where
  m : s.mrespEn0 = true → MResp.Same s.mresp0 v.m
  r1 : s.t1.dead = false ∨ s.fsm = .init → v.r1 = s.req1
  r2 : s.t2.dead = false → s.t2 ≠ .cacheInit → v.r2 = s.req2
  r2f : s.t2 = .flushRead → s.flushSent2 = true → v.r2.addr = s.req2.addr
  c : s.t1.dead = false → s.t1 ≠ .cacheInit → s.hitStallEn = true ∨ v.c = s.hitStall
  ram : ∀ w ∈ p.ways, ∀ j, ESim (v.ram w j) (s.tagRam w j)
  a : ∀ w ∈ p.ways, ESim (v.a w) (s.tagDout w)
  b : ∀ w ∈ p.ways, ESim (v.b w) (s.tagStall w)

section
variable {s : St p} {v : Alt p}

theorem Mute.effTag (M : Mute s v) (w : Way) (hw : w ∈ p.ways) : ESim ((s.alt v).effTag w) (s.effTag w) := by
  show ESim (stallOut (!s.wasStalled) (v.a w) (v.b w)) (stallOut (!s.wasStalled) (s.tagDout w) (s.tagStall w))
  unfold stallOut
  split
  · exact M.a w hw
  · exact M.b w hw

theorem cmpStep_sim {en : Bool} {tag : Tag p} {f g : Way → Entry p} {w : Way} (h : ESim (f w) (g w)) (c : Cmp) :
    cmpStep en tag f c w = cmpStep en tag g c w := by
  have h1 : ((f w).val && ((f w).tag == tag)) = ((g w).val && ((g w).tag == tag)) := by
    rw [h.val]
    cases hv : (g w).val
    · rfl
    · rw [h.tag (.inl hv)]
  have h2 : (lineDirty en (f w) && !(f w).val && ((f w).tag == tag)) = (lineDirty en (g w) && !(g w).val && ((g w).tag == tag)) := by
    unfold lineDirty
    rw [h.val, h.dty]
    cases hd : ((g w).dty != 0)
    · simp
    · rw [h.tag (.inr (by simpa using hd))]
  simp only [cmpStep, h1, h2]

theorem foldl_sim {en : Bool} {tag : Tag p} {f g : Way → Entry p} : ∀ (l : List Way) (c : Cmp),
    (∀ w ∈ l, ESim (f w) (g w)) → l.foldl (cmpStep en tag f) c = l.foldl (cmpStep en tag g) c
  | [], _, _ => rfl
  | w :: l, c, h => by
    rw [List.foldl_cons, List.foldl_cons, cmpStep_sim (h w (List.mem_cons_self ..))]
    exact foldl_sim l _ fun w hw => h w (List.mem_cons_of_mem _ hw)

theorem live_of {s : St p} (h : s.t1 = .readReq ∨ s.t1 = .writeReq ∨ s.t1 = .amoReq) : s.t1.dead = false := by
  rcases h with h | h | h <;> rw [h] <;> rfl

theorem Mute.cmp (M : Mute s v) (h : s.t1 ≠ .flushRead) : (s.alt v).cmp = s.cmp := by
  show comparing p s.tagEn (s.t1 == .initReq) v.r1.addr.tag (s.alt v).effTag = _
  unfold St.cmp comparing
  split
  · next hh =>
    rw [Bool.and_eq_true] at hh
    obtain ⟨_, ht⟩ := tagEn_cases hh.2
    have hl : s.t1.dead = false := by
      rcases ht with h1 | h1 | h1 | h1
      · rw [h1]; rfl
      · rw [h1]; rfl
      · rw [h1]; rfl
      · exact absurd h1 h
    rw [M.r1 (.inl hl)]
    exact foldl_sim _ _ M.effTag
  · rfl

theorem Mute.entry (M : Mute s v) (w : Way) : ESim ((s.alt v).tagEntry w) (s.tagEntry w) := by
  show ESim (if w ∈ p.ways then tagEntryOut s.tagEn ((s.alt v).effTag w) else Entry.zero p) _
  unfold St.tagEntry
  split
  · next hw =>
    cases ht : s.tagEn
    · exact ESim.rfl'
    · exact M.effTag w hw
  · exact ESim.rfl'

theorem Mute.lineDty (M : Mute s v) (w : Way) : (s.alt v).lineDty w = s.lineDty w := by
  show (decide (w ∈ p.ways) && lineDirty s.tagEn ((s.alt v).effTag w)) = _
  unfold St.lineDty lineDirty
  by_cases hw : w ∈ p.ways
  · rw [(M.effTag w hw).dty]
  · simp [hw]

theorem Mute.wordDty (M : Mute s v) (hl : s.t1.dead = false) (w : Way) : (s.alt v).wordDty w = s.wordDty w := by
  show (decide (w ∈ p.ways) && wordDirty p ((s.alt v).effTag w) v.r1.addr.off v.r1.len) = _
  unfold St.wordDty wordDirty
  by_cases hw : w ∈ p.ways
  · rw [(M.effTag w hw).dty, M.r1 (.inl hl)]
  · simp [hw]

theorem Mute.repRd (M : Mute s v) (hl : s.t1.dead = false) : (s.alt v).repRd = s.repRd := by
  show s.rep v.r1.addr.idx = s.rep s.req1.addr.idx
  rw [M.r1 (.inl hl)]

theorem dead_ne {s : St p} (hl : s.t1.dead = false) : s.t1 ≠ .flushRead := by
  intro h; rw [h] at hl; exact absurd hl (by decide)

theorem status1_dead {s : St p} (h : s.t1.dead = true) : s.status1 = ⟨false, false, false, false, false, false⟩ := by
  cases h1 : s.t1 <;> rw [h1] at h <;> first | exact absurd h (by decide) | simp only [St.status1, h1]

theorem Mute.status1 (M : Mute s v) : (s.alt v).status1 = s.status1 := by
  cases hl : s.t1.dead
  · have e1 : (s.alt v).t1 = s.t1 := rfl
    have hd : (s.alt v).wordDty s.cmp.way = s.wordDty s.cmp.way := M.wordDty hl _
    unfold St.status1
    simp only [M.cmp (dead_ne hl), e1, M.repRd hl, hd, M.lineDty]
  · rw [status1_dead hl, status1_dead (s := s.alt v) hl]

theorem Mute.flushSent1 (M : Mute s v) : (s.alt v).flushSent1 = s.flushSent1 := by
  show (s.t1 == .flushRead && (s.alt v).lineDty s.updWay1) = _
  rw [M.lineDty]; rfl

theorem Mute.noFlush1 (M : Mute s v) : (s.alt v).noFlush1 = s.noFlush1 := by
  show (s.t1 == .flushRead && !(s.alt v).lineDty s.updWay1) = _
  rw [M.lineDty]; rfl

theorem Mute.cs1 (M : Mute s v) : (s.alt v).cs1 = s.cs1 := by
  show Verif.cs1 s.t1 (s.alt v).status1.evict (s.alt v).status1.hit (s.alt v).flushSent1 = _
  rw [M.status1, M.flushSent1]; rfl

theorem cs2_same {i i' : In p} (h : i.Same i') : (s.alt v).cs2 i' = s.cs2 i := by
  unfold St.cs2
  rw [h.mreqRdy, h.respRdy]; rfl

theorem Mute.stall (M : Mute s v) {i i' : In p} (h : i.Same i') : (s.alt v).stall i' = s.stall i := by
  unfold St.stall
  rw [M.cs1, cs2_same h]

theorem Mute.allocEn (M : Mute s v) {i i' : In p} (h : i.Same i') : (s.alt v).allocEn i' = s.allocEn i := by
  unfold St.allocEn
  rw [M.cs1, M.stall h]

theorem Mute.hitInfo (M : Mute s v) (hl : s.t1.dead = false) (hi : s.t1 ≠ .cacheInit) : (s.alt v).hitInfo = s.hitInfo := by
  show stallOut s.hitStallEn (s.alt v).hitInfoIn v.c = stallOut s.hitStallEn s.hitInfoIn s.hitStall
  unfold St.hitInfoIn
  rw [M.cmp (dead_ne hl)]
  rcases M.c hl hi with h1 | h1
  · rw [h1]; rfl
  · rw [h1]

theorem Mute.wayOff (M : Mute s v) : (s.alt v).wayOff = s.wayOff := by
  have e1 : (s.alt v).t1 = s.t1 := rfl
  have e3 : (s.alt v).wayPtr1 = s.wayPtr1 := rfl
  have e4 : (s.alt v).updWay1 = s.updWay1 := rfl
  cases hl : s.t1.dead
  · by_cases hi : s.t1 = .cacheInit
    · simp only [St.wayOff, hi, e1, e4]
    · unfold St.wayOff
      simp only [e1, e3, e4, M.repRd hl, M.cmp (dead_ne hl), M.status1, M.hitInfo hl hi]
  · by_cases h : s.t1 = .flushRead
    · simp only [St.wayOff, h, e1, e4]
    · unfold St.wayOff
      cases h1 : s.t1 <;> rw [h1] at hl h <;> first
        | exact absurd hl (by decide)
        | exact absurd rfl h
        | (simp only [e1, h1]; rw [M.cmp (by rw [h1]; decide)])

theorem Mute.wmask1 (M : Mute s v) : (s.alt v).wmask1 = s.wmask1 := by
  unfold St.wmask1
  rw [M.wayOff, (M.entry _).dty]

theorem Mute.mshrIn (M : Mute s v) (hl : s.t1.dead = false) (hi : s.t1 ≠ .cacheInit) : (s.alt v).mshrIn = s.mshrIn := by
  unfold St.mshrIn
  rw [M.wayOff, M.hitInfo hl hi, M.status1, M.wmask1]
  have : (s.alt v).req1 = s.req1 := M.r1 (.inl hl)
  rw [this]

theorem Mute.reqRdy (M : Mute s v) {i i' : In p} (h : i.Same i') : (s.alt v).reqRdy i' = s.reqRdy i := by
  unfold St.reqRdy
  rw [M.status1, M.stall h, M.allocEn h]; rfl

theorem Mute.mrespVal0 (M : Mute s v) : (s.alt v).mrespVal0 = s.mrespVal0 := by
  show (s.mrespEn0 && (v.m.ty != MT.WRITE)) = (s.mrespEn0 && (s.mresp0.ty != MT.WRITE))
  cases h : s.mrespEn0
  · rfl
  · congr 1
    have := (M.m h).1
    by_cases h' : s.mresp0.ty = MT.WRITE
    · rw [h', this.1 h']
    · have h2 : v.m.ty ≠ MT.WRITE := fun h2 => h' (this.2 h2)
      rw [bne_iff_ne.2 h', bne_iff_ne.2 h2]

theorem Mute.wrAck0 (M : Mute s v) : (s.alt v).wrAck0 = s.wrAck0 := by
  show (s.mrespEn0 && (v.m.ty == MT.WRITE)) = (s.mrespEn0 && (s.mresp0.ty == MT.WRITE))
  cases h : s.mrespEn0
  · rfl
  · congr 1
    have := (M.m h).1
    by_cases h' : s.mresp0.ty = MT.WRITE
    · rw [h', this.1 h']
    · have h2 : v.m.ty ≠ MT.WRITE := fun h2 => h' (this.2 h2)
      rw [beq_eq_false_iff_ne.2 h', beq_eq_false_iff_ne.2 h2]

theorem Mute.prevFlushDone (M : Mute s v) : (s.alt v).prevFlushDone = s.prevFlushDone := by
  unfold St.prevFlushDone
  rw [M.noFlush1, M.wrAck0]; rfl

theorem req0_same {i i' : In p} (h : i.Same i') (hr : i.reqEn = true ∨ s.fsm = .replay ∨ s.mrespEn0 = true) :
    (s.alt v).req0 i' = s.req0 i := by
  show (if s.fsm == .replay || s.mrespEn0 then s.mshr.toReq else i'.req) = if s.fsm == .replay || s.mrespEn0 then s.mshr.toReq else i.req
  split
  · rfl
  · next hn =>
    rcases hr with hr | hr | hr
    · exact (h.req hr).symm
    · exact absurd (by rw [hr]; rfl) hn
    · exact absurd (by rw [hr]; simp) hn

theorem Mute.fsmNext (M : Mute s v) {i i' : In p} (h : i.Same i') : (s.alt v).fsmNext i' = s.fsmNext i := by
  have e0 : (s.alt v).mshrEmpty = s.mshrEmpty := rfl
  unfold St.fsmNext
  rw [M.prevFlushDone, M.flushSent1, M.mrespVal0, M.wrAck0, ← h.reqEn, e0]
  cases hr : i.reqEn
  · simp only [Bool.and_false, Bool.false_eq_true, if_false]
    rfl
  · rw [req0_same h (.inl hr)]
    rfl

theorem Mute.trans0 (M : Mute s v) {i i' : In p} (h : i.Same i') : (s.alt v).trans0 i' = s.trans0 i := by
  have e0 : (s.alt v).mshrEmpty = s.mshrEmpty := rfl
  unfold St.trans0
  rw [M.prevFlushDone, M.flushSent1, M.mrespVal0, M.wrAck0, M.status1, ← h.reqEn, e0]
  cases hr : i.reqEn
  · simp only [Bool.and_false, Bool.false_eq_true, if_false]
    rfl
  · rw [req0_same h (.inl hr)]
    rfl

/-- Where the request of a live M0 transaction comes from. -/
theorem trans0_source {i : In p} (h : (s.trans0 i).dead = false) (hi : s.trans0 i ≠ .cacheInit) :
    (i.reqEn = true ∨ s.fsm = .replay ∨ s.mrespEn0 = true) ∧
      ((cs0 (s.trans0 i)).wdataSel = true → s.mrespEn0 = true ∧ s.mresp0.ty ≠ MT.WRITE) := by
  unfold St.trans0 at h hi ⊢
  dsimp only at h hi ⊢
  repeat' split
  all_goals first
    | (exfalso; simp_all [Trans.dead]; done)
    | (simp_all [St.mrespVal0, cs0]; done)

end

end Verif
