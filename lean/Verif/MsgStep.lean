import Verif.MsgSim

/-!
# Preservation of `Mute`
-/

namespace Verif
variable {p : Params} {s : St p} {v : Alt p}

theorem Mute.pmsg0 (M : Mute s v) {i i' : In p} (h : i.Same i') (hd : (s.trans0 i).dead = false)
    (hi : s.trans0 i ≠ .cacheInit) : (s.alt v).pmsg0 i' (s.trans0 i) = s.pmsg0 i (s.trans0 i) := by
  obtain ⟨h1, h2⟩ := trans0_source hd hi
  have hc : (cs0 (s.trans0 i)).addrSel = false := by
    cases ht : s.trans0 i <;> rw [ht] at hd <;> first | rfl | exact absurd hd (by decide)
  unfold St.pmsg0
  dsimp only
  rw [req0_same h h1, hc]
  have e : (if (cs0 (s.trans0 i)).wdataSel then (s.alt v).mresp0.data else replicator p (isAmo0 (s.trans0 i)) (s.req0 i).len (s.req0 i).data) =
      (if (cs0 (s.trans0 i)).wdataSel then s.mresp0.data else replicator p (isAmo0 (s.trans0 i)) (s.req0 i).len (s.req0 i).data) := by
    split
    · next hw =>
      obtain ⟨h3, h4⟩ := h2 hw
      exact ((M.m h3).2 h4).symm
    · rfl
  rw [e]
  rfl

/-- The transactions that read or write the tag arrays at the address of the request. -/
theorem Mute.idx (M : Mute s v) {i i' : In p} (h : i.Same i') {w : Way} (hv : s.tagVal0 (s.trans0 i) w = true) :
    (s.alt v).tagIdx0 i' (s.trans0 i) = s.tagIdx0 i (s.trans0 i) := by
  show (if (cs0 (s.trans0 i)).idxSel then cntIdx p (s.updIdx0 (s.trans0 i)) else ((s.alt v).pmsg0 i' (s.trans0 i)).addr.idx) = _
  unfold St.tagIdx0
  cases hs : (cs0 (s.trans0 i)).idxSel
  · simp only [Bool.false_eq_true, if_false]
    by_cases hc : s.trans0 i = .cleanHit
    · have hl : s.t1 = .writeReq := by
        have hx : s.status1.cleanHit = true := by
          cases hx : s.status1.cleanHit
          · exfalso
            unfold St.trans0 at hc
            dsimp only at hc
            rw [hx] at hc
            simp only [Bool.false_eq_true, if_false] at hc
            repeat' split at hc
            all_goals exact absurd hc (by decide)
          · rfl
        exact cleanHit_t1 hx
      rw [hc]
      show v.r1.addr.idx = s.req1.addr.idx
      rw [M.r1 (.inl (by rw [hl]; rfl))]
    · cases hd : (s.trans0 i).dead
      · rw [M.pmsg0 h hd (by intro hi; rw [hi] at hs; exact absurd hs (by decide))]
      · exfalso
        unfold St.tagVal0 at hv
        cases ht : s.trans0 i <;> rw [ht] at hd hs hc hv <;> first
          | exact absurd hd (by decide)
          | exact absurd hs (by decide)
          | exact absurd rfl hc
          | simp at hv
  · rfl

theorem cleanHit_of {i : In p} (hc : s.trans0 i = .cleanHit) : s.t1 = .writeReq := by
  have hx : s.status1.cleanHit = true := by
    cases hx : s.status1.cleanHit
    · exfalso
      unfold St.trans0 at hc
      dsimp only at hc
      rw [hx] at hc
      simp only [Bool.false_eq_true, if_false] at hc
      repeat' split at hc
      all_goals exact absurd hc (by decide)
    · rfl
  exact cleanHit_t1 hx

/-- WRITE_INIT does not occur. -/
theorem Calm.no_init (C : Calm s) {i : In p} (hp : Polite s i) : s.trans0 i ≠ .initReq := by
  intro h
  obtain ⟨_, _, hr, ht⟩ := trans0_req h (by simp)
  have ht : (s.req0 i).ty = MT.INIT := ht
  unfold St.req0 at ht
  split at ht
  · exact C.mshr ht
  · exact (hp hr).2 ht

theorem Mute.tagVal0 (M : Mute s v) (C : Calm s) {i : In p} (hp : Polite s i) (w : Way) :
    (s.alt v).tagVal0 (s.trans0 i) w = s.tagVal0 (s.trans0 i) w := by
  unfold St.tagVal0
  congr 1
  cases ht : s.trans0 i
  case initReq => exact absurd ht (C.no_init hp)
  case cleanHit =>
    have h1 := cleanHit_of ht
    show (w == (s.alt v).cmp.way) = _
    rw [M.cmp (by rw [h1]; decide)]
  all_goals rfl

/-- What a write to a tag array leaves. -/
theorem Mute.write (M : Mute s v) (C : Calm s) {i i' : In p} (hp : Polite s i) (h : i.Same i') (w : Way) {old old' : Entry p}
    (ho : ESim old' old) (hwr : (cs0 (s.trans0 i)).wr = true) (hv : s.tagVal0 (s.trans0 i) w = true)
    (hold : old = s.tagRam w (s.tagIdx0 i (s.trans0 i))) :
    ESim (tagMerge (cs0 (s.trans0 i)).wben old' ((s.alt v).tagWdata0 i' (s.trans0 i)))
      (tagMerge (cs0 (s.trans0 i)).wben old (s.tagWdata0 i (s.trans0 i))) := by
  have hpm := M.pmsg0 h
  cases ht : s.trans0 i <;> rw [ht] at hwr hpm
  case initReq => exact absurd ht (C.no_init hp)
  case cacheInit => exact ⟨rfl, rfl, fun hh => by rcases hh with hh | hh <;> simp [cs0, tagMerge, St.tagWdata0, updateTag] at hh⟩
  case refill =>
    have hpm := hpm rfl (by decide)
    simp only [tagMerge, cs0, St.tagWdata0, updateTag, hpm, Bool.false_eq_true, if_false]
    exact ESim.rfl'
  case replayWrite =>
    have hpm := hpm rfl (by decide)
    simp only [tagMerge, cs0, St.tagWdata0, updateTag, hpm, Bool.false_eq_true, if_false]
    exact ESim.rfl'
  case replayAmo =>
    have hpm := hpm rfl (by decide)
    simp only [tagMerge, cs0, St.tagWdata0, updateTag, hpm, Bool.false_eq_true, if_false]
    exact ESim.rfl'
  case cleanHit =>
    have h1 := cleanHit_of ht
    have hr1 : v.r1 = s.req1 := M.r1 (.inl (by rw [h1]; rfl))
    have he := M.entry s.cmp.way
    have hc := M.cmp (by rw [h1]; decide)
    show ESim ((s.alt v).tagWdata0 i' .cleanHit) (s.tagWdata0 i .cleanHit)
    have e1 : ((s.alt v).pmsg0 i' .cleanHit).addr = s.req1.addr := by rw [← hr1]; rfl
    have e2 : ((s.alt v).pmsg0 i' .cleanHit).len = s.req1.len := by rw [← hr1]; rfl
    have e3 : (s.pmsg0 i .cleanHit).addr = s.req1.addr := rfl
    have e4 : (s.pmsg0 i .cleanHit).len = s.req1.len := rfl
    simp only [cs0, St.tagWdata0, updateTag, e1, e2, e3, e4, hc, he.val, he.dty, Bool.false_eq_true, if_false]
    exact ESim.rfl'
  case invWrite =>
    refine ⟨rfl, ho.dty, fun hh => ho.tag ?_⟩
    rcases hh with hh | hh
    · exact absurd hh (by simp [cs0, tagMerge, St.tagWdata0, updateTag])
    · exact .inr hh
  case replayInv =>
    refine ⟨rfl, ho.dty, fun hh => ho.tag ?_⟩
    rcases hh with hh | hh
    · exact absurd hh (by simp [cs0, tagMerge, St.tagWdata0, updateTag])
    · exact .inr hh
  case flushWrite =>
    have he := M.entry (s.updWay0 .flushWrite)
    refine ⟨ho.val, he.dty, fun hh => ho.tag ?_⟩
    rcases hh with hh | hh
    · exact .inl hh
    · exfalso
      have hf := trans0_flushWrite ht
      have hz : s.tagEn = false := by
        rcases C.flush (.inr hf) with h1 | ⟨h1 | h1 | h1, _⟩
        · simp [St.tagEn, h1]
        · have := (C.read h1).1
          rw [hf] at this
          simp at this
        · simp [St.tagEn, h1]
        · simp [St.tagEn, h1]
      apply hh
      show (s.tagEntry (s.updWay0 .flushWrite)).dty = 0
      unfold St.tagEntry tagEntryOut
      rw [hz]
      split <;> rfl
  case replayFlush =>
    have he := M.entry (s.updWay0 .replayFlush)
    refine ⟨ho.val, he.dty, fun hh => ho.tag ?_⟩
    rcases hh with hh | hh
    · exact .inl hh
    · right
      have hh : (s.tagEntry (s.updWay0 .replayFlush)).dty ≠ 0 := hh
      obtain ⟨hf, hm⟩ := trans0_replayFlush ht
      have h1 : s.t1 = .flushRead ∧ s.tagEn = true := by
        cases hen : s.tagEn
        · exfalso
          apply hh
          unfold St.tagEntry tagEntryOut
          rw [hen]
          split <;> rfl
        · obtain ⟨_, h1 | h1 | h1 | h1⟩ := tagEn_cases hen
          · exact absurd h1 (C.replay hf hm).1
          · exact absurd h1 (C.replay hf hm).2.1
          · exact absurd h1 (C.replay hf hm).2.2.1
          · exact ⟨h1, rfl⟩
      have hu : s.updWay0 .replayFlush = s.updWay1 := (C.tidy.upd h1.1).symm
      have hw : w = s.updWay1 := by
        rw [ht] at hv
        simp only [St.tagVal0, Bool.and_eq_true, beq_iff_eq] at hv
        rw [hv.2, C.tidy.upd h1.1]
        rfl
      have hi : s.tagIdx0 i .replayFlush = cntIdx p (s.cnt + 1) := rfl
      rw [hu] at hh
      rw [hold, ht, hi, hw, ← C.same h1.1]
      have hm1 : s.updWay1 ∈ p.ways := by rw [C.tidy.upd h1.1]; exact cntWay_way _
      intro hz
      apply hh
      unfold St.tagEntry tagEntryOut
      rw [if_pos hm1, h1.2]
      exact hz
  all_goals exact absurd hwr (by decide)

theorem Mute.tagRam (M : Mute s v) (C : Calm s) {i i' : In p} (hp : Polite s i) (h : i.Same i') (w : Way) (hw : w ∈ p.ways) (j : Idx p) :
    ESim (((s.alt v).next i').tagRam w j) ((s.next i).tagRam w j) := by
  show ESim (if (s.alt v).tagVal0 ((s.alt v).trans0 i') w && (cs0 ((s.alt v).trans0 i')).wr &&
      decide (j = (s.alt v).tagIdx0 i' ((s.alt v).trans0 i')) then
      tagMerge (cs0 ((s.alt v).trans0 i')).wben (v.ram w j) ((s.alt v).tagWdata0 i' ((s.alt v).trans0 i'))
      else v.ram w j)
    (if s.tagVal0 (s.trans0 i) w && (cs0 (s.trans0 i)).wr && decide (j = s.tagIdx0 i (s.trans0 i)) then
      tagMerge (cs0 (s.trans0 i)).wben (s.tagRam w j) (s.tagWdata0 i (s.trans0 i)) else s.tagRam w j)
  rw [M.trans0 h, M.tagVal0 C hp]
  cases hv : s.tagVal0 (s.trans0 i) w
  · exact M.ram w hw j
  · rw [M.idx h hv]
    split
    · next hc =>
      simp only [Bool.and_eq_true, decide_eq_true_eq] at hc
      exact M.write C hp h w (M.ram w hw j) hc.1.2 hv (by rw [hc.2])
    · exact M.ram w hw j

theorem Mute.tagDout (M : Mute s v) (C : Calm s) {i i' : In p} (hp : Polite s i) (h : i.Same i') (w : Way) (hw : w ∈ p.ways) :
    ESim (((s.alt v).next i').tagDout w) ((s.next i).tagDout w) := by
  show ESim (if (s.alt v).tagVal0 ((s.alt v).trans0 i') w && !(cs0 ((s.alt v).trans0 i')).wr then
      v.ram w ((s.alt v).tagIdx0 i' ((s.alt v).trans0 i')) else v.a w)
    (if s.tagVal0 (s.trans0 i) w && !(cs0 (s.trans0 i)).wr then s.tagRam w (s.tagIdx0 i (s.trans0 i)) else s.tagDout w)
  rw [M.trans0 h, M.tagVal0 C hp]
  cases hv : s.tagVal0 (s.trans0 i) w
  · exact M.a w hw
  · rw [M.idx h hv]
    split
    · exact M.ram _ hw _
    · exact M.a w hw

/-- The line written back is dirty. -/
theorem evict_dirty (C : Calm s) (h : s.status1.evict = true) : s.wayOff ∈ p.ways ∧ (s.effTag s.wayOff).dty ≠ 0 := by
  have key : ∀ w, s.lineDty w = true → w ∈ p.ways ∧ (s.effTag w).dty ≠ 0 := by
    intro w hw
    simp only [St.lineDty, lineDirty, Bool.and_eq_true, bne_iff_ne, decide_eq_true_eq] at hw
    exact ⟨hw.1, hw.2.2⟩
  rcases (evict_spec h).1 with h1 | h1 | h1
  · have hh : s.cmp.hit = false ∧ s.cmp.inval = false ∧ s.lineDty s.repRd = true := by
      simp only [St.status1, h1] at h
      cases hh : s.cmp.hit <;> cases hi : s.cmp.inval <;> cases hd : s.lineDty s.repRd <;> simp [hh, hi, hd] at h ⊢
    have hs : s.status1.hit = false := by simp [St.status1, h1, hh.1, hh.2.1, hh.2.2]
    have : s.wayOff = s.repRd := by simp [St.wayOff, h1, hs, hh.2.1]
    rw [this]; exact key _ hh.2.2
  · have hh : s.cmp.hit = false ∧ s.cmp.inval = false ∧ s.lineDty s.repRd = true := by
      simp only [St.status1, h1] at h
      cases hh : s.cmp.hit <;> cases hi : s.cmp.inval <;> cases hd : s.lineDty s.repRd <;> simp [hh, hi, hd] at h ⊢
    have hs : s.status1.hit = false := by simp [St.status1, h1, hh.1, hh.2.1, hh.2.2]
    have : s.wayOff = s.repRd := by simp [St.wayOff, h1, hs, hh.2.1]
    rw [this]; exact key _ hh.2.2
  · have hd : s.lineDty s.cmp.way = true := by
      simp only [St.status1, h1, Bool.and_eq_true] at h
      exact h.1
    have he : s.evict2 = false := (tagEn_cases (lineDty_way hd).2).1
    have hw : s.wayOff = s.cmp.way := by
      have : s.wayOff = s.hitInfo.2 := by simp only [St.wayOff, h1]
      rw [this]
      unfold St.hitInfo stallOut
      split
      · rfl
      · next hn =>
        have hw : s.wasStalled = true := by
          cases hw : s.wasStalled
          · exact absurd (by simp [St.hitStallEn, hw, he]) hn
          · rfl
        rw [C.amo h1 he hw]
        rfl
    rw [hw]; exact key _ hd

theorem Mute.addr1_idx (M : Mute s v) (h : s.cs1.val = true) : (s.alt v).addr1.idx = s.addr1.idx := by
  unfold St.addr1
  rw [M.cs1, M.wayOff]
  cases hl : s.t1.dead
  · have hr : (s.alt v).req1 = s.req1 := M.r1 (.inl hl)
    have hf : (s.alt v).flushIdxMux = s.flushIdxMux := by
      unfold St.flushIdxMux
      rw [hr]; rfl
    rw [hr, hf]
    split <;> rfl
  · have h1 : s.t1 = .flushRead := by
      cases h1 : s.t1 <;> rw [h1] at hl <;> first | rfl | exact absurd hl (by decide) | skip
      all_goals
        exfalso
        have he : s.status1.evict = false := by rw [status1_dead (by rw [h1]; rfl)]
        simp [St.cs1, Verif.cs1, h1, he] at h
    have he : s.status1.evict = false := by rw [status1_dead hl]
    have hs : s.cs1.evictSel = true := by simp [St.cs1, Verif.cs1, h1, he]
    rw [hs]
    show (s.alt v).flushIdxMux = s.flushIdxMux
    simp only [St.flushIdxMux, h1, show (s.alt v).t1 = .flushRead from h1]
    rfl

theorem Mute.addr1 (M : Mute s v) (C : Calm s) (hl : s.t1.dead = false ∧ s.t1 ≠ .cacheInit ∨ s.flushSent1 = true) :
    (s.alt v).addr1 = s.addr1 := by
  have hev : s.cs1.evictSel = true → ((s.alt v).effTag s.wayOff).tag = (s.effTag s.wayOff).tag := by
    intro hs
    suffices h : s.wayOff ∈ p.ways ∧ (s.effTag s.wayOff).dty ≠ 0 from (M.effTag _ h.1).tag (.inr h.2)
    rcases hl with ⟨h1, h2⟩ | h1
    · rcases evictSel_cases hs with h3 | h3 | h3
      · exact evict_dirty C h3
      · rw [h3] at h1; exact absurd h1 (by decide)
      · exact absurd h3 h2
    · simp only [St.flushSent1, Bool.and_eq_true, beq_iff_eq] at h1
      rw [wayOff_flush h1.1]
      have := h1.2
      simp only [St.lineDty, lineDirty, Bool.and_eq_true, bne_iff_ne, decide_eq_true_eq] at this
      exact ⟨this.1, this.2.2⟩
  have hsent : s.flushSent1 = true → s.t1 = .flushRead ∧ s.cs1.evictSel = true := by
    intro h1
    simp only [St.flushSent1, Bool.and_eq_true, beq_iff_eq] at h1
    have he : s.status1.evict = false := by rw [status1_dead (by rw [h1.1]; rfl)]
    exact ⟨h1.1, by simp [St.cs1, Verif.cs1, h1.1, he]⟩
  have hf : s.cs1.evictSel = true → (s.alt v).flushIdxMux = s.flushIdxMux := by
    intro hs
    rcases hl with ⟨h1, h2⟩ | h1
    · unfold St.flushIdxMux
      have hr : (s.alt v).req1 = s.req1 := M.r1 (.inl h1)
      rw [hr]; rfl
    · have h1 := (hsent h1).1
      simp only [St.flushIdxMux, h1, show (s.alt v).t1 = .flushRead from h1]
      rfl
  unfold St.addr1
  rw [M.cs1, M.wayOff]
  split
  · next hs => rw [hf hs, hev hs]
  · next hs =>
    rcases hl with ⟨h1, h2⟩ | h1
    · show v.r1.addr = s.req1.addr
      rw [M.r1 (.inl h1)]
    · exact absurd (hsent h1).2 hs

theorem eq_alt {u x : St p} (h1 : u.mrespEn0 = x.mrespEn0) (h2 : u.fsm = x.fsm) (h3 : u.cnt = x.cnt) (h4 : u.t1 = x.t1)
    (h5 : u.wayPtr1 = x.wayPtr1) (h6 : u.updWay1 = x.updWay1) (h7 : u.wasStalled = x.wasStalled) (h8 : u.t2 = x.t2)
    (h9 : u.evict2 = x.evict2) (h10 : u.hit2 = x.hit2) (h11 : u.flushSent2 = x.flushSent2)
    (h14 : u.flushIdx1 = x.flushIdx1) (h15 : u.dtyMask1 = x.dtyMask1) (h16 : u.rep = x.rep)
    (h18 : u.mshrNum = x.mshrNum) (h19 : u.mshr = x.mshr)
    (h21 : u.wmask2 = x.wmask2) (h22 : u.data = x.data) (h23 : u.dataStall = x.dataStall) :
    u = x.alt ⟨u.mresp0, u.req1, u.req2, u.hitStall, u.tagRam, u.tagDout, u.tagStall⟩ := by
  cases u; cases x
  simp only [St.alt] at *
  subst h1 h2 h3 h4 h5 h6 h7 h8 h9 h10 h11 h14 h15 h16 h18 h19 h21 h22 h23
  rfl

/-- The registers that may differ, after an edge. Proof device; not in the source. -/
def Alt.of (u : St p) : Alt p := ⟨u.mresp0, u.req1, u.req2, u.hitStall, u.tagRam, u.tagDout, u.tagStall⟩

theorem alloc_live {i : In p} (h : s.allocEn i = true) : s.t1.dead = false ∧ s.t1 ≠ .cacheInit := by
  rcases (alloc_cases h).2 with h | h | h | h | h <;> rw [h] <;> decide

theorem Mute.next_eq (M : Mute s v) {i i' : In p} (h : i.Same i') :
    (s.alt v).next i' = (s.next i).alt (Alt.of ((s.alt v).next i')) := by
  have ht := M.trans0 h
  have hs := M.stall h
  have h1 := M.status1
  have hc2 : (s.alt v).cs2 i' = s.cs2 i := cs2_same h
  have e0 : (s.alt v).t1 = s.t1 := rfl
  refine eq_alt ?_ ?_ ?_ ?_ ?_ ?_ ?_ ?_ ?_ ?_ ?_ ?_ ?_ ?_ ?_ ?_ ?_ ?_ ?_
  case refine_14 =>
    show replBitsNext s.rep ((s.alt v).status1.repEn && !((s.alt v).cs2 i').ostall) v.r1.addr.idx
      (replPolicy p (s.alt v).status1.repEn (s.alt v).status1.repIsHit (s.alt v).status1.repHitPtr (s.alt v).repRd) = 
      replBitsNext s.rep (s.status1.repEn && !(s.cs2 i).ostall) s.req1.addr.idx
      (replPolicy p s.status1.repEn s.status1.repIsHit s.status1.repHitPtr s.repRd)
    rw [h1, hc2]
    cases hl : s.t1.dead
    · rw [M.r1 (.inl hl), M.repRd hl]
    · rw [status1_dead hl]
      unfold replBitsNext
      simp
  case refine_16 =>
    show (if (s.alt v).allocEn i' then (s.alt v).mshrIn else s.mshr) = if s.allocEn i then s.mshrIn else s.mshr
    rw [M.allocEn h]
    split
    · next ha => exact M.mshrIn (alloc_live ha).1 (alloc_live ha).2
    · rfl
  case refine_18 =>
    show s.data.step (s.alt v).cs1.val (s.alt v).cs1.wr (indexer p (s.alt v).addr1.idx (s.alt v).wayOff) v.r1.data
      (writeBitEn p (s.alt v).cs1.wben s.dtyMask1 v.r1.addr.off v.r1.len) =
      s.data.step s.cs1.val s.cs1.wr (indexer p s.addr1.idx s.wayOff) s.req1.data
      (writeBitEn p s.cs1.wben s.dtyMask1 s.req1.addr.off s.req1.len)
    rw [M.cs1, M.wayOff]
    cases hv : s.cs1.val
    · unfold Sram.step; simp
    · rw [M.addr1_idx hv]
      cases hw : s.cs1.wr
      · unfold Sram.step; simp
      · have hl : s.t1.dead = false := by
          cases hl : s.t1.dead
          · rfl
          · exfalso
            have he : s.status1.evict = false := by rw [status1_dead hl]
            cases ht : s.t1 <;> rw [ht] at hl <;> first
              | exact absurd hl (by decide)
              | (simp [St.cs1, Verif.cs1, ht, he] at hw)
        rw [M.r1 (.inl hl)]
  case refine_3 => simp only [St.next, ht, hs]; rfl
  all_goals (simp only [St.next, ht, hs, h1, hc2, e0, M.fsmNext h, M.flushSent1, M.allocEn h, M.wmask1, h.mrespEn]; try rfl)

theorem Mute.next (M : Mute s v) (C : Calm s) {i i' : In p} (hp : Polite s i) (h : i.Same i') :
    Mute (s.next i) (Alt.of ((s.alt v).next i')) where
  m he := by
    have e1 : (s.next i).mrespEn0 = if !s.stall i then i.mrespEn else s.mrespEn0 := rfl
    have e2 : (s.next i).mresp0 = if !s.stall i then i.mresp else s.mresp0 := rfl
    have e3 : ((s.alt v).next i').mresp0 = if !(s.alt v).stall i' then i'.mresp else v.m := rfl
    show MResp.Same (s.next i).mresp0 ((s.alt v).next i').mresp0
    rw [e1] at he
    rw [e2, e3, M.stall h]
    split
    · next hs => rw [if_pos hs] at he; exact h.mresp he
    · next hs => rw [if_neg hs] at he; exact M.m he
  r1 hl := by
    have e : ((s.alt v).next i').req1 = if !(s.alt v).stall i' && !(s.alt v).status1.evict && ((s.alt v).trans0 i' != .cacheInit)
      then (s.alt v).pmsg0 i' ((s.alt v).trans0 i') else v.r1 := rfl
    have e' : (s.next i).req1 = if !s.stall i && !s.status1.evict && (s.trans0 i != .cacheInit)
      then s.pmsg0 i (s.trans0 i) else s.req1 := rfl
    show ((s.alt v).next i').req1 = (s.next i).req1
    rw [e, M.stall h, M.status1, M.trans0 h]
    rcases next_cases s i with ⟨h1, h2, h3, h4, h5, h6, h7⟩ | ⟨h1, h2, h3, h4⟩ | ⟨h1, h2, h3, h4, h5, h6, h7, h8⟩
    · rw [h3, h6] at hl
      have hd : (s.trans0 i).dead = false := by
        rcases hl with hl | hl
        · exact hl
        · exact absurd (trans0_of_init (fsmNext_init hl) i) h2
      rw [e', M.pmsg0 h hd h2]
      split
      · rfl
      · next hn =>
        exfalso
        rcases cen1_cases s i with ⟨g1, g2, _⟩ | ⟨g1, _⟩ | ⟨g1, _⟩
        · exact hn (by simp [g1, g2, h2])
        · exact h2 g1
        · rw [h1] at g1; exact absurd g1 (by decide)
    · rw [h2, h4]
      simp only [bne_self_eq_false, Bool.and_false, Bool.false_eq_true, if_false]
      exact M.r1 (.inr h1)
    · rw [h3, h6] at hl
      rw [h5, h1]
      exact M.r1 hl
  r2 hl hi := by
    have e : ((s.alt v).next i').req2 = if !((s.alt v).cs2 i').ostall && (s.t1 != .cacheInit)
      then { v.r1 with addr := (s.alt v).addr1 } else v.r2 := rfl
    have e' : (s.next i).req2 = if !(s.cs2 i).ostall && (s.t1 != .cacheInit)
      then { s.req1 with addr := s.addr1 } else s.req2 := rfl
    show ((s.alt v).next i').req2 = (s.next i).req2
    rw [e, cs2_same h]
    rcases cen2_cases s i with ⟨h1, h2, h3, h4, h5⟩ | ⟨h1, h2, h3⟩ | ⟨h1, h2, h3, h4, h5⟩
    · rw [h2] at hl hi
      rw [e', M.r1 (.inl hl), M.addr1 C (.inl ⟨hl, hi⟩)]
      split
      · rfl
      · next hn => exact absurd (by simp [h1, hi]) hn
    · exact absurd h2 hi
    · rw [h2] at hl hi
      rw [e', h1]
      exact M.r2 hl hi
  r2f hf hs := by
    have e : ((s.alt v).next i').req2 = if !((s.alt v).cs2 i').ostall && (s.t1 != .cacheInit)
      then { v.r1 with addr := (s.alt v).addr1 } else v.r2 := rfl
    have e' : (s.next i).req2 = if !(s.cs2 i).ostall && (s.t1 != .cacheInit)
      then { s.req1 with addr := s.addr1 } else s.req2 := rfl
    show ((s.alt v).next i').req2.addr = (s.next i).req2.addr
    rw [e, cs2_same h]
    rcases cen2_cases s i with ⟨h1, h2, h3, h4, h5⟩ | ⟨h1, h2, h3⟩ | ⟨h1, h2, h3, h4, h5⟩
    · rw [h5] at hs
      rw [h2] at hf
      rw [e', h1, hf]
      exact M.addr1 C (.inr hs)
    · rw [h2] at hf; exact absurd hf (by decide)
    · rw [h2] at hf
      rw [h5] at hs
      rw [e', h1]
      exact M.r2f hf hs
  c hl hi := by
    show (s.next i).hitStallEn = true ∨ stallNext s.hitStallEn (s.alt v).hitInfoIn v.c = stallNext s.hitStallEn s.hitInfoIn s.hitStall
    rcases next_cases s i with ⟨h1, h2, h3, h4, h5, h6, h7⟩ | ⟨h1, h2, h3, h4⟩ | ⟨h1, h2, h3, h4, h5, h6, h7, h8⟩
    · left
      have he : (s.next i).evict2 = false := by
        have hev : s.status1.evict = false := by
          cases hev : s.status1.evict
          · rfl
          · have := evict_ostall hev
            simp [St.stall, this] at h1
        rcases cen2_cases s i with ⟨_, _, g3, _⟩ | ⟨_, _, g3⟩ | ⟨g1, _⟩
        · rw [g3, hev]
        · exact g3
        · rw [not_stall h1] at g1; exact absurd g1 (by decide)
      simp [St.hitStallEn, h7, he]
    · exact absurd h3 hi
    · right
      rw [h3] at hl hi
      exact M.hitInfo hl hi
  ram := M.tagRam C hp h
  a := M.tagDout C hp h
  b w := M.effTag w

end Verif
