import Verif.MsgStep
import Verif.PropsSram
import Verif.UnitLemmas

/-!
# The initialisation after a reset

`Fresh s`: the cache is initialising itself.  When it is done nothing is left of the contents
the SRAMs had before.
-/

namespace Verif
variable {p : Params} {s : St p}

/-- `s` with other SRAMs, SRAM outputs and stall registers: the state that is not reset. Proof device; not in the source. -/
def St.over (s : St p) (r : Way → Idx p → Entry p) (a b : Way → Entry p) (c : Bool × Way)
    (x : Sram (BitVec p.cntBits) p.lineBits) (e : Line p) : St p :=
  { s with tagRam := r, tagDout := a, tagStall := b, hitStall := c, data := x, dataStall := e }

/-- An invalid clean entry. Proof device; not in the source. -/
def Entry.Clean (e : Entry p) : Prop := e.val = false ∧ e.dty = 0

/-- Line number `c` has been initialised in the tag arrays. Proof device; not in the source. -/
def St.Done (s : St p) (c : BitVec p.cntBits) : Prop := s.fsm = .init → s.cnt < c

/-- Proof device; not in the source. -/
structure Fresh (s : St p) : Prop where
  fsm : s.fsm = .init ∨ s.fsm = .ready ∧ s.t1 = .cacheInit
  t1 : s.t1 = .invalid ∨ s.t1 = .cacheInit
  t2 : s.t2 = .invalid ∨ s.t2 = .cacheInit
  evict : s.evict2 = false
  stall : s.wasStalled = false
  req : s.req1 = default
  mask : s.dtyMask1 = 0
  tags : ∀ c, s.Done c → (s.tagRam (cntWay p c) (cntIdx p c)).Clean
  data : ∀ c, s.Done c → (s.t1 = .cacheInit → ¬ (cntIdx p c = s.flushIdx1 ∧ cntWay p c = s.updWay1)) →
    s.data.ram (indexer p (cntIdx p c) (cntWay p c)) = 0
  upd : s.updWay1 ∈ p.ways

theorem idle_status (h : s.t1 = .invalid ∨ s.t1 = .cacheInit) : s.status1 = ⟨false, false, false, false, false, false⟩ := by
  rcases h with h | h <;> simp only [St.status1, h]

theorem idle_sent (h : s.t1 = .invalid ∨ s.t1 = .cacheInit) : s.flushSent1 = false := by
  rcases h with h | h <;> simp [St.flushSent1, h]

theorem idle_stall1 (h : s.t1 = .invalid ∨ s.t1 = .cacheInit) : s.cs1.ostall = false ∧ s.cs1.alloc = false := by
  rcases h with h | h <;> simp [St.cs1, Verif.cs1, h]

theorem idle_stall2 (h : s.t2 = .invalid ∨ s.t2 = .cacheInit) (i : In p) : s.cs2 i = ⟨false, true, false, MT.READ, false, false⟩ := by
  rcases h with h | h <;> simp [St.cs2, Verif.cs2, h]

theorem idle_en (h : s.t1 = .invalid ∨ s.t1 = .cacheInit) : s.tagEn = false := by
  rcases h with h | h <;> simp [St.tagEn, h]

theorem idle_cmp (h : s.t1 = .invalid ∨ s.t1 = .cacheInit) : s.cmp = comparing p false false 0 (fun _ => Entry.zero p) := by
  have h' : (s.t1 == .initReq) = false := by rcases h with h | h <;> rw [h] <;> rfl
  unfold St.cmp comparing
  rw [idle_en h, h']
  rfl

theorem idle_entry (h : s.t1 = .invalid ∨ s.t1 = .cacheInit) (w : Way) : s.tagEntry w = Entry.zero p := by
  unfold St.tagEntry
  rw [idle_en h]
  split <;> rfl

theorem Fresh.stall0 (F : Fresh s) (i : In p) : s.stall i = false := by
  unfold St.stall
  rw [(idle_stall1 F.t1).1, idle_stall2 F.t2]
  rfl

theorem Fresh.wayOff (h : s.t1 = .cacheInit) : s.wayOff = s.updWay1 := by
  simp only [St.wayOff, h]

/-- What M1 does to the data array. -/
theorem Fresh.data_next (F : Fresh s) (i : In p) (c : BitVec p.cntBits) :
    (s.next i).data.ram (indexer p (cntIdx p c) (cntWay p c)) =
      if s.t1 = .cacheInit ∧ cntIdx p c = s.flushIdx1 ∧ cntWay p c = s.updWay1 then 0
      else s.data.ram (indexer p (cntIdx p c) (cntWay p c)) := by
  have e : (s.next i).data = s.data.step s.cs1.val s.cs1.wr (indexer p s.addr1.idx s.wayOff) s.req1.data
    (writeBitEn p s.cs1.wben s.dtyMask1 s.req1.addr.off s.req1.len) := rfl
  rw [e]
  rcases F.t1 with h | h
  · have : s.cs1.val = false := by simp [St.cs1, Verif.cs1, h]
    rw [this]
    simp [Sram.step, h]
  · have hc : s.cs1 = ⟨.dirty, true, true, false, true, false⟩ := by simp [St.cs1, Verif.cs1, h]
    have ha : s.addr1.idx = s.flushIdx1 := by simp [St.addr1, hc, St.flushIdxMux, h]
    rw [hc, ha, Fresh.wayOff h, F.req, F.mask]
    show (if (true && true && decide (indexer p (cntIdx p c) (cntWay p c) = indexer p s.flushIdx1 s.updWay1)) = true
      then merge (~~~ expand p 0) _ 0 else _) = _
    rw [expand_zero]
    simp only [Bool.true_and, decide_eq_true_eq, indexer_inj (cntWay_mem c) F.upd]
    by_cases hh : cntWay p c = s.updWay1 ∧ cntIdx p c = s.flushIdx1
    · rw [if_pos hh, if_pos ⟨h, hh.2, hh.1⟩]
      exact merge_ones _ _
    · rw [if_neg hh, if_neg (fun k => hh ⟨k.2.2, k.2.1⟩)]

theorem pred_lt {n : Nat} {c d : BitVec n} (h : c ≠ 0 → c - 1 < d) : d = c ∨ c < d := by
  by_cases hc : c = 0
  · subst hc
    by_cases hd : d = 0
    · exact .inl hd
    · right
      rw [BitVec.lt_def]
      have : d.toNat ≠ 0 := fun h => hd (BitVec.eq_of_toNat_eq (by simpa using h))
      simp
      omega
  · have h := h hc
    have hc' : c.toNat ≠ 0 := fun h => hc (BitVec.eq_of_toNat_eq (by simpa using h))
    by_cases hd : d = c
    · exact .inl hd
    · right
      have hd' : d.toNat ≠ c.toNat := fun h => hd (BitVec.eq_of_toNat_eq h)
      rw [BitVec.lt_def] at h ⊢
      have e : (c - 1).toNat = c.toNat - 1 := by
        rw [BitVec.toNat_sub]
        have := c.isLt
        by_cases hn : n = 0
        · subst hn; omega
        · have h1 : (1 : BitVec n).toNat = 1 := by
            show (1#n).toNat = 1
            rw [BitVec.toNat_ofNat]; exact Nat.mod_eq_of_lt (Nat.one_lt_two_pow hn)
          rw [h1]
          have : 2 ^ n - 1 + c.toNat = (c.toNat - 1) + 2 ^ n := by omega
          rw [this, Nat.add_mod_right]
          exact Nat.mod_eq_of_lt (by omega)
      omega

theorem Fresh.next (F : Fresh s) (hf : s.fsm = .init) (i : In p) : Fresh (s.next i) := by
  have ht : s.trans0 i = .cacheInit := by unfold St.trans0; rw [if_pos hf]
  have hs := F.stall0 i
  have hst := idle_status F.t1
  have h2 := idle_stall2 F.t2 i
  have e1 : (s.next i).fsm = if s.cnt = 0 then .ready else .init := by
    show (if !s.stall i then s.fsmNext i else s.fsm) = _
    rw [hs]
    simp only [Bool.not_false, if_true, St.fsmNext, hf]
  have e2 : (s.next i).cnt = s.cnt - 1 := by
    show counterNext (!s.stall i && s.cntEn0 (s.trans0 i)) true s.cnt = _
    rw [hs]
    simp [counterNext, St.cntEn0, hf]
  have e3 : (s.next i).t1 = .cacheInit := by simp [St.next, ht]
  have e4 : (s.next i).flushIdx1 = cntIdx p s.cnt := by simp [St.next, ht, St.updIdx0]
  have e5 : (s.next i).updWay1 = cntWay p s.cnt := by simp [St.next, ht, St.updWay0, St.updIdx0]
  have done : ∀ c, (s.next i).Done c → c = s.cnt ∨ s.Done c := by
    intro c hd
    rcases pred_lt (c := s.cnt) (d := c) (fun h0 => by
      have := hd (by rw [e1, if_neg h0])
      rwa [e2] at this) with h | h
    · exact .inl h
    · exact .inr fun _ => h
  refine { fsm := ?_, t1 := .inr e3, t2 := ?_, evict := ?_, stall := ?_, req := ?_, mask := ?_, tags := ?_, data := ?_, upd := ?_ }
  · rw [e1]
    split
    · exact .inr ⟨rfl, e3⟩
    · exact .inl rfl
  · rcases cen2_cases s i with ⟨_, g, _⟩ | ⟨_, g, _⟩ | ⟨g, _⟩
    · rw [g]; exact F.t1
    · rw [g]; exact .inr rfl
    · rw [h2] at g; exact absurd g (by decide)
  · show (if _ then s.status1.evict else s.evict2) = false
    rw [hst, F.evict]; split <;> rfl
  · show (s.cs2 i).ostall = false
    rw [h2]
  · simp only [St.next, ht]
    simpa using F.req
  · simp only [St.next, ht]
    simpa using F.mask
  · intro c hd
    have e : (s.next i).tagRam (cntWay p c) (cntIdx p c) =
      if s.tagVal0 (s.trans0 i) (cntWay p c) && (cs0 (s.trans0 i)).wr && decide (cntIdx p c = s.tagIdx0 i (s.trans0 i)) then
        tagMerge (cs0 (s.trans0 i)).wben (s.tagRam (cntWay p c) (cntIdx p c)) (s.tagWdata0 i (s.trans0 i))
      else s.tagRam (cntWay p c) (cntIdx p c) := rfl
    rw [e, ht]
    split
    · exact ⟨rfl, rfl⟩
    · next hn =>
      rcases done c hd with rfl | h
      · exfalso
        apply hn
        simp [St.tagVal0, cntWay_mem, cs0, St.tagIdx0, St.updIdx0]
      · exact F.tags c h
  · intro c hd hnc
    rw [F.data_next i c]
    split
    · rfl
    · next hn =>
      rcases done c hd with rfl | h
      · exact absurd ⟨e4.symm, e5.symm⟩ (hnc e3)
      · exact F.data c h fun h1 h2 => hn ⟨h1, h2⟩
  · rw [e5]; exact cntWay_mem _

theorem Fresh.rst (s : St p) : Fresh s.rst where
  fsm := .inl rfl
  t1 := .inl rfl
  t2 := .inl rfl
  evict := rfl
  stall := rfl
  req := rfl
  mask := rfl
  tags c h := by
    have h := h rfl
    rw [BitVec.lt_def] at h
    have := c.isLt
    have e : (s.rst.cnt).toNat = 2 ^ p.cntBits - 1 := by
      show (BitVec.ofNat _ (2 ^ p.cntBits - 1)).toNat = _
      rw [BitVec.toNat_ofNat]
      exact Nat.mod_eq_of_lt (by omega)
    omega
  data c h := by
    have h := h rfl
    rw [BitVec.lt_def] at h
    have := c.isLt
    have e : (s.rst.cnt).toNat = 2 ^ p.cntBits - 1 := by
      show (BitVec.ofNat _ (2 ^ p.cntBits - 1)).toNat = _
      rw [BitVec.toNat_ofNat]
      exact Nat.mod_eq_of_lt (by omega)
    omega
  upd := by show false ∈ p.ways; exact false_way

/-! ## The contents before the reset do not matter -/

section
variable {r : Way → Idx p → Entry p} {a b : Way → Entry p} {c : Bool × Way} {x : Sram (BitVec p.cntBits) p.lineBits} {e : Line p}

theorem over_wayOff (h : s.t1 = .invalid ∨ s.t1 = .cacheInit) : (s.over r a b c x e).wayOff = s.wayOff := by
  have hc : (s.over r a b c x e).cmp = s.cmp := by rw [idle_cmp h, idle_cmp (s := s.over r a b c x e) h]
  rcases h with h | h
  · simp only [St.wayOff, h, show (s.over r a b c x e).t1 = .invalid from h, hc]
  · simp only [St.wayOff, h, show (s.over r a b c x e).t1 = .cacheInit from h]
    rfl

theorem over_trans0 (h : s.t1 = .invalid ∨ s.t1 = .cacheInit) (i : In p) : (s.over r a b c x e).trans0 i = s.trans0 i := by
  have h' : (s.over r a b c x e).t1 = .invalid ∨ (s.over r a b c x e).t1 = .cacheInit := h
  have hn : (s.over r a b c x e).prevFlushDone = s.prevFlushDone := by
    rcases h with h | h
    · simp only [St.prevFlushDone, St.noFlush1, h, show (s.over r a b c x e).t1 = .invalid from h]; rfl
    · simp only [St.prevFlushDone, St.noFlush1, h, show (s.over r a b c x e).t1 = .cacheInit from h]; rfl
  unfold St.trans0
  rw [idle_status h, idle_status h', idle_sent h, idle_sent h', hn]
  rfl

theorem over_fsmNext (h : s.t1 = .invalid ∨ s.t1 = .cacheInit) (i : In p) : (s.over r a b c x e).fsmNext i = s.fsmNext i := by
  have h' : (s.over r a b c x e).t1 = .invalid ∨ (s.over r a b c x e).t1 = .cacheInit := h
  have hn : (s.over r a b c x e).prevFlushDone = s.prevFlushDone := by
    rcases h with h | h
    · simp only [St.prevFlushDone, St.noFlush1, h, show (s.over r a b c x e).t1 = .invalid from h]; rfl
    · simp only [St.prevFlushDone, St.noFlush1, h, show (s.over r a b c x e).t1 = .cacheInit from h]; rfl
  unfold St.fsmNext
  rw [idle_sent h, idle_sent h', hn]
  rfl

theorem eq_over {u x : St p} (h1 : u.mrespEn0 = x.mrespEn0) (h2 : u.fsm = x.fsm) (h3 : u.cnt = x.cnt) (h4 : u.t1 = x.t1)
    (h5 : u.wayPtr1 = x.wayPtr1) (h6 : u.updWay1 = x.updWay1) (h7 : u.wasStalled = x.wasStalled) (h8 : u.t2 = x.t2)
    (h9 : u.evict2 = x.evict2) (h10 : u.hit2 = x.hit2) (h11 : u.flushSent2 = x.flushSent2)
    (h12 : u.mresp0 = x.mresp0) (h13 : u.req1 = x.req1)
    (h14 : u.flushIdx1 = x.flushIdx1) (h15 : u.dtyMask1 = x.dtyMask1) (h16 : u.rep = x.rep)
    (h18 : u.mshrNum = x.mshrNum) (h19 : u.mshr = x.mshr) (h20 : u.req2 = x.req2) (h21 : u.wmask2 = x.wmask2) :
    u = x.over u.tagRam u.tagDout u.tagStall u.hitStall u.data u.dataStall := by
  cases u; cases x
  simp only [St.over] at *
  subst h1 h2 h3 h4 h5 h6 h7 h8 h9 h10 h11 h12 h13 h14 h15 h16 h18 h19 h20 h21
  rfl

theorem over_next (h : s.t1 = .invalid ∨ s.t1 = .cacheInit) (i : In p) :
    (s.over r a b c x e).next i = (s.next i).over ((s.over r a b c x e).next i).tagRam ((s.over r a b c x e).next i).tagDout
      ((s.over r a b c x e).next i).tagStall ((s.over r a b c x e).next i).hitStall ((s.over r a b c x e).next i).data
      ((s.over r a b c x e).next i).dataStall := by
  have h' : (s.over r a b c x e).t1 = .invalid ∨ (s.over r a b c x e).t1 = .cacheInit := h
  have hst : (s.over r a b c x e).status1 = s.status1 := by rw [idle_status h, idle_status h']
  have hse : (s.over r a b c x e).flushSent1 = s.flushSent1 := by rw [idle_sent h, idle_sent h']
  have hc1 : (s.over r a b c x e).cs1 = s.cs1 := by unfold St.cs1; rw [hst, hse]; rfl
  have hc2 : (s.over r a b c x e).cs2 i = s.cs2 i := rfl
  have hs : (s.over r a b c x e).stall i = s.stall i := by unfold St.stall; rw [hc1, hc2]
  have hal : s.allocEn i = false := by unfold St.allocEn; rw [(idle_stall1 h).2]; rfl
  have hal' : (s.over r a b c x e).allocEn i = false := by unfold St.allocEn; rw [(idle_stall1 h').2]; rfl
  have ht := over_trans0 (r := r) (a := a) (b := b) (c := c) (x := x) (e := e) h i
  have hf := over_fsmNext (r := r) (a := a) (b := b) (c := c) (x := x) (e := e) h i
  have hw : (s.over r a b c x e).wmask1 = s.wmask1 := by unfold St.wmask1; rw [idle_entry h, idle_entry h']
  have e0 : (s.over r a b c x e).t1 = s.t1 := rfl
  refine eq_over ?_ ?_ ?_ ?_ ?_ ?_ ?_ ?_ ?_ ?_ ?_ ?_ ?_ ?_ ?_ ?_ ?_ ?_ ?_ ?_
  case refine_19 =>
    show (if !((s.over r a b c x e).cs2 i).ostall && (s.t1 != .cacheInit) then { s.req1 with addr := (s.over r a b c x e).addr1 } else s.req2) =
      if !(s.cs2 i).ostall && (s.t1 != .cacheInit) then { s.req1 with addr := s.addr1 } else s.req2
    rw [hc2]
    rcases h with h | h
    · have : s.cs1.evictSel = false := by simp [St.cs1, Verif.cs1, h]
      unfold St.addr1
      rw [hc1, this]
      rfl
    · rw [h]; simp
  all_goals (simp only [St.next, ht, hs, hst, hc2, hf, hse, hal, hal', hw, e0]; try rfl)

end

/-- While both are initialising. Proof device; not in the source. -/
structure Boot (s s₁ : St p) : Prop where
  l : Fresh s
  r : Fresh s₁
  eq : ∃ r a b c x e, s₁ = s.over r a b c x e

theorem Boot.out {s₁ : St p} (B : Boot s s₁) (i : In p) : Out.Same (s.out i) (s₁.out i) := by
  have h1 := idle_stall2 B.l.t2 i
  have h2 := idle_stall2 B.r.t2 i
  have hr : s.reqRdy i = s₁.reqRdy i := by
    have hal : s.allocEn i = false := by unfold St.allocEn; rw [(idle_stall1 B.l.t1).2]; rfl
    have hal' : s₁.allocEn i = false := by unfold St.allocEn; rw [(idle_stall1 B.r.t1).2]; rfl
    unfold St.reqRdy
    rw [idle_status B.l.t1, idle_status B.r.t1, B.l.stall0, B.r.stall0, hal, hal']
    obtain ⟨r, a, b, c, x, e, rfl⟩ := B.eq
    rfl
  have g1 : (s.out i).respEn = false ∧ (s.out i).mreqEn = false := by
    show (s.cs2 i).respEn = false ∧ (s.cs2 i).mreqEn = false
    rw [h1]; exact ⟨rfl, rfl⟩
  have g2 : (s₁.out i).respEn = false ∧ (s₁.out i).mreqEn = false := by
    show (s₁.cs2 i).respEn = false ∧ (s₁.cs2 i).mreqEn = false
    rw [h2]; exact ⟨rfl, rfl⟩
  exact ⟨hr, by rw [g1.1, g2.1], by rw [g1.2, g2.2], fun h => absurd h (by rw [g1.1]; decide),
    fun h => absurd h (by rw [g1.2]; decide), fun h => absurd h (by rw [g1.2]; decide)⟩

theorem Boot.next {s₁ : St p} (B : Boot s s₁) (hf : s.fsm = .init) (i : In p) : Boot (s.next i) (s₁.next i) := by
  obtain ⟨F, F', r, a, b, c, x, e, rfl⟩ := B
  exact ⟨F.next hf i, F'.next hf i, _, _, _, _, _, _, over_next F.t1 i⟩

theorem Boot.rst (s s₁ : St p) : Boot s.rst s₁.rst :=
  ⟨Fresh.rst s, Fresh.rst s₁, s₁.tagRam, s₁.tagDout, s₁.tagStall, s₁.hitStall, s₁.data, s₁.dataStall, rfl⟩

/-- Every line of the data array has a line number. -/
theorem index_exists (k : BitVec p.cntBits) : ∃ c : BitVec p.cntBits, indexer p (cntIdx p c) (cntWay p c) = k := by
  suffices ∃ w ∈ p.ways, ∃ j, indexer p j w = k by
    obtain ⟨w, hw, j, h⟩ := this
    exact ⟨numOf p w j, by rw [cntWay_numOf w j hw, cntIdx_numOf w j hw, h]⟩
  have hk := k.isLt
  have hp := Nat.two_pow_pos p.idxBits
  cases h2 : p.twoWay
  · have e : p.cntBits = p.idxBits := by simp [Params.cntBits, Params.wayBits, h2]
    refine ⟨false, false_way, BitVec.ofNat _ k.toNat, BitVec.eq_of_toNat_eq ?_⟩
    rw [indexer_toNat _ _ false_way]
    simp only [BitVec.toNat_ofNat, Bool.toNat_false, Nat.zero_mul, Nat.add_zero]
    exact Nat.mod_eq_of_lt (by rw [← e]; exact hk)
  · have e : 2 ^ p.cntBits = 2 ^ p.idxBits * 2 := by simp [Params.cntBits, Params.wayBits, h2, Nat.pow_add]
    by_cases h : k.toNat < 2 ^ p.idxBits
    · refine ⟨false, false_way, BitVec.ofNat _ k.toNat, BitVec.eq_of_toNat_eq ?_⟩
      rw [indexer_toNat _ _ false_way]
      simp only [BitVec.toNat_ofNat, Bool.toNat_false, Nat.zero_mul, Nat.add_zero]
      exact Nat.mod_eq_of_lt h
    · have hw : true ∈ p.ways := by unfold Params.ways; rw [h2]; simp
      refine ⟨true, hw, BitVec.ofNat _ (k.toNat - 2 ^ p.idxBits), BitVec.eq_of_toNat_eq ?_⟩
      rw [indexer_toNat _ _ hw]
      simp only [BitVec.toNat_ofNat, Bool.toNat_true, Nat.one_mul]
      rw [Nat.mod_eq_of_lt (by omega)]
      omega

/-- The two caches mean the same: `s` has the same registers except those that were taken from a
port or an SRAM without need. Proof device; not in the source. -/
def Akin (s s₁ : St p) : Prop := Calm s ∧ ∃ v, Mute s v ∧ Twin (s.alt v) s₁

/-- The data array has no influence on the rest. -/
theorem next_with_data (s : St p) (d : Sram (BitVec p.cntBits) p.lineBits) (i : In p) :
    ({ s with data := d } : St p).next i =
      { s.next i with
        data := d.step s.cs1.val s.cs1.wr (indexer p s.addr1.idx s.wayOff) s.req1.data
          (writeBitEn p s.cs1.wben s.dtyMask1 s.req1.addr.off s.req1.len)
        dataStall := stallNext (!s.wasStalled) d.dout s.dataStall } := rfl

theorem next_data_same {s : St p} {d : Sram (BitVec p.cntBits) p.lineBits} {i : In p}
    (h : (({ s with data := d } : St p).next i).data = (s.next i).data) (hd : d.dout = s.data.dout) :
    ({ s with data := d } : St p).next i = s.next i := by
  rw [next_with_data] at h ⊢
  have h : d.step s.cs1.val s.cs1.wr (indexer p s.addr1.idx s.wayOff) s.req1.data
    (writeBitEn p s.cs1.wben s.dtyMask1 s.req1.addr.off s.req1.len) = (s.next i).data := h
  rw [h, hd]
  have e : stallNext (!s.wasStalled) s.data.dout s.dataStall = (s.next i).dataStall := rfl
  rw [e]

/-- The last cycle of the initialisation. -/
theorem Boot.last {s₁ : St p} (B : Boot s s₁) (C : Calm s) (hf : s.fsm = .ready) {i : In p} (hr : i.reset = false) (hp : Polite s i) :
    Akin (s.next i) (s₁.next i) := by
  obtain ⟨F, F', r, a, b, c, x, e, rfl⟩ := B
  have ht1 : s.t1 = .cacheInit := by
    rcases F.fsm with h | h
    · rw [h] at hf; exact absurd hf (by decide)
    · exact h.2
  have hd : ∀ c, s.Done c := fun c h => by rw [hf] at h; exact absurd h (by decide)
  have hi : i.Same i := ⟨rfl, rfl, rfl, rfl, rfl, fun _ => rfl, fun _ => ⟨Iff.rfl, fun _ => rfl⟩⟩
  let v : Alt p := ⟨s.mresp0, s.req1, s.req2, s.hitStall, r, s.tagDout, s.tagStall⟩
  have hclean : ∀ w ∈ p.ways, ∀ j, (s.tagRam w j).Clean ∧ (r w j).Clean := by
    intro w hw j
    have h1 := F.tags (numOf p w j) (hd _)
    have h2 := F'.tags (numOf p w j) (hd _)
    rw [cntWay_numOf w j hw, cntIdx_numOf w j hw] at h1 h2
    exact ⟨h1, h2⟩
  have M : Mute s v := {
    m := fun _ => ⟨Iff.rfl, fun _ => rfl⟩
    r1 := fun _ => rfl
    r2 := fun _ _ => rfl
    r2f := fun _ _ => rfl
    c := fun _ _ => .inr rfl
    ram := fun w hw j => by
      obtain ⟨⟨h1, h2⟩, h3, h4⟩ := hclean w hw j
      refine ⟨?_, ?_, ?_⟩
      · show (r w j).val = _; rw [h3, h1]
      · show (r w j).dty = _; rw [h4, h2]
      · rintro (h | h)
        · rw [h1] at h; exact absurd h (by decide)
        · exact absurd h2 h
    a := fun w _ => ESim.rfl'
    b := fun w _ => ESim.rfl' }
  refine ⟨C.next hp, Alt.of ((s.alt v).next i), M.next C hp hi, ?_⟩
  rw [← M.next_eq hi]
  -- the state with the other SRAM contents
  let u : St p := { s.alt v with data := ⟨x.ram, s.data.dout⟩ }
  have T : Tidy u := ⟨C.tidy.upd, C.tidy.way, C.tidy.evict, C.tidy.init⟩
  have W : Twin u (s.over r a b c x e) := by
    refine ⟨T, a, b, c, x.dout, e, rfl, ?_, ?_, ?_⟩
    · intro w hw
      have : s.tagEn = true := hw.2.1
      rw [idle_en F.t1] at this
      exact absurd this (by decide)
    · intro h
      have h : (Verif.cs2 s.t2 true true s.evict2 s.hit2 s.flushSent2).rdSel = false := h
      exfalso
      rcases F.t2 with h2 | h2 <;> rw [h2] at h <;> exact absurd h (by simp [Verif.cs2])
    · left
      show (!s.wasStalled && !s.evict2) = true
      rw [F.stall, F.evict]; rfl
  have hu : u.next i = (s.alt v).next i := by
    have hdata : (u.next i).data = ((s.alt v).next i).data := by
      have e1 : (u.next i).data.dout = ((s.alt v).next i).data.dout := by
        show (if (s.alt v).cs1.val && !(s.alt v).cs1.wr then _ else s.data.dout) = if (s.alt v).cs1.val && !(s.alt v).cs1.wr then _ else s.data.dout
        have hc : (s.alt v).cs1 = ⟨.dirty, true, true, false, true, false⟩ := by
          simp [St.cs1, Verif.cs1, show (s.alt v).t1 = .cacheInit from ht1]
        rw [hc]
        rfl
      have e2 : (u.next i).data.ram = ((s.alt v).next i).data.ram := by
        have ea : ((s.alt v).next i).data.ram = (s.next i).data.ram := by rw [M.next_eq hi]; rfl
        have eb : (u.next i).data.ram = ((s.over r a b c x e).next i).data.ram := by
          have h1 : (u.next i).data.ram = (x.step (s.alt v).cs1.val (s.alt v).cs1.wr (indexer p (s.alt v).addr1.idx (s.alt v).wayOff) s.req1.data
            (writeBitEn p (s.alt v).cs1.wben s.dtyMask1 s.req1.addr.off s.req1.len)).ram := rfl
          have h2 : ((s.over r a b c x e).next i).data.ram = (x.step (s.over r a b c x e).cs1.val (s.over r a b c x e).cs1.wr
            (indexer p (s.over r a b c x e).addr1.idx (s.over r a b c x e).wayOff) s.req1.data
            (writeBitEn p (s.over r a b c x e).cs1.wben s.dtyMask1 s.req1.addr.off s.req1.len)).ram := rfl
          have hc1 : (s.alt v).cs1 = ⟨.dirty, true, true, false, true, false⟩ := by
            simp [St.cs1, Verif.cs1, show (s.alt v).t1 = .cacheInit from ht1]
          have hc2 : (s.over r a b c x e).cs1 = ⟨.dirty, true, true, false, true, false⟩ := by
            simp [St.cs1, Verif.cs1, show (s.over r a b c x e).t1 = .cacheInit from ht1]
          have hi1 : (s.alt v).addr1.idx = s.flushIdx1 := by
            simp only [St.addr1, hc1, St.flushIdxMux, show (s.alt v).t1 = .cacheInit from ht1]; rfl
          have hi2 : (s.over r a b c x e).addr1.idx = s.flushIdx1 := by
            simp only [St.addr1, hc2, St.flushIdxMux, show (s.over r a b c x e).t1 = .cacheInit from ht1]; rfl
          have hw1 : (s.alt v).wayOff = s.updWay1 := Fresh.wayOff (s := s.alt v) ht1
          have hw2 : (s.over r a b c x e).wayOff = s.updWay1 := Fresh.wayOff (s := s.over r a b c x e) ht1
          rw [h1, h2, hc1, hc2, hi1, hi2, hw1, hw2]
        rw [ea, eb]
        funext k
        obtain ⟨n, rfl⟩ := index_exists k
        rw [F.data_next i n, F'.data_next i n]
        show (if s.t1 = .cacheInit ∧ cntIdx p n = s.flushIdx1 ∧ cntWay p n = s.updWay1 then (0 : Line p) else
          x.ram (indexer p (cntIdx p n) (cntWay p n))) = _
        split
        · rfl
        · next hn =>
          have g1 := F.data n (hd n) fun h1 h2 => hn ⟨h1, h2⟩
          have g2 := F'.data n (hd n) fun h1 h2 => hn ⟨h1, h2⟩
          exact g2.trans g1.symm
      cases h1 : (u.next i).data
      cases h2 : ((s.alt v).next i).data
      rw [h1, h2] at e1 e2
      simp only at e1 e2
      rw [e1, e2]
    exact next_data_same hdata rfl
  have := W.step i u.held (s.over r a b c x e).held
  rw [stepJ_held, stepJ_held] at this
  unfold St.step at this
  rw [hr] at this
  rw [← hu]
  exact this

end Verif
