import Verif.PropsTiming2

/-!
# Timing of invalidations and flushes

Helper definitions and lemmas for C62: how many clock edges an invalidation or a
flush still needs.
-/

namespace Verif
variable {p : Params}

/-- The phases of an invalidation or flush. Proof device; not in the source. -/
inductive Maint (s : St p) (O : List MType) : Prop
  | inv0 {L rest q} (h : PInv0 True s L rest O q)
  | inv1 {L rest q} (h : PInv1 True s L rest O q)
  | inv2 {L rest q} (h : PInv2 True s L rest O q)
  | fl0 {L rest L0 q} (h : PFl0 True s L rest O L0 q)
  | fl1 {L rest L0 q c} (h : PFl1 True s L rest O L0 q c)
  | fl2 {L rest L0 q c} (h : PFl2 True s L rest O L0 q c)
  | fl3 {L rest L0 q c} (h : PFl3 True s L rest O L0 q c)

/-- Transactions of an invalidation or flush before its replay. Proof device; not in the source. -/
def maintT : Trans → Bool
  | .invStart | .invWrite | .flushStart | .flushRead | .flushWait | .flushWrite => true
  | _ => false

theorem maint_of {s : St p} (ht : maintT s.t1 = true) {L : L1 p} {E : List (Msg p)} {O : List MType} (hRI : RI s L E O) :
    Maint s O := by
  have kill : ∀ t, maintT t = false → s.t1 ≠ t := by
    intro t h1 h2; rw [← h2, ht] at h1; cases h1
  have hreq : ∀ ty : MType, maintT (reqTrans ty) = false := by
    intro ty; simp only [reqTrans]; split
    · rfl
    · split <;> rfl
  cases hRI with
  | init h hL hE hO =>
    exfalso; rcases h.t1 with ⟨h, _⟩ | ⟨h, _⟩ <;> exact kill _ rfl h
  | run L' he hR =>
    obtain ⟨hok, rest, hE, hph⟩ := hR
    cases hph with
    | flow h =>
      exfalso
      have := h.t1
      cases hh : s.t1 <;> rw [hh] at this ht <;> simp [flowT, maintT] at this ht
    | req L0 q g => exact absurd g.t1 (kill _ (hreq _))
    | pass2 q g => exact absurd g.t1 (kill _ (hreq _))
    | wait h => exact absurd h.t1 (kill _ rfl)
    | ans L0 h => exact absurd h.t1 (kill _ rfl)
    | refill L0 q w d h => exact absurd h.t1 (kill _ rfl)
    | inv0 q h => exact .inv0 h
    | inv1 q h => exact .inv1 h
    | inv2 q h => exact .inv2 h
    | fl0 L0 q h => exact .fl0 h
    | fl1 L0 q c h => exact .fl1 h
    | fl2 L0 q c h => exact .fl2 h
    | fl3 L0 q c h => exact .fl3 h
    | ini hU _ => exact absurd trivial hU

/-- The number of edges still needed until the replay is in M1, not counting
edges that wait for memory, and not counting three for every write-back that
has still to be sent. Proof device; not in the source. -/
inductive Left (s : St p) (O : List MType) : Nat → Prop
  | inv0 {L rest q} (h : PInv0 True s L rest O q) : Left s O (2 ^ p.cntBits + 1)
  | inv1 {L rest q} (h : PInv1 True s L rest O q) : Left s O (s.cnt.toNat + 2)
  | inv2 {L rest q} (h : PInv2 True s L rest O q) : Left s O 1
  | fl0 {L rest L0 q} (h : PFl0 True s L rest O L0 q) : Left s O (2 ^ p.cntBits + 1)
  | fl1 {L rest L0 q c} (h : PFl1 True s L rest O L0 q c) : Left s O (c + 1)
  | fl2a {L rest L0 q c} (h : PFl2 True s L rest O L0 q c) (hm : s.mrespEn0 = false)
      (hs : memTypes s.slot.msgs = [MT.WRITE]) (hO : O = []) : Left s O c
  | fl2b {L rest L0 q c} (h : PFl2 True s L rest O L0 q c) (hm : s.mrespEn0 = false)
      (ht : s.t2 = .flushWait) (hO : O = [MT.WRITE]) : Left s O (c + 2)
  | fl2c {L rest L0 q c} (h : PFl2 True s L rest O L0 q c) (hm : s.mrespEn0 = true) (hty : s.mresp0.ty = MT.WRITE)
      (ht : s.t2 = .flushWait) (hO : O = []) : Left s O (c + 2)
  | fl3 {L rest L0 q c} (h : PFl3 True s L rest O L0 q c) : Left s O (c + 1)
  | done (h : s.t1 = .replayInv ∨ s.t1 = .replayFlush) : Left s O 0

theorem lineNo_inj {c c' : Nat} (h : c < 2 ^ p.cntBits) (h' : c' < 2 ^ p.cntBits) (e : lineNo p c = lineNo p c') : c = c' := by
  have := congrArg BitVec.toNat e
  rwa [lineNo_toNat h, lineNo_toNat h'] at this

section
variable {s : St p} {O : List MType} {L : L1 p} {E : List (Msg p)}

theorem left_invStart (hRI : RI s L E O) (h : s.t1 = .invStart) : Left s O (2 ^ p.cntBits + 1) := by
  cases maint_of (by rw [h]; rfl) hRI with
  | inv0 g => exact .inv0 g
  | inv1 g => have := g.t1; rw [h] at this; cases this
  | inv2 g => have := g.t1; rw [h] at this; cases this
  | fl0 g => have := g.t1; rw [h] at this; cases this
  | fl1 g => have := g.t1; rw [h] at this; cases this
  | fl2 g => have := g.t1; rw [h] at this; cases this
  | fl3 g => have := g.t1; rw [h] at this; cases this

theorem left_flushStart (hRI : RI s L E O) (h : s.t1 = .flushStart) : Left s O (2 ^ p.cntBits + 1) := by
  cases maint_of (by rw [h]; rfl) hRI with
  | inv0 g => have := g.t1; rw [h] at this; cases this
  | inv1 g => have := g.t1; rw [h] at this; cases this
  | inv2 g => have := g.t1; rw [h] at this; cases this
  | fl0 g => exact .fl0 g
  | fl1 g => have := g.t1; rw [h] at this; cases this
  | fl2 g => have := g.t1; rw [h] at this; cases this
  | fl3 g => have := g.t1; rw [h] at this; cases this

theorem left_invWrite (hRI : RI s L E O) (h : s.t1 = .invWrite) :
    (s.fsm = .inv → Left s O (s.cnt.toNat + 2)) ∧ (s.fsm = .replay → Left s O 1) := by
  cases maint_of (by rw [h]; rfl) hRI with
  | inv0 g => have := g.t1; rw [h] at this; cases this
  | inv1 g => exact ⟨fun _ => .inv1 g, fun e => by rw [g.fsm] at e; cases e⟩
  | inv2 g => exact ⟨fun e => by (rw [g.fsm] at e; cases e), fun _ => .inv2 g⟩
  | fl0 g => have := g.t1; rw [h] at this; cases this
  | fl1 g => have := g.t1; rw [h] at this; cases this
  | fl2 g => have := g.t1; rw [h] at this; cases this
  | fl3 g => have := g.t1; rw [h] at this; cases this

theorem left_flushRead (hRI : RI s L E O) (h : s.t1 = .flushRead) {c : Nat} (hc : c < 2 ^ p.cntBits)
    (hcnt : s.cnt + 1 = lineNo p c) : Left s O (c + 1) := by
  cases maint_of (by rw [h]; rfl) hRI with
  | inv0 g => have := g.t1; rw [h] at this; cases this
  | inv1 g => have := g.t1; rw [h] at this; cases this
  | inv2 g => have := g.t1; rw [h] at this; cases this
  | fl0 g => have := g.t1; rw [h] at this; cases this
  | fl1 g =>
    have := lineNo_inj g.lt hc (g.cnt.symm.trans hcnt)
    subst this; exact .fl1 g
  | fl2 g => have := g.t1; rw [h] at this; cases this
  | fl3 g => have := g.t1; rw [h] at this; cases this

theorem left_flushWrite (hRI : RI s L E O) (h : s.t1 = .flushWrite) {c : Nat} (hc : c < 2 ^ p.cntBits)
    (hcnt : s.cnt + 1 = lineNo p c) : Left s O (c + 1) := by
  cases maint_of (by rw [h]; rfl) hRI with
  | inv0 g => have := g.t1; rw [h] at this; cases this
  | inv1 g => have := g.t1; rw [h] at this; cases this
  | inv2 g => have := g.t1; rw [h] at this; cases this
  | fl0 g => have := g.t1; rw [h] at this; cases this
  | fl1 g => have := g.t1; rw [h] at this; cases this
  | fl2 g => have := g.t1; rw [h] at this; cases this
  | fl3 g =>
    have := lineNo_inj g.lt hc (g.cnt.symm.trans hcnt)
    subst this; exact .fl3 g

theorem left_flushWait (hRI : RI s L E O) (h : s.t1 = .flushWait) {c : Nat} (hc : c < 2 ^ p.cntBits)
    (hcnt : s.cnt + 1 = lineNo p c) :
    (memTypes s.slot.msgs ≠ [] → s.mrespEn0 = false → s.t2 ≠ .flushWait → Left s O c) ∧
    (memTypes s.slot.msgs = [] → Left s O (c + 2)) := by
  cases maint_of (by rw [h]; rfl) hRI with
  | inv0 g => have := g.t1; rw [h] at this; cases this
  | inv1 g => have := g.t1; rw [h] at this; cases this
  | inv2 g => have := g.t1; rw [h] at this; cases this
  | fl0 g => have := g.t1; rw [h] at this; cases this
  | fl1 g => have := g.t1; rw [h] at this; cases this
  | fl2 g =>
    have := lineNo_inj g.lt hc (g.cnt.symm.trans hcnt)
    subst this
    rcases g.out with ⟨h1, h2, h3⟩ | ⟨h1, h2, h3⟩ | ⟨h1, h2, h3, h4⟩
    · exact ⟨fun _ _ _ => .fl2a g h1 h2 h3, fun e => by rw [h2] at e; cases e⟩
    · exact ⟨fun _ _ e => absurd h2 e, fun _ => .fl2b g h1 h2 h3⟩
    · exact ⟨fun _ e => by (rw [h1] at e; cases e), fun _ => .fl2c g h1 h2 h3 h4⟩
  | fl3 g => have := g.t1; rw [h] at this; cases this

/-- One if memory owes an answer. Proof device; not in the source. -/
def waits (O : List MType) : Nat := if O = [] then 0 else 1

/-- One edge with both ports ready. -/
theorem left_step (wf : p.WF) {i : In p} {a : Nat} (h : Left s O a) (ha : s.t1 ≠ .replayInv ∧ s.t1 ≠ .replayFlush) (hl : Legal s O i)
    (ho : (s.cs2 i).ostall = false) {L' : L1 p} {E' : List (Msg p)} {O' : List MType} (hRI : RI (s.next i) L' E' O') :
    ∃ a', Left (s.next i) O' a' ∧ a' + 1 = a + waits O + 3 * (memTypes s.slot.msgs).length := by
  cases h with
  | inv0 h =>
    have hst1 : s.status1 = ⟨false, false, false, false, false, false⟩ := by simp [St.status1, h.t1]
    have hcs : s.cs1 = ⟨.none, false, false, false, false, true⟩ := by simp [St.cs1, h.t1, hst1, cs1]
    have hT : s.trans0 i = .invWrite := by simp [St.trans0, h.fsm, hst1]
    have hst : s.stall i = false := by simp [St.stall, ho, hcs]
    have hg := go s i hst (by rw [hst1]) (by rw [h.fsm]; simp)
    have hmx := cntMax_ne_zero wf
    have hfn : s.fsmNext i = .inv := by simp only [St.fsmNext, h.fsm, h.cnt]; rw [if_neg hmx]
    have hcnt : (s.next i).cnt = cntMax p - 1 := by
      rw [hg.cnt]
      have : s.cntEn0 (s.trans0 i) = true := by simp [St.cntEn0, h.fsm]
      rw [this]; simp [counterNext, h.cnt]
    refine ⟨_, (left_invWrite hRI (by rw [hg.t1, hT])).1 (by rw [hg.fsm, hfn]), ?_⟩
    rw [hcnt, sub_one_toNat _ hmx, cntMax_toNat, h.quiet.slot, h.quiet.out]
    have h1 := cntBits_pos wf
    have : 2 ^ 1 ≤ 2 ^ p.cntBits := Nat.pow_le_pow_right (by decide) h1
    simp [waits]; omega
  | inv1 h =>
    obtain ⟨hst1, hcs, hadv⟩ := invWrite_facts s h.t1
    have hT : s.trans0 i = .invWrite := by simp [St.trans0, h.fsm, hst1]
    have hst : s.stall i = false := by simp [St.stall, ho, hcs]
    have hg := go s i hst (by rw [hst1]) (by rw [h.fsm]; simp)
    have hcnt : (s.next i).cnt = s.cnt - 1 := by
      rw [hg.cnt]
      have : s.cntEn0 (s.trans0 i) = true := by simp [St.cntEn0, h.fsm]
      rw [this]; simp [counterNext]
    by_cases hz : s.cnt = 0
    · have hfn : s.fsmNext i = .replay := by simp [St.fsmNext, h.fsm, hz]
      refine ⟨_, (left_invWrite hRI (by rw [hg.t1, hT])).2 (by rw [hg.fsm, hfn]), ?_⟩
      rw [h.quiet.slot, h.quiet.out, hz]; simp [waits]
    · have hfn : s.fsmNext i = .inv := by simp only [St.fsmNext, h.fsm]; rw [if_neg hz]
      refine ⟨_, (left_invWrite hRI (by rw [hg.t1, hT])).1 (by rw [hg.fsm, hfn]), ?_⟩
      have : s.cnt.toNat ≠ 0 := fun h0 => hz (BitVec.eq_of_toNat_eq (by simpa using h0))
      rw [hcnt, sub_one_toNat _ hz, h.quiet.slot, h.quiet.out]; simp [waits]; omega
  | inv2 h =>
    obtain ⟨hst1, hcs, hadv⟩ := invWrite_facts s h.t1
    have hemp : s.mshrEmpty = false := by simp [St.mshrEmpty, mshrEmpty, h.num]
    have hT : s.trans0 i = .replayInv := by simp [St.trans0, h.fsm, hst1, hemp, h.mshr.ty, h.qty]
    have hst : s.stall i = false := by simp [St.stall, ho, hcs]
    have hg := go s i hst (by rw [hst1]) (by rw [h.fsm]; simp)
    exact ⟨0, .done (.inl (by rw [hg.t1, hT])), by rw [h.quiet.slot, h.quiet.out]; simp [waits]⟩
  | fl0 h =>
    have hst1 : s.status1 = ⟨false, false, false, false, false, false⟩ := by simp [St.status1, h.t1]
    have hcs : s.cs1 = ⟨.none, false, false, false, false, true⟩ := by simp [St.cs1, h.t1, hst1, cs1]
    have hfs : s.flushSent1 = false := by simp [St.flushSent1, h.t1]
    have hT : s.trans0 i = .flushRead := by simp [St.trans0, h.fsm, hst1, hfs]
    have hst : s.stall i = false := by simp [St.stall, ho, hcs]
    have hg := go s i hst (by rw [hst1]) (by rw [h.fsm]; simp)
    have hpos := Nat.two_pow_pos p.cntBits
    have hcnt : (s.next i).cnt + 1 = lineNo p (2 ^ p.cntBits - 1) := by
      have : s.cntEn0 .flushRead = true := by simp [St.cntEn0, h.fsm]
      rw [hg.cnt, hT, this]; simp only [counterNext, if_true, h.cnt]
      rw [BitVec.sub_add_cancel]; rfl
    refine ⟨_, left_flushRead hRI (by rw [hg.t1, hT]) (by omega) hcnt, ?_⟩
    rw [h.quiet.slot, h.quiet.out]; simp [waits]; omega
  | @fl1 Lx rest L0 q c h =>
    have hst1 : s.status1 = ⟨false, false, false, false, false, false⟩ := by simp [St.status1, h.t1]
    have hwm := cntWay_mem (p := p) (lineNo p c)
    have hcs : s.cs1 = ⟨.none, false, s.flushSent1, false, true, false⟩ := by simp [St.cs1, h.t1, hst1, cs1]
    have hemp : s.mshrEmpty = false := by simp [St.mshrEmpty, mshrEmpty, h.num]
    have hack : s.wrAck0 = false := by simp [St.wrAck0, h.quiet.mem]
    have hni : s.fsm ≠ .init := by rw [h.fsm]; split <;> simp
    have hst : s.stall i = false := by simp [St.stall, ho, hcs]
    have hg := go s i hst (by rw [hst1]) hni
    have hme : i.mrespEn = false := by have := h.quiet.out; subst this; exact no_mresp hl
    rw [h.quiet.slot, h.quiet.out]
    cases hd : s.lineDty s.updWay1
    · -- clean line
      have hfs : s.flushSent1 = false := by simp [St.flushSent1, hd]
      have hnf : s.prevFlushDone = true := by simp [St.prevFlushDone, St.noFlush1, h.t1, hd]
      cases c with
      | zero =>
        have hf : s.fsm = .replay := by rw [h.fsm]; rfl
        have hT : s.trans0 i = .replayFlush := by
          simp [St.trans0, hf, hst1, hemp, h.mshr.ty, h.qty, hnf]
        exact ⟨0, .done (.inr (by rw [hg.t1, hT])), by simp [waits]⟩
      | succ c =>
        have hf : s.fsm = .flush := by rw [h.fsm]; simp
        have hT : s.trans0 i = .flushRead := by simp [St.trans0, hf, hst1, hfs]
        have hcnt : (s.next i).cnt + 1 = lineNo p c := by
          have : s.cntEn0 .flushRead = true := by simp [St.cntEn0, hf]
          rw [hg.cnt, hT, this]; simp only [counterNext, if_true, cnt_of_succ h.cnt]
          rw [BitVec.sub_add_cancel]
        have hlt := h.lt
        exact ⟨_, left_flushRead hRI (by rw [hg.t1, hT]) (by omega) hcnt, by simp [waits]⟩
    · -- dirty line
      have hfs : s.flushSent1 = true := by simp [St.flushSent1, h.t1, hd]
      have hnf : s.prevFlushDone = false := by simp [St.prevFlushDone, St.noFlush1, h.t1, hd, hack]
      have hT : s.trans0 i = .flushWait := by
        have hf := h.fsm
        by_cases hc : c = 0
        · rw [if_pos hc] at hf
          simp [St.trans0, hf, hst1, hemp, h.mshr.ty, h.qty, hnf]
        · rw [if_neg hc] at hf
          simp [St.trans0, hf, hst1, hfs]
      have hcnt : (s.next i).cnt + 1 = lineNo p c := by
        have : s.cntEn0 .flushWait = false := by
          have hf := h.fsm
          by_cases hc : c = 0
          · rw [if_pos hc] at hf; simp [St.cntEn0, hf]
          · rw [if_neg hc] at hf; simp [St.cntEn0, hf]
        rw [hg.cnt, hT, this]; exact h.cnt
      have hadv : memTypes s.adv.msgs ≠ [] := by
        simp [M2.msgs, St.adv, h.t1, hst1, hfs, cs2, memTypes]
      refine ⟨_, (left_flushWait hRI (by rw [hg.t1, hT]) h.lt hcnt).1 (by rw [hg.slot]; exact hadv) (by rw [hg.mrespEn0, hme])
        (by rw [hg.t2, h.t1]; simp), by simp [waits]⟩
  | @fl2a Lx rest L0 q c h hm hs hO =>
    have hst1 : s.status1 = ⟨false, false, false, false, false, false⟩ := by simp [St.status1, h.t1]
    have hcs : s.cs1 = ⟨.none, false, false, false, false, false⟩ := by simp [St.cs1, h.t1, hst1, cs1]
    have hadv : s.adv.msgs = [] := adv_nonblocking s (by rw [h.t1]; rfl)
    have hni : s.fsm ≠ .init := by rw [h.fsm]; simp
    have hack : s.wrAck0 = false := by simp [St.wrAck0, hm]
    have hT : s.trans0 i = .flushWait := by simp [St.trans0, h.fsm, hst1, hack]
    have hst : s.stall i = false := by simp [St.stall, ho, hcs]
    have hg := go s i hst (by rw [hst1]) hni
    have hcnt : (s.next i).cnt + 1 = lineNo p a := by
      have : s.cntEn0 .flushWait = false := by simp [St.cntEn0, h.fsm]
      rw [hg.cnt, hT, this]; exact h.cnt
    refine ⟨_, (left_flushWait hRI (by rw [hg.t1, hT]) h.lt hcnt).2 (by rw [hg.slot, hadv]; rfl), ?_⟩
    rw [hs, hO]; simp [waits]
  | @fl2b Lx rest L0 q c h hm ht hO =>
    have hst1 : s.status1 = ⟨false, false, false, false, false, false⟩ := by simp [St.status1, h.t1]
    have hcs : s.cs1 = ⟨.none, false, false, false, false, false⟩ := by simp [St.cs1, h.t1, hst1, cs1]
    have hadv : s.adv.msgs = [] := adv_nonblocking s (by rw [h.t1]; rfl)
    have hni : s.fsm ≠ .init := by rw [h.fsm]; simp
    have hack : s.wrAck0 = false := by simp [St.wrAck0, hm]
    have hT : s.trans0 i = .flushWait := by simp [St.trans0, h.fsm, hst1, hack]
    have hst : s.stall i = false := by simp [St.stall, ho, hcs]
    have hg := go s i hst (by rw [hst1]) hni
    have hcnt : (s.next i).cnt + 1 = lineNo p c := by
      have : s.cntEn0 .flushWait = false := by simp [St.cntEn0, h.fsm]
      rw [hg.cnt, hT, this]; exact h.cnt
    refine ⟨_, (left_flushWait hRI (by rw [hg.t1, hT]) h.lt hcnt).2 (by rw [hg.slot, hadv]; rfl), ?_⟩
    rw [slot_nil (by rw [ht]; rfl), hO]; simp [waits]
  | @fl2c Lx rest L0 q c h hm hty ht hO =>
    have hst1 : s.status1 = ⟨false, false, false, false, false, false⟩ := by simp [St.status1, h.t1]
    have hcs : s.cs1 = ⟨.none, false, false, false, false, false⟩ := by simp [St.cs1, h.t1, hst1, cs1]
    have hni : s.fsm ≠ .init := by rw [h.fsm]; simp
    have hack : s.wrAck0 = true := by simp [St.wrAck0, hm, hty]
    have hT : s.trans0 i = .flushWrite := by simp [St.trans0, h.fsm, hst1, hack]
    have hst : s.stall i = false := by simp [St.stall, ho, hcs]
    have hg := go s i hst (by rw [hst1]) hni
    have hcnt : (s.next i).cnt + 1 = lineNo p c := by
      have : s.cntEn0 .flushWrite = false := by simp [St.cntEn0, h.fsm]
      rw [hg.cnt, hT, this]; exact h.cnt
    refine ⟨_, left_flushWrite hRI (by rw [hg.t1, hT]) h.lt hcnt, ?_⟩
    rw [slot_nil (by rw [ht]; rfl), hO]; simp [waits]
  | @fl3 Lx rest L0 q c h =>
    have hst1 : s.status1 = ⟨false, false, false, false, false, false⟩ := by simp [St.status1, h.t1]
    have hcs : s.cs1 = ⟨.none, false, false, false, false, false⟩ := by simp [St.cs1, h.t1, hst1, cs1]
    have hni : s.fsm ≠ .init := by rw [h.fsm]; split <;> simp
    have hfs : s.flushSent1 = false := by simp [St.flushSent1, h.t1]
    have hfd : s.prevFlushDone = true := by simp [St.prevFlushDone, h.t1]
    have hemp : s.mshrEmpty = false := by simp [St.mshrEmpty, mshrEmpty, h.num]
    have hst : s.stall i = false := by simp [St.stall, ho, hcs]
    have hg := go s i hst (by rw [hst1]) hni
    rw [h.quiet.slot, h.quiet.out]
    cases c with
    | zero =>
      have hf : s.fsm = .replay := by rw [h.fsm]; rfl
      have hT : s.trans0 i = .replayFlush := by simp [St.trans0, hf, hst1, hemp, h.mshr.ty, h.qty, hfd]
      exact ⟨0, .done (.inr (by rw [hg.t1, hT])), by simp [waits]⟩
    | succ c =>
      have hf : s.fsm = .flush := by rw [h.fsm]; simp
      have hT : s.trans0 i = .flushRead := by simp [St.trans0, hf, hst1, hfs]
      have hcnt : (s.next i).cnt + 1 = lineNo p c := by
        have : s.cntEn0 .flushRead = true := by simp [St.cntEn0, hf]
        rw [hg.cnt, hT, this]; simp only [counterNext, if_true, cnt_of_succ h.cnt]
        rw [BitVec.sub_add_cancel]
      have hlt := h.lt
      exact ⟨_, left_flushRead hRI (by rw [hg.t1, hT]) (by omega) hcnt, by simp [waits]⟩
  | done h => rcases h with h | h <;> simp [h] at ha

/-- Before its replay, an invalidation or flush keeps the request port closed. -/
theorem left_busy {a : Nat} (h : Left s O a) (ha : s.t1 ≠ .replayInv ∧ s.t1 ≠ .replayFlush) (i : In p) : s.reqRdy i = false := by
  cases hx : s.reqRdy i
  · rfl
  · exfalso
    obtain ⟨_, _, _, h4, h5⟩ := ready_imp hx
    have kn : s.mshrNum = 1 → False := fun h => by rw [h] at h4; cases h4
    cases h with
    | inv0 h => simp [St.cs1, h.t1, cs1, St.status1] at h5
    | inv1 h => exact kn h.num
    | inv2 h => exact kn h.num
    | fl0 h => simp [St.cs1, h.t1, cs1, St.status1] at h5
    | fl1 h => exact kn h.num
    | fl2a h => exact kn h.num
    | fl2b h => exact kn h.num
    | fl2c h => exact kn h.num
    | fl3 h => exact kn h.num
    | done h => rcases h with h | h <;> simp [h] at ha

/-- An invalidation sends nothing to memory. -/
theorem inv_quiet {i : In p} {a : Nat} (h : Left s O a) (hi : s.t1 = .invStart ∨ s.t1 = .invWrite)
    (ho : (s.cs2 i).ostall = false) :
    O = [] ∧ memTypes s.slot.msgs = [] ∧ ((s.next i).t1 = .invWrite ∨ (s.next i).t1 = .replayInv) := by
  have kill : ∀ {t} {P : Prop}, s.t1 = t → t ≠ .invStart → t ≠ .invWrite → P := by
    intro t P h1 h2 h3; rw [h1] at hi; rcases hi with h | h
    · exact absurd h h2
    · exact absurd h h3
  cases h with
  | inv0 h =>
    have hst1 : s.status1 = ⟨false, false, false, false, false, false⟩ := by simp [St.status1, h.t1]
    have hcs : s.cs1 = ⟨.none, false, false, false, false, true⟩ := by simp [St.cs1, h.t1, hst1, cs1]
    have hT : s.trans0 i = .invWrite := by simp [St.trans0, h.fsm, hst1]
    have hst : s.stall i = false := by simp [St.stall, ho, hcs]
    have hg := go s i hst (by rw [hst1]) (by rw [h.fsm]; simp)
    exact ⟨h.quiet.out, h.quiet.slot, .inl (by rw [hg.t1, hT])⟩
  | inv1 h =>
    obtain ⟨hst1, hcs, hadv⟩ := invWrite_facts s h.t1
    have hT : s.trans0 i = .invWrite := by simp [St.trans0, h.fsm, hst1]
    have hst : s.stall i = false := by simp [St.stall, ho, hcs]
    have hg := go s i hst (by rw [hst1]) (by rw [h.fsm]; simp)
    exact ⟨h.quiet.out, h.quiet.slot, .inl (by rw [hg.t1, hT])⟩
  | inv2 h =>
    obtain ⟨hst1, hcs, hadv⟩ := invWrite_facts s h.t1
    have hemp : s.mshrEmpty = false := by simp [St.mshrEmpty, mshrEmpty, h.num]
    have hT : s.trans0 i = .replayInv := by simp [St.trans0, h.fsm, hst1, hemp, h.mshr.ty, h.qty]
    have hst : s.stall i = false := by simp [St.stall, ho, hcs]
    have hg := go s i hst (by rw [hst1]) (by rw [h.fsm]; simp)
    exact ⟨h.quiet.out, h.quiet.slot, .inr (by rw [hg.t1, hT])⟩
  | fl0 h => exact kill h.t1 (by simp) (by simp)
  | fl1 h => exact kill h.t1 (by simp) (by simp)
  | fl2a h => exact kill h.t1 (by simp) (by simp)
  | fl2b h => exact kill h.t1 (by simp) (by simp)
  | fl2c h => exact kill h.t1 (by simp) (by simp)
  | fl3 h => exact kill h.t1 (by simp) (by simp)
  | done h => rcases h with h | h <;> exact kill h (by simp) (by simp)

/-- Before its replay, the invalidation still needs an edge. -/
theorem inv_left {a : Nat} (h : Left s O a) (hi : s.t1 = .invStart ∨ s.t1 = .invWrite) : 0 < a := by
  have kill : ∀ {t} {P : Prop}, s.t1 = t → t ≠ .invStart → t ≠ .invWrite → P := by
    intro t P h1 h2 h3; rw [h1] at hi; rcases hi with h | h
    · exact absurd h h2
    · exact absurd h h3
  cases h with
  | inv0 h => exact Nat.succ_pos _
  | inv1 h => omega
  | inv2 h => omega
  | fl0 h => exact Nat.succ_pos _
  | fl1 h => omega
  | fl2a h => exact kill h.t1 (by simp) (by simp)
  | fl2b h => omega
  | fl2c h => omega
  | fl3 h => omega
  | done h => rcases h with h | h <;> exact kill h (by simp) (by simp)

/-- Acceptance of an invalidation or a flush. -/
theorem accept_maint {i : In p} (hl : Legal s O i) (h : RI s L E O) (hre : i.reqEn = true) :
    (i.req.ty = MT.INV → (s.next i).t1 = .invStart) ∧ (i.req.ty = MT.FLUSH → (s.next i).t1 = .flushStart) := by
  obtain ⟨hr, hni⟩ := hl.req hre
  obtain ⟨hf, hcl, hst, hn, hal⟩ := ready_imp hr
  cases h with
  | init h hL hE hO => exact absurd h.fsm hf
  | run L' he h =>
    have hfacts : ReadyFacts s := by obtain ⟨hok, rest, _, hph⟩ := h; exact hph.readyFacts hr
    have hgo := go s i hst hfacts.evict (by rw [hfacts.fsm]; simp)
    have ht := trans0_ready s i hfacts.fsm hn hfacts.mem hcl
    rw [hgo.t1, ht]
    exact ⟨fun h => by simp [hre, h], fun h => by simp [hre, h]⟩

end

end Verif
