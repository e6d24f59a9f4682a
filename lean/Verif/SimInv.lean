import Verif.SimAns

/-!
# Simulation of the RTL by the event-level machine: invalidation
-/

namespace Verif
variable {p : Params} {U : Prop}

theorem inv_tagRam (s : St p) (i : In p) (hT : s.trans0 i = .invWrite ∨ s.trans0 i = .replayInv)
    {w : Way} (hw : w ∈ p.ways) (j : Idx p) :
    (s.next i).tagRam w j = if w = cntWay p s.cnt ∧ j = cntIdx p s.cnt then
      { s.tagRam w j with val := false } else s.tagRam w j := by
  rcases hT with hT | hT <;>
  · simp only [St.next, hT, St.tagVal0, St.updIdx0, St.tagIdx0, St.tagWdata0, cs0, updateTag, hw,
      decide_true, Bool.true_and, Bool.and_true, if_true, tagMerge]
    by_cases h1 : w = cntWay p s.cnt <;> by_cases h2 : j = cntIdx p s.cnt <;> simp [h1, h2]

theorem inv_entry_eq {s s' : St p} {L : L1 p}
    (h : ∀ w ∈ p.ways, ∀ j, L.ent w j = { s.tagRam w j with val := false })
    (hn : ∀ w ∈ p.ways, ∀ j, s'.tagRam w j = s.tagRam w j ∨
      s'.tagRam w j = { s.tagRam w j with val := false }) :
    ∀ w ∈ p.ways, ∀ j, L.ent w j = { s'.tagRam w j with val := false } := by
  intro w hw j
  rw [h w hw j]
  rcases hn w hw j with e | e <;> rw [e]

theorem inv_tags_next (s : St p) (i : In p) (L : L1 p)
    (hT : s.trans0 i = .invWrite ∨ s.trans0 i = .replayInv)
    (h : ∀ w ∈ p.ways, ∀ j, L.ent w j = { s.tagRam w j with val := false }) :
    ∀ w ∈ p.ways, ∀ j, L.ent w j = { (s.next i).tagRam w j with val := false } := by
  apply inv_entry_eq h
  intro w hw j
  rw [inv_tagRam s i hT hw j]
  split <;> simp

theorem inv_uniq_next (s : St p) (i : In p)
    (hT : s.trans0 i = .invWrite ∨ s.trans0 i = .replayInv) (h : UniqF s.tagRam) :
    UniqF (s.next i).tagRam := by
  refine h.shrink fun w hw j hp => ?_
  rw [inv_tagRam s i hT hw j] at hp ⊢
  split at hp
  · rename_i hc
    rw [if_pos hc]
    rcases hp with hp | hp
    · cases hp
    · exact ⟨.inr hp, rfl⟩
  · rename_i hc
    rw [if_neg hc]; exact ⟨hp, rfl⟩

theorem inv_done_next (s : St p) (i : In p)
    (hT : s.trans0 i = .invWrite ∨ s.trans0 i = .replayInv) (c : BitVec p.cntBits)
    (h : c = s.cnt ∨ (s.tagRam (cntWay p c) (cntIdx p c)).val = false) :
    ((s.next i).tagRam (cntWay p c) (cntIdx p c)).val = false := by
  rw [inv_tagRam s i hT (cntWay_mem c)]
  split
  · rfl
  · rename_i hne
    rcases h with h | h
    · subst h; exact absurd ⟨rfl, rfl⟩ hne
    · exact h

theorem cntMax_toNat : (cntMax p).toNat = 2 ^ p.cntBits - 1 := by
  have := Nat.two_pow_pos p.cntBits
  simp only [cntMax, BitVec.toNat_ofNat]
  exact Nat.mod_eq_of_lt (by omega)

theorem cntMax_ne_zero (wf : p.WF) : cntMax p ≠ 0 := by
  intro h
  have h := congrArg BitVec.toNat h
  rw [cntMax_toNat] at h
  have h1 := cntBits_pos wf
  have : 2 ^ 1 ≤ 2 ^ p.cntBits := Nat.pow_le_pow_right (by decide) h1
  simp at h; omega

theorem sub_one_toNat {n : Nat} (c : BitVec n) (h : c ≠ 0) : (c - 1).toNat = c.toNat - 1 := by
  have hp : 0 < c.toNat := by
    rcases Nat.eq_zero_or_pos c.toNat with h0 | h0
    · exact absurd (BitVec.eq_of_toNat_eq (by simpa using h0)) h
    · exact h0
  have hlt := c.isLt
  have h2 : 1 < 2 ^ n := by omega
  have e : (1 : BitVec n).toNat = 1 := by
    show (BitVec.ofNat n 1).toNat = 1
    rw [BitVec.toNat_ofNat, Nat.mod_eq_of_lt h2]
  rw [BitVec.toNat_sub, e]
  have : 2 ^ n - 1 + c.toNat = (c.toNat - 1) + 2 ^ n := by omega
  rw [this, Nat.add_mod_right, Nat.mod_eq_of_lt (by omega)]

theorem zero_sub_one : (0 : BitVec p.cntBits) - 1 = cntMax p := by
  apply BitVec.eq_of_toNat_eq
  rw [cntMax_toNat]
  rcases Nat.eq_zero_or_pos p.cntBits with h | h
  · have := ((0 : BitVec p.cntBits) - 1).isLt
    simp only [h, Nat.pow_zero] at this ⊢
    omega
  · have h1 : 1 < 2 ^ p.cntBits := Nat.one_lt_two_pow (by omega)
    have e : (1 : BitVec p.cntBits).toNat = 1 := by
      show (BitVec.ofNat _ 1).toNat = 1
      rw [BitVec.toNat_ofNat, Nat.mod_eq_of_lt h1]
    rw [BitVec.toNat_sub, e]
    simp

theorem step_inv0 (wf : p.WF) (s : St p) (i : In p) (L : L1 p) (rest : List (Msg p))
    (O : List MType) (q : CReq p) (hl : LegalU U s O i) (h : PInv0 U s L rest O q) :
    StepOk U s i L rest O := by
  have hO := h.quiet.out
  subst hO
  have hme := no_mresp hl
  have hst1 : s.status1 = ⟨false, false, false, false, false, false⟩ := by simp [St.status1, h.t1]
  have hcs : s.cs1 = ⟨.none, false, false, false, false, true⟩ := by
    simp [St.cs1, h.t1, hst1, cs1]
  have hre : i.reqEn = false := no_req hl (by simp [hcs])
  have hT : s.trans0 i = .invWrite := by simp [St.trans0, h.fsm, hst1]
  have hadv : s.adv.msgs = [] := adv_nonblocking s (by rw [h.t1]; rfl)
  have htags := inv_tags_next s i L (.inl hT) h.tags
  refine ⟨fun ho => ?_, fun ho => ?_⟩
  · have hst : s.stall i = true := by simp [St.stall, ho]
    have hci : s.t1 ≠ .cacheInit := by rw [h.t1]; simp
    have he := next_M1Eq s i ho hci (by rw [h.fsm]; simp)
    obtain ⟨g1, g2, g3, g4, g5, g6⟩ := next_hold s i hst
    have hsl := next_slot_stall s i ho hci
    refine ⟨cycle_nothing hre hme, ?_⟩
    rw [outTail_nil]
    exact .inv0 q ⟨⟨⟨by rw [g3, h.quiet.mem], rfl, by rw [hsl, h.quiet.slot]⟩, h.cur, h.qty, htags,
      by rw [he.dataNext_stall]; exact h.dat, by rw [he.rep, h.rep], h.restEq,
      fun hU => inv_uniq_next s i (.inl hT) (h.uq hU)⟩, by rw [g1, h.fsm],
      by rw [g6, h.num], by rw [he.t1, h.t1], by rw [g2, h.cnt], by rw [he.req1, h.req1]⟩
  · have hst : s.stall i = false := by simp [St.stall, ho, hcs]
    have hg := go s i hst (by rw [hst1]) (by rw [h.fsm]; simp)
    rw [cycle_nothing hre hme, hadv, h.quiet.slot, outTail_nil]
    refine ⟨rest, by simp, ?_⟩
    have ht1 : (s.next i).t1 = .invWrite := by rw [hg.t1, hT]
    have hcs' : (s.next i).cs1.wr = false := by simp [St.cs1, ht1, cs1, St.status1]
    have hmx := cntMax_ne_zero wf
    have hfn : s.fsmNext i = .inv := by
      simp only [St.fsmNext, h.fsm, h.cnt]; rw [if_neg hmx]
    have hcnt : (s.next i).cnt = cntMax p - 1 := by
      rw [hg.cnt]
      have : s.cntEn0 (s.trans0 i) = true := by simp [St.cntEn0, h.fsm]
      rw [this]; simp [counterNext, h.cnt]
    refine .inv1 q ⟨⟨⟨by rw [hg.mrespEn0, hme], rfl, by rw [hg.slot, hadv]; rfl⟩, h.cur, h.qty, htags,
      by rw [dataNext_ram_of_not_wr _ hcs', hg.data]; exact h.dat,
      by rw [hg.rep, hst1, replBitsNext_false, h.rep], h.restEq, fun hU => inv_uniq_next s i (.inl hT) (h.uq hU)⟩, by rw [hg.fsm, hfn], ?_, ht1,
      by rw [hg.t2, h.t1]; rfl, ?_, ?_⟩
    · rw [hg.num, hT, hcs, h.num]; rfl
    · rw [hg.mshr, hcs]
      constructor <;> simp [St.mshrIn, h.req1, reqPMsg]
    · intro c hc
      apply inv_done_next s i (.inl hT)
      left
      rw [hcnt, sub_one_toNat _ hmx] at hc
      apply BitVec.eq_of_toNat_eq
      rw [h.cnt, cntMax_toNat] at *
      have := c.isLt
      omega

theorem invWrite_facts (s : St p) (ht : s.t1 = .invWrite) :
    s.status1 = ⟨false, false, false, false, false, false⟩ ∧
    s.cs1 = ⟨.none, false, false, false, false, false⟩ ∧ s.adv.msgs = [] := by
  have hst1 : s.status1 = ⟨false, false, false, false, false, false⟩ := by simp [St.status1, ht]
  exact ⟨hst1, by simp [St.cs1, ht, hst1, cs1], adv_nonblocking s (by rw [ht]; rfl)⟩

theorem slot_nil {s : St p} (h : blocking s.t2 = false) : s.slot.msgs = [] :=
  M2.msgs_nonblocking s.slot h

theorem step_inv1 (s : St p) (i : In p) (L : L1 p) (rest : List (Msg p))
    (O : List MType) (q : CReq p) (hl : LegalU U s O i) (h : PInv1 U s L rest O q) :
    StepOk U s i L rest O := by
  have hO := h.quiet.out
  subst hO
  have hme := no_mresp hl
  obtain ⟨hst1, hcs, hadv⟩ := invWrite_facts s h.t1
  have hre : i.reqEn = false := no_req hl (by simp [h.num])
  have hT : s.trans0 i = .invWrite := by simp [St.trans0, h.fsm, hst1]
  have htags := inv_tags_next s i L (.inl hT) h.tags
  have ho := ostall_nonblocking s i h.t2
  refine ⟨fun ho' => (by rw [ho] at ho'; cases ho'), fun _ => ?_⟩
  have hst : s.stall i = false := by simp [St.stall, ho, hcs]
  have hg := go s i hst (by rw [hst1]) (by rw [h.fsm]; simp)
  rw [cycle_nothing hre hme, hadv, h.quiet.slot, outTail_nil]
  refine ⟨rest, by simp, ?_⟩
  have ht1 : (s.next i).t1 = .invWrite := by rw [hg.t1, hT]
  have hcs' : (s.next i).cs1.wr = false := by simp [St.cs1, ht1, cs1, St.status1]
  have hcnt : (s.next i).cnt = s.cnt - 1 := by
    rw [hg.cnt]
    have : s.cntEn0 (s.trans0 i) = true := by simp [St.cntEn0, h.fsm]
    rw [this]; simp [counterNext]
  have hC : InvC U (s.next i) L rest [] q := ⟨⟨by rw [hg.mrespEn0, hme], rfl, by rw [hg.slot, hadv]; rfl⟩,
    h.cur, h.qty, htags, by rw [dataNext_ram_of_not_wr _ hcs', hg.data]; exact h.dat,
    by rw [hg.rep, hst1, replBitsNext_false, h.rep], h.restEq, fun hU => inv_uniq_next s i (.inl hT) (h.uq hU)⟩
  have hnum : (s.next i).mshrNum = 1 := by rw [hg.num, hT, hcs, h.num]; rfl
  have ht2 : blocking (s.next i).t2 = false := by rw [hg.t2, h.t1]; rfl
  have hmshr : MshrQ (s.next i).mshr q := by rw [hg.mshr, hcs]; exact h.mshr
  by_cases hz : s.cnt = 0
  · have hfn : s.fsmNext i = .replay := by simp [St.fsmNext, h.fsm, hz]
    refine .inv2 q ⟨hC, ?_, by rw [hg.fsm, hfn], hnum, ht1, ht2, hmshr, ?_⟩
    · rw [hcnt, hz]; exact zero_sub_one
    · intro c
      apply inv_done_next s i (.inl hT)
      by_cases hc : c = s.cnt
      · exact .inl hc
      · right; apply h.done
        rw [hz] at hc ⊢
        have : c.toNat ≠ 0 := fun h0 => hc (BitVec.eq_of_toNat_eq (by simpa using h0))
        simp; omega
  · have hfn : s.fsmNext i = .inv := by simp only [St.fsmNext, h.fsm]; rw [if_neg hz]
    refine .inv1 q ⟨hC, by rw [hg.fsm, hfn], hnum, ht1, ht2, hmshr, ?_⟩
    intro c hc
    apply inv_done_next s i (.inl hT)
    rw [hcnt, sub_one_toNat _ hz] at hc
    by_cases hc' : c = s.cnt
    · exact .inl hc'
    · right; apply h.done
      have : c.toNat ≠ s.cnt.toNat := fun h0 => hc' (BitVec.eq_of_toNat_eq h0)
      omega

theorem step_inv2 (s : St p) (i : In p) (L : L1 p) (rest : List (Msg p))
    (O : List MType) (q : CReq p) (hl : LegalU U s O i) (h : PInv2 U s L rest O q) :
    StepOk U s i L rest O := by
  have hO := h.quiet.out
  subst hO
  have hme := no_mresp hl
  obtain ⟨hst1, hcs, hadv⟩ := invWrite_facts s h.t1
  have hre : i.reqEn = false := no_req hl (by simp [h.num])
  have hemp : s.mshrEmpty = false := by simp [St.mshrEmpty, mshrEmpty, h.num]
  have hT : s.trans0 i = .replayInv := by
    simp [St.trans0, h.fsm, hst1, hemp, h.mshr.ty, h.qty]
  have htags := inv_tags_next s i L (.inr hT) h.tags
  have ho := ostall_nonblocking s i h.t2
  refine ⟨fun ho' => (by rw [ho] at ho'; cases ho'), fun _ => ?_⟩
  have hst : s.stall i = false := by simp [St.stall, ho, hcs]
  have hg := go s i hst (by rw [hst1]) (by rw [h.fsm]; simp)
  rw [cycle_nothing hre hme, hadv, h.quiet.slot, outTail_nil]
  refine ⟨rest, by simp, ?_⟩
  have ht1 : (s.next i).t1 = .replayInv := by rw [hg.t1, hT]
  have hcs' : (s.next i).cs1 = ⟨.none, false, false, false, false, false⟩ := by
    simp [St.cs1, ht1, cs1]
  have hst1' : (s.next i).status1 = ⟨false, false, false, false, false, false⟩ := by
    simp [St.status1, ht1]
  have hfn : s.fsmNext i = .ready := by simp [St.fsmNext, h.fsm, h.mshr.ty, h.qty]
  have hreq0 : s.req0 i = s.mshr.toReq := by simp [St.req0, h.fsm]
  have hrest : rest = (s.next i).adv.msgs := by
    rw [h.restEq]
    simp only [M2.msgs, St.adv, hst1', ht1, hg.req1, hT, cs2]
    simp [mkResp, dataSelect, St.pmsg0, hreq0, MshrMsg.toReq, h.mshr.ty, h.mshr.opq, h.mshr.len, cs0]
  refine .flow ⟨?_, by rw [hg.fsm, hfn], ?_, ⟨by rw [hg.mrespEn0, hme], rfl,
    by rw [hg.slot, hadv]; rfl⟩, by rw [ht1]; rfl, by rw [ht1]; simp, h.cur, ⟨?_, ?_, ?_⟩, hrest, ?_⟩
  · have : s.cntEn0 .replayInv = false := by simp [St.cntEn0, h.fsm]
    rw [hg.cnt, hT, this]; simp [counterNext, h.cnt]
  · rw [hg.num, hT, hcs, h.num]; rfl
  · intro w hw j
    rw [htags w hw j]
    have := inv_done_next s i (.inr hT) (numOf p w j) (.inr (h.done _))
    rw [cntWay_numOf w j hw, cntIdx_numOf w j hw] at this
    rw [← this]
  · rw [dataNext_ram_of_not_wr _ (by rw [hcs']), hg.data]; exact h.dat
  · rw [hg.rep, hst1, replBitsNext_false, h.rep]
  · rw [h.restEq]; rfl

end Verif
