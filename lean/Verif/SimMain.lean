import Verif.SimFlush

/-!
# Simulation of the RTL by the event-level machine: main theorem
-/

namespace Verif
variable {p : Params} {U : Prop}

/-! ## Way numbers stay in range -/

theorem replPolicy_mem (en h : Bool) (a b : Way) (hb : b ∈ p.ways) : replPolicy p en h a b ∈ p.ways := by
  rw [mem_ways]
  simp only [replPolicy]
  cases h2 : p.twoWay
  · simp
  · simp

theorem setRep_ok {L : L1 p} (h : ∀ j, L.rep j ∈ p.ways) (j : Idx p) (v : Way) (hv : v ∈ p.ways) :
    ∀ j', setRep L.rep j v j' ∈ p.ways := by
  intro j'; simp only [setRep]; split
  · exact hv
  · exact h j'

theorem L1.lookup_way_mem (L : L1 p) (a : Addr p) : (L.lookup a).way ∈ p.ways :=
  comparing_way_mem _ _ _ _

/-- Entries may only disappear, and the pending operation stays. -/
theorem L1.Ok.shrink {L L' : L1 p} (h : L.Ok) (hr : ∀ j, L'.rep j ∈ p.ways) (hc : L'.cur = L.cur)
    (hs : ∀ w ∈ p.ways, ∀ j, (L'.ent w j).Present → (L.ent w j).Present ∧ (L'.ent w j).tag = (L.ent w j).tag) :
    L'.Ok := by
  refine ⟨hr, by rw [hc]; exact h.cur, h.uniq.shrink hs, ?_⟩
  rw [hc]
  have := h.pend
  split
  · rename_i q w d hq
    rw [hq] at this
    intro w' hw' hne hp
    obtain ⟨h1, h2⟩ := hs w' hw' _ hp
    rw [h2]; exact this w' hw' hne h1
  · trivial

theorem L1.Ok.accept {L : L1 p} (h : L.Ok) (q : CReq p) : (L.accept q).1.Ok := by
  have hr : ∀ en hh a, ∀ j', setRep L.rep q.addr.idx (replPolicy p en hh a (L.rep q.addr.idx)) j' ∈ p.ways :=
    fun en hh a => setRep_ok h.rep _ _ (replPolicy_mem _ _ _ _ (h.rep _))
  have hw := L.lookup_way_mem q.addr
  have hlc := lookup_cases (L := L) (a := q.addr) (fun w hw w' hw' => h.uniq w hw w' hw' _)
  simp only [L1.accept]
  split
  · rename_i hq
    cases hlc with
    | miss hh hi hn =>
      rw [rw_miss hh hi]
      exact ⟨hr _ _ _, ⟨h.rep _, hq⟩, h.uniq, fun w' hw' _ hp => hn w' hw' hp⟩
    | inval hh hi hv hd ht =>
      rw [rw_inval hh hi]
      refine ⟨hr _ _ _, ⟨hw, hq⟩, h.uniq, fun w' hw' hne hp ht' => hne ?_⟩
      exact h.uniq w' hw' _ hw _ hp (.inr hd) (by rw [ht, ht'])
    | hit hh hi hv ht =>
      rw [rw_hit hh]
      refine h.shrink (hr _ _ _) rfl ?_
      intro w hw j hp
      simp only at hp ⊢
      split at hp
      · rename_i hc
        rw [if_pos hc]
        simp only [Verif.setAt] at hp ⊢
        split at hp
        · rename_i he
          rw [if_pos he, he.1, he.2]
          exact ⟨.inl hv, ht.symm⟩
        · rename_i he
          rw [if_neg he]; exact ⟨hp, rfl⟩
      · rename_i hc
        rw [if_neg hc]; exact ⟨hp, rfl⟩
  split
  · rename_i hq
    refine ⟨?_, ⟨hw, hq⟩, h.uniq, trivial⟩
    simp only [L1.amo]
    split
    · exact hr _ _ _
    · exact h.rep
  split
  · refine h.shrink h.rep rfl ?_
    intro w hw j hp
    rcases hp with hp | hp
    · cases hp
    · exact ⟨.inr hp, rfl⟩
  split
  · refine h.shrink h.rep rfl ?_
    intro w hw j hp
    rcases hp with hp | hp
    · exact ⟨.inl hp, rfl⟩
    · exact absurd rfl hp
  · exact h

theorem L1.Ok.answer {L : L1 p} (h : L.Ok) (l : Line p) : (L.answer l).1.Ok := by
  have hp := h.pend
  simp only [L1.answer]
  split
  · exact h
  · rename_i q w d hc
    rw [hc] at hp
    split <;> refine ⟨h.rep, trivial, h.uniq.setAt _ _ _ ?_, trivial⟩ <;>
      exact fun w' hw' hne h1 _ => hp w' hw' hne h1
  · refine ⟨h.rep, trivial, ?_, trivial⟩
    split
    · refine h.uniq.setAt _ _ _ (fun w' _ _ _ h2 => ?_)
      rcases h2 with h2 | h2
      · cases h2
      · exact absurd rfl h2
    · exact h.uniq

theorem L1.Ok.cycle {L : L1 p} (h : L.Ok) (i : In p) : (L.cycle i).1.Ok := by
  simp only [L1.cycle]
  split
  · exact h.accept _
  split
  · exact h.answer _
  · exact h

theorem L1.Wk.accept {L : L1 p} (h : L.Wk) (q : CReq p) : (L.accept q).1.Wk := by
  have hr : ∀ en hh a, ∀ j', setRep L.rep q.addr.idx (replPolicy p en hh a (L.rep q.addr.idx)) j' ∈ p.ways :=
    fun en hh a => setRep_ok h.rep _ _ (replPolicy_mem _ _ _ _ (h.rep _))
  have hw := L.lookup_way_mem q.addr
  simp only [L1.accept]
  split
  · rename_i hq
    cases hh : (L.lookup q.addr).hit
    · cases hi : (L.lookup q.addr).inval
      · rw [rw_miss hh hi]; exact ⟨hr _ _ _, ⟨h.rep _, hq⟩⟩
      · rw [rw_inval hh hi]; exact ⟨hr _ _ _, ⟨hw, hq⟩⟩
    · rw [rw_hit hh]; exact ⟨hr _ _ _, h.cur⟩
  split
  · rename_i hq
    refine ⟨?_, ⟨hw, hq⟩⟩
    simp only [L1.amo]
    split
    · exact hr _ _ _
    · exact h.rep
  split
  · exact ⟨h.rep, h.cur⟩
  split
  · exact ⟨h.rep, h.cur⟩
  · exact h

theorem L1.Wk.answer {L : L1 p} (h : L.Wk) (l : Line p) : (L.answer l).1.Wk := by
  simp only [L1.answer]
  split
  · exact h
  · split <;> exact ⟨h.rep, trivial⟩
  · exact ⟨h.rep, trivial⟩

theorem L1.Wk.initOp {L : L1 p} (h : L.Wk) (q : CReq p) (w : Way) (d : Dty p) :
    (L.initOp q w d).1.Wk :=
  ⟨setRep_ok h.rep _ _ (replPolicy_mem _ _ _ _ (h.rep _)), h.cur⟩

theorem L1.Wk.cyc {L : L1 p} (h : L.Wk) (s : St p) (i : In p) : (s.cyc L i).1.Wk := by
  simp only [St.cyc, L1.cycle]
  split
  · exact h.initOp _ _ _
  split
  · exact h.accept _
  split
  · exact h.answer _
  · exact h

theorem L1.OkU.cyc {L : L1 p} (h : L.OkU U) {s : St p} {O : List MType} {i : In p}
    (hl : LegalU U s O i) : (s.cyc L i).1.OkU U := by
  refine ⟨h.wk.cyc s i, fun hU => ?_⟩
  have : s.cyc L i = L.cycle i := by
    simp only [St.cyc]; rw [if_neg]; rintro ⟨h1, h2⟩; exact (hl.req h1).2 hU h2
  rw [this]; exact (h.full hU).cycle i

/-! ## One cycle -/

theorem PhU.step (wf : p.WF) {s : St p} {i : In p} {L : L1 p} {rest : List (Msg p)} {O : List MType}
    (hok : L.OkU U) (hl : LegalU U s O i) (h : PhU U s L rest O) : StepOk U s i L rest O := by
  cases h with
  | flow h => exact step_flow s i L rest O hl hok h
  | req L0 q h => exact step_req s i L rest O L0 q hl hok h
  | pass2 q h => exact step_pass2 s i L rest O q hl hok.wk h
  | wait h => exact step_wait s i L rest O hl hok h
  | ans L0 h => exact step_ans s i L rest O L0 hl h
  | refill L0 q w d h => exact step_refill wf s i L rest O L0 q w d hl h
  | inv0 q h => exact step_inv0 wf s i L rest O q hl h
  | inv1 q h => exact step_inv1 s i L rest O q hl h
  | inv2 q h => exact step_inv2 s i L rest O q hl h
  | fl0 L0 q h => exact step_fl0 s i L rest O L0 q hl h
  | fl1 L0 q c h => exact step_fl1 s i L rest O L0 q c hl h
  | fl2 L0 q c h => exact step_fl2 s i L rest O L0 q c hl h
  | fl3 L0 q c h => exact step_fl3 s i L rest O L0 q c hl h
  | ini hU h => exact step_ini s i L rest O hU hl hok h

theorem PhU.ne_cacheInit {s : St p} {i : In p} {L : L1 p} {rest : List (Msg p)} {O : List MType}
    (h : PhU U s L rest O) (ho : (s.cs2 i).ostall = true) : s.t1 ≠ .cacheInit := by
  cases h with
  | flow h =>
    intro hc
    rw [ostall_nonblocking s i (h.ci hc)] at ho; cases ho
  | req L0 q h => rw [h.t1]; exact reqTrans_ne_ci
  | pass2 q h => rw [h.t1]; exact reqTrans_ne_ci
  | wait h => rw [h.t1]; simp
  | ans L0 h => rw [h.t1]; simp
  | refill L0 q w d h => rw [h.t1]; simp
  | inv0 q h => rw [h.t1]; simp
  | inv1 q h => rw [h.t1]; simp
  | inv2 q h => rw [h.t1]; simp
  | fl0 L0 q h => rw [h.t1]; simp
  | fl1 L0 q c h => rw [h.t1]; simp
  | fl2 L0 q c h => rw [h.t1]; simp
  | fl3 L0 q c h => rw [h.t1]; simp
  | ini _ h => rw [h.t1]; simp

/-- **Simulation.**  In every legal cycle the RTL emits the next of the messages
that the event-level machine prescribes. -/
theorem sim (wf : p.WF) {s : St p} {i : In p} {L : L1 p} {E : List (Msg p)} {O : List MType}
    (hl : LegalU U s O i) (h : RU U s L E O) :
    ∃ E', E ++ (s.cyc L i).2 = (s.out i).msgs ++ E' ∧
      RU U (s.next i) (s.cyc L i).1 E' (outTail O i ++ memTypes (s.out i).msgs) := by
  obtain ⟨hok, rest, hE, hph⟩ := h
  have hs := hph.step wf hok hl
  cases ho : (s.cs2 i).ostall
  · obtain ⟨rest', h1, h2⟩ := hs.adv ho
    refine ⟨(s.next i).slot.msgs ++ rest', ?_, hok.cyc hl, rest', rfl, ?_⟩
    · rw [out_msgs_adv s i ho, next_slot_adv s i ho, hE, List.append_assoc, h1]
    · rw [out_msgs_adv s i ho]; exact h2
  · obtain ⟨h1, h2⟩ := hs.stall ho
    have hci := hph.ne_cacheInit ho
    refine ⟨E, ?_, hok.cyc hl, rest, ?_, ?_⟩
    · rw [out_msgs_stall s i ho, h1]; simp
    · rw [next_slot_stall s i ho hci, hE]
    · rw [out_msgs_stall s i ho, h1]; simpa using h2

/-! ## Reset and initialisation -/

theorem reset_PInit (s : St p) (i : In p) (hr : i.reset = true) : PInit (s.step i) := by
  have hs : s.step i = (s.next i).rst := by simp [St.step, hr]
  rw [hs]
  refine ⟨rfl, rfl, rfl, .inl ⟨rfl, rfl⟩, rfl, rfl, rfl, rfl, ?_, ?_⟩
  · intro c hc
    have h1 : ((s.next i).rst).cnt = cntMax p := rfl
    rw [h1, cntMax_toNat] at hc
    have := c.isLt; omega
  · intro c hc
    have h1 : ((s.next i).rst).cnt = cntMax p := rfl
    rw [h1, cntMax_toNat] at hc
    have := c.isLt; omega

/-- Proof device; not in the source. -/
structure InitStep (U : Prop) (s : St p) (i : In p) : Prop where
  silent : (s.out i).msgs = []
  notReady : s.reqRdy i = false
  next : PInit (s.next i) ∧ s.cnt ≠ 0 ∧ (s.next i).cnt = s.cnt - 1 ∨
    s.cnt = 0 ∧ ∃ L, L1.Clean L ∧ RU U (s.next i) L [] []

theorem step_init (s : St p) (i : In p) (hme : i.mrespEn = false) (h : PInit s) : InitStep U s i := by
  have hst1 : s.status1 = ⟨false, false, false, false, false, false⟩ := by
    rcases h.t1 with ⟨h1, _⟩ | ⟨h1, _⟩ <;> simp [St.status1, h1]
  have hcs : s.cs1.ostall = false ∧ s.cs1.alloc = false := by
    rcases h.t1 with ⟨h1, _⟩ | ⟨h1, _⟩ <;> simp [St.cs1, h1, cs1]
  have ho := ostall_nonblocking s i h.t2
  have hst : s.stall i = false := by simp [St.stall, ho, hcs]
  have hT : s.trans0 i = .cacheInit := by simp [St.trans0, h.fsm]
  have hb1 : blocking s.t1 = false := by
    rcases h.t1 with ⟨h1, _⟩ | ⟨h1, _⟩ <;> rw [h1] <;> rfl
  have hcen : (((!(s.cs2 i).ostall && (s.t1 != Trans.cacheInit)) || (s.t1 == Trans.cacheInit))) = true := by
    cases h : (s.t1 == Trans.cacheInit) <;> simp [ho, bne, h]
  -- registers
  have g1 : (s.next i).t1 = .cacheInit := by simp [St.next, hT]
  have g2 : (s.next i).t2 = s.t1 := by simp only [St.next]; rw [hcen]; simp
  have g3 : (s.next i).updWay1 = cntWay p s.cnt := by simp [St.next, hT, St.updWay0, St.updIdx0]
  have g4 : (s.next i).flushIdx1 = cntIdx p s.cnt := by simp [St.next, hT, St.updIdx0]
  have g5 : (s.next i).req1 = s.req1 := by simp [St.next, hT]
  have g6 : (s.next i).dtyMask1 = s.dtyMask1 := by simp [St.next, hT]
  have g7 : (s.next i).rep = s.rep := by
    simp only [St.next, hst1, Bool.false_and, replBitsNext_false]
  have g8 : (s.next i).cnt = s.cnt - 1 := by
    simp [St.next, hst, hT, St.cntEn0, h.fsm, counterNext]
  have g9 : (s.next i).mshrNum = 0 := by
    simp [St.next, hT, cs0, St.allocEn, hcs, mshrNumNext, h.num]
  have g10 : (s.next i).mrespEn0 = false := by simp [St.next, hst, hme]
  have g11 : (s.next i).fsm = if s.cnt = 0 then .ready else .init := by
    simp [St.next, hst, St.fsmNext, h.fsm]
  have htag : ∀ c : BitVec p.cntBits, s.cnt.toNat < c.toNat ∨ c = s.cnt →
      ((s.next i).tagRam (cntWay p c) (cntIdx p c)).val = false ∧
      ((s.next i).tagRam (cntWay p c) (cntIdx p c)).dty = 0 := by
    intro c hc
    have hwm := cntWay_mem c
    simp only [St.next, hT, St.tagVal0, St.updIdx0, St.tagIdx0, St.tagWdata0, cs0, updateTag, hwm,
      decide_true, Bool.true_and, Bool.and_true, if_true, tagMerge]
    split
    · exact ⟨rfl, rfl⟩
    · rename_i hne
      rcases hc with hc | hc
      · exact h.tags c hc
      · subst hc; simp at hne
  have hcs' : (s.next i).cs1 = ⟨.dirty, true, true, false, true, false⟩ := by
    simp [St.cs1, g1, cs1]
  have hix : (s.next i).addr1.idx = cntIdx p s.cnt := by
    simp [St.addr1, hcs', St.flushIdxMux, g1, g4]
  have hwo : (s.next i).wayOff = cntWay p s.cnt := by simp [St.wayOff, g1, g3]
  have hdat : ∀ c : BitVec p.cntBits, s.cnt.toNat < c.toNat ∨ c = s.cnt →
      (s.next i).dataNext.ram (indexer p (cntIdx p c) (cntWay p c)) = 0 := by
    intro c hc
    have e : (s.next i).dataNext.ram = (s.dataNext.step true true
        (indexer p (cntIdx p s.cnt) (cntWay p s.cnt)) 0 (~~~ 0)).ram := by
      rw [← next_data s i]
      simp only [St.dataNext, hcs', hix, hwo, writeBitEn, g5, g6, h.reqD, h.dty, expand_zero]
    rw [e, sram_write_ram]
    simp only [indexer_inj (cntWay_mem c) (cntWay_mem s.cnt)]
    split
    · exact merge_ones _ _
    · rename_i hne
      rcases hc with hc | hc
      · exact h.dat c hc
      · subst hc; simp at hne
  refine ⟨?_, ?_, ?_⟩
  · rw [out_msgs_adv s i ho]; exact slot_nil h.t2
  · simp [St.reqRdy, h.fsm]
  · by_cases hz : s.cnt = 0
    · right
      refine ⟨hz, ⟨(s.next i).tagRam, fun _ _ => 0, fun _ => false, .idle⟩, ⟨?_, ?_, ?_, rfl, rfl⟩,
        L1.Ok.okU ⟨?_, trivial, ?_, trivial⟩, [], ?_, .flow ⟨?_, ?_, g9, ⟨g10, rfl, ?_⟩, by rw [g1]; rfl, ?_, rfl,
        ⟨fun _ _ _ => rfl, ?_, by rw [g7, h.rep]⟩, ?_, rfl⟩⟩
      · intro w hw j
        have := (htag (numOf p w j) (by rw [hz]; by_cases h0 : numOf p w j = 0
                                        · exact .inr h0
                                        · left
                                          have : (numOf p w j).toNat ≠ 0 := fun h1 =>
                                            h0 (BitVec.eq_of_toNat_eq (by simpa using h1))
                                          simp; omega)).1
        rwa [cntWay_numOf w j hw, cntIdx_numOf w j hw] at this
      · intro w hw j
        have := (htag (numOf p w j) (by rw [hz]; by_cases h0 : numOf p w j = 0
                                        · exact .inr h0
                                        · left
                                          have : (numOf p w j).toNat ≠ 0 := fun h1 =>
                                            h0 (BitVec.eq_of_toNat_eq (by simpa using h1))
                                          simp; omega)).2
        rwa [cntWay_numOf w j hw, cntIdx_numOf w j hw] at this
      · intro _ _ _; rfl
      · intro _; exact mem_ways_false
      · intro w hw w' hw' j hp
        exfalso
        have := htag (numOf p w j) (by
          rw [hz]; by_cases h0 : numOf p w j = 0
          · exact .inr h0
          · left
            have : (numOf p w j).toNat ≠ 0 := fun h1 =>
              h0 (BitVec.eq_of_toNat_eq (by simpa using h1))
            simp; omega)
        rw [cntWay_numOf w j hw, cntIdx_numOf w j hw] at this
        rcases hp with hp | hp
        · rw [this.1] at hp; cases hp
        · exact hp this.2
      · rw [slot_nil (by rw [g2]; exact hb1)]; rfl
      · rw [g8, hz]; exact zero_sub_one
      · rw [g11, if_pos hz]
      · rw [slot_nil (by rw [g2]; exact hb1)]; rfl
      · intro _; rw [g2]; exact hb1
      · intro w hw j
        have := hdat (numOf p w j) (by rw [hz]; by_cases h0 : numOf p w j = 0
                                       · exact .inr h0
                                       · left
                                         have : (numOf p w j).toNat ≠ 0 := fun h1 =>
                                           h0 (BitVec.eq_of_toNat_eq (by simpa using h1))
                                         simp; omega)
        rwa [cntWay_numOf w j hw, cntIdx_numOf w j hw] at this
      · rw [adv_nonblocking]; rw [g1]; rfl
    · left
      have hlt := sub_one_toNat _ hz
      refine ⟨⟨?_, g9, g10, .inr ⟨g1, ?_, ?_⟩, by rw [g2]; exact hb1, by rw [g5, h.reqD],
        by rw [g6, h.dty], by rw [g7, h.rep], ?_, ?_⟩, hz, g8⟩
      · rw [g11, if_neg hz]
      · rw [g3, g8, BitVec.sub_add_cancel]
      · rw [g4, g8, BitVec.sub_add_cancel]
      · intro c hc
        rw [g8, hlt] at hc
        apply htag
        by_cases hcc : c = s.cnt
        · exact .inr hcc
        · left
          have : c.toNat ≠ s.cnt.toNat := fun h1 => hcc (BitVec.eq_of_toNat_eq h1)
          omega
      · intro c hc
        rw [g8, hlt] at hc
        apply hdat
        by_cases hcc : c = s.cnt
        · exact .inr hcc
        · left
          have : c.toNat ≠ s.cnt.toNat := fun h1 => hcc (BitVec.eq_of_toNat_eq h1)
          omega

end Verif
