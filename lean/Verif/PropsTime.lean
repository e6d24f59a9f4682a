import Verif.Time
import Verif.SpecTime

set_option linter.unusedSectionVars false

/-!
# C71: bounded response time in any environment

The cache alone, with any legal environment: requests of every type (WRITE_INIT included) and
shape, memory answers with any data.
-/

namespace Verif
variable {p : Params} {U : Prop}

/-! ## Acceptance -/

/-- What is known of the registers of a cache that is ready. Proof device; not in the source. -/
structure ReadyRegs (s : St p) : Prop where
  fsm : s.fsm = .ready
  mem : s.mrespEn0 = false
  evict : s.status1.evict = false
  cnt : s.cnt = cntMax p

theorem RIU.readyRegs {s : St p} {i : In p} {L : L1 p} {E : List (Msg p)} {O : List MType}
    (h : RIU U s L E O) (hr : s.reqRdy i = true) : ReadyRegs s := by
  obtain ⟨hf, hc, hst, hn, hal⟩ := ready_imp hr
  cases h with
  | init h hL hE hO => exact absurd h.fsm hf
  | run L' he h =>
    obtain ⟨hok, rest, hE, hph⟩ := h
    cases hph with
    | flow h => exact ⟨h.fsm, h.quiet.mem, by rw [(flow_status s h.t1).1], h.cnt⟩
    | req L0 q h =>
      refine ⟨h.fsm, h.quiet.mem, ?_, h.cnt⟩
      rcases rw_or_amo h.ty with hq | hq
      · rw [h.cs1_rw hq] at hal
        cases hx : s.status1.evict
        · rfl
        · rw [hx] at hal; simp at hal
      · rw [h.cs1_amo hq] at hal
        split at hal <;> simp at hal
    | pass2 q h =>
      obtain ⟨_, _, _, hcs⟩ := pass2_status s q.ty h.t1 h.evict2
      rw [hcs] at hal; simp at hal
    | wait h => rw [h.num] at hn; cases hn
    | ans L0 h => rw [h.num] at hn; cases hn
    | refill L0 q w d h => rw [h.num] at hn; cases hn
    | inv0 q h => simp [St.cs1, h.t1, cs1, St.status1] at hal
    | inv1 q h => rw [h.num] at hn; cases hn
    | inv2 q h => rw [h.num] at hn; cases hn
    | fl0 L0 q h => simp [St.cs1, h.t1, cs1, St.status1] at hal
    | fl1 L0 q c h => rw [h.num] at hn; cases hn
    | fl2 L0 q c h => rw [h.num] at hn; cases hn
    | fl3 L0 q c h => rw [h.num] at hn; cases hn
    | ini _ h => exact ⟨h.fsm, h.quiet.mem, by rw [(ini_status s h.t1).1], h.cnt⟩

/-- The part of the bound that does not depend on memory. Proof device; not in the source. -/
def tEdges (p : Params) (ty : MType) : Nat :=
  if ty = MT.INIT then 2 else if ty = MT.INV then p.nLines + 3
  else if ty = MT.FLUSH then 3 + 5 * p.nLines else 8

/-- The number of memory requests of a request, at most. Proof device; not in the source. -/
def waitsFor (p : Params) (ty : MType) : Nat :=
  if ty = MT.INIT then 0 else if ty = MT.INV then 0
  else if ty = MT.FLUSH then p.nLines else 2

theorem respBound_eq (p : Params) (D : Nat) (ty : MType) :
    respBound p D ty = tEdges p ty + D * waitsFor p ty := by
  simp only [respBound, tEdges, waitsFor]
  split
  · simp
  split
  · simp
  split
  · rw [Nat.add_mul]; omega
  · omega

theorem accept_nu {s : St p} {i : In p} {L : L1 p} {E : List (Msg p)} {O : List MType}
    (h : RIU U s L E O) (hl : LegalU U s O i) (he : i.reqEn = true) (O' : List MType) :
    nu (s.next i) O' ≤ tEdges p i.req.ty := by
  have hr := (hl.req he).1
  have hx := h.readyRegs hr
  obtain ⟨hf, hcl, hst, hn, hal⟩ := ready_imp hr
  have hg := go s i hst hx.evict hf
  have hT := trans0_ready s i hx.fsm hn hx.mem hcl
  have hF := fsmNext_ready s i hx.fsm hn hx.mem
  rw [he] at hT hF
  simp only [if_true] at hT hF
  have hfs : (s.next i).fsm ≠ .init := by
    rw [hg.fsm, hF]; split
    · simp
    · split <;> simp
  have hcnt : (s.next i).cnt = cntMax p := by
    have : s.cntEn0 (s.trans0 i) = false := by
      simp only [St.cntEn0, hx.fsm, hT]
      (repeat' split) <;> rfl
    rw [hg.cnt, this, hx.cnt]; rfl
  have hN := nLines_eq p
  have hpos := Nat.two_pow_pos p.cntBits
  have key : ∀ ty, (s.next i).t1 = reqTrans ty → nu (s.next i) O' ≤ 8 := by
    intro ty h1; rw [nu_req ty hfs h1]; split <;> omega
  have hle := nu_le_mu (s.next i) O'
  rcases mtype_cases i.req.ty with h | h | h | h | h | h
  · have ht1 : (s.next i).t1 = .initReq := by rw [hg.t1, hT, if_pos h]
    have hnum : (s.next i).mshrNum = 0 := by
      rw [hg.num, hal, hn]
      have : s.trans0 i = .initReq := by rw [hT, if_pos h]
      rw [this]; rfl
    have := mu_flow_le (O := O') hfs (by rw [ht1]; rfl) hnum
    simp only [tEdges, h, if_true]; omega
  · refine Nat.le_trans (key i.req.ty ?_) ?_
    · rw [hg.t1, hT, h]; rfl
    · rw [h]; exact Nat.le_refl 8
  · refine Nat.le_trans (key i.req.ty ?_) ?_
    · rw [hg.t1, hT, h]; rfl
    · rw [h]; exact Nat.le_refl 8
  · have hne := isAmo_ne h
    refine Nat.le_trans (key i.req.ty ?_) ?_
    · rw [hg.t1, hT]; simp [reqTrans, hne, h]
    · simp only [tEdges]; rw [if_neg, if_neg, if_neg]
      · omega
      all_goals (intro hc; rw [hc] at h; revert h; decide)
  · have ht1 : (s.next i).t1 = .invStart := by rw [hg.t1, hT, h]; rfl
    have : mu (s.next i) O' = 4 + (2 ^ p.cntBits - 1) := by
      simp only [mu, if_neg hfs, ht1, hcnt, cntMax_toNat]
    have he : tEdges p i.req.ty = p.nLines + 3 := by rw [h]; rfl
    omega
  · have ht1 : (s.next i).t1 = .flushStart := by rw [hg.t1, hT, h]; rfl
    have : mu (s.next i) O' = 3 + 5 * 2 ^ p.cntBits := by
      simp only [mu, if_neg hfs, ht1]
    have he : tEdges p i.req.ty = 3 + 5 * p.nLines := by rw [h]; rfl
    omega

theorem flush_waits (L : L1 p) (n : Nat) : (memTypes (L.flushMsgs n)).length ≤ n := by
  induction n with
  | zero => simp [L1.flushMsgs, memTypes]
  | succ n ih =>
    simp only [L1.flushMsgs, memTypes_append, List.length_append]
    split
    · simp [L1.wb]; omega
    · simp; omega

theorem accept_waits (s : St p) (i : In p) (L : L1 p) (he : i.reqEn = true) :
    (memTypes (s.cyc L i).2).length ≤ waitsFor p i.req.ty := by
  simp only [St.cyc, he, true_and, waitsFor]
  split
  · simp [L1.initOp, memTypes]
  simp only [L1.cycle, he, if_true, L1.accept]
  have hN := nLines_eq p
  by_cases h1 : i.req.ty = MT.INV
  · simp [h1, MT.INV, MT.READ, MT.WRITE, MT.isAmo, memTypes]
  by_cases h2 : i.req.ty = MT.FLUSH
  · have := flush_waits L (2 ^ p.cntBits)
    simp [h2, MT.INV, MT.READ, MT.WRITE, MT.isAmo, MT.FLUSH]
    omega
  simp only [if_neg h1, if_neg h2]
  split
  · simp only [L1.rw]
    (repeat' split) <;> simp [L1.wb]
  split
  · simp only [L1.amo]
    (repeat' split) <;> simp [L1.wb]
  · simp

/-- Without a request no memory requests arise. -/
theorem cyc_idle_mem (s : St p) (i : In p) (L : L1 p) (he : i.reqEn = false) : memTypes (s.cyc L i).2 = [] := by
  rw [cyc_noReq he, L1.cycle, he]
  simp only [Bool.false_eq_true, if_false]
  split
  · simp only [L1.answer]
    (repeat' split) <;> simp
  · rfl

/-- Every accepted request owes one response. -/
theorem cyc_nResp (s : St p) (i : In p) (L : L1 p) (hc : i.reqEn = true → L.cur = .idle) :
    nResp (s.cyc L i).2 + (s.cyc L i).1.cur.pend = L.cur.pend + (if i.reqEn then 1 else 0) := by
  cases he : i.reqEn
  · rw [cyc_noReq he, L1.cycle, he]
    simp only [Bool.false_eq_true, if_false]
    split
    · rw [answer_nResp]; rfl
    · simp
  · have h0 := hc he
    simp only [St.cyc, he, true_and]
    split
    · simp [L1.initOp, h0, Cur.pend]
    · rename_i hq
      simp only [L1.cycle, he, if_true]
      rw [accept_nResp L i.req h0 hq, h0]; rfl

/-! ## One cycle in an open run -/

theorem owes_eq (s : St p) (i : In p) (O : List MType) :
    owes O i (s.out i) = outTail O i ++ memTypes (s.out i).msgs := by
  simp only [owes, outTail, Out.msgs, memTypes_append]
  congr 1
  cases (s.out i).mreqEn <;> cases (s.out i).respEn <;> simp [MReq.canon_ty]

theorem nResp_out (s : St p) (i : In p) : nResp (s.out i).msgs = if (s.out i).respEn then 1 else 0 := by
  simp only [Out.msgs, nResp_append]
  cases (s.out i).mreqEn <;> cases (s.out i).respEn <;> rfl

theorem nAnswered_cons (s : St p) (i : In p) (l : List (In p)) :
    nAnswered s (i :: l) = nResp (s.out i).msgs + nAnswered (s.step i) l := by
  simp only [nAnswered, St.outs, List.countP_cons, nResp_out]; omega

theorem nAccepted_cons (i : In p) (l : List (In p)) :
    nAccepted (i :: l) = (if i.reqEn then 1 else 0) + nAccepted l := by
  simp only [nAccepted, List.countP_cons]; omega

/-- Requests accepted and not yet answered. Proof device; not in the source. -/
def missing (L : L1 p) (E : List (Msg p)) : Nat := nResp E + L.cur.pend

/-- The facts about one cycle. Proof device; not in the source. -/
structure OneCycle (s : St p) (i : In p) (L : L1 p) (E : List (Msg p)) (O : List MType)
    (L' : L1 p) (E' : List (Msg p)) : Prop where
  rel : RIU False (s.step i) L' E' (owes O i (s.out i))
  miss : missing L' E' + nResp (s.out i).msgs = missing L E + (if i.reqEn then 1 else 0)
  todo : (owes O i (s.out i)).length + (memTypes E').length + (if i.mrespEn then 1 else 0) =
    O.length + (memTypes E).length + (memTypes (s.cyc L i).2).length

theorem one_cycle (wf : p.WF) {s : St p} {i : In p} {L : L1 p} {E : List (Msg p)} {O : List MType}
    (hl : LegalU False s O i) (h : RIU False s L E O) : ∃ L' E', OneCycle s i L E O L' E' := by
  obtain ⟨E', h1, h2⟩ := simI wf hl h
  have hstep : s.step i = s.next i := by simp [St.step, hl.noReset]
  refine ⟨(s.cyc L i).1, E', ?_, ?_, ?_⟩
  · rw [hstep, owes_eq]; exact h2
  · have hc := cyc_nResp s i L fun he => (h.ready (hl.req he).1).1
    have hn := congrArg nResp h1
    simp only [nResp_append] at hn
    simp only [missing]; omega
  · have hn := congrArg (fun l => (memTypes l).length) h1
    simp only [memTypes_append, List.length_append] at hn
    have ho : (outTail O i).length + (if i.mrespEn then 1 else 0) = O.length := by
      simp only [outTail]
      cases hm : i.mrespEn
      · simp
      · obtain ⟨O', hO'⟩ := hl.mem hm; rw [hO']; simp
    rw [owes_eq, List.length_append]; omega

theorem Plays.legal {s : St p} {O : List MType} {i : In p} {l : List (In p)} (h : Plays s O (i :: l)) :
    LegalU False s O i :=
  ⟨h.1, fun he => ⟨h.2.1 he, fun x => x.elim⟩, fun hm => by
    have := h.2.2.1 hm
    cases hO : O with
    | nil => rw [hO] at this; cases this
    | cons a O' => rw [hO] at this; simp at this; exact ⟨O', by rw [this]⟩⟩

theorem owesAfter_append (l l' : List (In p)) (s : St p) (O : List MType) :
    owesAfter s O (l ++ l') = owesAfter (s.after l) (owesAfter s O l) l' := by
  induction l generalizing s O with
  | nil => rfl
  | cons i l ih => exact ih _ _

/-- A prefix of a run. -/
theorem plays_prefix (wf : p.WF) (l l' : List (In p)) {s : St p} {L : L1 p} {E : List (Msg p)} {O : List MType}
    (h : RIU False s L E O) (hp : Plays s O (l ++ l')) :
    ∃ L' E', RIU False (s.after l) L' E' (owesAfter s O l) ∧ Plays (s.after l) (owesAfter s O l) l' ∧
      missing L' E' + nAnswered s l = missing L E + nAccepted l ∧
      nAnswered s (l ++ l') = nAnswered s l + nAnswered (s.after l) l' := by
  induction l generalizing s L E O with
  | nil => exact ⟨L, E, h, hp, rfl, by simp [nAnswered, St.outs, St.after]⟩
  | cons i l ih =>
    obtain ⟨L1, E1, h1⟩ := one_cycle wf (Plays.legal hp) h
    obtain ⟨L', E', h2, h3, h4, h5⟩ := ih h1.rel hp.2.2.2
    refine ⟨L', E', h2, h3, ?_, ?_⟩
    · have := h1.miss
      rw [nAnswered_cons, nAccepted_cons]; omega
    · rw [List.cons_append, nAnswered_cons, nAnswered_cons, h5]
      show _ = _ + nAnswered ((s.step i).after l) l'
      omega

theorem ready_ostall {s : St p} {i : In p} (hr : s.reqRdy i = true) : (s.cs2 i).ostall = false := by
  obtain ⟨_, _, hst, _, _⟩ := ready_imp hr
  simp only [St.stall, Bool.or_eq_false_iff] at hst; exact hst.2

/-- Nothing is missing when the measure is zero. -/
theorem missing_zero {s : St p} {L : L1 p} {E : List (Msg p)} {O : List MType} (h : RIU U s L E O)
    (hz : mu s O = 0) : missing L E = 0 := by
  obtain ⟨h1, h2, _⟩ := mu_zero h hz
  simp [missing, h1, h2, Cur.pend]

/-! ## A prompt environment -/

/-- The budget is used up. -/
theorem budget_zero {D c K : Nat} {s : St p} {L : L1 p} {E : List (Msg p)} {O : List MType} (h : RIU U s L E O)
    (hcD : c ≤ D) (hc : c ≠ 0 → O ≠ []) (hb : nu s O + D * (O.length + (memTypes E).length) ≤ K + c) (hK0 : K = 0) :
    missing L E = 0 := by
  apply missing_zero h
  apply nu_zero (s := s) (O := O)
  by_cases hc0 : c = 0
  · omega
  · have : 1 ≤ O.length := by
      cases hO : O with
      | nil => exact absurd hO (hc hc0)
      | cons a l => simp
    have := Nat.mul_le_mul_left D (show 1 ≤ O.length + (memTypes E).length by omega)
    omega

/-- `K` edges suffice. -/
theorem answered_within (wf : p.WF) (D : Nat) (l : List (In p)) {s : St p} {L : L1 p} {E : List (Msg p)} {O : List MType}
    {c K : Nat} (h : RIU False s L E O) (hp : Plays s O l) (hq : Prompt D c s O l) (hcD : c ≤ D)
    (hc : c ≠ 0 → O ≠ []) (hb : nu s O + D * (O.length + (memTypes E).length) ≤ K + c) (hK : K ≤ l.length) :
    missing L E ≤ nAnswered s l := by
  have hzero := budget_zero h hcD hc hb
  induction l generalizing s L E O c K with
  | nil =>
    have : K = 0 := by simpa using hK
    rw [hzero this]; exact Nat.zero_le _
  | cons i l ih =>
    by_cases hm0 : missing L E = 0
    · rw [hm0]; exact Nat.zero_le _
    have hK1 : K ≠ 0 := fun hx => hm0 (hzero hx)
    have hnu0 : nu s O ≠ 0 := fun hx => hm0 (missing_zero h (nu_zero hx))
    obtain ⟨hp1, hp2, hcD', hq'⟩ := hq
    have hl := Plays.legal hp
    have hp' := hp.2.2.2
    have hstep : s.step i = s.next i := by simp [St.step, hl.noReset]
    rw [nAnswered_cons]
    cases he : i.reqEn
    · obtain ⟨L', E', ho⟩ := one_cycle wf hl h
      have hmiss := ho.miss
      have htodo := ho.todo
      rw [cyc_idle_mem s i L he] at htodo
      simp only [he, Bool.false_eq_true, if_false, List.length_nil, Nat.add_zero] at hmiss htodo
      have hd := h.decN wf hl he hp1 hp2
      simp only [DecN] at hd
      rw [← owes_eq, ← hstep] at hd
      obtain ⟨d1, d2⟩ := hd
      suffices missing L' E' ≤ nAnswered (s.step i) l by omega
      simp only [List.length_cons] at hK
      have hgo : ∀ c', c' ≤ D → (c' ≠ 0 → owes O i (s.out i) ≠ []) → Prompt D c' (s.step i) (owes O i (s.out i)) l →
          nu (s.step i) (owes O i (s.out i)) + D * ((owes O i (s.out i)).length + (memTypes E').length) ≤ (K - 1) + c' →
          missing L' E' ≤ nAnswered (s.step i) l := by
        intro c' g1 g2 g3 g4
        exact ih ho.rel hp' g3 g1 g2 g4 (by omega) (budget_zero ho.rel g1 g2 g4)
      cases hm : i.mrespEn
      · by_cases hO : O = []
        · have hc0 : c = 0 := Decidable.byContradiction fun hx => hc hx hO
          have hd2 := d2 (.inr hO) hnu0
          simp only [hm, Bool.false_eq_true, if_false, Nat.add_zero] at htodo
          refine hgo 0 (by omega) (by simp) ?_ ?_
          · simpa [hO] using hq'
          · rw [htodo]; omega
        · have hO' : owes O i (s.out i) ≠ [] := by
            simp only [owes, hm]; intro hx; simp [hO] at hx
          simp only [hm, Bool.false_eq_true, if_false, Nat.add_zero] at htodo
          have hc' : (if O ≠ [] ∧ i.mrespEn = false then c + 1 else 0) = c + 1 := if_pos ⟨hO, hm⟩
          simp only [hc'] at hq' hcD'
          refine hgo (c + 1) hcD' (fun _ => hO') hq' ?_
          rw [htodo]; omega
      · have hd2 := d2 (.inl hm) hnu0
        simp only [hm, if_true] at htodo
        have hc' : (if O ≠ [] ∧ i.mrespEn = false then c + 1 else 0) = 0 := by simp [hm]
        simp only [hc'] at hq'
        refine hgo 0 (by omega) (by simp) hq' ?_
        rw [← htodo, Nat.mul_add, Nat.mul_one] at hb
        omega
    · -- a later request is accepted: ours is in M1 or M2
      have hr := (hl.req he).1
      obtain ⟨hcur, hme, hO⟩ := h.ready hr
      have hE := h.ready_adv hr
      have ho := ready_ostall hr
      have hout := out_msgs_adv s i ho
      have hslot := next_slot_adv s i ho
      have hmiss : missing L E = nResp s.slot.msgs + nResp s.adv.msgs := by
        simp [missing, hcur, hE, Cur.pend]
      rw [hmiss, hout]
      by_cases ha : nResp s.adv.msgs = 0
      · omega
      · have hne : s.adv.msgs ≠ [] := by intro hx; rw [hx] at ha; exact ha rfl
        have h2 := nu_pos_of_ready (O := O) hr hne
        have hc0 : c = 0 := Decidable.byContradiction fun hx => hc hx hO
        simp only [List.length_cons] at hK
        cases l with
        | nil => simp at hK; omega
        | cons j l =>
          obtain ⟨hj1, hj2, _, _⟩ := hq'
          have hout2 := out_msgs_adv (s.step i) j (ostall_ready _ j hj2 hj1)
          rw [hstep] at hout2
          rw [nAnswered_cons, hstep, hout2, hslot]
          omega

/-- **C71, response time.**  From any power-up state, after a reset, in any environment that obeys
the rules of the ports: let the request `i` be accepted after the cycles `l`; if from then on both
output ports are ready and memory lets the cache wait at most `D` cycles in a row, then at the latest
after `respBound p D` further cycles the request is answered. -/
theorem C71_response_time (wf : p.WF) (D : Nat) (t : St p) (r : In p) (hr : r.reset = true) (l l' : List (In p)) (i : In p)
    (hp : Plays (t.step r) [] (l ++ i :: l')) (he : i.reqEn = true)
    (hq : Prompt D 0 ((t.step r).after (l ++ [i])) (owesAfter (t.step r) [] (l ++ [i])) l')
    (hb : respBound p D i.req.ty ≤ l'.length) :
    nAccepted l + 1 ≤ nAnswered (t.step r) (l ++ i :: l') := by
  obtain ⟨La, Ea, h1, h2, h3, h4⟩ := plays_prefix wf l (i :: l') (RIU.start (U := False) t r hr) hp
  obtain ⟨Lb, Eb, h5⟩ := one_cycle wf (Plays.legal h2) h1
  have hst : (t.step r).after (l ++ [i]) = ((t.step r).after l).step i := by simp [St.after]
  rw [hst, owesAfter_append] at hq
  simp only [owesAfter] at hq
  have hl := Plays.legal h2
  obtain ⟨hcur, hme, hO⟩ := h1.ready (hl.req he).1
  have hnu := accept_nu h1 hl he (owes (owesAfter (t.step r) [] l) i (((t.step r).after l).out i))
  have hstep : ((t.step r).after l).step i = ((t.step r).after l).next i := by simp [St.step, hl.noReset]
  rw [← hstep] at hnu
  have htodo := h5.todo
  rw [hme, hO] at htodo
  have hwt := accept_waits ((t.step r).after l) i La he
  have hK := Nat.mul_le_mul_left D (show (owes (owesAfter (t.step r) [] l) i (((t.step r).after l).out i)).length +
    (memTypes Eb).length ≤ waitsFor p i.req.ty by rw [hO]; simp at htodo; omega)
  rw [respBound_eq] at hb
  have := answered_within wf D l' (c := 0) (K := tEdges p i.req.ty + D * waitsFor p i.req.ty) h5.rel h2.2.2.2 hq
    (Nat.zero_le _) (by simp) (by omega) hb
  have hm := h5.miss
  simp only [he, if_true] at hm
  have h0 : missing (L1.init p) ([] : List (Msg p)) = 0 := rfl
  rw [h4, nAnswered_cons]
  omega

/-! ## Any environment -/

theorem counts_iff {O : List MType} {i : In p} :
    (i.mrespEn = true ∨ (O = [] ∧ i.respRdy = true ∧ i.mreqRdy = true)) ↔ Counts O i := by
  simp only [Counts]
  constructor
  · rintro (h | ⟨h1, h2, h3⟩)
    · exact .inl h
    · exact .inr ⟨h2, h3, h1⟩
  · rintro (h | ⟨h1, h2, h3⟩)
    · exact .inl h
    · exact .inr ⟨h3, h1, h2⟩

/-- A response in M2 leaves in the first helpful cycle. -/
theorem slot_leaves (wf : p.WF) (l : List (In p)) {s : St p} {L : L1 p} {E : List (Msg p)} {O : List MType}
    (h : RIU False s L E O) (hp : Plays s O l) (hs : 1 ≤ nResp s.slot.msgs) (hh : 1 ≤ helped s O l) :
    1 ≤ nAnswered s l := by
  induction l generalizing s L E O with
  | nil => simp [helped] at hh
  | cons i l ih =>
    have hl := Plays.legal hp
    rw [nAnswered_cons]
    cases ho : (s.cs2 i).ostall
    · rw [out_msgs_adv s i ho]; omega
    · have hO := h.slot_quiet hs
      have hme : i.mrespEn = false := by subst hO; exact no_mresp hl
      have hci := h.ne_cacheInit ho
      have hsl := next_slot_stall s i ho hci
      have hstep : s.step i = s.next i := by simp [St.step, hl.noReset]
      obtain ⟨L', E', h1⟩ := one_cycle wf hl h
      have hnot : ¬ (i.mrespEn = true ∨ (O = [] ∧ i.respRdy = true ∧ i.mreqRdy = true)) := by
        rintro (hx | ⟨_, hx, hy⟩)
        · rw [hme] at hx; cases hx
        · rw [ostall_ready s i hy hx] at ho; cases ho
      simp only [helped, if_neg hnot, Nat.zero_add] at hh
      have := ih h1.rel hp.2.2.2 (by rw [hstep, hsl]; exact hs) hh
      omega

theorem answered_helped (wf : p.WF) (l : List (In p)) {s : St p} {L : L1 p} {E : List (Msg p)} {O : List MType}
    (h : RIU False s L E O) (hp : Plays s O l) (hh : mu s O ≤ helped s O l) : missing L E ≤ nAnswered s l := by
  induction l generalizing s L E O with
  | nil =>
    rw [missing_zero h (by simpa [helped] using hh)]; exact Nat.zero_le _
  | cons i l ih =>
    by_cases hm0 : missing L E = 0
    · rw [hm0]; exact Nat.zero_le _
    have hmu0 : mu s O ≠ 0 := fun hx => hm0 (missing_zero h hx)
    have hl := Plays.legal hp
    have hp' := hp.2.2.2
    have hstep : s.step i = s.next i := by simp [St.step, hl.noReset]
    obtain ⟨L', E', ho⟩ := one_cycle wf hl h
    rw [nAnswered_cons]
    cases he : i.reqEn
    · have hmiss := ho.miss
      simp only [he, Bool.false_eq_true, if_false, Nat.add_zero] at hmiss
      have hd := h.dec wf hl he
      simp only [Dec] at hd
      rw [← owes_eq, ← hstep] at hd
      obtain ⟨d1, d2⟩ := hd
      suffices missing L' E' ≤ nAnswered (s.step i) l by omega
      apply ih ho.rel hp'
      simp only [helped] at hh
      split at hh
      · rename_i hc
        have := d2 (counts_iff.1 hc) hmu0; omega
      · omega
    · have hr := (hl.req he).1
      obtain ⟨hcur, hme, hO⟩ := h.ready hr
      have hE := h.ready_adv hr
      have hos := ready_ostall hr
      have hout := out_msgs_adv s i hos
      have hslot := next_slot_adv s i hos
      have hmiss : missing L E = nResp s.slot.msgs + nResp s.adv.msgs := by
        simp [missing, hcur, hE, Cur.pend]
      rw [hmiss, hout]
      by_cases ha : nResp s.adv.msgs = 0
      · omega
      · have hne : s.adv.msgs ≠ [] := by intro hx; rw [hx] at ha; exact ha rfl
        have h2 := mu_pos_of_ready (O := O) hr hne
        have h1 : 1 ≤ helped (s.step i) (owes O i (s.out i)) l := by
          simp only [helped] at hh
          split at hh <;> omega
        have h3 := slot_leaves wf l ho.rel hp' (by rw [hstep, hslot]; omega) h1
        have h4 : nResp s.adv.msgs ≤ 1 := nResp_slot _
        omega

/-- Without requests the measure reaches zero. -/
theorem idle_helped (wf : p.WF) (l : List (In p)) {s : St p} {L : L1 p} {E : List (Msg p)} {O : List MType}
    (h : RIU False s L E O) (hp : Plays s O l) (hn : ∀ i ∈ l, i.reqEn = false) (hh : mu s O ≤ helped s O l) :
    mu (s.after l) (owesAfter s O l) = 0 := by
  induction l generalizing s L E O with
  | nil => simp [helped] at hh; exact hh
  | cons i l ih =>
    have hl := Plays.legal hp
    have he := hn i (by simp)
    have hstep : s.step i = s.next i := by simp [St.step, hl.noReset]
    obtain ⟨L', E', ho⟩ := one_cycle wf hl h
    have hd := h.dec wf hl he
    simp only [Dec] at hd
    rw [← owes_eq, ← hstep] at hd
    obtain ⟨d1, d2⟩ := hd
    apply ih ho.rel hp.2.2.2 (fun j hj => hn j (by simp [hj]))
    simp only [helped] at hh
    split at hh
    · rename_i hc
      by_cases hz : mu s O = 0
      · omega
      · have := d2 (counts_iff.1 hc) hz; omega
    · omega

/-- **C71, every request is answered.**  In any environment that obeys the rules, however slow its ports
and memory are: once the environment has done its part in `3 + 5 * nLines` cycles, every request accepted
before is answered. -/
theorem C71_every_request_answered (wf : p.WF) (t : St p) (r : In p) (hr : r.reset = true) (l l' : List (In p))
    (hp : Plays (t.step r) [] (l ++ l'))
    (hh : 3 + 5 * p.nLines ≤ helped ((t.step r).after l) (owesAfter (t.step r) [] l) l') :
    nAccepted l ≤ nAnswered (t.step r) (l ++ l') := by
  obtain ⟨La, Ea, h1, h2, h3, h4⟩ := plays_prefix wf l l' (RIU.start (U := False) t r hr) hp
  have hmu := mu_le wf h1
  rw [← nLines_eq] at hmu
  have := answered_helped wf l' h1 h2 (by omega)
  have h0 : missing (L1.init p) ([] : List (Msg p)) = 0 := rfl
  omega

/-- **C71, the cache becomes ready.**  If no further requests come, the cache then is ready (whenever
both output ports are), memory owes nothing, and every request has been answered exactly once. -/
theorem C71_ready_again (wf : p.WF) (t : St p) (r : In p) (hr : r.reset = true) (l l' : List (In p))
    (hp : Plays (t.step r) [] (l ++ l')) (hn : ∀ i ∈ l', i.reqEn = false)
    (hh : 3 + 5 * p.nLines ≤ helped ((t.step r).after l) (owesAfter (t.step r) [] l) l') :
    nAnswered (t.step r) (l ++ l') = nAccepted l ∧ owesAfter (t.step r) [] (l ++ l') = [] ∧
    ∀ j : In p, j.respRdy = true → j.mreqRdy = true → (((t.step r).after (l ++ l')).out j).reqRdy = true := by
  obtain ⟨La, Ea, h1, h2, h3, h4⟩ := plays_prefix wf l l' (RIU.start (U := False) t r hr) hp
  have hmu := mu_le wf h1
  rw [← nLines_eq] at hmu
  have hz := idle_helped wf l' h1 h2 hn (by omega)
  obtain ⟨Lb, Eb, g1, _, g3, _⟩ := plays_prefix wf l' [] h1 (by simpa using h2)
  have hm := missing_zero g1 hz
  have hna : nAccepted l' = 0 := by
    simp only [nAccepted, List.countP_eq_zero]; intro i hi; simp [hn i hi]
  have h0 : missing (L1.init p) ([] : List (Msg p)) = 0 := rfl
  have hrd := (mu_zero g1 hz).2.2
  refine ⟨by omega, ?_, fun j hj1 hj2 => ?_⟩
  · rw [owesAfter_append]
    exact (g1.ready (hrd (⟨false, false, ⟨0, 0, ⟨0, 0, 0⟩, 0, 0⟩, true, true, false, ⟨0, 0, 0⟩⟩ : In p) rfl rfl)).2.2
  · have := hrd j hj1 hj2
    have e : (t.step r).after (l ++ l') = ((t.step r).after l).after l' := by simp [St.after]
    rw [e]; exact this

/-- **C71, never more responses than requests**, in any environment. -/
theorem C71_no_response_without_request (wf : p.WF) (t : St p) (r : In p) (hr : r.reset = true) (l : List (In p))
    (hp : Plays (t.step r) [] l) : nAnswered (t.step r) l ≤ nAccepted l := by
  obtain ⟨La, Ea, h1, h2, h3, h4⟩ := plays_prefix wf l [] (RIU.start (U := False) t r hr) (by simpa using hp)
  have h0 : missing (L1.init p) ([] : List (Msg p)) = 0 := rfl
  omega

end Verif
