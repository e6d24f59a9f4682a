import Verif.Eqv

/-!
# Consequences of the phase invariant for single cycles
-/

namespace Verif
variable {p : Params} {U : Prop}

theorem bv1_cases (n : BitVec 1) : n = 0 ∨ n = 1 := by
  revert n; decide

theorem ready_imp {s : St p} {i : In p} (h : s.reqRdy i = true) :
    s.fsm ≠ .init ∧ s.status1.cleanHit = false ∧ s.stall i = false ∧ s.mshrNum = 0 ∧
    s.cs1.alloc = false := by
  simp only [St.reqRdy, Bool.not_eq_true', Bool.or_eq_false_iff] at h
  obtain ⟨⟨⟨⟨h1, h2⟩, h3⟩, h4⟩, h5⟩ := h
  refine ⟨?_, h2, h3, ?_, ?_⟩
  · intro hf; rw [hf] at h1; cases h1
  · simpa [St.mshrEmpty, mshrEmpty] using h4
  · rw [St.allocEn, h3] at h5
    simp only [mshrFull, Bool.not_false, Bool.and_true, Bool.or_eq_false_iff] at h5
    have hn : s.mshrNum = 0 := by simpa [St.mshrEmpty, mshrEmpty] using h4
    rw [hn] at h5
    simpa using h5.2

theorem rw_idle {L : L1 p} {q : CReq p} (hh : (L.lookup q.addr).hit = true) :
    (L.rw q).1.cur = L.cur ∧ memTypes (L.rw q).2 = [] := by
  rw [rw_hit hh]; exact ⟨rfl, rfl⟩

theorem PReq.ready {s : St p} {i : In p} {L : L1 p} {rest O L0 q} (h : PReq U s L rest O L0 q)
    (hr : s.reqRdy i = true) : L.cur = .idle ∧ memTypes rest = [] := by
  obtain ⟨_, _, _, _, hal⟩ := ready_imp hr
  have hacc := h.acc
  rcases rw_or_amo h.ty with hq | hq
  · rw [h.cs1_rw hq] at hal
    have hst := h.status_rw hq
    have hhit : (L0.lookup q.addr).hit = true := by
      split at hal
      · simp at hal
      · split at hal
        · simp at hal
        · rename_i h2
          rw [hst] at h2; simpa using h2
    rw [accept_rw hq] at hacc
    have := rw_idle hhit
    rw [fst_eq hacc, snd_eq hacc]
    exact ⟨by rw [this.1, h.cur], this.2⟩
  · rw [h.cs1_amo hq] at hal
    split at hal <;> simp at hal

/-- When the request port is ready, the memory traffic of all requests accepted
before is over. -/
theorem PhU.ready {s : St p} {i : In p} {L : L1 p} {rest : List (Msg p)} {O : List MType}
    (h : PhU U s L rest O) (hr : s.reqRdy i = true) :
    L.cur = .idle ∧ memTypes rest = [] ∧ Quiet s O := by
  obtain ⟨hf, hc, hst, hn, hal⟩ := ready_imp hr
  cases h with
  | flow h => exact ⟨h.cur, h.restMem, h.quiet⟩
  | req L0 q h => exact ⟨(h.ready hr).1, (h.ready hr).2, h.quiet⟩
  | pass2 q h =>
    obtain ⟨_, _, _, hcs⟩ := pass2_status s q.ty h.t1 h.evict2
    rw [hcs] at hal; simp at hal
  | wait h => rw [h.num] at hn; cases hn
  | ans L0 h => rw [h.num] at hn; cases hn
  | refill L0 q w d h => rw [h.num] at hn; cases hn
  | inv0 q h => simp [St.cs1, h.t1, cs1, St.status1] at hal
  | inv1 q h => rw [h.num] at hn; cases hn
  | inv2 q h => rw [h.num] at hn; cases hn
  | fl0 L0 q h => simp [St.cs1, h.t1, cs1, St.status1] at hal
  | fl1 L0 q c h => rw [h.num] at hn; cases hn
  | fl2 L0 q c h => rw [h.num] at hn; cases hn
  | fl3 L0 q c h => rw [h.num] at hn; cases hn
  | ini _ h => exact ⟨h.cur, h.restMem, h.quiet⟩

theorem RIU.ready {s : St p} {i : In p} {L : L1 p} {E : List (Msg p)} {O : List MType}
    (h : RIU U s L E O) (hr : s.reqRdy i = true) :
    L.cur = .idle ∧ memTypes E = [] ∧ O = [] := by
  cases h with
  | init h hL hE hO => exact absurd h.fsm (ready_imp hr).1
  | run L' he h =>
    obtain ⟨hok, rest, hE, hph⟩ := h
    obtain ⟨h1, h2, h3⟩ := hph.ready hr
    refine ⟨by rw [← he.cur, h1], ?_, h3.out⟩
    rw [hE, memTypes_append, h3.slot, h2]; rfl

/-! ## The M2 slot holds at most one message -/

theorem slot_le_one (m : M2 p) : m.msgs = [] ∨ (∃ x, m.msgs = [.mem x]) ∨ ∃ r, m.msgs = [.resp r] := by
  obtain ⟨t, e, h, f, r, w, l⟩ := m
  cases t <;> cases e <;> cases h <;> cases f <;> simp [M2.msgs, cs2]

theorem slot_resp_of_not_mem {m : M2 p} (h : memTypes m.msgs = []) :
    m.msgs = [] ∨ ∃ r, m.msgs = [.resp r] := by
  rcases slot_le_one m with h1 | ⟨x, h1⟩ | h1
  · exact .inl h1
  · rw [h1] at h; simp at h
  · exact .inr h1

/-- Whenever a response is on the output port, nothing is outstanding at memory. -/
theorem PhU.resp_quiet {s : St p} {L : L1 p} {rest : List (Msg p)} {O : List MType}
    (h : PhU U s L rest O) {r : CResp p} (hr : .resp r ∈ s.slot.msgs) : O = [] := by
  have hno : ∀ t, memTypes s.slot.msgs ≠ [t] := by
    intro t ht
    rcases slot_le_one s.slot with h1 | ⟨x, h1⟩ | ⟨x, h1⟩ <;> rw [h1] at hr ht <;> simp at hr ht
  cases h with
  | flow h => exact h.quiet.out
  | req L0 q h => exact h.quiet.out
  | pass2 q h => exact h.out
  | wait h =>
    rcases h.out with ⟨h1, _⟩ | ⟨h1, _⟩
    · rw [slot_nil (s := s) (by rw [h1]; rfl)] at hr; cases hr
    · exact absurd h1 (hno _)
  | ans L0 h => exact h.out
  | refill L0 q w d h => exact h.out
  | inv0 q h => exact h.quiet.out
  | inv1 q h => exact h.quiet.out
  | inv2 q h => exact h.quiet.out
  | fl0 L0 q h => exact h.quiet.out
  | fl1 L0 q c h => exact h.quiet.out
  | fl2 L0 q c h =>
    rcases h.out with ⟨_, h1, _⟩ | ⟨_, h1, _⟩ | ⟨_, _, h1, _⟩
    · exact absurd h1 (hno _)
    · rw [slot_nil (s := s) (by rw [h1]; rfl)] at hr; cases hr
    · rw [slot_nil (s := s) (by rw [h1]; rfl)] at hr; cases hr
  | fl3 L0 q c h => exact h.quiet.out
  | ini _ h => exact h.quiet.out

theorem out_msgs_sub (s : St p) (i : In p) {m : Msg p} (h : m ∈ (s.out i).msgs) : m ∈ s.slot.msgs := by
  cases ho : (s.cs2 i).ostall
  · rwa [out_msgs_adv s i ho] at h
  · rw [out_msgs_stall s i ho] at h; cases h

theorem RIU.resp_quiet {s : St p} {i : In p} {L : L1 p} {E : List (Msg p)} {O : List MType}
    (h : RIU U s L E O) {r : CResp p} (hr : .resp r ∈ (s.out i).msgs) : O = [] := by
  have hr := out_msgs_sub s i hr
  cases h with
  | init h hL hE hO => exact hO
  | run L' he h => obtain ⟨hok, rest, hE, hph⟩ := h; exact hph.resp_quiet hr

/-! ## At most two requests are unanswered -/

/-- Number of responses in a message list. Proof device; not in the source. -/
def nResp (l : List (Msg p)) : Nat := l.countP fun | .resp _ => true | .mem _ => false

@[simp] theorem nResp_nil : nResp ([] : List (Msg p)) = 0 := rfl
@[simp] theorem nResp_append (a b : List (Msg p)) : nResp (a ++ b) = nResp a + nResp b := by simp [nResp]
@[simp] theorem nResp_resp (r : CResp p) (l : List (Msg p)) : nResp (.resp r :: l) = nResp l + 1 := by
  simp [nResp]
@[simp] theorem nResp_mem (r : MReq p) (l : List (Msg p)) : nResp (.mem r :: l) = nResp l := by
  simp [nResp]

/-- 1 while waiting for memory. Proof device; not in the source. -/
def Cur.pend : Cur p → Nat
  | .idle => 0
  | _ => 1

theorem nResp_slot (m : M2 p) : nResp m.msgs ≤ 1 := by
  rcases slot_le_one m with h | ⟨_, h⟩ | ⟨_, h⟩ <;> simp [h]

@[simp] theorem nResp_flush (L : L1 p) (n : Nat) : nResp (L.flushMsgs n) = 0 := by
  induction n with
  | zero => rfl
  | succ n ih =>
    simp only [L1.flushMsgs, nResp_append, ih, L1.wb]
    split <;> simp

/-- Every accepted request owes exactly one response. -/
theorem accept_nResp (L : L1 p) (q : CReq p) (hc : L.cur = .idle) (hq : q.ty ≠ MT.INIT) :
    nResp (L.accept q).2 + (L.accept q).1.cur.pend = 1 := by
  simp only [L1.accept]
  split
  · cases hh : (L.lookup q.addr).hit
    · cases hi : (L.lookup q.addr).inval
      · rw [rw_miss hh hi]
        simp only [nResp_append, Cur.pend, L1.wb]
        split <;> simp
      · rw [rw_inval hh hi]; rfl
    · rw [rw_hit hh]; simp [hc, Cur.pend]
  split
  · simp only [L1.amo, nResp_append, Cur.pend, L1.wb]
    split <;> simp
  split
  · simp [hc, Cur.pend]
  split
  · simp [hc, Cur.pend]
  · exfalso
    rename_i h1 h2 h3 h4
    revert h1 h2 h3 h4 hq
    generalize q.ty = t
    revert t
    decide

theorem answer_nResp (L : L1 p) (l : Line p) :
    nResp (L.answer l).2 + (L.answer l).1.cur.pend = L.cur.pend := by
  simp only [L1.answer]
  split
  · simp_all
  · split <;> simp_all [Cur.pend]
  · simp_all [Cur.pend]

theorem PhU.two {s : St p} {L : L1 p} {rest : List (Msg p)} {O : List MType}
    (hok : L.OkU U) (h : PhU U s L rest O) : nResp (s.slot.msgs ++ rest) + L.cur.pend ≤ 2 := by
  have hs := nResp_slot s.slot
  rw [nResp_append]
  cases h with
  | flow h =>
    have := nResp_slot s.adv
    rw [h.restEq, h.cur]; simp only [Cur.pend]; omega
  | req L0 q h =>
    have hq : q.ty ≠ MT.INIT := by
      have := h.ty
      intro he; rw [he] at this; revert this; decide
    have := accept_nResp L0 q h.cur hq
    rw [h.acc] at this
    simp only at this
    omega
  | pass2 q h =>
    have : nResp s.slot.msgs = 0 := by
      have hm := h.slot
      rcases slot_le_one s.slot with h1 | ⟨_, h1⟩ | ⟨_, h1⟩ <;> rw [h1] at hm ⊢ <;> simp at hm ⊢
    rcases h.cur with ⟨h1, _, h3⟩ | ⟨_, _, h1, _, _, h3⟩ <;> rw [h1, h3] <;>
      simp [Cur.pend] <;> omega
  | wait h => rw [h.restEq]; cases L.cur <;> simp [Cur.pend] <;> omega
  | ans L0 h =>
    have := answer_nResp L0 s.mresp0.data
    rw [h.ans] at this
    simp only at this
    have h1 : L0.cur.pend ≤ 1 := by cases L0.cur <;> simp [Cur.pend]
    omega
  | refill L0 q w d h =>
    have := answer_nResp L0 s.req1.data
    rw [h.ans] at this
    simp only at this
    have h1 : L0.cur.pend ≤ 1 := by cases L0.cur <;> simp [Cur.pend]
    omega
  | inv0 q h => rw [h.restEq, h.cur]; simp [Cur.pend]; omega
  | inv1 q h => rw [h.restEq, h.cur]; simp [Cur.pend]; omega
  | inv2 q h => rw [h.restEq, h.cur]; simp [Cur.pend]; omega
  | fl0 L0 q h => rw [h.restEq, h.cur]; simp [Cur.pend]; omega
  | fl1 L0 q c h => rw [h.restEq, h.cur]; simp [Cur.pend]; omega
  | fl2 L0 q c h => rw [h.restEq, h.cur]; simp [Cur.pend]; omega
  | fl3 L0 q c h => rw [h.restEq, h.cur]; simp [Cur.pend]; omega
  | ini _ h =>
    have := nResp_slot s.adv
    rw [h.restEq, h.cur]; simp only [Cur.pend]; omega

theorem RIU.two {s : St p} {L : L1 p} {E : List (Msg p)} {O : List MType} (h : RIU U s L E O) :
    nResp E + L.cur.pend ≤ 2 := by
  cases h with
  | init h hL hE hO => subst hL hE; simp [L1.init, Cur.pend]
  | run L' he h =>
    obtain ⟨hok, rest, hE, hph⟩ := h
    rw [← he.cur, hE]; exact hph.two hok

/-! ## MSHR -/

theorem dealloc_full (s : St p) (i : In p) (h : (cs0 (s.trans0 i)).dealloc = true) :
    s.mshrNum = 1 := by
  rcases bv1_cases s.mshrNum with h0 | h0
  · exfalso
    have he : s.mshrEmpty = true := by simp [St.mshrEmpty, mshrEmpty, h0]
    revert h
    simp only [St.trans0, he, Bool.not_true, Bool.false_and, Bool.and_false]
    split
    · simp [cs0]
    split
    · simp [cs0]
    have aux : ∀ (c : Prop) [Decidable c] (a b : Trans), ¬ ((cs0 a).dealloc = true) →
        ¬ ((cs0 b).dealloc = true) → ¬ ((cs0 (if c then a else b)).dealloc = true) := by
      intro c _ a b ha hb; split <;> assumption
    cases s.fsm <;> simp only [Bool.false_eq_true, if_false] <;>
      repeat' (first | apply aux | (simp [cs0]; done))
  · exact h0

theorem PhU.alloc_empty {s : St p} {L : L1 p} {rest : List (Msg p)} {O : List MType}
    (h : PhU U s L rest O) (ha : s.cs1.alloc = true) : s.mshrNum = 0 := by
  cases h with
  | flow h => exact h.num
  | req L0 q h => exact h.num
  | pass2 q h => exact h.num
  | wait h => simp [St.cs1, h.t1, cs1] at ha
  | ans L0 h => simp [St.cs1, h.t1, cs1] at ha
  | refill L0 q w d h => simp [St.cs1, h.t1, cs1] at ha
  | inv0 q h => exact h.num
  | inv1 q h => simp [St.cs1, h.t1, cs1, St.status1] at ha
  | inv2 q h => simp [St.cs1, h.t1, cs1, St.status1] at ha
  | fl0 L0 q h => exact h.num
  | fl1 L0 q c h => simp [St.cs1, h.t1, cs1, St.status1] at ha
  | fl2 L0 q c h => simp [St.cs1, h.t1, cs1, St.status1] at ha
  | fl3 L0 q c h => simp [St.cs1, h.t1, cs1, St.status1] at ha
  | ini _ h => exact h.num

theorem RIU.alloc_empty {s : St p} {L : L1 p} {E : List (Msg p)} {O : List MType}
    (h : RIU U s L E O) (ha : s.cs1.alloc = true) : s.mshrNum = 0 := by
  cases h with
  | init h hL hE hO => exact h.num
  | run L' he h => obtain ⟨hok, rest, hE, hph⟩ := h; exact hph.alloc_empty ha

/-! ## Memory responses during a stall -/

/-- A memory response that arrives while the input register is frozen is the
acknowledgement of an eviction, and the cache is not flushing. -/
theorem PhU.drop {s : St p} {i : In p} {L : L1 p} {rest : List (Msg p)} {O : List MType}
    (hok : L.OkU U) (hl : LegalU U s O i) (h : PhU U s L rest O) (hm : i.mrespEn = true)
    (hst : s.stall i = true) : i.mresp.ty = MT.WRITE ∧ L.cur ≠ .idle := by
  obtain ⟨O', hO⟩ := hl.mem hm
  cases h with
  | flow h => rw [h.quiet.out] at hO; cases hO
  | req L0 q h => rw [h.quiet.out] at hO; cases hO
  | pass2 q h => rw [h.out] at hO; cases hO
  | wait h =>
    have hne : L.cur ≠ .idle := by
      intro hc; have := h.mshr; rw [hc] at this; exact this
    refine ⟨?_, hne⟩
    rcases h.out with ⟨h1, _⟩ | ⟨_, h1⟩
    · have : s.stall i = false := by
        simp [St.stall, ostall_nonblocking s i (by rw [h1]; rfl), St.cs1, h.t1, cs1]
      rw [this] at hst; cases hst
    · rcases h1 with h1 | h1 <;> rw [h1] at hO <;> simp at hO
      exact hO.1.symm
  | ans L0 h => rw [h.out] at hO; cases hO
  | refill L0 q w d h => rw [h.out] at hO; cases hO
  | inv0 q h => rw [h.quiet.out] at hO; cases hO
  | inv1 q h => rw [h.quiet.out] at hO; cases hO
  | inv2 q h => rw [h.quiet.out] at hO; cases hO
  | fl0 L0 q h => rw [h.quiet.out] at hO; cases hO
  | fl1 L0 q c h => rw [h.quiet.out] at hO; cases hO
  | fl2 L0 q c h =>
    exfalso
    rcases h.out with ⟨_, _, h1⟩ | ⟨_, h1, _⟩ | ⟨_, _, h1, _⟩
    · rw [h1] at hO; cases hO
    · have : s.stall i = false := by
        simp [St.stall, ostall_nonblocking s i (by rw [h1]; rfl), St.cs1, h.t1, cs1, St.status1]
      rw [this] at hst; cases hst
    · have : s.stall i = false := by
        simp [St.stall, ostall_nonblocking s i (by rw [h1]; rfl), St.cs1, h.t1, cs1, St.status1]
      rw [this] at hst; cases hst
  | fl3 L0 q c h => rw [h.quiet.out] at hO; cases hO
  | ini _ h => rw [h.quiet.out] at hO; cases hO

theorem RIU.drop {s : St p} {i : In p} {L : L1 p} {E : List (Msg p)} {O : List MType}
    (hl : LegalU U s O i) (h : RIU U s L E O) (hm : i.mrespEn = true) (hst : s.stall i = true) :
    i.mresp.ty = MT.WRITE ∧ L.cur ≠ .idle := by
  cases h with
  | init h hL hE hO =>
    obtain ⟨O', hO2⟩ := hl.mem hm
    rw [hO] at hO2; cases hO2
  | run L' he h =>
    obtain ⟨hok, rest, hE, hph⟩ := h
    rw [← he.cur]
    exact hph.drop hok hl hm hst

end Verif
