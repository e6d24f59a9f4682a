import Verif.ProcModel

set_option linter.unusedSectionVars false

/-!
# No combinational latch-up behind the processor model (C41)

With nothing in flight `ProcModel` computes the response-ready input of the cache from
the request-ready output of the cache, which in turn depends on the response-ready
input through the stall of the M2 stage.  We show that the loop is never closed in a
reachable state: then M2 holds nothing that waits for the response port.
-/

namespace Verif
variable {p : Params} {ι : Type} [DecidableEq ι]

/-- M1 transactions that are followed by nothing (proof device). -/
def endT : Trans → Bool
  | .invalid | .cleanHit | .cacheInit => true
  | _ => false

/-- A blocking but silent M2 slot is followed by the rest of its operation (proof device). -/
def Bub (s : St p) : Prop := blocking s.t2 = true → s.slot.msgs = [] → endT s.t1 = false

/-- The only blocking and silent slots. -/
theorem silent_slot (m : M2 p) (hb : blocking m.t2 = true) (hm : m.msgs = []) :
    m.t2 = .refill ∨ (m.t2 = .flushRead ∧ m.fl = false) := by
  obtain ⟨t, e, h, f, r, w, l⟩ := m
  simp only at hb hm ⊢
  cases t <;> first | (exfalso; revert hb; decide) | skip
  all_goals first
    | exact .inl rfl
    | (cases f
       · exact .inr ⟨rfl, rfl⟩
       · exfalso; revert hm; cases e <;> cases h <;> simp [M2.msgs, cs2])
    | (exfalso; revert hm; cases e <;> cases h <;> cases f <;> simp [M2.msgs, cs2])

theorem ph_refill {s : St p} {L : L1 p} {rest : List (Msg p)} {O : List MType} (h : Ph s L rest O)
    (ht : s.t1 = .refill) : ∃ L0 q w d, PRefill True s L rest O L0 q w d := by
  cases h with
  | refill L0 q w d h => exact ⟨_, _, _, _, h⟩
  | flow h => have := h.t1; rw [ht] at this; cases this
  | req L0 q h =>
    exact absurd (ht.symm.trans h.t1).symm (by simp only [reqTrans]; split <;> (try split) <;> simp)
  | pass2 q h =>
    exact absurd (ht.symm.trans h.t1).symm (by simp only [reqTrans]; split <;> (try split) <;> simp)
  | _ => rename_i h; have := h.t1; rw [ht] at this; cases this

theorem ph_flushRead {s : St p} {L : L1 p} {rest : List (Msg p)} {O : List MType} (h : Ph s L rest O)
    (ht : s.t1 = .flushRead) : ∃ L0 q c, PFl1 True s L rest O L0 q c := by
  cases h with
  | fl1 L0 q c h => exact ⟨_, _, _, h⟩
  | flow h => have := h.t1; rw [ht] at this; cases this
  | req L0 q h =>
    exact absurd (ht.symm.trans h.t1).symm (by simp only [reqTrans]; split <;> (try split) <;> simp)
  | pass2 q h =>
    exact absurd (ht.symm.trans h.t1).symm (by simp only [reqTrans]; split <;> (try split) <;> simp)
  | _ => rename_i h; have := h.t1; rw [ht] at this; cases this

theorem Bub.next {s : St p} {i : In p} {L : L1 p} {E : List (Msg p)} {O : List MType}
    (h : RI s L E O) (hb : Bub s) : Bub (s.next i) := by
  cases h with
  | init h hL hE hO =>
    intro hb'
    exfalso
    have ho := ostall_nonblocking s i h.t2
    have ht2 : (s.next i).t2 = s.t1 := by
      by_cases hc : s.t1 = .cacheInit <;> simp [St.next, ho, hc]
    rw [ht2] at hb'
    rcases h.t1 with h1 | h1 <;> rw [h1.1] at hb' <;> cases hb'
  | run L' he h =>
    obtain ⟨_, rest, hE, hph⟩ := h
    have hni : s.fsm ≠ .init := by
      intro hf
      cases hph with
      | fl1 L0 q c h => have := h.fsm; rw [hf] at this; split at this <;> cases this
      | fl3 L0 q c h => have := h.fsm; rw [hf] at this; split at this <;> cases this
      | ini hU _ => exact absurd trivial hU
      | _ => rename_i h; have := h.fsm; rw [hf] at this; cases this
    intro hb' hm'
    cases ho : (s.cs2 i).ostall
    · have ht2 : (s.next i).t2 = s.t1 := by
        by_cases hc : s.t1 = .cacheInit <;> simp [St.next, ho, hc]
      rw [next_slot_adv s i ho] at hm'
      rw [ht2] at hb'
      rcases silent_slot s.adv hb' hm' with ht | ⟨ht, hfl⟩
      · obtain ⟨L0, q, w, d, hr⟩ := ph_refill hph ht
        have ht : s.t1 = .refill := ht
        have hst1 : s.status1 = ⟨false, false, false, false, false, false⟩ := by simp [St.status1, ht]
        have hcs : s.cs1 = ⟨.dirty, true, true, false, false, false⟩ := by simp [St.cs1, ht, cs1]
        have hst : s.stall i = false := by simp [St.stall, ho, hcs]
        have hg := go s i hst (by rw [hst1]) hni
        have hemp : s.mshrEmpty = false := by simp [St.mshrEmpty, mshrEmpty, hr.num]
        have hm := hr.mshr
        rw [hr.cur] at hm
        obtain ⟨_, hq⟩ := ok_fill hr.ok.wk hr.cur
        rw [hg.t1]
        rcases hq with hq | hq <;> simp [St.trans0, hr.fsm, hst1, hemp, hm.1, hq, endT]
      · obtain ⟨L0, q, c, hr⟩ := ph_flushRead hph ht
        have ht : s.t1 = .flushRead := ht
        have hst1 : s.status1 = ⟨false, false, false, false, false, false⟩ := by simp [St.status1, ht]
        have hcs : s.cs1 = ⟨.none, false, s.flushSent1, false, true, false⟩ := by
          simp [St.cs1, ht, hst1, cs1]
        have hst : s.stall i = false := by simp [St.stall, ho, hcs]
        have hg := go s i hst (by rw [hst1]) hni
        have hemp : s.mshrEmpty = false := by simp [St.mshrEmpty, mshrEmpty, hr.num]
        rw [hg.t1]
        have hf := hr.fsm
        by_cases hc : c = 0
        · rw [if_pos hc] at hf
          simp [St.trans0, hf, hst1, hemp, hr.mshr.ty, hr.qty]
          split <;> rfl
        · rw [if_neg hc] at hf
          simp [St.trans0, hf, hst1]
          split <;> rfl
    · by_cases hc : s.t1 = .cacheInit
      · have ht2 : (s.next i).t2 = s.t1 := by simp [St.next, hc]
        rw [ht2, hc] at hb'; cases hb'
      · have hsl := next_slot_stall s i ho hc
        have he := next_M1Eq s i ho hc hni
        rw [hsl] at hm'
        rw [he.t1]
        refine hb ?_ hm'
        have : (s.next i).slot.t2 = s.slot.t2 := by rw [hsl]
        rw [← show s.slot.t2 = s.t2 from rfl, ← this]; exact hb'

/-- The invariant holds in every reachable state. -/
theorem bub (wf : p.WF) {S S' : Sys ι p} {tr : List (Ev ι p)} (h0 : Start S) (h : Run S tr S') (k : ι) :
    Bub (S'.cache k) := by
  induction h with
  | refl =>
    obtain ⟨s, i, hi, hc⟩ := h0.reset k
    intro hb
    rw [hc] at hb
    simp [St.step, hi, St.rst, blocking] at hb
  | @snoc S1 S2 tr ev h hs ih =>
    obtain ⟨T, _, hrel⟩ := refine wf h0 h
    cases hs with
    | exec k' m ms hm => exact ih
    | clock k' i hc =>
      by_cases hk : k = k'
      · subst hk
        have : (S1.clock k i).cache k = (S1.cache k).next i := by
          simp [Sys.clock, St.step, hc.noReset]
        rw [this]
        exact (ih).next (hrel.cache k)
      · have : (S1.clock k' i).cache k = S1.cache k := by
          simp [Sys.clock, upd_other _ hk]
        rw [this]; exact ih

theorem nResp_zero_resp (l : List (Msg p)) (h : nResp l = 0) (hm : memTypes l = []) : l = [] := by
  cases l with
  | nil => rfl
  | cons a l =>
    cases a with
    | mem m => simp at hm
    | resp r => simp at h

/-- When no accepted request is unanswered, nothing in the M2 stage waits for the ports. -/
theorem idle_nonblocking (wf : p.WF) {S S' : Sys ι p} {tr : List (Ev ι p)} (h0 : Start S)
    (h : Run S tr S') (k : ι) (hd : (accepted k tr).length = (responses k tr).length) :
    blocking (S'.cache k).t2 = false := by
  have hbub := bub wf h0 h k
  obtain ⟨T, he, hrel⟩ := refine wf h0 h
  have how := owed he k
  rw [accepted_canon, responses_canon] at how
  have hn : nResp (T.E k) = 0 := by omega
  have hp : (T.L k).cur.pend = 0 := by omega
  have hr := hrel.cache k
  generalize S'.cache k = s at *
  cases hr with
  | init h => exact h.t2
  | run L' hev h =>
    obtain ⟨hok, rest, hE, hph⟩ := h
    have hcur : L'.cur = (T.L k).cur := hev.cur
    rw [← hcur] at hp
    rw [hE, nResp_append] at hn
    have hpi : ∀ {c : Cur p}, c.pend = 0 → c = .idle := by
      intro c hc; cases c <;> first | rfl | cases hc
    have hid : L'.cur = .idle := hpi hp
    have hflow : PFlow s L' rest (outTys (S'.respQ k) (S'.reqQ k)) := by
      cases hph with
      | flow h => exact h
      | req L0 q h => 
        have := accept_nResp L0 q h.cur (by
          rcases h.ty with h | h | h
          · rw [h]; decide
          · rw [h]; decide
          · intro hi; rw [hi] at h; revert h; decide)
        rw [h.acc] at this; simp only at this; omega
      | pass2 q h =>
        rcases h.cur with h | ⟨_, _, h⟩ <;> rw [h.1] at hid <;> cases hid
      | wait h => have := h.mshr; rw [hid] at this; exact this.elim
      | ans L0 h =>
        have := answer_nResp L0 s.mresp0.data
        rw [h.ans] at this; simp only at this
        have h0 : L0.cur = .idle := hpi (by omega)
        have hm := h.mshr; rw [h0] at hm; exact hm.elim
      | refill L0 q w d h =>
        have := answer_nResp L0 s.req1.data
        rw [h.ans] at this; simp only at this
        have h0 : L0.cur = .idle := hpi (by omega)
        have hm := h.mshr; rw [h0] at hm; exact hm.elim
      | ini hU _ => exact absurd trivial hU
      | _ =>
        rename_i h
        have := h.restEq
        rw [this] at hn
        simp at hn
    cases hb : blocking s.t2
    · rfl
    · exfalso
      have hs : s.slot.msgs = [] := nResp_zero_resp _ (by omega) hflow.quiet.slot
      have hr : rest = [] := nResp_zero_resp _ (by omega) hflow.restMem
      have h1 := hbub hb hs
      have h2 := hflow.t1
      have h3 : s.adv.msgs = [] := by rw [← hflow.restEq, hr]
      have hbl : blocking s.adv.t2 = true := by
        show blocking s.t1 = true
        revert h1 h2
        cases s.t1 <;> decide
      rcases silent_slot s.adv hbl h3 with h | h
      · have h : s.t1 = .refill := h
        rw [h] at h2; cases h2
      · have h : s.t1 = .flushRead := h.1
        rw [h] at h2; cases h2

/-- With nothing unanswered the readiness of the request port does not depend on the other ports. -/
theorem idle_reqRdy (wf : p.WF) {S S' : Sys ι p} {tr : List (Ev ι p)} (h0 : Start S)
    (h : Run S tr S') (k : ι) (hd : (accepted k tr).length = (responses k tr).length) (i j : In p) :
    ((S'.cache k).out i).reqRdy = ((S'.cache k).out j).reqRdy := by
  have hb := idle_nonblocking wf h0 h k hd
  simp only [St.out, St.reqRdy, St.allocEn, St.stall, ostall_nonblocking _ _ hb]

/-- **C41.**  In every reachable state, for every input, the equations that connect the
processor model and the cache determine the response-ready signal uniquely: with
nothing in flight the request-ready output of the cache does not depend on its
response-ready input. -/
theorem C41_loop_free (wf : p.WF) {P P' : PSys ι p} {tr : List (Ev ι p)} (h0 : PStart P)
    (h : PRun P tr P') (k : ι) (i : In p) (rdy : Bool) :
    (P'.inFlight k = 0 → ∀ b, ((P'.sys.cache k).out (i.withRdy b)).reqRdy =
      ((P'.sys.cache k).out i).reqRdy) ∧
    ∃ b, ∀ b', Consistent (P'.sys.cache k) (P'.inFlight k) rdy (i.withRdy b') ↔ b' = b := by
  have hcnt := (C36_counter_exact wf h0 h k).1
  have h1 : P'.inFlight k = 0 → ∀ b, ((P'.sys.cache k).out (i.withRdy b)).reqRdy =
      ((P'.sys.cache k).out i).reqRdy := by
    intro hz b
    rw [hz] at hcnt
    have hnb := idle_nonblocking wf h0.sys h.open k (by simp at hcnt; omega)
    exact reqRdy_withRdy _ _ _ (by rw [ostall_nonblocking _ _ hnb, ostall_nonblocking _ _ hnb])
  refine ⟨h1, ?_⟩
  by_cases hz : P'.inFlight k = 0
  · refine ⟨rdy && ((P'.sys.cache k).out i).reqRdy, fun b' => ?_⟩
    simp only [Consistent, procRespRdy, if_pos hz, h1 hz b']
    rfl
  · refine ⟨rdy, fun b' => ?_⟩
    simp only [Consistent, procRespRdy, if_neg hz, In.withRdy]

/-- With nothing in flight the cache sends no response. -/
theorem C41_no_response_when_idle (wf : p.WF) {P P' : PSys ι p} {tr : List (Ev ι p)} (h0 : PStart P)
    (h : PRun P tr P') (k : ι) (hz : P'.inFlight k = 0) (i : In p) :
    ((P'.sys.cache k).out i).respEn = false := by
  have hcnt := (C36_counter_exact wf h0 h k).1
  rw [hz] at hcnt
  have hnb := idle_nonblocking wf h0.sys h.open k (by simp at hcnt; omega)
  simp only [St.out, St.cs2]
  revert hnb
  cases (P'.sys.cache k).t2 <;> simp [blocking, cs2]

/-- The loop is real: there is a register state in which the request-ready output does
depend on the response-ready input (a hit waiting in M2). -/
example : ∃ (s : St p0) (i : In p0), (s.out (i.withRdy true)).reqRdy ≠ (s.out (i.withRdy false)).reqRdy := by
  refine ⟨{ (start0 p0).cache () with fsm := .ready, t2 := .replayRead }, 
    ⟨false, false, default, true, true, false, default⟩, ?_⟩
  decide +kernel

end Verif
