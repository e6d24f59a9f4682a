import Verif.Live
import Verif.PropsBlocking
import Verif.ProcModel
import Verif.DriveK

set_option linter.unusedSectionVars false

/-!
# C15: every request is answered

The environment of one cache does its part in a clock edge of that cache when memory
delivers a response, or when nothing is outstanding at memory and both output ports are
ready.  A cache with `n` lines answers everything it has accepted within `3 + 5 n` such
edges, whatever else happens in between, and is ready again.
-/

namespace Verif
variable {p : Params} {U : Prop} {ι : Type} [DecidableEq ι]

/-! ## Specification -/

/-- The environment helps cache `k` in a clock edge with inputs `i`: memory delivers a
response, or it owes none and both output ports are ready. Proof device; not in the source. -/
def Sys.Helps (S : Sys ι p) (k : ι) (i : In p) : Prop :=
  i.mrespEn = true ∨ (i.respRdy = true ∧ i.mreqRdy = true ∧ S.reqQ k = [] ∧ S.respQ k = [])

/-- An execution with at least `n` clock edges of cache `k` in which the environment
helps. Proof device; not in the source. -/
inductive HRun (k : ι) : Sys ι p → List (Ev ι p) → Nat → Sys ι p → Prop
  | refl (S : Sys ι p) : HRun k S [] 0 S
  | any {S S' S'' : Sys ι p} {tr ev : List (Ev ι p)} {n : Nat} (h : HRun k S tr n S') (hs : Step S' ev S'') :
      HRun k S (tr ++ ev) n S''
  | help {S S' : Sys ι p} {tr : List (Ev ι p)} {n : Nat} (h : HRun k S tr n S') (i : In p)
      (hc : S'.CanClock k i) (hh : S'.Helps k i) :
      HRun k S (tr ++ S'.clockEvs k i) (n + 1) (S'.clock k i)

/-- An infinite execution. Proof device; not in the source. -/
structure Inf (ι : Type) [DecidableEq ι] (p : Params) where
  st : Nat → Sys ι p
  act : Nat → Act ι p
  evs : Nat → List (Ev ι p)
  does : ∀ t, (act t).perform (st t) = some (st (t + 1), evs t)

/-- The events of the first `t` steps. Proof device; not in the source. -/
def Inf.trace (X : Inf ι p) : Nat → List (Ev ι p)
  | 0 => []
  | t + 1 => X.trace t ++ X.evs t

/-- Again and again cache `k` is clocked while its processor is ready to take a response
and memory is ready to take a request. Proof device; not in the source. -/
def Inf.PortsReady (X : Inf ι p) (k : ι) : Prop :=
  ∀ t, ∃ t', t ≤ t' ∧ ∃ i, X.act t' = .clock k i ∧ i.respRdy = true ∧ i.mreqRdy = true

/-- Whenever memory owes cache `k` a response, it later delivers one. Proof device; not in the source. -/
def Inf.MemoryAnswers (X : Inf ι p) (k : ι) : Prop :=
  ∀ t, (X.st t).reqQ k ≠ [] ∨ (X.st t).respQ k ≠ [] →
    ∃ t', t ≤ t' ∧ ∃ i, X.act t' = .clock k i ∧ i.mrespEn = true

/-! ## Lemmas -/

theorem HRun.run {k : ι} {S S' : Sys ι p} {tr : List (Ev ι p)} {n : Nat} (h : HRun k S tr n S') : Run S tr S' := by
  induction h with
  | refl => exact .refl _
  | any _ hs ih => exact .snoc ih hs
  | help _ i hc _ ih => exact .snoc ih (.clock _ _ _ hc)

theorem mu_le {s : St p} {L : L1 p} {E : List (Msg p)} {O : List MType} (wf : p.WF) (h : RIU U s L E O) :
    mu s O ≤ 3 + 5 * 2 ^ p.cntBits := by
  have hN : 2 ≤ 2 ^ p.cntBits := by
    have h1 : 1 ≤ p.cntBits := by have := wf.idx; simp only [Params.cntBits]; omega
    have := Nat.pow_le_pow_right (n := 2) (by omega) h1
    simpa using this
  have hc := s.cnt.isLt
  have hc1 := (s.cnt + 1).isLt
  have hO : O.length ≤ 2 := by
    rcases h.outstanding with h | ⟨_, h⟩ | ⟨_, h⟩ <;> rw [h] <;> simp
  have hm := memTypes_slot_le s.slot
  simp only [mu]
  generalize 2 ^ p.cntBits = N at *
  generalize (s.cnt + 1).toNat = c1 at *
  split
  · omega
  · split <;> (repeat' split) <;> omega

theorem mu_pos_of_ready {s : St p} {i : In p} {O : List MType}
    (hr : s.reqRdy i = true) (ha : s.adv.msgs ≠ []) : 2 ≤ mu s O := by
  obtain ⟨hf, _, _, hn, _⟩ := ready_imp hr
  cases ht : muFlow s.t1
  · simp only [mu, if_neg hf]
    split <;> first | (split <;> omega) | omega | (simp_all [muFlow])
  · rw [mu_flow hf ht hn, if_pos ha]; exact Nat.le_refl _

/-- When the measure is zero, everything is answered and the cache is ready. -/
theorem mu_zero {s : St p} {L : L1 p} {E : List (Msg p)} {O : List MType} (h : RIU U s L E O)
    (hz : mu s O = 0) : E = [] ∧ L.cur = .idle ∧
      ∀ i : In p, i.respRdy = true → i.mreqRdy = true → s.reqRdy i = true := by
  cases h with
  | init h hL hE hO => simp [mu, h.fsm] at hz
  | run L' he h =>
    obtain ⟨hok, rest, hE, hph⟩ := h
    cases hph with
    | flow h =>
      have hni : s.fsm ≠ .init := by rw [h.fsm]; simp
      have hmf : muFlow s.t1 = true := by have := h.t1; revert this; cases s.t1 <;> simp [flowT, muFlow]
      rw [mu_flow hni hmf h.num] at hz
      split at hz
      · cases hz
      rename_i h1
      split at hz
      · cases hz
      rename_i h2
      simp only [ne_eq, Decidable.not_not] at h1 h2
      refine ⟨by rw [hE, h2, h.restEq, h1]; rfl, by rw [← he.cur, h.cur], fun i hr hm => ?_⟩
      obtain ⟨g1, g2, g3⟩ := flow_status s h.t1
      have ho := ostall_ready s i hm hr
      simp [St.reqRdy, h.fsm, g1, St.stall, ho, g2, g3, St.mshrEmpty, mshrEmpty, h.num, St.allocEn, mshrFull]
    | req L0 q h =>
      rw [mu_req q.ty (by rw [h.fsm]; simp) h.t1] at hz; split at hz <;> cases hz
    | pass2 q h =>
      rw [mu_req q.ty (by rw [h.fsm]; simp) h.t1] at hz; split at hz <;> cases hz
    | wait h =>
      rw [mu_wait (by rw [h.fsm]; simp) (by rw [h.t1]; rfl) h.num] at hz; split at hz <;> omega
    | ans L0 h =>
      rw [mu_wait (by rw [h.fsm]; simp) (by rw [h.t1]; rfl) h.num] at hz; split at hz <;> omega
    | refill L0 q w d h => simp [mu, h.fsm, h.t1] at hz
    | inv0 q h => simp [mu, h.fsm, h.t1] at hz
    | inv1 q h => simp [mu, h.fsm, h.t1] at hz
    | inv2 q h => simp [mu, h.fsm, h.t1] at hz
    | fl0 L0 q h => simp [mu, h.fsm, h.t1] at hz
    | fl1 L0 q c h => have : s.fsm ≠ .init := by { rw [h.fsm]; split <;> simp }; simp [mu, this, h.t1] at hz
    | fl2 L0 q c h => simp [mu, h.fsm, h.t1] at hz
    | fl3 L0 q c h => have : s.fsm ≠ .init := by { rw [h.fsm]; split <;> simp }; simp [mu, this, h.t1] at hz
    | ini _ h =>
      have hni : s.fsm ≠ .init := by rw [h.fsm]; simp
      rw [mu_flow hni (by rw [h.t1]; rfl) h.num] at hz
      split at hz
      · cases hz
      rename_i h1
      split at hz
      · cases hz
      rename_i h2
      simp only [ne_eq, Decidable.not_not] at h1 h2
      refine ⟨by rw [hE, h2, h.restEq, h1]; rfl, by rw [← he.cur, h.cur], fun i hr hm => ?_⟩
      obtain ⟨g1, g2, g3⟩ := ini_status s h.t1
      have ho := ostall_ready s i hm hr
      simp [St.reqRdy, h.fsm, g1, St.stall, ho, g2, g3, St.mshrEmpty, mshrEmpty, h.num, St.allocEn, mshrFull]

theorem RIU.ne_cacheInit {s : St p} {i : In p} {L : L1 p} {E : List (Msg p)} {O : List MType} (h : RIU U s L E O)
    (ho : (s.cs2 i).ostall = true) : s.t1 ≠ .cacheInit := by
  cases h with
  | init h hL hE hO => rw [ostall_nonblocking s i h.t2] at ho; cases ho
  | run L' he h => obtain ⟨_, rest, hE, hph⟩ := h; exact hph.ne_cacheInit ho

theorem RIU.slot_quiet {s : St p} {L : L1 p} {E : List (Msg p)} {O : List MType} (h : RIU U s L E O)
    (hn : 1 ≤ nResp s.slot.msgs) : O = [] := by
  have : ∃ r, Msg.resp r ∈ s.slot.msgs := by
    rcases slot_le_one s.slot with h1 | ⟨x, h1⟩ | ⟨r, h1⟩ <;> rw [h1] at hn ⊢
    · cases hn
    · simp at hn
    · exact ⟨r, by simp⟩
  obtain ⟨r, hr⟩ := this
  cases h with
  | init h hL hE hO => exact hO
  | run L' he h => obtain ⟨_, rest, hE, hph⟩ := h; exact hph.resp_quiet hr

/-- Where the first `n` accepted requests stand, with `b` helpful edges left. Proof device; not in the source. -/
def Stands (k : ι) (n b : Nat) (tr : List (Ev ι p)) (S : Sys ι p) : Prop :=
  n ≤ (responses k tr).length ∨
  (1 ≤ nResp (S.cache k).slot.msgs ∧ n ≤ (responses k tr).length + 1 ∧ 1 ≤ b) ∨
  ((accepted k tr).length = n ∧ mu (S.cache k) (outTys (S.respQ k) (S.reqQ k)) ≤ b)

theorem helps_counts {S : Sys ι p} {k : ι} {i : In p} (h : S.Helps k i) :
    Counts (outTys (S.respQ k) (S.reqQ k)) i := by
  rcases h with h | ⟨h1, h2, h3, h4⟩
  · exact .inl h
  · exact .inr ⟨h1, h2, by rw [h3, h4]; rfl⟩

theorem outTys_clock {S : Sys ι p} {k : ι} {i : In p} (hc : S.CanClock k i) :
    outTys ((S.clock k i).respQ k) ((S.clock k i).reqQ k) =
      outTail (outTys (S.respQ k) (S.reqQ k)) i ++ memTypes ((S.cache k).out i).msgs := by
  have h1 : outTail (outTys (S.respQ k) (S.reqQ k)) i =
      outTys (if i.mrespEn then (S.respQ k).tail else S.respQ k) (S.reqQ k) := by
    simp only [outTail]
    cases hm : i.mrespEn
    · rfl
    · obtain ⟨l, hl⟩ := hc.mem hm
      rw [hl]; rfl
  rw [h1]
  simp only [Sys.clock, upd_same, outTys, List.map_append, List.append_assoc, Out.msgs, memTypes_append]
  congr 2
  cases ((S.cache k).out i).mreqEn <;> cases ((S.cache k).out i).respEn <;> simp [MReq.canon_ty]

theorem stands_clock (wf : p.WF) {S0 S : Sys ι p} {tr : List (Ev ι p)} (h0 : Start S0) (hr : Run S0 tr S)
    {k : ι} {i : In p} (hc : S.CanClock k i) {n b : Nat} (h : Stands k n b tr S) :
    Stands k n b (tr ++ S.clockEvs k i) (S.clock k i) ∧
    (S.Helps k i → Stands k n (b - 1) (tr ++ S.clockEvs k i) (S.clock k i)) := by
  obtain ⟨T, he, hrel⟩ := refine wf h0 hr
  have hRI := hrel.cache k
  have ho := owed he k
  rw [accepted_canon, responses_canon] at ho
  have hleg := hrel.legal hc
  have hs : (S.clock k i).cache k = (S.cache k).next i := by
    simp [Sys.clock, St.step, hc.noReset]
  have hresp := responses_clockEvs S k i
  have hacc := accepted_clock_len S k i
  simp only [Stands, responses_append, accepted_append, List.length_append, hresp, hacc, hs, outTys_clock hc]
  unfold Stands at h
  generalize hO : outTys (S.respQ k) (S.reqQ k) = O at *
  rcases h with h | ⟨h1, h2, h3⟩ | ⟨h1, h2⟩
  · exact ⟨.inl (by omega), fun _ => .inl (by omega)⟩
  · -- the response is in the output register
    have hO' := hRI.slot_quiet h1
    cases hst : ((S.cache k).cs2 i).ostall
    · rw [out_msgs_adv _ _ hst]
      exact ⟨.inl (by omega), fun _ => .inl (by omega)⟩
    · have hsl := next_slot_stall _ _ hst (hRI.ne_cacheInit hst)
      refine ⟨.inr (.inl ⟨by rw [hsl]; exact h1, by omega, h3⟩), fun hh => ?_⟩
      have hcn := helps_counts hh
      rw [hO, hO'] at hcn
      rcases hcn with hm | ⟨g1, g2, _⟩
      · rw [hO'] at hleg; rw [no_mresp hleg] at hm; cases hm
      · rw [ostall_ready _ _ g2 g1] at hst; cases hst
  · cases hre : i.reqEn
    · -- no new request
      obtain ⟨d1, d2⟩ := hRI.dec wf hleg hre
      refine ⟨.inr (.inr ⟨by simpa using h1, by omega⟩), fun hh => .inr (.inr ⟨by simpa using h1, ?_⟩)⟩
      have hcn := helps_counts hh
      rw [hO] at hcn
      have := d2 hcn
      omega
    · -- a new request is accepted
      have hrdy : (S.cache k).reqRdy i = true := (hc.req hre).1
      obtain ⟨hcur, _, _⟩ := hRI.ready hrdy
      have hE := hRI.ready_adv hrdy
      have hp : (T.L k).cur.pend = 0 := by rw [hcur]; rfl
      rw [hE, hp, nResp_append] at ho
      have hst : ((S.cache k).cs2 i).ostall = false := by
        have := (ready_imp hrdy).2.2.1
        simp only [St.stall, Bool.or_eq_false_iff] at this
        exact this.2
      rw [out_msgs_adv _ _ hst, next_slot_adv _ _ hst]
      have ha := nResp_slot (S.cache k).adv
      by_cases hz : nResp (S.cache k).adv.msgs = 0
      · exact ⟨.inl (by omega), fun _ => .inl (by omega)⟩
      · have hne : (S.cache k).adv.msgs ≠ [] := by intro hx; rw [hx] at hz; exact hz rfl
        have := mu_pos_of_ready (O := O) hrdy hne
        exact ⟨.inr (.inl ⟨by omega, by omega, by omega⟩), fun _ => .inr (.inl ⟨by omega, by omega, by omega⟩)⟩

theorem clock_other {S : Sys ι p} {k k' : ι} (h : k' ≠ k) (i : In p) :
    (S.clock k i).cache k' = S.cache k' ∧ (S.clock k i).reqQ k' = S.reqQ k' ∧ (S.clock k i).respQ k' = S.respQ k' := by
  simp [Sys.clock, upd_other _ h]

theorem outTys_exec {S : Sys ι p} {k k' : ι} {m : MReq p} {ms : List (MReq p)} (h : S.reqQ k' = m :: ms) :
    outTys ((S.exec k' m).respQ k) ((S.exec k' m).reqQ k) = outTys (S.respQ k) (S.reqQ k) := by
  simp only [Sys.exec, upd_app]
  split
  · rename_i hk; subst hk; simp [outTys, h]
  · rfl

theorem stands_step (wf : p.WF) {S0 S S' : Sys ι p} {tr ev : List (Ev ι p)} (h0 : Start S0) (hr : Run S0 tr S)
    {k : ι} (hs : Step S ev S') {n b : Nat} (h : Stands k n b tr S) : Stands k n b (tr ++ ev) S' := by
  cases hs with
  | clock k' i hc =>
    by_cases hk : k = k'
    · subst hk; exact (stands_clock wf h0 hr hc h).1
    · obtain ⟨a1, a2⟩ := clockEvs_other S hk i
      obtain ⟨b1, b2, b3⟩ := clock_other (S := S) hk i
      simpa only [Stands, accepted_append, responses_append, a1, a2, List.append_nil, b1, b2, b3] using h
  | exec k' m ms hm =>
    have e1 : accepted k [(.exec k' m (memExec S.mem m).2 : Ev ι p)] = [] := rfl
    have e2 : responses k [(.exec k' m (memExec S.mem m).2 : Ev ι p)] = [] := rfl
    simp only [Stands, accepted_append, responses_append, e1, e2, List.append_nil, outTys_exec hm]
    exact h

theorem stands_run (wf : p.WF) {S S0 S1 : Sys ι p} {tr0 tr : List (Ev ι p)} {k : ι} {n : Nat} (h0 : Start S)
    (hr : Run S tr0 S0) (hw : HRun k S0 tr n S1) :
    Stands k (accepted k tr0).length (3 + 5 * 2 ^ p.cntBits - n) (tr0 ++ tr) S1 := by
  induction hw with
  | refl =>
    obtain ⟨T, he, hrel⟩ := refine wf h0 hr
    refine .inr (.inr ⟨by simp, ?_⟩)
    exact mu_le wf (hrel.cache k)
  | any hw hs ih =>
    rw [← List.append_assoc]
    exact stands_step wf h0 (hr.trans hw.run) hs ih
  | @help Sa tra m hw i hc hh ih =>
    rw [← List.append_assoc]
    have := (stands_clock wf h0 (hr.trans hw.run) hc ih).2 hh
    rwa [Nat.sub_sub] at this

theorem mu_run (wf : p.WF) {S S0 S1 : Sys ι p} {tr0 tr : List (Ev ι p)} {k : ι} {n : Nat} (h0 : Start S)
    (hr : Run S tr0 S0) (hw : HRun k S0 tr n S1) (ha : accepted k tr = []) :
    mu (S1.cache k) (outTys (S1.respQ k) (S1.reqQ k)) ≤ 3 + 5 * 2 ^ p.cntBits - n := by
  have clk : ∀ {Sa : Sys ι p} {tra : List (Ev ι p)} {i : In p}, Run S tra Sa → Sa.CanClock k i →
      accepted k (Sa.clockEvs k i) = [] →
      mu ((Sa.clock k i).cache k) (outTys ((Sa.clock k i).respQ k) ((Sa.clock k i).reqQ k)) ≤
        mu (Sa.cache k) (outTys (Sa.respQ k) (Sa.reqQ k)) ∧
      (Sa.Helps k i → mu (Sa.cache k) (outTys (Sa.respQ k) (Sa.reqQ k)) ≠ 0 →
        mu ((Sa.clock k i).cache k) (outTys ((Sa.clock k i).respQ k) ((Sa.clock k i).reqQ k)) <
        mu (Sa.cache k) (outTys (Sa.respQ k) (Sa.reqQ k))) := by
    intro Sa tra i hra hc he
    obtain ⟨T, _, hrel⟩ := refine wf h0 hra
    have hre : i.reqEn = false := by
      have := accepted_clock_len Sa k i
      rw [he] at this
      cases h : i.reqEn
      · rfl
      · rw [h] at this; cases this
    have hd := (hrel.cache k).dec wf (hrel.legal hc) hre
    have hs : (Sa.clock k i).cache k = (Sa.cache k).next i := by
      simp [Sys.clock, St.step, hc.noReset]
    rw [outTys_clock hc, hs]
    exact ⟨hd.1, fun hh => hd.2 (helps_counts hh)⟩
  induction hw with
  | refl =>
    obtain ⟨T, _, hrel⟩ := refine wf h0 hr
    exact mu_le wf (hrel.cache k)
  | @any Sa Sb tra ev m hw hs ih =>
    rw [accepted_append, List.append_eq_nil_iff] at ha
    have ih := ih ha.1
    cases hs with
    | clock k' i hc =>
      by_cases hk : k = k'
      · subst hk
        exact Nat.le_trans (clk (hr.trans hw.run) hc ha.2).1 ih
      · obtain ⟨b1, b2, b3⟩ := clock_other (S := Sa) hk i
        rw [b1, b2, b3]; exact ih
    | exec k' mm ms hm => rw [outTys_exec hm]; exact ih
  | @help Sa tra m hw i hc hh ih =>
    rw [accepted_append, List.append_eq_nil_iff] at ha
    have ih := ih ha.1
    obtain ⟨c1, c2⟩ := clk (hr.trans hw.run) hc ha.2
    have := c2 hh
    omega

/-! ## C15 -/

/-- **C15 (a).**  However the environment behaves, after `3 + 5 * nLines` clock edges in
which it helped cache `k`, everything `k` had accepted before is answered. -/
theorem C15_answered_in_bounded_help (wf : p.WF) {S S0 S1 : Sys ι p} {tr0 tr : List (Ev ι p)} {k : ι} {n : Nat}
    (h0 : Start S) (hr : Run S tr0 S0) (hw : HRun k S0 tr n S1) (hn : 3 + 5 * p.nLines ≤ n) :
    (accepted k tr0).length ≤ (responses k (tr0 ++ tr)).length := by
  rw [nLines_eq] at hn
  rcases stands_run wf h0 hr hw with h | ⟨_, _, h⟩ | ⟨h1, h2⟩
  · exact h
  · omega
  · obtain ⟨T, he, hrel⟩ := refine wf h0 (hr.trans hw.run)
    have hz : mu (S1.cache k) (outTys (S1.respQ k) (S1.reqQ k)) = 0 := by omega
    obtain ⟨hE, hc, _⟩ := mu_zero (hrel.cache k) hz
    have ho := owed he k
    rw [accepted_canon, responses_canon, hE, hc] at ho
    simp only [nResp_nil, Cur.pend] at ho
    omega

/-- **C15 (b).**  After `3 + 5 * nLines` helpful clock edges without a new request, cache
`k` is ready for one whenever both output ports are ready. -/
theorem C15_ready_in_bounded_help (wf : p.WF) {S S0 S1 : Sys ι p} {tr0 tr : List (Ev ι p)} {k : ι} {n : Nat}
    (h0 : Start S) (hr : Run S tr0 S0) (hw : HRun k S0 tr n S1) (hn : 3 + 5 * p.nLines ≤ n)
    (ha : accepted k tr = []) (i : In p) (hi1 : i.respRdy = true) (hi2 : i.mreqRdy = true) :
    ((S1.cache k).out i).reqRdy = true := by
  rw [nLines_eq] at hn
  have := mu_run wf h0 hr hw ha
  obtain ⟨T, _, hrel⟩ := refine wf h0 (hr.trans hw.run)
  exact (mu_zero (hrel.cache k) (by omega)).2.2 i hi1 hi2

theorem Inf.run (X : Inf ι p) (t : Nat) : Run (X.st 0) (X.trace t) (X.st t) := by
  induction t with
  | zero => exact .refl _
  | succ t ih => exact .snoc ih (Act.perform_step (X.does t))

theorem Inf.clocked (X : Inf ι p) {t : Nat} {k : ι} {i : In p} (h : X.act t = .clock k i) :
    (X.st t).CanClock k i ∧ X.st (t + 1) = (X.st t).clock k i ∧ X.evs t = (X.st t).clockEvs k i := by
  have := X.does t
  rw [h] at this
  simp only [Act.perform] at this
  split at this
  · rename_i hc
    simp only [Option.some.injEq, Prod.mk.injEq] at this
    refine ⟨⟨hc.1, hc.2.1, fun hm => ?_⟩, this.1.symm, this.2.symm⟩
    have h2 := hc.2.2 hm
    cases hq : (X.st t).respQ k with
    | nil => rw [hq] at h2; cases h2
    | cons a l => rw [hq] at h2; simp at h2; exact ⟨l, by rw [h2]⟩
  · cases this

/-- The events from step `t` on. Proof device; not in the source. -/
def Inf.from (X : Inf ι p) (t : Nat) : Nat → List (Ev ι p)
  | 0 => []
  | d + 1 => X.from t d ++ X.evs (t + d)

theorem Inf.trace_add (X : Inf ι p) (t d : Nat) : X.trace (t + d) = X.trace t ++ X.from t d := by
  induction d with
  | zero => simp [Inf.from]
  | succ d ih => rw [← Nat.add_assoc]; simp only [Inf.trace, Inf.from, ih, List.append_assoc]

theorem Inf.any (X : Inf ι p) {k : ι} {t : Nat} {n d : Nat} (h : HRun k (X.st t) (X.from t d) n (X.st (t + d))) (e : Nat) :
    HRun k (X.st t) (X.from t (d + e)) n (X.st (t + (d + e))) := by
  induction e with
  | zero => exact h
  | succ e ih => exact .any ih (Act.perform_step (X.does (t + (d + e))))

theorem Inf.helped (X : Inf ι p) {k : ι} (hp : X.PortsReady k) (hm : X.MemoryAnswers k) (t : Nat) :
    ∃ t', t ≤ t' ∧ ∃ i, X.act t' = .clock k i ∧ (X.st t').Helps k i := by
  by_cases h : ∃ t', t ≤ t' ∧ ∃ i, X.act t' = .clock k i ∧ i.mrespEn = true
  · obtain ⟨t', h1, i, h2, h3⟩ := h
    exact ⟨t', h1, i, h2, .inl h3⟩
  · obtain ⟨t', h1, i, h2, h3, h4⟩ := hp t
    refine ⟨t', h1, i, h2, .inr ⟨h3, h4, ?_⟩⟩
    have hno : ¬ ((X.st t').reqQ k ≠ [] ∨ (X.st t').respQ k ≠ []) := by
      intro hx
      obtain ⟨t'', g1, g2⟩ := hm t' hx
      exact h ⟨t'', Nat.le_trans h1 g1, g2⟩
    by_cases hq : (X.st t').reqQ k = []
    · by_cases hq' : (X.st t').respQ k = []
      · exact ⟨hq, hq'⟩
      · exact absurd (.inr hq') hno
    · exact absurd (.inl hq) hno

theorem Inf.hrun (X : Inf ι p) {k : ι} (hp : X.PortsReady k) (hm : X.MemoryAnswers k) (t n : Nat) :
    ∃ d, HRun k (X.st t) (X.from t d) n (X.st (t + d)) := by
  induction n with
  | zero => exact ⟨0, .refl _⟩
  | succ n ih =>
    obtain ⟨d, hd⟩ := ih
    obtain ⟨t', h1, i, h2, h3⟩ := X.helped hp hm (t + d)
    obtain ⟨e, rfl⟩ : ∃ e, t' = t + d + e := ⟨t' - (t + d), by omega⟩
    have := X.any hd e
    obtain ⟨c1, c2, c3⟩ := X.clocked h2
    rw [show t + d + e = t + (d + e) from Nat.add_assoc _ _ _] at c1 c2 c3 h3
    have h4 := HRun.help this i c1 h3
    rw [← c2, ← c3] at h4
    exact ⟨d + e + 1, h4⟩

/-- **C15 (c).**  In every infinite execution in which cache `k` is clocked again and again
with both output ports ready and memory answers, every accepted request is answered: at any
time `t` there is a later time by which as many responses have come out as requests had been
accepted by `t` (and by C01-C03 the responses come in the order of the requests). -/
theorem C15_eventually_answered (wf : p.WF) (X : Inf ι p) (h0 : Start (X.st 0)) (k : ι)
    (hp : X.PortsReady k) (hm : X.MemoryAnswers k) (t : Nat) :
    ∃ t', t ≤ t' ∧ (accepted k (X.trace t)).length ≤ (responses k (X.trace t')).length := by
  obtain ⟨d, hd⟩ := X.hrun hp hm t (3 + 5 * p.nLines)
  refine ⟨t + d, by omega, ?_⟩
  rw [X.trace_add]
  exact C15_answered_in_bounded_help wf h0 (X.run t) hd (Nat.le_refl _)

/-- **C15 (d).**  In such an execution, from any time on, either another request is accepted
or there is a time from which on the cache is ready in every cycle in which both output ports
are. -/
theorem C15_eventually_ready (wf : p.WF) (X : Inf ι p) (h0 : Start (X.st 0)) (k : ι)
    (hp : X.PortsReady k) (hm : X.MemoryAnswers k) (t : Nat) :
    (∃ t', t ≤ t' ∧ (accepted k (X.trace t)).length < (accepted k (X.trace t')).length) ∨
    ∃ t', t ≤ t' ∧ ∀ t'', t' ≤ t'' → ∀ i : In p, i.respRdy = true → i.mreqRdy = true →
      (((X.st t'').cache k).out i).reqRdy = true := by
  obtain ⟨d, hd⟩ := X.hrun hp hm t (3 + 5 * p.nLines)
  by_cases h : ∃ t', t ≤ t' ∧ (accepted k (X.trace t)).length < (accepted k (X.trace t')).length
  · exact .inl h
  refine .inr ⟨t + d, by omega, fun t'' ht i hi1 hi2 => ?_⟩
  obtain ⟨e, rfl⟩ : ∃ e, t'' = t + (d + e) := ⟨t'' - (t + d), by omega⟩
  refine C15_ready_in_bounded_help wf h0 (X.run t) (X.any hd e) (Nat.le_refl _) ?_ i hi1 hi2
  have : ¬ (accepted k (X.trace t)).length < (accepted k (X.trace (t + (d + e)))).length :=
    fun hx => h ⟨_, by omega, hx⟩
  rw [X.trace_add, accepted_append, List.length_append] at this
  exact List.eq_nil_of_length_eq_zero (by omega)

/-! ## Concrete cases -/

namespace LiveEx

/-- Memory first, then a clock edge with both ports ready. Proof device; not in the source. -/
def act (S : Sys Unit p) (q : Option (CReq p)) : Act Unit p :=
  if S.reqQ () = [] then .clock () (driveIn S q) else .exec ()

/-- Proof device; not in the source. -/
def st : Nat → Sys Unit p → List (CReq p) → Sys Unit p × List (CReq p)
  | 0, S, qs => (S, qs)
  | n + 1, S, qs =>
    let x := st n S qs
    match x.1.reqQ () with
    | [] => (x.1.clock () (driveIn x.1 x.2.head?), if (driveIn x.1 x.2.head?).reqEn then x.2.tail else x.2)
    | m :: _ => (x.1.exec () m, x.2)

/-- Proof device; not in the source. -/
def evs (S : Sys Unit p) (q : Option (CReq p)) : List (Ev Unit p) :=
  match S.reqQ () with
  | [] => S.clockEvs () (driveIn S q)
  | m :: _ => [.exec () m (memExec S.mem m).2]

theorem driveIn_rdy (S : Sys Unit p) (q : Option (CReq p)) :
    (driveIn S q).respRdy = true ∧ (driveIn S q).mreqRdy = true ∧ (driveIn S q).reset = false := by
  simp only [driveIn]; refine ⟨?_, ?_, ?_⟩ <;> split <;> split <;> (try split) <;> rfl

theorem driveIn_mresp (S : Sys Unit p) (q : Option (CReq p)) :
    ((driveIn S q).mrespEn = true → (S.respQ ()).head? = some (driveIn S q).mresp) ∧
    (S.respQ () ≠ [] → (driveIn S q).mrespEn = true) := by
  simp only [driveIn]
  cases hr : S.respQ () with
  | nil =>
    refine ⟨fun h => ?_, fun h => absurd rfl h⟩
    exfalso
    simp only at h
    split at h
    · split at h <;> cases h
    · cases h
  | cons r l => exact ⟨fun _ => rfl, fun _ => rfl⟩

theorem driveIn_req (S : Sys Unit p) (q : Option (CReq p)) (h : (driveIn S q).reqEn = true) :
    ((S.cache ()).out (driveIn S q)).reqRdy = true ∧ (driveIn S q).req.ty ≠ MT.INIT := by
  simp only [driveIn] at h ⊢
  cases q with
  | none => simp only at h; split at h <;> cases h
  | some q =>
    simp only at h ⊢
    by_cases hc : (((S.cache ()).out ⟨false, false, default, true, true, false, default⟩).reqRdy &&
        (q.ty != MT.INIT)) = true
    · rw [if_pos hc]
      simp only [Bool.and_eq_true, bne_iff_ne] at hc
      refine ⟨?_, ?_⟩
      · refine Eq.trans ?_ hc.1
        apply out_rdy_congr <;> (split <;> rfl)
      · split <;> exact hc.2
    · rw [if_neg hc] at h
      split at h <;> cases h

/-- The requests `qs` offered as early as possible, for ever. Proof device; not in the source. -/
def inf (S : Sys Unit p) (qs : List (CReq p)) : Inf Unit p where
  st t := (st t S qs).1
  act t := act (st t S qs).1 (st t S qs).2.head?
  evs t := evs (st t S qs).1 (st t S qs).2.head?
  does t := by
    simp only [st]
    generalize st t S qs = x
    simp only [act, evs]
    cases h : x.1.reqQ () with
    | nil =>
      simp only [if_true, Act.perform]
      rw [if_pos]
      exact ⟨(driveIn_rdy _ _).2.2, driveIn_req _ _, (driveIn_mresp _ _).1⟩
    | cons m ms => simp [Act.perform, h]

theorem inf_clock (S : Sys Unit p) (qs : List (CReq p)) (t : Nat) :
    ∃ t', t ≤ t' ∧ ((inf S qs).st t').reqQ () = [] ∧
      ((((inf S qs).st t).reqQ () ≠ [] ∨ ((inf S qs).st t).respQ () ≠ []) → ((inf S qs).st t').respQ () ≠ []) := by
  generalize hl : (((inf S qs).st t).reqQ ()).length = l
  induction l generalizing t with
  | zero =>
    have := List.eq_nil_of_length_eq_zero hl
    refine ⟨t, Nat.le_refl _, this, fun h => ?_⟩
    rcases h with h | h
    · exact absurd this h
    · exact h
  | succ l ih =>
    cases hq : ((inf S qs).st t).reqQ () with
    | nil => rw [hq] at hl; cases hl
    | cons m ms =>
      have e : (inf S qs).st (t + 1) = ((inf S qs).st t).exec () m := by
        simp only [inf, st] at hq ⊢
        rw [hq]
      have e2 : ((inf S qs).st (t + 1)).reqQ () = ms := by rw [e]; simp [Sys.exec, hq]
      have e3 : ((inf S qs).st (t + 1)).respQ () ≠ [] := by rw [e]; simp [Sys.exec]
      obtain ⟨t', h1, h2, h3⟩ := ih (t + 1) (by rw [e2]; rw [hq] at hl; simpa using hl)
      exact ⟨t', by omega, h2, fun _ => h3 (.inr e3)⟩

/-- C15 (c), (d): such executions exist for every start and every list of requests. -/
theorem inf_fair (S : Sys Unit p) (qs : List (CReq p)) :
    (inf S qs).PortsReady () ∧ (inf S qs).MemoryAnswers () := by
  refine ⟨fun t => ?_, fun t h => ?_⟩
  · obtain ⟨t', h1, h2, _⟩ := inf_clock S qs t
    refine ⟨t', h1, driveIn (st t' S qs).1 (st t' S qs).2.head?, ?_, (driveIn_rdy _ _).1, (driveIn_rdy _ _).2.1⟩
    have h2 : (st t' S qs).1.reqQ () = [] := h2
    simp only [inf, act, if_pos h2]
  · obtain ⟨t', h1, h2, h3⟩ := inf_clock S qs t
    refine ⟨t', h1, driveIn (st t' S qs).1 (st t' S qs).2.head?, ?_, (driveIn_mresp _ _).2 (h3 h)⟩
    have h2 : (st t' S qs).1.reqQ () = [] := h2
    simp only [inf, act, if_pos h2]

/-- A write, a flush and a read that misses. Proof device; not in the source. -/
def prog : List (CReq p1) := [⟨MT.WRITE, 1, ⟨0, 0, 4⟩, 0, 0xab⟩, ⟨MT.FLUSH, 0, ⟨0, 0, 0⟩, 0, 0⟩, ⟨MT.READ, 0, ⟨1, 0, 4⟩, 0, 0⟩]

end LiveEx

/-- C15 (a), (b): executions with enough helpful edges exist from every state. -/
example (t : Nat) : ∃ d tr, HRun () ((LiveEx.inf (start0 p1) LiveEx.prog).st t) tr (3 + 5 * p1.nLines)
    ((LiveEx.inf (start0 p1) LiveEx.prog).st (t + d)) := by
  obtain ⟨h1, h2⟩ := LiveEx.inf_fair (start0 p1) LiveEx.prog
  obtain ⟨d, hd⟩ := (LiveEx.inf (start0 p1) LiveEx.prog).hrun h1 h2 t (3 + 5 * p1.nLines)
  exact ⟨d, _, hd⟩

/-- C15: two requests are accepted and one answered, later all three are answered. -/
example : Start ((LiveEx.inf (start0 p1) LiveEx.prog).st 0) ∧
    (accepted () ((LiveEx.inf (start0 p1) LiveEx.prog).trace 13)).length = 2 ∧
    (responses () ((LiveEx.inf (start0 p1) LiveEx.prog).trace 13)).length = 1 ∧
    (responses () ((LiveEx.inf (start0 p1) LiveEx.prog).trace 60)).length = 3 :=
  ⟨start0_start p1, by decide +kernel, by decide +kernel, by decide +kernel⟩

end Verif
