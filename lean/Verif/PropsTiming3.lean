import Verif.TimingMaint

/-!
# C62: timing of invalidations and flushes
-/

namespace Verif
variable {p : Params} {ι : Type} [DecidableEq ι]
set_option linter.unusedSectionVars false

theorem Held.run {k : ι} {n w : Nat} {S S' : Sys ι p} {tr : List (Ev ι p)} (h : Held k n w S tr S') : Run S tr S' := by
  induction h with
  | refl => exact .refl _
  | edge h i hc _ _ _ ih => exact ih.snoc (.clock _ k i hc)
  | other h k' _ i hc ih => exact ih.snoc (.clock _ k' i hc)
  | exec h k' m ms hq ih => exact ih.snoc (.exec _ k' m ms hq)

theorem sent_clockEvs (S : Sys ι p) (k : ι) (i : In p) :
    (sent k (S.clockEvs k i)).length = (memTypes ((S.cache k).out i).msgs).length := by
  simp only [Sys.clockEvs, sent_append, Out.msgs, memTypes_append]
  cases i.reqEn <;> cases ((S.cache k).out i).mreqEn <;> cases ((S.cache k).out i).respEn <;>
    simp [sent, memTypes]

theorem waits_eq (S : Sys ι p) (k : ι) :
    (if (S.reqQ k).isEmpty && (S.respQ k).isEmpty then 0 else 1) = waits (outTys (S.respQ k) (S.reqQ k)) := by
  cases h1 : S.reqQ k <;> cases h2 : S.respQ k <;> simp [waits, outTys]

theorem outTys_exec (S : Sys ι p) (k k' : ι) {m : MReq p} {ms : List (MReq p)} (h : S.reqQ k' = m :: ms) :
    outTys ((S.exec k' m).respQ k) ((S.exec k' m).reqQ k) = outTys (S.respQ k) (S.reqQ k) := by
  by_cases hk : k = k'
  · subst hk; simp [Sys.exec, outTys, upd, h]
  · simp [Sys.exec, upd, hk]

theorem held_left (wf : p.WF) {S S₁ S₂ : Sys ι p} {tr tr₁ : List (Ev ι p)} (h0 : Start S) (h : Run S tr S₁) {k : ι} {a : Nat}
    (hl : Left (S₁.cache k) (outTys (S₁.respQ k) (S₁.reqQ k)) a) {n w : Nat} (hh : Held k n w S₁ tr₁ S₂) :
    accepted k tr₁ = [] ∧
    (∃ b, Left (S₂.cache k) (outTys (S₂.respQ k) (S₂.reqQ k)) b ∧ n + b = a + w + 3 * (sent k tr₁).length) ∧
    ((S₁.cache k).t1 = .invStart → sent k tr₁ = [] ∧ w = 0 ∧
      ((S₂.cache k).t1 = .invStart ∨ (S₂.cache k).t1 = .invWrite ∨ (S₂.cache k).t1 = .replayInv)) := by
  induction hh with
  | refl => exact ⟨rfl, ⟨a, hl, by simp [sent]⟩, fun h => ⟨rfl, rfl, .inl h⟩⟩
  | @edge n w S₁ S' tr₁ hh i hc h1 h2 hr ih =>
    obtain ⟨i1, ⟨b, i2, i3⟩, i4⟩ := ih h hl
    have hrun := h.append hh.run
    obtain ⟨T, hE, hrel⟩ := refine wf h0 hrun
    obtain ⟨T', hE', hrel'⟩ := refine wf h0 (hrun.snoc (.clock _ k i hc))
    have hRI' := hrel'.cache k
    rw [clock_cache hc] at hRI'
    have ho := ostall_ready (S'.cache k) i h2 h1
    have hnr : (S'.cache k).t1 ≠ .replayInv ∧ (S'.cache k).t1 ≠ .replayFlush := by
      constructor <;> intro e <;>
      · have := flow_ready (s := S'.cache k) (by rw [e]; rfl) (by rw [e]; simp) (by rw [e]; simp) (hrel.cache k) ho
        have hr' : (S'.cache k).reqRdy i = false := hr
        rw [this] at hr'; cases hr'
    have hsent : (sent k (S'.clockEvs k i)).length = (memTypes (S'.cache k).slot.msgs).length := by
      rw [sent_clockEvs, (ready_out _ h1 h2).1]
    have hacc : accepted k (S'.clockEvs k i) = [] := by
      have : i.reqEn = false := by
        cases he : i.reqEn
        · rfl
        · rw [(hc.req he).1] at hr; cases hr
      simp only [Sys.clockEvs, this, accepted_append]
      cases ((S'.cache k).out i).mreqEn <;> cases ((S'.cache k).out i).respEn <;> simp [accepted]
    refine ⟨by rw [accepted_append, i1, hacc]; rfl, ?_, ?_⟩
    · obtain ⟨a', g1, g2⟩ := left_step wf i2 hnr (hrel.legal hc) ho hRI'
      refine ⟨a', by rw [clock_cache hc]; exact g1, ?_⟩
      rw [sent_append, List.length_append, hsent, waits_eq]
      omega
    · intro e
      obtain ⟨j1, j2, j3⟩ := i4 e
      have j3 : (S'.cache k).t1 = .invStart ∨ (S'.cache k).t1 = .invWrite := by
        rcases j3 with h | h | h
        · exact .inl h
        · exact .inr h
        · exact absurd h hnr.1
      obtain ⟨q1, q2, q3⟩ := inv_quiet (i := i) i2 j3 ho
      rw [q2] at hsent
      refine ⟨by rw [sent_append, j1, List.eq_nil_of_length_eq_zero hsent]; rfl, ?_, ?_⟩
      · rw [waits_eq, q1, j2]; rfl
      · rw [clock_cache hc]; exact .inr q3
  | @other n w S₁ S' tr₁ hh k' hk i hc ih =>
    obtain ⟨i1, ⟨b, i2, i3⟩, i4⟩ := ih h hl
    obtain ⟨g1, g2, g3⟩ := clockEvs_elsewhere S' k k' i hk
    have e1 : (S'.clock k' i).cache k = S'.cache k := by simp [Sys.clock, upd, Ne.symm hk]
    have e2 : (S'.clock k' i).reqQ k = S'.reqQ k := by simp [Sys.clock, upd, Ne.symm hk]
    have e3 : (S'.clock k' i).respQ k = S'.respQ k := by simp [Sys.clock, upd, Ne.symm hk]
    rw [e1, e2, e3, accepted_append, sent_append, g1, g3, List.append_nil, List.append_nil]
    exact ⟨i1, ⟨b, i2, i3⟩, i4⟩
  | @exec n w S₁ S' tr₁ hh k' m ms hq ih =>
    obtain ⟨i1, ⟨b, i2, i3⟩, i4⟩ := ih h hl
    rw [outTys_exec S' k k' hq, accepted_append, sent_append]
    have e : (S'.exec k' m).cache k = S'.cache k := rfl
    have e1 : accepted k [(.exec k' m (memExec S'.mem m).2 : Ev ι p)] = [] := rfl
    have e2 : sent k [(.exec k' m (memExec S'.mem m).2 : Ev ι p)] = [] := rfl
    rw [e, e1, e2, List.append_nil, List.append_nil]
    exact ⟨i1, ⟨b, i2, i3⟩, i4⟩

/-- Acceptance of an invalidation or flush. -/
theorem left_start (wf : p.WF) {S S₁ : Sys ι p} {tr : List (Ev ι p)} (h0 : Start S) (h : Run S tr S₁) {k : ι} {i : In p}
    (hc : S₁.CanClock k i) (he : i.reqEn = true) (hty : i.req.ty = MT.INV ∨ i.req.ty = MT.FLUSH) :
    Left ((S₁.clock k i).cache k) (outTys ((S₁.clock k i).respQ k) ((S₁.clock k i).reqQ k)) (p.nLines + 1) ∧
    (i.req.ty = MT.INV → ((S₁.clock k i).cache k).t1 = .invStart) := by
  obtain ⟨T, hE, hrel⟩ := refine wf h0 h
  obtain ⟨T', hE', hrel'⟩ := refine wf h0 (h.snoc (.clock _ k i hc))
  have := accept_maint (hrel.legal hc) (hrel.cache k) he
  rw [← clock_cache hc] at this
  rw [nLines_eq]
  refine ⟨?_, this.1⟩
  rcases hty with ht | ht
  · exact left_invStart (hrel'.cache k) (this.1 ht)
  · exact left_flushStart (hrel'.cache k) (this.2 ht)

/-- **C62 (a).**  Maintenance latency.  Let an edge accept an INV or FLUSH, and let
`n` edges follow with the cache not ready, `w` of them waiting for memory, with
`m` memory requests sent.  Then `n` is at most `nLines + 1 + w + 3 * m`; and when
the cache is ready again, it is exactly that; all but this request have been
answered by the next edge, and the edge after it puts the response on the port. -/
theorem C62_maintenance_latency (wf : p.WF) {S S₁ S₂ S₃ : Sys ι p} {tr tr₁ tr₂ : List (Ev ι p)} (h0 : Start S) (h : Run S tr S₁)
    {k : ι} {i : In p} (hc : S₁.CanClock k i) (he : i.reqEn = true) (hty : i.req.ty = MT.INV ∨ i.req.ty = MT.FLUSH)
    {n w : Nat} (hh : Held k n w (S₁.clock k i) tr₁ S₂) (ht : Ticks k 1 S₂ tr₂ S₃)
    {j : In p} (j1 : j.respRdy = true) (j2 : j.mreqRdy = true) :
    n ≤ p.nLines + 1 + w + 3 * (sent k tr₁).length ∧
    (((S₂.cache k).out j).reqRdy = true →
      n = p.nLines + 1 + w + 3 * (sent k tr₁).length ∧
      (responses k (tr ++ S₁.clockEvs k i ++ tr₁ ++ tr₂)).length = (accepted k tr).length ∧
      ((S₃.cache k).out j).respEn = true ∧ ((S₃.cache k).out j).mreqEn = false) := by
  obtain ⟨hl, _⟩ := left_start wf h0 h hc he hty
  have run1 := h.snoc (.clock _ k i hc)
  obtain ⟨e1, ⟨b, e2, e3⟩, _⟩ := held_left wf h0 run1 hl hh
  refine ⟨by omega, fun hr => ?_⟩
  have hd : (S₂.cache k).t1 = .replayInv ∨ (S₂.cache k).t1 = .replayFlush := by
    by_cases q1 : (S₂.cache k).t1 = .replayInv
    · exact .inl q1
    · by_cases q2 : (S₂.cache k).t1 = .replayFlush
      · exact .inr q2
      · have := left_busy e2 ⟨q1, q2⟩ j
        have hr' : (S₂.cache k).reqRdy j = true := hr
        rw [this] at hr'; cases hr'
  have hb : b = 0 := by
    have nn : ∀ {t} {P : Prop}, (S₂.cache k).t1 = t → t ≠ .replayInv → t ≠ .replayFlush → P := by
      intro t P h1 h2 h3; rw [h1] at hd; rcases hd with h | h
      · exact absurd h h2
      · exact absurd h h3
    cases e2 with
    | inv0 h => exact nn h.t1 (by simp) (by simp)
    | inv1 h => exact nn h.t1 (by simp) (by simp)
    | inv2 h => exact nn h.t1 (by simp) (by simp)
    | fl0 h => exact nn h.t1 (by simp) (by simp)
    | fl1 h => exact nn h.t1 (by simp) (by simp)
    | fl2a h => exact nn h.t1 (by simp) (by simp)
    | fl2b h => exact nn h.t1 (by simp) (by simp)
    | fl2c h => exact nn h.t1 (by simp) (by simp)
    | fl3 h => exact nn h.t1 (by simp) (by simp)
    | done h => rfl
  obtain ⟨_, r2, r3, r4⟩ := replay_point wf h0 (run1.append hh.run) (k := k) (by rcases hd with h | h <;> simp [h]) ht j1 j2
  refine ⟨by omega, ?_, r3, r4⟩
  have ha : accepted k (S₁.clockEvs k i) = [i.req] := by
    simp only [Sys.clockEvs, he, accepted_append]
    cases ((S₁.cache k).out i).mreqEn <;> cases ((S₁.cache k).out i).respEn <;> simp [accepted]
  rw [accepted_append, accepted_append, e1, ha] at r2
  simp only [List.length_append, List.length_cons, List.length_nil] at r2 ⊢
  omega

/-- **C62 (b).**  Invalidation latency.  After the acceptance of an INV the cache is
ready again after exactly `nLines + 1` edges, and sends nothing to memory. -/
theorem C62_invalidation_latency (wf : p.WF) {S S₁ S₂ : Sys ι p} {tr tr₁ : List (Ev ι p)} (h0 : Start S) (h : Run S tr S₁)
    {k : ι} {i : In p} (hc : S₁.CanClock k i) (he : i.reqEn = true) (hty : i.req.ty = MT.INV)
    {n w : Nat} (hh : Held k n w (S₁.clock k i) tr₁ S₂)
    {j : In p} (j1 : j.respRdy = true) (j2 : j.mreqRdy = true) :
    sent k tr₁ = [] ∧ w = 0 ∧ n ≤ p.nLines + 1 ∧ (((S₂.cache k).out j).reqRdy = true ↔ n = p.nLines + 1) := by
  obtain ⟨hl, hi⟩ := left_start wf h0 h hc he (.inl hty)
  have run1 := h.snoc (.clock _ k i hc)
  obtain ⟨e1, ⟨b, e2, e3⟩, e4⟩ := held_left wf h0 run1 hl hh
  obtain ⟨g1, g2, g3⟩ := e4 (hi hty)
  rw [g1, g2] at e3
  simp only [List.length_nil] at e3
  obtain ⟨T, hE, hrel⟩ := refine wf h0 (run1.append hh.run)
  refine ⟨g1, g2, by omega, ?_⟩
  have key : ∀ q, (S₂.cache k).t1 = q → q = .invStart ∨ q = .invWrite → (((S₂.cache k).out j).reqRdy = true ↔ n = p.nLines + 1) := by
    intro q hq hq2
    have hb := inv_left e2 (by rw [hq]; exact hq2)
    have hnr := left_busy e2 (by rw [hq]; rcases hq2 with h | h <;> rw [h] <;> simp) j
    constructor
    · intro hr
      have hr' : (S₂.cache k).reqRdy j = true := hr
      rw [hnr] at hr'; cases hr'
    · intro hn; omega
  rcases g3 with g | g | g
  · exact key _ g (.inl rfl)
  · exact key _ g (.inr rfl)
  · have hr := flow_ready (s := S₂.cache k) (by rw [g]; rfl) (by rw [g]; simp) (by rw [g]; simp) (hrel.cache k)
      (ostall_ready (S₂.cache k) j j2 j1)
    refine ⟨fun _ => ?_, fun _ => hr⟩
    have hb : b = 0 := by
      have nn : ∀ {t} {P : Prop}, (S₂.cache k).t1 = t → t ≠ .replayInv → P := by
        intro t P h1 h2; rw [g] at h1; exact absurd h1.symm h2
      cases e2 with
      | inv0 h => exact nn h.t1 (by simp)
      | inv1 h => exact nn h.t1 (by simp)
      | inv2 h => exact nn h.t1 (by simp)
      | fl0 h => exact nn h.t1 (by simp)
      | fl1 h => exact nn h.t1 (by simp)
      | fl2a h => exact nn h.t1 (by simp)
      | fl2b h => exact nn h.t1 (by simp)
      | fl2c h => exact nn h.t1 (by simp)
      | fl3 h => exact nn h.t1 (by simp)
      | done h => rfl
    omega

end Verif
