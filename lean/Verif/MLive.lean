import Verif.Multicore
import Verif.PropsLive
import Verif.ProcLoop
set_option linter.unusedSectionVars false

/-!
# Infinite executions of the multicore driver

Definitions for C47 and lemmas.
-/

namespace Verif
variable {p : Params} {n : Nat}

/-! ## Specification -/

/-- The state after a clock edge of the driver and all caches, as in `MStep.cycle`. System as in the harness, test/sim_utils.py:283-314. -/
def MSys.next (g : Prog n p) (X : MSys n p) (i : Fin n → In p) : MSys n p :=
  { sys := X.sys.clockAll i
    src := fun k => if (i k).reqEn then (X.src k).tail else X.src k
    curr := upDownNext false (X.inFlight == 0) false 0 1 1 X.curr
    inFlight := upDownNext (X.inFlight == 0) false (decide (0 < respCount X.sys i))
      (BitVec.ofNat 32 (g.count (X.curr + 1))) 0 (BitVec.ofNat 32 (respCount X.sys i)) X.inFlight }

/-- An infinite execution of the driver, the caches and memory. System as in the harness, test/sim_utils.py:283-314. -/
structure MInf (g : Prog n p) where
  st : Nat → MSys n p
  evs : Nat → List (Ev (Fin n) p)
  does : ∀ t, MStep g (st t) (evs t) (st (t + 1))

variable {g : Prog n p}

/-- The events of the first `t` steps. System as in the harness, test/sim_utils.py:283-314. -/
def MInf.trace (X : MInf g) : Nat → List (Ev (Fin n) p)
  | 0 => []
  | t + 1 => X.trace t ++ X.evs t

/-- Step `t` is a clock edge with inputs `i`. System as in the harness, test/sim_utils.py:283-314. -/
structure MInf.CycleAt (X : MInf g) (t : Nat) (i : Fin n → In p) : Prop where
  can : ∀ k, (X.st t).sys.CanClock k (i k)
  evs : X.evs t = (X.st t).sys.clockAllEvs i
  next : X.st (t + 1) = (X.st t).next g i

/-- Again and again there is a clock edge with both output ports of cache `k` ready. System as in the harness, test/sim_utils.py:283-314. -/
def MInf.PortsReady (X : MInf g) (k : Fin n) : Prop :=
  ∀ t, ∃ t', t ≤ t' ∧ ∃ i, X.CycleAt t' i ∧ (i k).respRdy = true ∧ (i k).mreqRdy = true

/-- Whenever memory owes cache `k` a response, it later delivers one. System as in the harness, test/sim_utils.py:283-314. -/
def MInf.MemoryAnswers (X : MInf g) (k : Fin n) : Prop :=
  ∀ t, (X.st t).sys.reqQ k ≠ [] ∨ (X.st t).sys.respQ k ≠ [] →
    ∃ t', t ≤ t' ∧ ∃ i, X.CycleAt t' i ∧ (i k).mrespEn = true

/-- Again and again there is a clock edge at which the source of cache `k`, if the order of its next
request has come, the cache is ready and has no unanswered request, hands the request over. System as in the harness, test/sim_utils.py:283-314. -/
def MInf.Sources (X : MInf g) (k : Fin n) : Prop :=
  ∀ t, ∃ t', t ≤ t' ∧ ∃ i, X.CycleAt t' i ∧
    ∀ o q rest, (X.st t').src k = (o, q) :: rest → o ≤ (X.st t').curr →
      (((X.st t').sys.cache k).out (i k)).reqRdy = true →
      (responses k (X.trace t')).length = (accepted k (X.trace t')).length → (i k).reqEn = true

/-- The environment is fair. System as in the harness, test/sim_utils.py:283-314. -/
def MInf.Fair (X : MInf g) : Prop := ∀ k, X.PortsReady k ∧ X.MemoryAnswers k ∧ X.Sources k

/-! ## Lemmas -/

theorem MInf.run (X : MInf g) (t : Nat) : MRun g (X.st 0) (X.trace t) (X.st t) := by
  induction t with
  | zero => exact .refl _
  | succ t ih => exact .snoc ih (X.does t)

/-- The events from step `t` on. System as in the harness, test/sim_utils.py:283-314. -/
def MInf.from (X : MInf g) (t : Nat) : Nat → List (Ev (Fin n) p)
  | 0 => []
  | d + 1 => X.from t d ++ X.evs (t + d)

theorem MInf.trace_add (X : MInf g) (t d : Nat) : X.trace (t + d) = X.trace t ++ X.from t d := by
  induction d with
  | zero => simp [MInf.from]
  | succ d ih => rw [← Nat.add_assoc]; simp only [MInf.trace, MInf.from, ih, List.append_assoc]

theorem HRun.append {ι : Type} [DecidableEq ι] {k : ι} {S S' S'' : Sys ι p} {a b : List (Ev ι p)} {m m' : Nat}
    (h : HRun k S a m S') (h' : HRun k S' b m' S'') : HRun k S (a ++ b) (m + m') S'' := by
  induction h' with
  | refl => simpa using h
  | any _ hs ih => rw [← List.append_assoc]; exact .any ih hs
  | help _ i hc hh ih => rw [← List.append_assoc]; exact .help ih i hc hh

theorem HRun.ofRun {ι : Type} [DecidableEq ι] {k : ι} {S S' : Sys ι p} {a : List (Ev ι p)}
    (h : Run S a S') : HRun k S a 0 S' := by
  induction h with
  | refl => exact .refl _
  | snoc _ hs ih => exact .any ih hs

theorem clockSet_hrun (S : Sys (Fin n) p) (i : Fin n → In p) (hc : ∀ k, S.CanClock k (i k)) {k : Fin n}
    (hh : S.Helps k (i k)) (ks : List (Fin n)) (hn : ks.Nodup) :
    HRun k S (ks.flatMap fun k => S.clockEvs k (i k)) (if k ∈ ks then 1 else 0) (S.clockSet i ks) := by
  induction ks using snoc_induct with
  | h0 =>
    have : S.clockSet i [] = S := by simp [Sys.clockSet]
    rw [this]; exact .refl S
  | h1 ks j ih =>
    have hk : j ∉ ks := by
      intro hk
      rw [List.nodup_append] at hn
      exact hn.2.2 j hk j (by simp) rfl
    have ih := ih (List.nodup_append.1 hn).1
    have hcache : (S.clockSet i ks).cache j = S.cache j := by simp [Sys.clockSet, hk]
    have hresp : (S.clockSet i ks).respQ j = S.respQ j := by simp [Sys.clockSet, hk]
    have hreq : (S.clockSet i ks).reqQ j = S.reqQ j := by simp [Sys.clockSet, hk]
    have hcan : (S.clockSet i ks).CanClock j (i j) :=
      ⟨(hc j).noReset, by rw [hcache]; exact (hc j).req, by rw [hresp]; exact (hc j).mem⟩
    have hev : (S.clockSet i ks).clockEvs j (i j) = S.clockEvs j (i j) := by
      simp only [Sys.clockEvs, hcache]
    have hst : (S.clockSet i ks).clock j (i j) = S.clockSet i (ks ++ [j]) := by
      simp only [Sys.clock, hcache, hresp, hreq]
      simp only [Sys.clockSet, Sys.mk.injEq, and_true]
      refine ⟨?_, ?_, ?_⟩ <;> funext l <;> by_cases hj : l = j
      all_goals first
        | (subst hj; simp [upd_same])
        | (rw [upd_other _ hj]; simp [hj])
    by_cases hjk : k = j
    · subst hjk
      have hh' : (S.clockSet i ks).Helps k (i k) := by
        simp only [Sys.Helps, hreq, hresp]; exact hh
      have := HRun.help ih (i k) hcan hh'
      rw [hev, hst] at this
      simpa [hk] using this
    · have := HRun.any ih (.clock _ j (i j) hcan)
      rw [hev, hst] at this
      simpa [hjk] using this

theorem clockAll_hrun (S : Sys (Fin n) p) (i : Fin n → In p) (hc : ∀ k, S.CanClock k (i k)) {k : Fin n}
    (hh : S.Helps k (i k)) : HRun k S (S.clockAllEvs i) 1 (S.clockAll i) := by
  have := clockSet_hrun S i hc hh (List.finRange n) (List.nodup_finRange n)
  have e : S.clockSet i (List.finRange n) = S.clockAll i := by simp [Sys.clockSet, Sys.clockAll]
  rw [e, if_pos (List.mem_finRange k)] at this
  exact this

theorem MStep.open {X X' : MSys n p} {ev : List (Ev (Fin n) p)} (h : MStep g X ev X') : Run X.sys ev X'.sys := by
  cases h with
  | cycle i hc hs => exact clockAll_run _ i hc
  | exec k m ms h => exact Run.one (.exec _ k m ms h)

theorem MInf.any (X : MInf g) {k : Fin n} {t m d : Nat}
    (h : HRun k (X.st t).sys (X.from t d) m (X.st (t + d)).sys) (e : Nat) :
    HRun k (X.st t).sys (X.from t (d + e)) m (X.st (t + (d + e))).sys := by
  induction e with
  | zero => exact h
  | succ e ih => exact ih.append (.ofRun (X.does (t + (d + e))).open)

theorem MInf.helped (X : MInf g) {k : Fin n} (hp : X.PortsReady k) (hm : X.MemoryAnswers k) (t : Nat) :
    ∃ t', t ≤ t' ∧ ∃ i, X.CycleAt t' i ∧ (X.st t').sys.Helps k (i k) := by
  by_cases h : ∃ t', t ≤ t' ∧ ∃ i, X.CycleAt t' i ∧ (i k).mrespEn = true
  · obtain ⟨t', h1, i, h2, h3⟩ := h
    exact ⟨t', h1, i, h2, .inl h3⟩
  · obtain ⟨t', h1, i, h2, h3, h4⟩ := hp t
    refine ⟨t', h1, i, h2, .inr ⟨h3, h4, ?_⟩⟩
    have hno : ¬ ((X.st t').sys.reqQ k ≠ [] ∨ (X.st t').sys.respQ k ≠ []) := by
      intro hx
      obtain ⟨t'', g1, g2⟩ := hm t' hx
      exact h ⟨t'', Nat.le_trans h1 g1, g2⟩
    by_cases hq : (X.st t').sys.reqQ k = []
    · by_cases hq' : (X.st t').sys.respQ k = []
      · exact ⟨hq, hq'⟩
      · exact absurd (.inr hq') hno
    · exact absurd (.inl hq) hno

theorem MInf.hrun (X : MInf g) {k : Fin n} (hp : X.PortsReady k) (hm : X.MemoryAnswers k) (t m : Nat) :
    ∃ d, HRun k (X.st t).sys (X.from t d) m (X.st (t + d)).sys := by
  induction m with
  | zero => exact ⟨0, .refl _⟩
  | succ m ih =>
    obtain ⟨d, hd⟩ := ih
    obtain ⟨t', h1, i, h2, h3⟩ := X.helped hp hm (t + d)
    obtain ⟨e, rfl⟩ : ∃ e, t' = t + (d + e) := ⟨t' - (t + d), by omega⟩
    have h4 := (X.any hd e).append (clockAll_hrun _ i h2.can h3)
    have e1 : (X.st (t + (d + e) + 1)).sys = (X.st (t + (d + e))).sys.clockAll i := by rw [h2.next]; rfl
    rw [← h2.evs, ← e1] at h4
    exact ⟨d + e + 1, h4⟩

theorem MInf.acc_mono (X : MInf g) (k : Fin n) {t t' : Nat} (h : t ≤ t') :
    accepted k (X.trace t) <+: accepted k (X.trace t') := by
  obtain ⟨d, rfl⟩ : ∃ d, t' = t + d := ⟨t' - t, by omega⟩
  rw [X.trace_add, accepted_append]; exact List.prefix_append _ _

theorem MInf.resp_mono (X : MInf g) (k : Fin n) {t t' : Nat} (h : t ≤ t') :
    responses k (X.trace t) <+: responses k (X.trace t') := by
  obtain ⟨d, rfl⟩ : ∃ d, t' = t + d := ⟨t' - t, by omega⟩
  rw [X.trace_add, responses_append]; exact List.prefix_append _ _

/-- Accepted requests are answered. -/
theorem MInf.answered (wf : p.WF) (X : MInf g) (h0 : MStart g (X.st 0)) {k : Fin n} (hp : X.PortsReady k)
    (hm : X.MemoryAnswers k) (t : Nat) :
    ∃ t', t ≤ t' ∧ (accepted k (X.trace t)).length ≤ (responses k (X.trace t')).length := by
  obtain ⟨d, hd⟩ := X.hrun hp hm t (3 + 5 * p.nLines)
  refine ⟨t + d, by omega, ?_⟩
  rw [X.trace_add]
  exact C15_answered_in_bounded_help wf h0.sys (X.run t).open hd (Nat.le_refl _)

/-- Another request is accepted, or the cache stays ready. -/
theorem MInf.ready (wf : p.WF) (X : MInf g) (h0 : MStart g (X.st 0)) {k : Fin n} (hp : X.PortsReady k)
    (hm : X.MemoryAnswers k) (t : Nat) :
    (∃ t', t ≤ t' ∧ (accepted k (X.trace t)).length < (accepted k (X.trace t')).length) ∨
    ∃ t', t ≤ t' ∧ ∀ t'', t' ≤ t'' → ∀ i : In p, i.respRdy = true → i.mreqRdy = true →
      (((X.st t'').sys.cache k).out i).reqRdy = true := by
  obtain ⟨d, hd⟩ := X.hrun hp hm t (3 + 5 * p.nLines)
  by_cases h : ∃ t', t ≤ t' ∧ (accepted k (X.trace t)).length < (accepted k (X.trace t')).length
  · exact .inl h
  refine .inr ⟨t + d, by omega, fun t'' ht i hi1 hi2 => ?_⟩
  obtain ⟨e, rfl⟩ : ∃ e, t'' = t + (d + e) := ⟨t'' - (t + d), by omega⟩
  refine C15_ready_in_bounded_help wf h0.sys (X.run t).open (X.any hd e) (Nat.le_refl _) ?_ i hi1 hi2
  have : ¬ (accepted k (X.trace t)).length < (accepted k (X.trace (t + (d + e)))).length :=
    fun hx => h ⟨_, by omega, hx⟩
  rw [X.trace_add, accepted_append, List.length_append] at this
  exact List.eq_nil_of_length_eq_zero (by omega)

theorem MInf.resp_le (wf : p.WF) (X : MInf g) (h0 : MStart g (X.st 0)) (k : Fin n) (t : Nat) :
    (responses k (X.trace t)).length ≤ (accepted k (X.trace t)).length :=
  (C06_at_most_two_unanswered wf h0.sys (X.run t).open k).1

/-- As long as the order counter stands at `c` and the next request of core `k` has an order of at
most `c`, it is accepted. -/
theorem MInf.head_taken (wf : p.WF) (X : MInf g) (h0 : MStart g (X.st 0)) {k : Fin n} (hf : X.Fair)
    {t : Nat} {c : BitVec 32} (hc : ∀ t', t ≤ t' → (X.st t').curr = c)
    {o : BitVec 32} {q : CReq p} {rest : List (BitVec 32 × CReq p)} (hs : (X.st t).src k = (o, q) :: rest)
    (ho : o ≤ c) (hsrc : ∀ t', t ≤ t' → (accepted k (X.trace t')).length = (accepted k (X.trace t)).length →
      (X.st t').src k = (X.st t).src k) :
    ∃ t', t ≤ t' ∧ (accepted k (X.trace t)).length < (accepted k (X.trace t')).length := by
  obtain ⟨hp, hm, hso⟩ := hf k
  rcases X.ready wf h0 hp hm t with h | ⟨t1, h1, h2⟩
  · exact h
  obtain ⟨t2, h3, h4⟩ := X.answered wf h0 hp hm t
  obtain ⟨t3, h5, i, h6, h9⟩ := hso (t1 + t2)
  rcases Nat.lt_or_ge (accepted k (X.trace t)).length (accepted k (X.trace t3)).length with hlt | hge
  · exact ⟨t3, by omega, hlt⟩
  have ha := (X.acc_mono k (show t ≤ t3 by omega)).length_le
  have hr := (X.resp_mono k (show t2 ≤ t3 by omega)).length_le
  have hl := X.resp_le wf h0 k t3
  have hen := h9 o q rest (by rw [hsrc t3 (by omega) (by omega), hs]) (by rw [hc t3 (by omega)]; exact ho)
    (by
      rw [idle_reqRdy wf h0.sys (X.run t3).open k (by omega) (i k) { i k with respRdy := true, mreqRdy := true }]
      exact h2 t3 (by omega) _ rfl rfl) (by omega)
  refine ⟨t3 + 1, by omega, ?_⟩
  simp only [MInf.trace, accepted_append, List.length_append, h6.evs, accepted_all, hen, if_true, List.length_singleton]
  omega

end Verif
