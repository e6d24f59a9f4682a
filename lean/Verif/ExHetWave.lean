import Verif.HetWave

/-!
# C83: fair infinite executions exist

Every finite execution of a system of caches can be continued for ever in a way that meets the hypotheses of
`C83_eventually_answered` and `C83_eventually_ready` for all caches.
-/

set_option linter.unusedSectionVars false

namespace Verif.Net
variable {ι : Type} [DecidableEq ι] {p : ι → Params}

/-- The blocks in source order, often enough. Example; not in the source. -/
def srcL : List Blk := rep levels blks

theorem srcL_rounds : Sched.Rounds Blk levels srcL := rounds_rep mem_blks levels

/-- No request, both output ports ready, memory answers if it can. Example; not in the source. -/
def quiet {p : Params} (n : NNode p) : PIn p :=
  match n.respQ with
  | [] => ⟨false, false, encReq default, true, true, false, encMResp default⟩
  | m :: _ => ⟨false, false, encReq default, true, true, true, m⟩

theorem memresp_ready {p : Params} {r : Regs p} {i : PIn p} {w : (x : Wire) → T p x} (h : Settled r i w) :
    (outOf w).memrespRdy = true :=
  (h .memrespRdy).symm.trans rfl

theorem quiet_can {p : Params} (n : NNode p) (M : ByteMem) :
    (n.on M).CanClock () (quiet n) ((n.on M).run () (quiet n) srcL) := by
  have hw : Settled n.regs (quiet n) ((n.on M).run () (quiet n) srcL) :=
    runBlks_settled n.regs (quiet n) srcL_rounds n.wires
  refine ⟨?_, ?_, ?_⟩
  · simp only [quiet]; split <;> rfl
  · intro h
    have : (quiet n).cachereqEn = false := by simp only [quiet]; split <;> rfl
    rw [this] at h; cases h
  · intro h
    refine ⟨memresp_ready hw, ?_⟩
    simp only [quiet] at h ⊢
    cases hr : n.respQ with
    | nil => rw [hr] at h; cases h
    | cons m l => exact ⟨l, hr⟩

/-- One step of cache `k`: memory executes, or the cache is clocked. Example; not in the source. -/
def quietStep (N : HNSys ι p) (k : ι) : Lab ι p × HNSys ι p :=
  match (N.node k).reqQ with
  | [] =>
    (.clock k ⟨quiet (N.node k), outOf (((N.node k).on N.mem).run () (quiet (N.node k)) srcL)⟩,
      ⟨N.setNode k (((N.node k).on N.mem).clock () (quiet (N.node k))
        (((N.node k).on N.mem).run () (quiet (N.node k)) srcL)).node, N.mem⟩)
  | m :: _ => (.exec k m (memExecW N.mem m).2,
      ⟨N.setNode k (((N.node k).on N.mem).exec () m).node, (memExecW N.mem m).1⟩)

theorem quietStep_step (N : HNSys ι p) (k : ι) : HLStep N (quietStep N k).1 (quietStep N k).2 := by
  cases h : (N.node k).reqQ with
  | nil =>
    simp only [quietStep, h]
    exact .clock N k _ srcL srcL_rounds (quiet_can _ _)
  | cons m ms =>
    simp only [quietStep, h]
    exact .exec N k m ms h

/-- The states, when the caches take turns as `s` says. Example; not in the source. -/
def quietSt (s : Nat → ι) (N : HNSys ι p) : Nat → HNSys ι p
  | 0 => N
  | t + 1 => (quietStep (quietSt s N t) (s t)).2

/-- The caches take turns for ever. Example; not in the source. -/
def quietInf (s : Nat → ι) (N : HNSys ι p) : HLInf ι p where
  st := quietSt s N
  lab t := (quietStep (quietSt s N t) (s t)).1
  does _ := quietStep_step _ _

theorem quietStep_other {N : HNSys ι p} {k k' : ι} (h : k' ≠ k) : ((quietStep N k).2.node k') = N.node k' := by
  simp only [quietStep]
  split <;> exact hnSet_other _ _ h

/-- Cache `k` is clocked again, and if memory owes it an answer, the answer is delivered then. -/
theorem quiet_clock {s : Nat → ι} (hs : ∀ k t, ∃ t', t ≤ t' ∧ s t' = k) (N : HNSys ι p) (k : ι) (t : Nat) :
    ∃ t', t ≤ t' ∧ s t' = k ∧ ((quietSt s N t').node k).reqQ = [] ∧
      (((quietSt s N t).node k).reqQ ≠ [] ∨ ((quietSt s N t).node k).respQ ≠ [] →
        ((quietSt s N t').node k).respQ ≠ []) := by
  generalize hl : ((quietSt s N t).node k).reqQ.length = l
  induction l generalizing t with
  | zero =>
    obtain ⟨t', h1, h2⟩ := hs k t
    obtain ⟨d, rfl⟩ : ∃ d, t' = t + d := ⟨t' - t, by omega⟩
    clear h1
    -- go to the first turn of `k`
    induction d generalizing t with
    | zero =>
      have := List.eq_nil_of_length_eq_zero hl
      exact ⟨t, Nat.le_refl _, h2, this, fun h => h.elim (fun h => absurd this h) id⟩
    | succ d ih =>
      by_cases hk : s t = k
      · have := List.eq_nil_of_length_eq_zero hl
        exact ⟨t, Nat.le_refl _, hk, this, fun h => h.elim (fun h => absurd this h) id⟩
      · have e : (quietSt s N (t + 1)).node k = (quietSt s N t).node k := quietStep_other (Ne.symm hk)
        obtain ⟨t', g1, g2, g3, g4⟩ := ih (t + 1) (by rw [e]; exact hl) (by rw [← h2]; congr 1; omega)
        rw [e] at g4
        exact ⟨t', by omega, g2, g3, g4⟩
  | succ l ih =>
    obtain ⟨t', h1, h2⟩ := hs k t
    obtain ⟨d, rfl⟩ : ∃ d, t' = t + d := ⟨t' - t, by omega⟩
    clear h1
    have key : ∀ t, s t = k → ((quietSt s N t).node k).reqQ.length = l + 1 →
        ∃ t', t ≤ t' ∧ s t' = k ∧ ((quietSt s N t').node k).reqQ = [] ∧ ((quietSt s N t').node k).respQ ≠ [] := by
      intro t hk hl
      cases hq : ((quietSt s N t).node k).reqQ with
      | nil => rw [hq] at hl; cases hl
      | cons m ms =>
        have e : (quietSt s N (t + 1)).node k = (((quietSt s N t).node k).on (quietSt s N t).mem |>.exec () m).node := by
          show (quietStep (quietSt s N t) (s t)).2.node k = _
          subst hk
          simp only [quietStep, hq]
          exact hnSet_same _ _ _
        have e1 : ((quietSt s N (t + 1)).node k).reqQ = ms := by
          rw [e]; simp [NSys.exec, NSys.node, NNode.on, hq]
        have e2 : ((quietSt s N (t + 1)).node k).respQ ≠ [] := by
          rw [e]; simp [NSys.exec, NSys.node, NNode.on]
        obtain ⟨t', g1, g2, g3, g4⟩ := ih (t + 1) (by rw [e1]; rw [hq] at hl; simpa using hl)
        exact ⟨t', by omega, g2, g3, g4 (.inr e2)⟩
    induction d generalizing t with
    | zero =>
      obtain ⟨t', g1, g2, g3, g4⟩ := key t h2 hl
      exact ⟨t', g1, g2, g3, fun _ => g4⟩
    | succ d ihd =>
      by_cases hk : s t = k
      · obtain ⟨t', g1, g2, g3, g4⟩ := key t hk hl
        exact ⟨t', g1, g2, g3, fun _ => g4⟩
      · have e : (quietSt s N (t + 1)).node k = (quietSt s N t).node k := quietStep_other (Ne.symm hk)
        obtain ⟨t', g1, g2, g3, g4⟩ := ihd (t + 1) (by rw [e]; exact hl) (by rw [← h2]; congr 1; omega)
        rw [e] at g4
        exact ⟨t', by omega, g2, g3, g4⟩

theorem quietInf_fair {s : Nat → ι} (hs : ∀ k t, ∃ t', t ≤ t' ∧ s t' = k) (N : HNSys ι p) (k : ι) :
    (quietInf s N).PortsReady k ∧ (quietInf s N).MemoryAnswers k := by
  have lab : ∀ t, s t = k → ((quietSt s N t).node k).reqQ = [] → ∃ o,
      (quietInf s N).lab t = .clock k ⟨quiet ((quietSt s N t).node k), o⟩ := by
    intro t h1 h2
    subst h1
    show ∃ o, (quietStep (quietSt s N t) (s t)).1 = _
    simp only [quietStep, h2]
    exact ⟨_, rfl⟩
  constructor
  · intro t
    obtain ⟨t', h1, h2, h3, _⟩ := quiet_clock hs N k t
    obtain ⟨o, ho⟩ := lab t' h2 h3
    refine ⟨t', h1, _, ho, ?_⟩
    simp only [quiet]; constructor <;> split <;> rfl
  · intro t h
    obtain ⟨t', h1, h2, h3, h4⟩ := quiet_clock hs N k t
    obtain ⟨o, ho⟩ := lab t' h2 h3
    refine ⟨t', h1, _, ho, ?_⟩
    have := h4 h
    simp only [quiet]
    split
    · rename_i hq; exact absurd hq this
    · rfl

/-- An infinite execution with one more step in front. Example; not in the source. -/
def HLInf.cons (X : HLInf ι p) {N : HNSys ι p} {l : Lab ι p} (h : HLStep N l (X.st 0)) : HLInf ι p where
  st t := match t with
    | 0 => N
    | t + 1 => X.st t
  lab t := match t with
    | 0 => l
    | t + 1 => X.lab t
  does t := by
    cases t with
    | zero => exact h
    | succ t => exact X.does t

/-- If memory owed an answer before a step and owes none afterwards, the step delivered it. -/
theorem delivers {N N0 : HNSys ι p} {l : Lab ι p} (h : HLStep N l N0) {k : ι}
    (hq : (N.node k).reqQ ≠ [] ∨ (N.node k).respQ ≠ []) (h1 : (N0.node k).reqQ = []) (h2 : (N0.node k).respQ = []) :
    ∃ c, l = .clock k c ∧ c.inp.memrespEn = true := by
  cases h with
  | clock k' i L hL hc =>
    by_cases hk : k = k'
    · subst hk
      refine ⟨_, rfl, ?_⟩
      have h1' : (((N.node k).on N.mem).clock () i (((N.node k).on N.mem).run () i L)).node.reqQ = [] := by
        rw [← h1]; exact congrArg NNode.reqQ (hnSet_same _ _ _).symm
      have h2' : (((N.node k).on N.mem).clock () i (((N.node k).on N.mem).run () i L)).node.respQ = [] := by
        rw [← h2]; exact congrArg NNode.respQ (hnSet_same _ _ _).symm
      cases hm : i.memrespEn with
      | true => rfl
      | false =>
        exfalso
        simp only [NSys.clock, NSys.node, NNode.on, upd, if_true, hm, Bool.false_eq_true, if_false] at h1' h2'
        rw [List.append_eq_nil_iff] at h1'
        exact hq.elim (fun h => h h1'.1) (fun h => h h2')
    · have e : (N.setNode k' (((N.node k').on N.mem).clock () i (((N.node k').on N.mem).run () i L)).node) k = N.node k :=
        hnSet_other _ _ hk
      have h1' : (N.node k).reqQ = [] := by rw [← e]; exact h1
      have h2' : (N.node k).respQ = [] := by rw [← e]; exact h2
      exact absurd hq (by rw [h1', h2']; simp)
  | exec k' m ms hm =>
    exfalso
    by_cases hk : k = k'
    · subst hk
      have h2' : (((N.node k).on N.mem).exec () m).node.respQ = [] := by
        rw [← h2]; exact congrArg NNode.respQ (hnSet_same _ _ _).symm
      simp [NSys.exec, NSys.node] at h2'
    · have e : (N.setNode k' (((N.node k').on N.mem).exec () m).node) k = N.node k := hnSet_other _ _ hk
      have h1' : (N.node k).reqQ = [] := by rw [← e]; exact h1
      have h2' : (N.node k).respQ = [] := by rw [← e]; exact h2
      exact absurd hq (by rw [h1', h2']; simp)

theorem HLInf.cons_fair {X : HLInf ι p} {N : HNSys ι p} {l : Lab ι p} (h : HLStep N l (X.st 0)) {k : ι}
    (hp : X.PortsReady k) (hm : X.MemoryAnswers k) : (X.cons h).PortsReady k ∧ (X.cons h).MemoryAnswers k := by
  have hp' : (X.cons h).PortsReady k := by
    intro t
    obtain ⟨t', h1, c, h2⟩ := hp t
    exact ⟨t' + 1, by omega, c, h2⟩
  refine ⟨hp', ?_⟩
  intro t hq
  cases t with
  | succ t =>
    obtain ⟨t', h1, c, h2⟩ := hm t hq
    exact ⟨t' + 1, by omega, c, h2⟩
  | zero =>
    by_cases h0 : ((X.st 0).node k).reqQ ≠ [] ∨ ((X.st 0).node k).respQ ≠ []
    · obtain ⟨t', h1, c, h2⟩ := hm 0 h0
      exact ⟨t' + 1, by omega, c, h2⟩
    · have hn1 : ((X.st 0).node k).reqQ = [] := Decidable.byContradiction fun hx => h0 (.inl hx)
      have hn2 : ((X.st 0).node k).respQ = [] := Decidable.byContradiction fun hx => h0 (.inr hx)
      obtain ⟨c, h1, h2⟩ := delivers h hq hn1 hn2
      exact ⟨0, Nat.le_refl _, c, h1, h2⟩

/-- Every finite execution from a reset can be continued for ever, fairly for all caches, without further requests. -/
theorem quiet_extension {s : Nat → ι} (hs : ∀ k t, ∃ t', t ≤ t' ∧ s t' = k) {N N' : HNSys ι p} {ls : List (Lab ι p)}
    (h : HLRun N ls N') : ∃ X : HLInf ι p, X.st 0 = N ∧
      (∀ n, X.labs (ls.length + n) = ls ++ (quietInf s N').labs n) ∧ ∀ k, X.PortsReady k ∧ X.MemoryAnswers k := by
  have key : ∀ {N N' : HNSys ι p} {ls : List (Lab ι p)}, HLRun N ls N' → ∀ (Y : HLInf ι p), Y.st 0 = N' →
      (∀ k, Y.PortsReady k ∧ Y.MemoryAnswers k) → ∃ X : HLInf ι p, X.st 0 = N ∧
        (∀ n, X.labs (ls.length + n) = ls ++ Y.labs n) ∧ ∀ k, X.PortsReady k ∧ X.MemoryAnswers k := by
    intro N N' ls h
    induction h with
    | refl => intro Y h0 hf; exact ⟨Y, h0, by simp, hf⟩
    | @snoc N' N'' ls l _ hs ih =>
      intro Y h0 hf
      have hs' : HLStep N' l (Y.st 0) := by rw [h0]; exact hs
      obtain ⟨X, h1, h2, h3⟩ := ih (Y.cons hs') rfl (fun k => HLInf.cons_fair hs' (hf k).1 (hf k).2)
      refine ⟨X, h1, fun n => ?_, h3⟩
      have e : (Y.cons hs').labs (n + 1) = l :: Y.labs n := by
        rw [HLInf.labs, List.range_succ_eq_map, List.map_cons, List.map_map]
        rfl
      rw [List.length_append, List.length_singleton, Nat.add_assoc, Nat.add_comm 1 n, h2, e]
      simp
  exact key h (quietInf s N') rfl (quietInf_fair hs N')

/-- Every finite execution from a reset can be continued for ever, fairly for all caches. -/
theorem fair_extension {s : Nat → ι} (hs : ∀ k t, ∃ t', t ≤ t' ∧ s t' = k) {N N' : HNSys ι p} {ls : List (Lab ι p)}
    (h : HLRun N ls N') : ∃ X : HLInf ι p, X.st 0 = N ∧ X.labs ls.length = ls ∧
      ∀ k, X.PortsReady k ∧ X.MemoryAnswers k := by
  obtain ⟨X, h1, h2, h3⟩ := quiet_extension hs h
  exact ⟨X, h1, by simpa [HLInf.labs] using h2 0, h3⟩

/-- Two caches take turns. Example; not in the source. -/
def turns (t : Nat) : Bool := t % 2 == 1

theorem turns_all (k : Bool) (t : Nat) : ∃ t', t ≤ t' ∧ turns t' = k := by
  cases k with
  | false => exact ⟨2 * t, by omega, by simp [turns]⟩
  | true => exact ⟨2 * t + 1, by omega, by simp [turns]⟩

/-- **C83, example.**  The message of `ExPass.lean` is passed between two caches of different shapes in an infinite
execution of the wires that meets all hypotheses of `C83_eventually_answered` and `C83_eventually_ready`. -/
theorem C83_example : ∃ (X : HLInf Bool pH) (t : Nat), HNStart (X.st 0) ∧ X.seen t = visible trPass ∧
    ∀ k, X.PortsReady k ∧ X.MemoryAnswers k := by
  obtain ⟨N, N', tr, h1, h2, _, h4, _⟩ := C82_example_passing
  obtain ⟨ls, h5, h6⟩ := h2.label
  obtain ⟨X, g1, g2, g3⟩ := fair_extension turns_all h5
  refine ⟨X, ls.length, by rw [g1]; exact h1, ?_, g3⟩
  rw [HLInf.seen, g2, h6, h4]

end Verif.Net
