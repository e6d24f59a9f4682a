import Verif.WSim

/-!
# C64: caches of any shapes refine the programmer's memory model
-/

set_option linter.unusedSectionVars false

namespace Verif
variable {ι : Type} [DecidableEq ι] {p : ι → Params}

theorem WM.Run.trans {A A' A'' : WM.State ι} {a b : List (WM.Ev ι)} (h : WM.Run A a A') (h' : WM.Run A' b A'') :
    WM.Run A (a ++ b) A'' := by
  induction h' with
  | refl => simpa using h
  | snoc _ hs ih => rw [← List.append_assoc]; exact .snoc ih hs

/-- A path of one cache is a run of the system. -/
theorem WM.Loc.Path.run {A : WM.State ι} {k : ι} {e : List WM.LEv} {a : WM.Loc} {M : ByteMem}
    (h : WM.Loc.Path (A.loc k) A.mem e a M) :
    WM.Run A (e.map (WM.LEv.at k)) ⟨fun k' => if k' = k then a else A.loc k', M⟩ := by
  generalize ha : A.loc k = a0 at h
  generalize hM : A.mem = M0 at h
  induction h with
  | refl M0 =>
    have : (⟨fun k' => if k' = k then a0 else A.loc k', M0⟩ : WM.State ι) = A := by
      cases A
      simp only [WM.State.mk.injEq]
      refine ⟨?_, hM.symm⟩
      funext k'
      split
      · rename_i hk; subst hk; exact ha.symm
      · rfl
    rw [this]; exact .refl A
  | snoc _ hs ih =>
    rw [List.map_append]
    refine .snoc (ih hM) ?_
    have := WM.Step.mk ⟨fun k' => if k' = k then _ else A.loc k', _⟩ k _ _ _ (by simpa using hs)
    have e : ∀ (x y : WM.Loc), (fun k' => if k' = k then x else if k' = k then y else A.loc k') =
        fun k' => if k' = k then x else A.loc k' := by
      intro x y; funext k'; split <;> simp_all
    simpa only [e] using this

theorem setNode_same (H : HSys ι p) (k : ι) (n : Node (p k)) : H.setNode k n k = n := by
  simp [HSys.setNode]

theorem setNode_other (H : HSys ι p) {k k' : ι} (n : Node (p k)) (h : k' ≠ k) : H.setNode k n k' = H.node k' := by
  simp [HSys.setNode, h]

theorem visible_append (a b : List (HEv ι p)) : visible (a ++ b) = visible a ++ visible b := by
  simp [visible]

theorem visible_one (k : ι) (ev : List (Ev Unit (p k))) :
    visible (ev.map (fun e => (⟨k, e⟩ : HEv ι p))) = (locals ev).map (WM.LEv.at k) := by
  simp only [visible, locals, List.filterMap_map, List.map_filterMap]
  rfl

/-- The induction behind C64: state by state. -/
theorem model_run_from (wf : ∀ k, (p k).WF) {H H' : HSys ι p} {tr : List (HEv ι p)} {A0 : WM.State ι}
    (hm : A0.mem = H.mem) (hn : ∀ k, NodeSim (H.node k) (A0.loc k)) (h : HetRun H tr H') (hv : HValid tr) :
    ∃ A, WM.Run A0 (visible tr) A ∧ A.mem = H'.mem ∧ ∀ k, NodeSim (H'.node k) (A.loc k) := by
  induction h with
  | refl => exact ⟨_, .refl _, hm, hn⟩
  | snoc h hs ih =>
    obtain ⟨A, h1, h2, h3⟩ := ih (fun k u q hq => hv k u q (by simp [hq]))
    cases hs with
    | mk k ev S hst =>
      have hv' : ∀ u q, Ev.acc u q ∈ ev → q.Valid := by
        intro u q hq
        exact hv k u q (by simp only [List.mem_append, List.mem_map]; exact .inr ⟨_, hq, rfl⟩)
      rw [← h2] at hst
      obtain ⟨a', h4, h5⟩ := node_step (wf k) (h3 k) hst hv'
      refine ⟨⟨fun k' => if k' = k then a' else A.loc k', S.mem⟩, ?_, ?_, ?_⟩
      · rw [visible_append, visible_one]
        exact h1.trans h4.run
      · rfl
      · intro k'
        by_cases hk : k' = k
        · subst hk
          dsimp only
          rw [setNode_same, if_pos rfl]; exact h5
        · dsimp only
          rw [setNode_other _ _ hk, if_neg hk]; exact h3 k'

theorem model_run (wf : ∀ k, (p k).WF) {H H' : HSys ι p} {tr : List (HEv ι p)} (h0 : HStart H) (h : HetRun H tr H')
    (hv : HValid tr) :
    ∃ A, WM.Run (WM.init ι H.mem) (visible tr) A ∧ A.mem = H'.mem ∧ ∀ k, NodeSim (H'.node k) (A.loc k) :=
  model_run_from wf rfl (fun k => node_start (h0 k)) h hv

/-- **C64.**  Caches of arbitrary, possibly different sizes, associativities, block sizes,
data and opaque widths on a shared memory with arbitrary delays: whatever the processors
see is an execution of the programmer's memory model of `SpecModel.lean`, which leads to
the same contents of memory. -/
theorem C64_memory_model (wf : ∀ k, (p k).WF) {H H' : HSys ι p} {tr : List (HEv ι p)} (h0 : HStart H) (h : HetRun H tr H')
    (hv : HValid tr) : ∃ A, WM.Run (WM.init ι H.mem) (visible tr) A ∧ A.mem = H'.mem := by
  obtain ⟨A, h1, h2, _⟩ := model_run wf h0 h hv
  exact ⟨A, h1, h2⟩

end Verif
