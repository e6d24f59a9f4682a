import Verif.ResetSim
import Verif.SpecReset

/-!
# Caches that are reset refine the programmer's model with crashes
-/

set_option linter.unusedSectionVars false

namespace Verif
variable {ι : Type} [DecidableEq ι] {p : ι → Params}

/-- The events at the processor ports and the resets. System as in the harness, test/sim_utils.py:283-314. -/
def cvisible (tr : List (REv ι p)) : List (WM.CEv ι) :=
  tr.filterMap fun
    | .ev e => e.2.local.map fun l => .ev (l.at e.1)
    | .again k => some (.crash k)

theorem cvisible_append (a b : List (REv ι p)) : cvisible (a ++ b) = cvisible a ++ cvisible b := by
  simp [cvisible]

theorem cvisible_evsAt (k : ι) (ev : List (Ev Unit (p k))) :
    cvisible (evsAt k ev) = (visible (ev.map (fun e => (⟨k, e⟩ : HEv ι p)))).map .ev := by
  induction ev with
  | nil => rfl
  | cons e ev ih =>
    have e1 : cvisible (evsAt k (e :: ev)) = cvisible (evsAt k [e]) ++ cvisible (evsAt k ev) := by
      rw [← cvisible_append]; rfl
    have e2 : visible ((e :: ev).map (fun e => (⟨k, e⟩ : HEv ι p))) =
        visible ([e].map (fun e => (⟨k, e⟩ : HEv ι p))) ++ visible (ev.map (fun e => (⟨k, e⟩ : HEv ι p))) := by
      rw [← visible_append]; rfl
    rw [e1, e2, List.map_append, ih]
    cases e <;> rfl

theorem lives_cvisible (g : ι → Nat) (tr : List (REv ι p)) : lives g tr = WM.cLives g (cvisible tr) := by
  induction tr generalizing g with
  | nil => rfl
  | cons e tr ih =>
    have e1 : cvisible (e :: tr) = cvisible [e] ++ cvisible tr := by rw [← cvisible_append]; rfl
    rw [e1]
    cases e with
    | again k => exact ih _
    | ev e =>
      obtain ⟨k, e⟩ := e
      cases e <;> exact ih _

theorem byLife_cvisible (g : ι → Nat) (tr : List (REv ι p)) :
    visible (byLife g tr) = WM.cByLife g (cvisible tr) := by
  induction tr generalizing g with
  | nil => rfl
  | cons e tr ih =>
    have e1 : cvisible (e :: tr) = cvisible [e] ++ cvisible tr := by rw [← cvisible_append]; rfl
    rw [e1]
    cases e with
    | again k => exact ih _
    | ev e =>
      obtain ⟨k, e⟩ := e
      have e2 : visible (byLife g (.ev ⟨k, e⟩ :: tr)) =
          visible [(⟨(k, g k), e⟩ : HEv (ι × Nat) (fun x => p x.1))] ++ visible (byLife g tr) := by
        rw [← visible_append]; rfl
      rw [e2, ih]
      cases e <;> rfl

theorem WM.CRun.trans {A A' A'' : WM.State ι} {a b : List (WM.CEv ι)} (h : WM.CRun A a A') (h' : WM.CRun A' b A'') :
    WM.CRun A (a ++ b) A'' := by
  induction h' with
  | refl => simpa using h
  | snoc _ hs ih => rw [← List.append_assoc]; exact .snoc ih hs

theorem WM.CRun.of {A A' : WM.State ι} {a : List (WM.Ev ι)} (h : WM.Run A a A') : WM.CRun A (a.map .ev) A' := by
  induction h with
  | refl => exact .refl _
  | snoc _ hs ih => rw [List.map_append]; exact .snoc ih (.step hs)

/-- The systems `R` with resets, `H` that follows it and the model `A`. System as in the harness, test/sim_utils.py:283-314. -/
structure CSim (R : RSys ι p) (H : HSys ι p) (A : WM.State ι) : Prop where
  mem : H.mem = R.sys.mem
  run : ∀ k, R.since k = none → NShadow (R.sys.node k) (H.node k)
  port : ∀ k, R.since k ≠ none → (H.node k).reqQ = (R.sys.node k).reqQ
  amem : A.mem = H.mem
  sim : ∀ k, NodeSim (H.node k) (A.loc k)

theorem RRun.valid_prefix {a b : List (REv ι p)} (h : RValid (a ++ b)) : RValid a ∧ RValid b :=
  ⟨fun k u q hq => h k u q (by simp [hq]), fun k u q hq => h k u q (by simp [hq])⟩

theorem CSim.put {R : RSys ι p} {H : HSys ι p} (hr : ∀ k, R.since k = none → NShadow (R.sys.node k) (H.node k))
    (hp : ∀ k, R.since k ≠ none → (H.node k).reqQ = (R.sys.node k).reqQ) (k : ι)
    (S : Sys Unit (p k)) (n : Node (p k)) (s : Option Nat) (h1 : s = none → NShadow S.node n)
    (h2 : s ≠ none → n.reqQ = S.node.reqQ) :
    (∀ k', (R.put k S s).since k' = none → NShadow ((R.put k S s).sys.node k') (H.setNode k n k')) ∧
    (∀ k', (R.put k S s).since k' ≠ none → (H.setNode k n k').reqQ = ((R.put k S s).sys.node k').reqQ) := by
  constructor
  · intro k' hk'
    by_cases hk : k' = k
    · subst hk
      rw [setNode_same, RSys.put_same]
      exact h1 (by simpa [RSys.put] using hk')
    · rw [setNode_other _ _ hk, RSys.put_other _ hk]
      exact hr k' (by simpa [RSys.put, upd_other _ hk] using hk')
  · intro k' hk'
    by_cases hk : k' = k
    · subst hk
      rw [setNode_same, RSys.put_same]
      exact h2 (by simpa [RSys.put] using hk')
    · rw [setNode_other _ _ hk, RSys.put_other _ hk]
      exact hp k' (by simpa [RSys.put, upd_other _ hk] using hk')

theorem crash_sim (wf : ∀ k, (p k).WF) {R R' : RSys ι p} {tr : List (REv ι p)} (h0 : RStart R) (h : RRun R tr R')
    (hv : RValid tr) : ∃ H A, WM.CRun (WM.init ι R.sys.mem) (cvisible tr) A ∧ CSim R' H A := by
  induction h with
  | refl =>
    exact ⟨R.sys, WM.init ι R.sys.mem, .refl _, rfl, fun k _ => .refl _, fun k _ => rfl, rfl, fun k => node_start (h0.1 k)⟩
  | snoc h hs ih =>
    obtain ⟨hv1, hv2⟩ := RRun.valid_prefix hv
    obtain ⟨H, A, hr, c⟩ := ih hv1
    rcases rstep_cases (lives_run h0 h).1 hs with ⟨k, ev, S, s, rfl, rfl, hf⟩ | ⟨k, j, rfl, hn, hqe, hpe, rfl⟩
    · obtain ⟨S', r, e1, e2, e3⟩ := hf (H.node k) (c.run k) (c.port k)
      rw [← c.mem] at r
      have hv' : HValid (ev.map (fun e => (⟨k, e⟩ : HEv ι p))) := by
        intro k' u q hq
        rw [List.mem_map] at hq
        obtain ⟨e, he, hq⟩ := hq
        refine hv2 k' u q ?_
        rw [← hq]
        exact List.mem_map.2 ⟨e, he, rfl⟩
      obtain ⟨B, hB, b1, b2⟩ := model_run_from wf c.amem c.sim (node_run r) hv'
      obtain ⟨f1, f2⟩ := CSim.put c.run c.port k S S'.node s e2 e3
      refine ⟨_, B, ?_, e1, f1, f2, b1, b2⟩
      rw [cvisible_append, cvisible_evsAt]
      exact hr.trans (.of hB)
    · obtain ⟨m, T, q⟩ := (lives_run h0 h).1 k j hn
      let A1 : WM.State ι := ⟨fun k' => if k' = k then .empty else A.loc k', A.mem⟩
      let H1 : HSys ι p := ⟨H.setNode k m, H.mem⟩
      have hs1 : ∀ k', NodeSim (H1.node k') (A1.loc k') := by
        intro k'
        show NodeSim (H.setNode k m k') (if k' = k then _ else _)
        by_cases hk : k' = k
        · subst hk
          rw [setNode_same, if_pos rfl]
          exact node_start (q.fresh H.mem)
        · rw [setNode_other _ _ hk, if_neg hk]; exact c.sim k'
      have r := node_run (H := H1) (k := k) (tr := []) (S := (⟨T, [], []⟩ : Node (p k)).on H1.mem) (by
        have : H1.node k = m := setNode_same ..
        rw [this]; exact q.run _)
      obtain ⟨B, hB, b1, b2⟩ := model_run_from wf (H := H1) (A0 := A1) c.amem hs1 r (fun k u q hq => by cases hq)
      have hset : H1.setNode k (⟨T, [], []⟩ : Node (p k)) = H.setNode k ⟨T, [], []⟩ := setNode_setNode ..
      obtain ⟨f1, f2⟩ := CSim.put c.run c.port k (RSys.one _ k) ⟨T, [], []⟩ none (fun _ => q.again hqe hpe) (fun hx => absurd rfl hx)
      refine ⟨⟨H.setNode k ⟨T, [], []⟩, H.mem⟩, B, ?_, c.mem, f1, f2, b1, fun k' => ?_⟩
      · rw [cvisible_append]
        have e : visible (([] : List (Ev Unit (p k))).map (fun e => (⟨k, e⟩ : HEv ι p))) = [] := rfl
        rw [e] at hB
        have := (WM.CRun.snoc hr (.crash A k)).trans (.of hB)
        simpa [cvisible] using this
      · have := b2 k'
        dsimp only at this ⊢
        rw [← hset]; exact this

end Verif
