import Verif.PropsModel

/-!
# Runs of caches of different shapes

Runs of one node are runs of the whole system; caches of one shape (`Sys ι p`) are a
special case.
-/

set_option linter.unusedSectionVars false

namespace Verif
variable {ι : Type} [DecidableEq ι]

section
variable {p : ι → Params}

theorem HetRun.trans {A A' A'' : HSys ι p} {a b : List (HEv ι p)} (h : HetRun A a A') (h' : HetRun A' b A'') :
    HetRun A (a ++ b) A'' := by
  induction h' with
  | refl => simpa using h
  | snoc _ hs ih => rw [← List.append_assoc]; exact .snoc ih hs

theorem setNode_setNode (H : HSys ι p) (k : ι) (n n' : Node (p k)) (M : ByteMem) :
    HSys.setNode ⟨H.setNode k n, M⟩ k n' = H.setNode k n' := by
  funext k'
  by_cases h : k' = k
  · subst h; rw [setNode_same, setNode_same]
  · rw [setNode_other _ _ h, setNode_other _ _ h]
    exact setNode_other _ _ h

theorem setNode_self (H : HSys ι p) (k : ι) : H.setNode k (H.node k) = H.node := by
  funext k'
  by_cases h : k' = k
  · subst h; rw [setNode_same]
  · rw [setNode_other _ _ h]

theorem Sys.node_on {p : Params} (S : Sys Unit p) : S.node.on S.mem = S := rfl

theorem hvalid_append {a b : List (HEv ι p)} (h : HValid a) (h' : HValid b) : HValid (a ++ b) := by
  intro k u q hq
  rw [List.mem_append] at hq
  exact hq.elim (h k u q) (h' k u q)

theorem hvalid_one (k : ι) {tr : List (Ev Unit (p k))} (h : ∀ q ∈ accepted () tr, q.Valid) :
    HValid (tr.map (fun e => (⟨k, e⟩ : HEv ι p))) := by
  intro k' u q hq
  rw [List.mem_map] at hq
  obtain ⟨e, he, hq⟩ := hq
  rw [Sigma.mk.injEq] at hq
  obtain ⟨rfl, hq⟩ := hq
  obtain rfl := eq_of_heq hq
  refine h q ?_
  rw [accepted, List.mem_filterMap]
  exact ⟨_, he, by simp⟩

/-- A run of one cache on the memory is a run of the system. -/
theorem node_run {H : HSys ι p} {k : ι} {tr : List (Ev Unit (p k))} {S : Sys Unit (p k)}
    (h : Run ((H.node k).on H.mem) tr S) :
    HetRun H (tr.map (fun e => ⟨k, e⟩)) ⟨H.setNode k S.node, S.mem⟩ := by
  generalize hT : (H.node k).on H.mem = T at h
  induction h with
  | refl =>
    subst hT
    have : (⟨H.setNode k ((H.node k).on H.mem).node, H.mem⟩ : HSys ι p) = H := by
      have := setNode_self H k
      cases H; simp only [HSys.mk.injEq, and_true]; exact this
    show HetRun H [] ⟨H.setNode k ((H.node k).on H.mem).node, H.mem⟩
    rw [this]; exact .refl _
  | snoc _ hs ih =>
    rw [List.map_append]
    refine .snoc ih ?_
    rename_i S' S'' tr ev _
    have := HStep.mk ⟨H.setNode k S'.node, S'.mem⟩ k ev S'' (by
      dsimp only; rw [setNode_same]; exact hs)
    rwa [setNode_setNode] at this

end

section
variable {p : Params}

/-- Caches of one shape as caches of possibly different shapes. Proof device; not in the source. -/
def Sys.split (S : Sys ι p) : HSys ι (fun _ => p) :=
  ⟨fun k => ⟨S.cache k, S.reqQ k, S.respQ k⟩, S.mem⟩

/-- The cache an event belongs to, and the event. Proof device; not in the source. -/
def Ev.split : Ev ι p → HEv ι (fun _ => p)
  | .acc k q => ⟨k, .acc () q⟩
  | .mreq k m => ⟨k, .mreq () m⟩
  | .resp k r => ⟨k, .resp () r⟩
  | .exec k m r => ⟨k, .exec () m r⟩

theorem split_start {S : Sys ι p} (h : Start S) : HStart S.split :=
  fun k => ⟨fun _ => h.reset k, fun _ => h.reqQ k, fun _ => h.respQ k⟩

theorem split_upd (S : Sys ι p) (k : ι) (c : St p) (a : List (MReq p)) (b : List (MResp p)) (M : ByteMem) :
    Sys.split ⟨upd S.cache k c, upd S.reqQ k a, upd S.respQ k b, M⟩ = ⟨S.split.setNode k ⟨c, a, b⟩, M⟩ := by
  simp only [Sys.split, HSys.mk.injEq, and_true]
  funext k'
  by_cases h : k' = k
  · subst h
    rw [setNode_same]; simp
  · rw [setNode_other _ _ h, upd_other _ h, upd_other _ h, upd_other _ h]

theorem split_step {S S' : Sys ι p} {ev : List (Ev ι p)} (h : Step S ev S') :
    HStep S.split (ev.map Ev.split) S'.split := by
  cases h with
  | clock k i h =>
    have h' : ((S.split.node k).on S.split.mem).CanClock () i := ⟨h.noReset, h.req, h.mem⟩
    have := HStep.mk S.split k _ _ (.clock _ () i h')
    have e1 : S.clock k i = ⟨upd S.cache k _, upd S.reqQ k _, upd S.respQ k _, _⟩ := rfl
    rw [e1, split_upd]
    have e2 : (S.clockEvs k i).map Ev.split =
        (((S.split.node k).on S.split.mem).clockEvs () i).map (fun e => (⟨k, e⟩ : HEv ι (fun _ => p))) := by
      simp only [Sys.clockEvs, List.map_append, apply_ite (List.map _), List.map_cons, List.map_nil]
      rfl
    rw [e2]
    refine cast ?_ this
    congr 1
  | exec k m ms h =>
    have := HStep.mk S.split k _ _ (.exec ((S.split.node k).on S.split.mem) () m ms h)
    have e1 : S.exec k m = ⟨upd S.cache k (S.cache k), upd S.reqQ k (S.reqQ k).tail,
        upd S.respQ k (S.respQ k ++ [(memExec S.mem m).2]), (memExec S.mem m).1⟩ := by
      have : upd S.cache k (S.cache k) = S.cache := by
        funext k'; simp only [upd]; split
        · rename_i h; rw [h]
        · rfl
      rw [this]; rfl
    rw [e1, split_upd]
    exact this

theorem split_run {S S' : Sys ι p} {tr : List (Ev ι p)} (h : Run S tr S') :
    HetRun S.split (tr.map Ev.split) S'.split := by
  induction h with
  | refl => exact .refl _
  | snoc _ hs ih => rw [List.map_append]; exact .snoc ih (split_step hs)

/-- **C64** for caches of one shape, the system of `Sys.lean`. -/
theorem C64_same_shape (wf : p.WF) {S S' : Sys ι p} {tr : List (Ev ι p)} (h0 : Start S) (h : Run S tr S')
    (hv : ∀ k, ∀ q ∈ accepted k tr, q.Valid) :
    ∃ A, WM.Run (WM.init ι S.mem) (visible (tr.map Ev.split)) A ∧ A.mem = S'.mem := by
  refine C64_memory_model (p := fun _ => p) (fun _ => wf) (split_start h0) (split_run h) ?_
  intro k u q hq
  rw [List.mem_map] at hq
  obtain ⟨e, he, hq⟩ := hq
  refine hv k q ?_
  cases e with
  | acc k' q' =>
    simp only [Ev.split, Sigma.mk.injEq] at hq
    obtain ⟨rfl, hq⟩ := hq
    cases hq
    rw [accepted, List.mem_filterMap]
    exact ⟨_, he, by simp⟩
  | mreq => simp [Ev.split] at hq
  | resp => simp [Ev.split] at hq
  | exec => simp [Ev.split] at hq

end

end Verif
