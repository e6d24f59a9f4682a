import Verif.PropsEnv
import Verif.SpecEnvNet

/-!
# C87: every cache of a system of caches of any shapes is a cache among other agents
-/

namespace Verif

section
variable {p : Params} {D : Nat → Prop} {S S' : Sys Unit p} {tr : List (Ev Unit p)}

theorem ORun.weaken {D' : Nat → Prop} (h : ORun D S tr S') (hd : ∀ W, D' W → D W) : ORun D' S tr S' := by
  induction h with
  | refl => exact .refl _
  | snoc _ hs ih =>
    refine ih.snoc ?_
    cases hs with
    | own hs => exact .own hs
    | outside M hM => exact .outside _ _ fun x hx => hM x (hd _ hx)

/-- **C87** (C19, memory).  The cache changes only words that were stored to through it. -/
theorem C87_changes_only_written_words (wf : p.WF) (h0 : Start S) (h : ORun D S tr S')
    (hv : ∀ q ∈ accepted () tr, q.Valid) {m : MReq p} {ms : List (MReq p)} (hm : S'.reqQ () = m :: ms) {x : Nat}
    (hx : (S'.exec () m).mem x ≠ S'.mem x) : ∃ q ∈ accepted () tr, q.writesWord (x / 4) := by
  apply Classical.byContradiction
  intro hn
  obtain ⟨R, R', L, n, h1, -, h2, hp, rfl, -⟩ := h.play wf h0 (.of_valid hv)
  rw [accepted_only] at hv hn
  have hno : NoW none (x / 4) L := fun q hq hw => hn ⟨q, hq, hw⟩
  obtain ⟨T, g1, g2⟩ := refine wf h1 h2
  have hq := quiet_inv wf g1 none (by rw [accepted_canon]; exact hv) (x / 4) 0
    (.inl ⟨rfl, by simp only [NoW, accepted_canon]; exact hno⟩)
  rw [Nat.zero_sub] at hq
  apply hx
  show (memExec S'.mem m).1 x = S'.mem x
  rw [← (memExec_canon S'.mem m).1]
  exact memExec_byte (hq.all _ (by rw [g2.reqQ, hp.reqQ, hm]; simp)) rfl

end

open Net

variable {ι : Type} [DecidableEq ι] {p : ι → Params} {D : Nat → Prop} {H H' : HSys ι p} {tr : List (HEv ι p)}

theorem eventsOf_append (k : ι) (a b : List (HEv ι p)) : eventsOf k (a ++ b) = eventsOf k a ++ eventsOf k b := by
  simp [eventsOf]

theorem eventsOf_same (k : ι) (ev : List (Ev Unit (p k))) :
    eventsOf k (ev.map (fun e => (⟨k, e⟩ : HEv ι p))) = ev := by
  rw [eventsOf, List.filterMap_map]
  have : (HEv.only k ∘ fun e => (⟨k, e⟩ : HEv ι p)) = some := by funext e; simp [HEv.only]
  rw [this, List.filterMap_some]

theorem eventsOf_other {k j : ι} (h : j ≠ k) (ev : List (Ev Unit (p j))) :
    eventsOf k (ev.map (fun e => (⟨j, e⟩ : HEv ι p))) = [] := by
  rw [eventsOf, List.filterMap_map, List.filterMap_eq_nil_iff]
  intro e he
  simp [HEv.only, h]

theorem HetRun.outer (h : HetRun H tr H') (D : Nat → Prop) : OHRun D H tr H' := by
  induction h with
  | refl => exact .refl _
  | snoc _ hs ih => exact ih.snoc (.cache hs)

/-- Each cache is a cache among other agents, that may change any word. -/
theorem OHRun.any (h : OHRun D H tr H') (k : ι) :
    ORun (fun _ => False) ((H.node k).on H.mem) (eventsOf k tr) ((H'.node k).on H'.mem) := by
  induction h with
  | refl => exact .refl _
  | snoc _ hs ih =>
    rw [eventsOf_append]
    refine ih.snoc ?_
    cases hs with
    | outside M hM => exact .outside _ M fun x hx => hx.elim
    | cache hs =>
      cases hs with
      | mk j ev S h =>
        by_cases hj : j = k
        · subst hj
          rw [eventsOf_same]
          refine .own ?_
          dsimp only
          rw [setNode_same, Sys.node_on]
          exact h
        · rw [eventsOf_other hj]
          dsimp only
          rw [setNode_other _ _ (Ne.symm hj)]
          exact .outside _ _ fun x hx => hx.elim

/-- Each cache is a cache among other agents that leave the words alone that no other cache stores to. -/
theorem OHRun.sole (wf : ∀ k, (p k).WF) (h0 : HStart H) (h : OHRun D H tr H')
    (hv : ∀ k, ∀ q ∈ accepted () (eventsOf k tr), q.Valid) (k : ι) :
    ORun (fun W => D W ∧ SoleWriter k tr W) ((H.node k).on H.mem) (eventsOf k tr) ((H'.node k).on H'.mem) := by
  induction h with
  | refl => exact .refl _
  | @snoc H₁ H₂ tr ev h hs ih =>
    have hv' : ∀ k, ∀ q ∈ accepted () (eventsOf k tr), q.Valid := fun j q hq =>
      hv j q (by rw [eventsOf_append]; exact accepted_mono hq)
    have hd : ∀ W, D W ∧ SoleWriter k (tr ++ ev) W → D W ∧ SoleWriter k tr W := fun W ⟨h1, h2⟩ =>
      ⟨h1, fun j hj q hq => h2 j hj q (by rw [eventsOf_append]; exact accepted_mono hq)⟩
    have ih := (ih hv').weaken hd
    refine eventsOf_append k tr ev ▸ ih.snoc ?_
    cases hs with
    | outside M hM => exact .outside _ M fun x hx => hM x hx.1
    | cache hs =>
      cases hs with
      | mk j ev S hst =>
        by_cases hj : j = k
        · subst hj
          rw [eventsOf_same]
          refine .own ?_
          dsimp only
          rw [setNode_same, Sys.node_on]
          exact hst
        · rw [eventsOf_other hj]
          dsimp only
          rw [setNode_other _ _ (Ne.symm hj)]
          refine .outside _ S.mem fun x hx => ?_
          generalize hT : (H₁.node j).on H₁.mem = T at hst
          cases hst with
          | clock u i hc => subst hT; rfl
          | exec u m ms hm =>
            subst hT
            cases u
            apply Classical.byContradiction
            intro hne
            obtain ⟨q, h1, h2⟩ := C87_changes_only_written_words (wf j) (h0 j) (h.any j) (hv' j) hm hne
            exact hx.2 j hj q (by rw [eventsOf_append]; exact accepted_mono h1) h2

theorem HValid.eventsOf (hv : HValid tr) (j : ι) : ∀ q ∈ accepted () (eventsOf j tr), q.Valid := by
  intro q hq
  simp only [accepted, Verif.eventsOf, List.mem_filterMap] at hq
  obtain ⟨e, ⟨⟨j', e'⟩, h5, h6⟩, h7⟩ := hq
  simp only [HEv.only] at h6
  split at h6
  · rename_i hj
    subst hj
    cases h6
    cases e' with
    | acc u q' =>
      simp at h7; subst h7
      exact hv _ u _ h5
    | _ => simp at h7
  · cases h6

/-- **C87** (systems).  Each cache of a system of caches of any shapes, with other agents besides them, is a cache in an
environment that leaves alone the words no other cache stores to and the agents leave alone: every statement of C87
holds for it. -/
theorem C87_every_cache (wf : ∀ k, (p k).WF) (h0 : HStart H) (h : OHRun D H tr H')
    (hv : ∀ k, ∀ q ∈ accepted () (eventsOf k tr), q.Valid) (k : ι) :
    ∃ S S' : Sys Unit (p k), Start S ∧ S.mem = H.mem ∧ S'.mem = H'.mem ∧
      ORun (fun W => D W ∧ SoleWriter k tr W) S (eventsOf k tr) S' :=
  ⟨_, _, h0 k, rfl, rfl, h.sole wf h0 hv k⟩

/-- **C87** (wires).  The same for the ports of caches of any shapes, as netlists, packed messages and queues. -/
theorem C87_wires (wf : ∀ k, (p k).WF) {N N' : HNSys ι p} {tr : List (HWEv ι p)} (h0 : HNStart N) (h : HNRun N tr N')
    (hv : HWValid tr) (k : ι) :
    ∃ S S' : Sys Unit (p k), Start S ∧ S.mem = N.mem ∧ S'.mem = N'.mem ∧
      ORun (SoleWriter k (tr.map decHEv)) S (eventsOf k (tr.map decHEv)) S' := by
  obtain ⟨H, H', h1, h2, h3, h4⟩ := C82_refines wf h0 h
  refine ⟨_, _, h1 k, h3, h4, ((h2.outer (fun _ => True)).sole wf h1 ?_ k).weaken fun W hW => ⟨trivial, hW⟩⟩
  exact hv.dec.eventsOf

/-- **C87** (C19 for every cache of such a system). -/
theorem C87_private_system (wf : ∀ k, (p k).WF) (h0 : HStart H) (h : OHRun D H tr H')
    (hv : ∀ k, ∀ q ∈ accepted () (eventsOf k tr), q.Valid) {k : ι} {a b : List (Ev Unit (p k))} {q : CReq (p k)}
    {r : CResp (p k)} (he : eventsOf k tr = a ++ .acc () q :: b)
    (hd : ∀ W, q.readsWord W → D W ∧ SoleWriter k tr W)
    (hr : (responses () (eventsOf k tr))[(accepted () a).length]? = some r) :
    r.data = (flatStep (flatRun H.mem (accepted () a)).1 q).2 := by
  obtain ⟨S, S', g0, g1, -, h'⟩ := C87_every_cache wf h0 h hv k
  have hv' := hv k
  rw [he] at h' hr hv'
  rw [← g1]
  exact C87_private (wf k) g0 h' hv' hd hr

end Verif
