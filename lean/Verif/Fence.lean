import Verif.EnvNet
import Verif.SpecFence
import Verif.PropsConf

/-!
# C88: a processor that misbehaves does not disturb the others
-/

namespace Verif
open Net

section
variable {p : Params} {D : Nat → Prop} {S S' : Sys Unit p} {tr : List (Ev Unit p)}

/-- **C88.**  What memory executes for a cache, whatever its processor asks for, changes only bytes its processor may
have meant to change. -/
theorem C88_changes_only_addressed (wf : p.WF) (h0 : Start S) (h : ORun D S tr S') (hf : AmosFit tr)
    {m : MReq p} {ms : List (MReq p)} (hm : S'.reqQ () = m :: ms) {x : Nat}
    (hx : (S'.exec () m).mem x ≠ S'.mem x) : ∃ q ∈ accepted () tr, q.MayChange x := by
  apply Classical.byContradiction
  intro hn
  have h' := h.snoc (.own (.exec S' () m ms hm))
  have hf' : AmosFit (tr ++ [.exec () m (memExec S'.mem m).2]) := by
    intro q hq
    rw [accepted_append] at hq
    exact hf q (by simpa [accepted] using hq)
  obtain ⟨R, R', A, B, g1, g2, rfl, -, -⟩ := h'.play_at wf h0 hf'
  have hc : m.AskedFor (accepted none A) := exec_cause wf g1 g2
  rw [accepted_only] at hn
  exact hx (exec_unchanged hc S'.mem x fun q hq hm => hn ⟨q, hq, hm⟩)

end

variable {ι : Type} [DecidableEq ι] {p : ι → Params} {D : Nat → Prop} {H H' : HSys ι p} {tr : List (HEv ι p)}

theorem amosFit_append {p : Params} {a b : List (Ev Unit p)} (h : AmosFit (a ++ b)) : AmosFit a :=
  fun q hq => h q (accepted_mono hq)

/-- Each cache is a cache among other agents that leave alone the words it is fenced off. -/
theorem OHRun.fenced (wf : ∀ k, (p k).WF) (h0 : HStart H) (h : OHRun D H tr H') (hf : AllFit tr) (k : ι) :
    ORun (fun W => D W ∧ FencedOff k tr W) ((H.node k).on H.mem) (eventsOf k tr) ((H'.node k).on H'.mem) := by
  induction h with
  | refl => exact .refl _
  | @snoc H₁ H₂ tr ev h hs ih =>
    have hf' : AllFit tr := fun j => amosFit_append (b := eventsOf j ev) (by rw [← eventsOf_append]; exact hf j)
    have hd : ∀ W, D W ∧ FencedOff k (tr ++ ev) W → D W ∧ FencedOff k tr W := fun W ⟨h1, h2⟩ =>
      ⟨h1, fun j hj q hq => h2 j hj q (by rw [eventsOf_append]; exact accepted_mono hq)⟩
    have ih := (ih hf').weaken hd
    refine eventsOf_append k tr ev ▸ ih.snoc ?_
    cases hs with
    | outside M hM => exact .outside _ M fun x hx => hM x hx.1
    | cache hs =>
      cases hs with
      | mk j ev S hst =>
        by_cases hj : j = k
        · subst hj
          rw [eventsOf_same]
          refine .own ?_
          dsimp only
          rw [setNode_same, Sys.node_on]
          exact hst
        · rw [eventsOf_other hj]
          dsimp only
          rw [setNode_other _ _ (Ne.symm hj)]
          refine .outside _ S.mem fun x hx => ?_
          generalize hT : (H₁.node j).on H₁.mem = T at hst
          cases hst with
          | clock u i hc => subst hT; rfl
          | exec u m ms hm =>
            subst hT
            cases u
            apply Classical.byContradiction
            intro hne
            obtain ⟨q, h1, h2⟩ := C88_changes_only_addressed (wf j) (h0 j) (h.any j) (hf' j) hm hne
            exact hx.2 j hj q (by rw [eventsOf_append]; exact accepted_mono h1) x rfl h2

/-- **C88** (reads).  A processor that makes only valid requests reads from the words of which the others address no
line with a WRITE and no byte with an atomic operation what a memory that performs its own requests in order holds,
however malformed the requests of the others are. -/
theorem C88_isolated (wf : ∀ k, (p k).WF) (h0 : HStart H) (h : OHRun D H tr H') (hf : AllFit tr) {k : ι}
    (hv : ∀ q ∈ accepted () (eventsOf k tr), q.Valid) {a b : List (Ev Unit (p k))} {q : CReq (p k)} {r : CResp (p k)}
    (he : eventsOf k tr = a ++ .acc () q :: b) (hd : ∀ W, q.readsWord W → D W ∧ FencedOff k tr W)
    (hr : (responses () (eventsOf k tr))[(accepted () a).length]? = some r) :
    r.data = (flatStep (flatRun H.mem (accepted () a)).1 q).2 := by
  have h' := h.fenced wf h0 hf k
  have hs := h0 k
  generalize hS : (H.node k).on H.mem = S at h' hs
  have hm : H.mem = S.mem := by rw [← hS]; rfl
  rw [he] at h' hr hv
  rw [hm]
  exact C87_private (wf k) hs h' hv hd hr

/-- **C88** (memory).  Such a word holds in memory, once every own store to it was followed by an answered FLUSH, what the
own requests in order make of it. -/
theorem C88_memory (wf : ∀ k, (p k).WF) (h0 : HStart H) (h : OHRun D H tr H') (hf : AllFit tr) {k : ι}
    (hv : ∀ q ∈ accepted () (eventsOf k tr), q.Valid) {W : Nat} (hD : D W) (hF : FencedOff k tr W)
    (hp : Published () W (eventsOf k tr)) {x : Nat} (hx : x / 4 = W) (hr : x < 2 ^ (p k).addrBits) :
    H'.mem x = (flatRun H.mem (accepted () (eventsOf k tr))).1 x := by
  have h' := h.fenced wf h0 hf k
  have hs := h0 k
  generalize hS : (H.node k).on H.mem = S at h' hs
  generalize hS' : (H'.node k).on H'.mem = S' at h'
  have hm : H.mem = S.mem := by rw [← hS]; rfl
  have hm' : H'.mem = S'.mem := by rw [← hS']; rfl
  rw [hm, hm']
  exact C87_private_memory (wf k) hs h' hv ⟨hD, hF⟩ hp hx hr

/-- **C88** (everything else).  For each cache, whatever the processors of the others ask for: it is a cache among other
agents, so all of C87 that does not ask for valid requests, or asks for valid requests of this cache only, holds. -/
theorem C88_others_irrelevant (h0 : HStart H) (h : OHRun D H tr H') (k : ι) :
    ∃ S S' : Sys Unit (p k), Start S ∧ S.mem = H.mem ∧ S'.mem = H'.mem ∧ S'.cache () = (H'.node k).cache ∧
      ORun (fun _ => False) S (eventsOf k tr) S' :=
  ⟨_, _, h0 k, rfl, rfl, rfl, h.any k⟩

/-- **C88** (wires). -/
theorem C88_isolated_wires (wf : ∀ k, (p k).WF) {N N' : HNSys ι p} {tr : List (HWEv ι p)} (h0 : HNStart N)
    (h : HNRun N tr N') (hf : AllFit (tr.map decHEv)) {k : ι}
    (hv : ∀ q ∈ accepted () (eventsOf k (tr.map decHEv)), q.Valid) {a b : List (Ev Unit (p k))} {q : CReq (p k)}
    {r : CResp (p k)} (he : eventsOf k (tr.map decHEv) = a ++ .acc () q :: b)
    (hd : ∀ W, q.readsWord W → FencedOff k (tr.map decHEv) W)
    (hr : (responses () (eventsOf k (tr.map decHEv)))[(accepted () a).length]? = some r) :
    r.data = (flatStep (flatRun N.mem (accepted () a)).1 q).2 := by
  obtain ⟨H, H', h1, h2, h3, h4⟩ := C82_refines wf h0 h
  rw [← h3]
  exact C88_isolated wf h1 (h2.outer (fun _ => True)) hf hv he (fun W hW => ⟨trivial, hd W hW⟩) hr

end Verif
