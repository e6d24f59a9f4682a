import Verif.PropsSram
import Verif.Exec

/-!
# C68: infinite executions with SRAMs that do not keep their output
-/

namespace Verif
variable {p : Params} {ι : Type} [DecidableEq ι]

/-- An infinite execution with such SRAMs: at every clock edge the SRAMs that are not read output
`junk t`. Proof device; not in the source. -/
structure JInf (ι : Type) [DecidableEq ι] (p : Params) where
  st : Nat → Sys ι p
  act : Nat → Act ι p
  junk : Nat → Junk p
  evs : Nat → List (Ev ι p)
  clock : ∀ t k i, act t = .clock k i →
    (st t).CanClock k i ∧ evs t = (st t).clockEvs k i ∧ st (t + 1) = (st t).clockJ k i (junk t)
  exec : ∀ t k, act t = .exec k →
    ∃ m ms, (st t).reqQ k = m :: ms ∧ evs t = [.exec k m (memExec (st t).mem m).2] ∧ st (t + 1) = (st t).exec k m

/-- The same actions with the Python SRAMs. Proof device; not in the source. -/
def JInf.base (Y : JInf ι p) : Nat → Sys ι p
  | 0 => Y.st 0
  | t + 1 => ((Y.act t).perform (Y.base t)).elim (Y.base t) (·.1)

theorem JInf.next (Y : JInf ι p) {t : Nat} (h : STwin (Y.base t) (Y.st t)) :
    (Y.act t).perform (Y.base t) = some (Y.base (t + 1), Y.evs t) ∧ STwin (Y.base (t + 1)) (Y.st (t + 1)) := by
  have hb : Y.base (t + 1) = ((Y.act t).perform (Y.base t)).elim (Y.base t) (·.1) := rfl
  cases ha : Y.act t with
  | clock k i =>
    obtain ⟨h1, h2, h3⟩ := Y.clock t k i ha
    have hc := h.can h1
    have hp : (Act.clock k i).perform (Y.base t) = some ((Y.base t).clock k i, (Y.base t).clockEvs k i) := by
      unfold Act.perform
      dsimp only
      rw [if_pos]
      refine ⟨hc.noReset, hc.req, fun hm => ?_⟩
      obtain ⟨l, hl⟩ := hc.mem hm
      rw [hl]; rfl
    have hb' : Y.base (t + 1) = (Y.base t).clock k i := by rw [hb, ha, hp]; rfl
    rw [hp, hb', h3, h2, h.evs]
    exact ⟨rfl, h.clock k i _⟩
  | exec k =>
    obtain ⟨m, ms, h1, h2, h3⟩ := Y.exec t k ha
    have hq : (Y.base t).reqQ k = m :: ms := by rw [← h.reqQ]; exact h1
    have hp : (Act.exec k).perform (Y.base t) = some ((Y.base t).exec k m, [.exec k m (memExec (Y.base t).mem m).2]) := by
      simp only [Act.perform, hq]
    have hb' : Y.base (t + 1) = (Y.base t).exec k m := by rw [hb, ha, hp]; rfl
    rw [hp, hb', h3, h2, h.mem]
    exact ⟨rfl, h.exec k m⟩

theorem JInf.twin (Y : JInf ι p) (h0 : Start (Y.st 0)) : ∀ t, STwin (Y.base t) (Y.st t)
  | 0 => STwin.start h0
  | t + 1 => (Y.next (Y.twin h0 t)).2

/-- **C68.**  Every infinite execution of a system whose caches have such SRAMs has the actions, the
events, the messages in flight and the outputs of an infinite execution with the Python SRAMs. -/
theorem C68_same_infinite_executions (Y : JInf ι p) (h0 : Start (Y.st 0)) :
    ∃ X : Inf ι p, X.st 0 = Y.st 0 ∧ X.act = Y.act ∧ X.evs = Y.evs ∧
      ∀ t, (X.st t).mem = (Y.st t).mem ∧ (X.st t).reqQ = (Y.st t).reqQ ∧ (X.st t).respQ = (Y.st t).respQ ∧
        ∀ k i, ((X.st t).cache k).out i = ((Y.st t).cache k).out i :=
  ⟨⟨Y.base, Y.act, Y.evs, fun t => (Y.next (Y.twin h0 t)).1⟩, rfl, rfl, rfl, fun t =>
    have h := Y.twin h0 t
    ⟨h.mem.symm, h.reqQ.symm, h.respQ.symm, fun k i => ((h.cache k).out i).symm⟩⟩

/-- The events of the first `t` steps. Proof device; not in the source. -/
def JInf.trace (Y : JInf ι p) : Nat → List (Ev ι p)
  | 0 => []
  | t + 1 => Y.trace t ++ Y.evs t

/-- **C68.**  Liveness (C15) with such SRAMs: if the ports of cache `k` are ready again and again and
memory answers, every accepted request is answered. -/
theorem C68_eventually_answered (wf : p.WF) (Y : JInf ι p) (h0 : Start (Y.st 0)) (k : ι)
    (hp : ∀ t, ∃ t', t ≤ t' ∧ ∃ i, Y.act t' = .clock k i ∧ i.respRdy = true ∧ i.mreqRdy = true)
    (hm : ∀ t, (Y.st t).reqQ k ≠ [] ∨ (Y.st t).respQ k ≠ [] →
      ∃ t', t ≤ t' ∧ ∃ i, Y.act t' = .clock k i ∧ i.mrespEn = true) (t : Nat) :
    ∃ t', t ≤ t' ∧ (accepted k (Y.trace t)).length ≤ (responses k (Y.trace t')).length := by
  obtain ⟨X, e0, ea, ee, hs⟩ := C68_same_infinite_executions Y h0
  have ht : ∀ t, X.trace t = Y.trace t := by
    intro t
    induction t with
    | zero => rfl
    | succ t ih =>
      show X.trace t ++ X.evs t = Y.trace t ++ Y.evs t
      rw [ih, ee]
  obtain ⟨t', hle, h⟩ := C15_eventually_answered wf X (e0 ▸ h0) k
    (by intro t; rw [ea]; exact hp t)
    (by intro t h; rw [ea]; rw [(hs t).2.1, (hs t).2.2.1] at h; exact hm t h) t
  rw [ht, ht] at h
  exact ⟨t', hle, h⟩

/-! ## Non-vacuity -/

/-- An execution with the Python SRAMs, as one with such SRAMs. Proof device; not in the source. -/
def Inf.toJ (X : Inf ι p) : JInf ι p where
  st := X.st
  act := X.act
  junk t := match X.act t with
    | .clock k _ => ((X.st t).cache k).held
    | .exec k => ((X.st t).cache k).held
  evs := X.evs
  clock t k i h := by
    have hd := X.does t
    rw [h] at hd ⊢
    have hs := Act.perform_step hd
    simp only [Act.perform] at hd
    split at hd
    · next hc =>
      simp only [Option.some.injEq, Prod.mk.injEq] at hd
      refine ⟨⟨hc.1, hc.2.1, fun hm => ?_⟩, hd.2.symm, ?_⟩
      · have := hc.2.2 hm
        cases hq : (X.st t).respQ k with
        | nil => rw [hq] at this; cases this
        | cons a l => rw [hq] at this; exact ⟨l, by rw [Option.some.inj this]⟩
      · rw [← hd.1]
        unfold Sys.clockJ
        dsimp only
        rw [stepJ_held]
        rfl
    · cases hd
  exec t k h := by
    have hd := X.does t
    rw [h] at hd
    simp only [Act.perform] at hd
    split at hd
    · cases hd
    · next m ms hq =>
      simp only [Option.some.injEq, Prod.mk.injEq] at hd
      exact ⟨m, ms, hq, hd.2.symm, hd.1.symm⟩

/-- The hypotheses of `C68_eventually_answered` are met. -/
example : Start ((LiveEx.inf (start0 p1) LiveEx.prog).toJ.st 0) ∧
    (∀ t, ∃ t', t ≤ t' ∧ ∃ i, (LiveEx.inf (start0 p1) LiveEx.prog).toJ.act t' = .clock () i ∧ i.respRdy = true ∧ i.mreqRdy = true) ∧
    (∀ t, ((LiveEx.inf (start0 p1) LiveEx.prog).toJ.st t).reqQ () ≠ [] ∨ ((LiveEx.inf (start0 p1) LiveEx.prog).toJ.st t).respQ () ≠ [] →
      ∃ t', t ≤ t' ∧ ∃ i, (LiveEx.inf (start0 p1) LiveEx.prog).toJ.act t' = .clock () i ∧ i.mrespEn = true) :=
  ⟨start0_start p1, (LiveEx.inf_fair (start0 p1) LiveEx.prog).1, (LiveEx.inf_fair (start0 p1) LiveEx.prog).2⟩

end Verif
