import Verif.EnvNet
import Verif.Exec
import Verif.ExModel

/-!
# The hypotheses of C87 are met

A cache stores to word 5 and reads word 4 of the same line; another agent then overwrites all of memory but word 5;
the cache still returns the old word 4 (a hit), performs an atomic operation, and after an INV returns the new word 4
and its own word 5.
-/

namespace Verif

theorem Run.outer {p : Params} {S S' : Sys Unit p} {tr : List (Ev Unit p)} (h : Run S tr S') (D : Nat → Prop) :
    ORun D S tr S' := by
  induction h with
  | refl => exact .refl _
  | snoc _ hs ih => exact ih.snoc (.own hs)

theorem ORun.outsideOne {p : Params} {D : Nat → Prop} (S : Sys Unit p) (M : ByteMem) (h : ∀ x, D (x / 4) → M x = S.mem x) :
    ORun D S [] { S with mem := M } := by
  have := ORun.snoc (.refl S) (.outside (D := D) S M h)
  simpa using this

namespace Ex87

/-- A request (not in the source: example). -/
def w5 : CReq p0 := ⟨MT.WRITE, 1, ⟨1, 0, 4⟩, 0, 5⟩
/-- A request (not in the source: example). -/
def r4 : CReq p0 := ⟨MT.READ, 0, ⟨1, 0, 0⟩, 0, 0⟩
/-- A request (not in the source: example). -/
def am : CReq p0 := ⟨3, 1, ⟨2, 1, 0⟩, 0, 7⟩
/-- A request (not in the source: example). -/
def iv : CReq p0 := ⟨MT.INV, 1, ⟨0, 0, 0⟩, 0, 0⟩
/-- A request (not in the source: example). -/
def r5 : CReq p0 := ⟨MT.READ, 1, ⟨1, 0, 4⟩, 0, 0⟩
/-- A request (not in the source: example). -/
def fl : CReq p0 := ⟨MT.FLUSH, 1, ⟨0, 0, 0⟩, 0, 0⟩

/-- Nobody but the cache stores to word 5 (not in the source: example). -/
def D : Nat → Prop := fun W => W = 5

/-- The first part of the execution (not in the source: example). -/
def run1 : Sys Unit p0 × List (Ev Unit p0) := drive 40 (start0 p0) [w5, r4]
/-- Another agent fills memory with the byte `0xEE`, except word 5 (not in the source: example). -/
def poked : Sys Unit p0 := { run1.1 with mem := fun x => if x / 4 = 5 then run1.1.mem x else 0xEE }
/-- The second part (not in the source: example). -/
def run2 : Sys Unit p0 × List (Ev Unit p0) := drive 100 poked [r4, am, iv, r4, r5, fl]
/-- All events (not in the source: example). -/
def tr : List (Ev Unit p0) := run1.2 ++ ([] ++ run2.2)

theorem isRun : ORun D (start0 p0) tr run2.1 := by
  have h1 : ORun D (start0 p0) run1.2 run1.1 := (drive_run 40 (start0 p0) [w5, r4]).outer D
  have h2 : ORun D run1.1 [] poked := ORun.outsideOne _ _ fun x hx => if_pos hx
  have h3 : ORun D poked run2.2 run2.1 := (drive_run 100 poked [r4, am, iv, r4, r5, fl]).outer D
  exact h1.trans (h2.trans h3)

theorem acc : accepted () tr = [w5, r4, r4, am, iv, r4, r5, fl] := by decide +kernel

theorem resps : responses () tr = [⟨MT.WRITE, 1, 0, 0, 0⟩, ⟨MT.READ, 0, 1, 0, 0x14131211⟩, ⟨MT.READ, 0, 1, 0, 0x14131211⟩,
    ⟨3, 1, 0, 0, 0xEEEEEEEE⟩, ⟨MT.INV, 1, 0, 0, 0⟩, ⟨MT.READ, 0, 0, 0, 0xEEEEEEEE⟩, ⟨MT.READ, 1, 1, 0, 5⟩,
    ⟨MT.FLUSH, 1, 0, 0, 0⟩] := by decide +kernel

/-- Memory in the end: the own store, the atomic operation, and the stores of the other agent. -/
theorem final : (List.range 48).map run2.1.mem = List.replicate 20 0xEE ++ [5, 0, 0, 0] ++ List.replicate 16 0xEE ++
    [0xF5, 0xEE, 0xEE, 0xEE] ++ List.replicate 4 0xEE := by decide +kernel

theorem valid : ∀ x ∈ accepted () tr, CReq.Valid x := by
  rw [acc]
  intro x hx
  simp only [List.mem_cons, List.not_mem_nil, or_false] at hx
  rcases hx with rfl | rfl | rfl | rfl | rfl | rfl | rfl | rfl
  · exact .write rfl 2 (by decide) (by decide) (by decide)
  · exact .read rfl 2 (by decide) (by decide)
  · exact .read rfl 2 (by decide) (by decide)
  · exact .amo (by decide) (by decide) (by decide)
  · exact .inv rfl
  · exact .read rfl 2 (by decide) (by decide)
  · exact .read rfl 2 (by decide) (by decide)
  · exact .flush rfl

theorem fit : AmosFit tr := .of_valid valid

theorem wf : p0.WF := by constructor <;> decide

theorem cut {n : Nat} {q : CReq p0} (h : (accepted () tr)[n]? = some q) :
    ∃ a b c, tr = a ++ .acc () q :: (b ++ c) ∧ (accepted () a).length = n ∧ accepted () a = (accepted () tr).take n ∧
      Window () b c := by
  obtain ⟨a, b, h1, h2⟩ := acc_nth h
  obtain ⟨b, c, rfl, h3⟩ := Window.exists () b
  refine ⟨a, b, c, h1, h2, ?_, h3⟩
  rw [h1, accepted_append, ← h2, List.take_left]

/-- `C87_private`: word 5 is private. -/
theorem private_met : ∃ a b, tr = a ++ .acc () r5 :: b ∧ (accepted () a).length = 6 ∧ (∀ W, r5.readsWord W → D W) ∧
    (5 : Data p0) = (flatStep (flatRun mem0 (accepted () a)).1 r5).2 := by
  obtain ⟨a, b, h1, h2⟩ := acc_nth (tr := tr) (n := 6) (q := r5) (by rw [acc]; rfl)
  have hD : ∀ W, r5.readsWord W → D W := by
    rintro W ⟨x, rfl, ⟨-, h3, h4⟩ | ⟨h3, -⟩⟩
    · have e1 : r5.addr.flat = 20 := by decide
      have e2 : r5.bytes = 4 := by decide
      rw [e1] at h3 h4; rw [e2] at h4
      show x / 4 = 5
      omega
    · exact absurd h3 (by decide)
  refine ⟨a, b, h1, h2, hD, ?_⟩
  have hr := isRun
  have hv := valid
  have hs := resps
  rw [h1] at hr hv hs
  exact C87_private wf (start0_start p0) hr hv hD (r := ⟨MT.READ, 1, 1, 0, 5⟩) (by rw [h2, hs]; rfl)

/-- `C87_silent`: the second read of word 4 hits and sends nothing, though memory was changed. -/
theorem silent_met : ∃ a b c, tr = a ++ .acc () r4 :: (b ++ c) ∧ (accepted () a).length = 2 ∧ Cached () a r4.addr ∧
    sent () b = [] := by
  obtain ⟨a, b, c, h1, h2, h3, hw⟩ := cut (n := 2) (q := r4) (by rw [acc]; rfl)
  have hc : Cached () a r4.addr := by simp only [Cached, h3, acc]; decide
  refine ⟨a, b, c, h1, h2, hc, ?_⟩
  have hr := isRun
  have hf := fit
  have hs := resps
  rw [h1] at hr hf hs
  refine C87_silent wf (start0_start p0) hr hf hw ?_ (by rw [h2, hs]; decide) (.inl ⟨.inl rfl, hc⟩)
  intro x hx
  rw [h3] at hx
  exact valid x (List.mem_of_mem_take hx)

/-- `C87_amo_executed_once`: the atomic operation works on what the other agent wrote. -/
theorem amo_met : ∃ a b c, tr = a ++ .acc () am :: (b ++ c) ∧ Window () b c ∧ MT.isAmo am.ty = true ∧
    (responses () tr)[(accepted () a).length]? = some ⟨3, 1, 0, 0, 0xEEEEEEEE⟩ := by
  obtain ⟨a, b, c, h1, h2, h3, hw⟩ := cut (n := 3) (q := am) (by rw [acc]; rfl)
  exact ⟨a, b, c, h1, hw, by decide, by rw [h2, resps]; rfl⟩

/-- `C87_refetched`: after the INV the word the other agent wrote is read. -/
theorem refetched_met : ∃ a b c, tr = a ++ .acc () iv :: (b ++ .acc () r4 :: c) ∧ accepted () b = [] ∧
    (responses () tr)[(accepted () (a ++ .acc () iv :: b)).length]? = some ⟨MT.READ, 0, 0, 0, 0xEEEEEEEE⟩ ∧
    ∃ c₁ m x c₂ S₁, c = c₁ ++ .exec () m x :: c₂ ∧ m.ReadsLine r4.addr ∧
      ORun D (start0 p0) (a ++ .acc () iv :: (b ++ .acc () r4 :: c₁)) S₁ := by
  obtain ⟨t, c, h1, h2⟩ := acc_nth (tr := tr) (n := 5) (q := r4) (by rw [acc]; rfl)
  have ht : accepted () t = [w5, r4, r4, am, iv] := by
    have : accepted () t = (accepted () tr).take 5 := by rw [h1, accepted_append, ← h2, List.take_left]
    rw [this, acc]; rfl
  obtain ⟨a, b, rfl, h3⟩ := acc_nth (tr := t) (n := 4) (q := iv) (by rw [ht]; rfl)
  have hb : accepted () b = [] := by
    have h4 := congrArg List.length ht
    rw [accepted_append, show accepted () (.acc () iv :: b) = [iv] ++ accepted () b by simp [accepted]] at h4
    simp only [List.length_append, h3, List.length_cons, List.length_nil] at h4
    exact List.eq_nil_of_length_eq_zero (by omega)
  have e : tr = a ++ .acc () iv :: (b ++ .acc () r4 :: c) := by rw [h1]; simp
  have hq : (responses () tr)[(accepted () (a ++ .acc () iv :: b)).length]? = some ⟨MT.READ, 0, 0, 0, 0xEEEEEEEE⟩ := by
    rw [h2, resps]; rfl
  refine ⟨a, b, c, e, hb, hq, ?_⟩
  have hr := isRun
  have hf := fit
  rw [e] at hr hf hq
  obtain ⟨-, c₁, m, x, c₂, S₁, g1, g2, g3, -⟩ := C87_refetched wf (start0_start p0) hr hf rfl (.inl rfl)
    (by rw [hb]; simp) hq
  exact ⟨c₁, m, x, c₂, S₁, g1, g2, g3⟩

/-- `C87_every_cache`: the execution of two caches of different shapes of `ExModel.lean`, followed by stores of another
agent anywhere but to word 5, has what it asks for. -/
theorem system_met : ∃ H : HSys Bool pH, OHRun D startH trH H ∧ (∀ x, x / 4 ≠ 5 → H.mem x = 0xEE) ∧
    ∀ k, ∀ q ∈ accepted () (eventsOf k trH), q.Valid := by
  have h := OHRun.snoc (trH_run.outer D) (.outside hetC.1 (fun x => if x / 4 = 5 then hetC.1.mem x else 0xEE)
    fun x hx => if_pos hx)
  rw [List.append_nil] at h
  exact ⟨_, h, fun x hx => if_neg hx, trH_valid.eventsOf⟩

end Ex87
end Verif
