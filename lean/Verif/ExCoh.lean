import Verif.PropsCoh
import Verif.ExModel

/-!
# C78: an execution that meets the hypotheses, and why whole words are asked for
-/

namespace Verif

theorem trH_whole : WM.WholeWrites 4 (visible trH) := by
  rw [trH_visible]
  intro k
  cases k <;> decide +kernel

/-- The execution of `ExModel.lean` meets the hypotheses of C78 for word 4: one cache writes
it, both read it, one of them a stale copy, and one adds to it. -/
example : ∃ s1 s2 : List (Bool × WM.Req × WM.Resp), WM.Explains 4 startH.mem (visible trH) (s1 ++ s2) ∧
    ∀ x, x / 4 = 4 → hetC.1.mem x = WM.runs startH.mem (s1.map (·.2)) x := by
  exact C78_coherent pH_wf startH_start trH_run trH_valid trH_whole

/-- The same execution meets the hypotheses of C80: the first time is after the FLUSH of cache
`false`, the second at the end. -/
example : ∃ s₁ t₁ s₂ t₂ : List (Bool × WM.Req × WM.Resp),
    WM.Explains 4 startH.mem (visible (hetA.2.map fun e => ⟨false, e⟩)) (s₁ ++ t₁) ∧
    (∀ x, x / 4 = 4 → hetA.1.mem x = WM.runs startH.mem (s₁.map (·.2)) x) ∧
    WM.Durable 4 (visible (hetA.2.map fun e => ⟨false, e⟩)) s₁ ∧
    WM.Explains 4 startH.mem (visible trH) (s₂ ++ t₂) ∧
    (∀ x, x / 4 = 4 → hetC.1.mem x = WM.runs startH.mem (s₂.map (·.2)) x) ∧
    WM.Durable 4 (visible trH) s₂ ∧ WM.storesOf 4 s₁ <+: WM.storesOf 4 s₂ := by
  have e : trH = hetA.2.map (fun e => ⟨false, e⟩) ++ (hetB.2.map (fun e => ⟨true, e⟩) ++
      hetC.2.map (fun e => ⟨false, e⟩)) := by rw [trH, List.append_assoc]
  have hv := trH_valid
  have hw := trH_whole
  rw [e] at hv hw ⊢
  refine C80_crash_consistent pH_wf startH_start ?_ ?_ hv hw
  · unfold hetA; exact driveH_run false 60 startH hq1
  · have h1 : HetRun hetA.1 (hetB.2.map fun e => ⟨true, e⟩) hetB.1 := by
      unfold hetB; exact driveH_run true 40 hetA.1 hq2
    have h2 : HetRun hetB.1 (hetC.2.map fun e => ⟨false, e⟩) hetC.1 := by
      unfold hetC; exact driveH_run false 50 hetB.1 hq3
    exact h1.trans h2

/-- There the sequence is not empty: it contains the WRITE that was flushed. -/
example (s : List (Bool × WM.Req × WM.Resp)) (h : WM.Durable 4 (visible trH) s) :
    (⟨MT.WRITE, 0, 16, 0, 4, 100⟩, ⟨MT.WRITE, 0, 0, 0⟩) ∈ WM.ofK false s := by
  rw [trH_visible] at h
  have := h false 2 ⟨MT.FLUSH, 0, 0, 0, 4, 0⟩ (by decide) (by decide) (.inl rfl)
  exact this.subset (by decide +kernel)

/-- The five accesses to the word in their order: the stale read of cache `false`, asked for
after the addition of cache `true` was answered, comes before it. -/
example : WM.Explains 4 startH.mem (visible trH)
    [(false, ⟨MT.WRITE, 0, 16, 0, 4, 100⟩, ⟨MT.WRITE, 0, 0, 0⟩),
     (false, ⟨MT.READ, 1, 16, 0, 4, 0⟩, ⟨MT.READ, 1, 0, 100⟩),
     (true, ⟨MT.READ, 0, 16, 0, 4, 0⟩, ⟨MT.READ, 0, 0, 100⟩),
     (false, ⟨MT.READ, 0, 16, 0, 4, 0⟩, ⟨MT.READ, 0, 0, 100⟩),
     (true, ⟨3, 1, 16, 0, 4, 5⟩, ⟨3, 1, 0, 100⟩),
     (false, ⟨MT.READ, 0, 16, 0, 4, 0⟩, ⟨MT.READ, 0, 0, 105⟩)] := by
  have bytes : ∀ {M : ByteMem} {q : WM.Req} {r : WM.Resp} {v : Nat}, readLE M 16 4 = v → q.addr = 16 → q.bytes = 4 →
      r.data = v → ∀ x, x / 4 = 4 → q.addr ≤ x → x < q.addr + q.bytes →
        r.data / 256 ^ (x - q.addr) % 256 = (M x).toNat := by
    intro M q r v hv ha hb hr x _ h1 h2
    rw [hr, ← hv, ha, readLE_byte _ _ _ _ (by omega)]
    congr 2; omega
  have no : ∀ {P : Prop} {a b : MType}, a ≠ b → a = b → P := fun h h' => absurd h' h
  rw [trH_visible]
  refine ⟨⟨⟨rfl, rfl, rfl, fun h => no (by decide) h, fun h => Bool.noConfusion h⟩,
    ⟨rfl, rfl, rfl, fun _ => bytes (v := 100) ?_ rfl rfl rfl, fun h => Bool.noConfusion h⟩,
    ⟨rfl, rfl, rfl, fun _ => bytes (v := 100) ?_ rfl rfl rfl, fun h => Bool.noConfusion h⟩,
    ⟨rfl, rfl, rfl, fun _ => bytes (v := 100) ?_ rfl rfl rfl, fun h => Bool.noConfusion h⟩,
    ⟨rfl, rfl, rfl, fun h => no (by decide) h, fun _ => ?_⟩,
    ⟨rfl, rfl, rfl, fun _ => bytes (v := 105) ?_ rfl rfl rfl, fun h => Bool.noConfusion h⟩, trivial⟩, ?_⟩
  · decide +kernel
  · decide +kernel
  · decide +kernel
  · decide +kernel
  · decide +kernel
  · intro k; cases k <;> decide +kernel

/-! ## Writes of single bytes -/

/-- Cache `false` writes byte 16. Example; not in the source. -/
def cq1 : List (CReq (pH false)) := [⟨MT.WRITE, 0, ⟨1, 0, 0⟩, 1, 2⟩]
/-- Cache `true` writes the whole word and flushes. Example; not in the source. -/
def cq2 : List (CReq (pH true)) := [⟨MT.WRITE, 0, ⟨0, 1, 0⟩, 0, 0x01010101⟩, ⟨MT.FLUSH, 1, ⟨0, 0, 0⟩, 0, 0⟩]
/-- Cache `false` flushes. Example; not in the source. -/
def cq3 : List (CReq (pH false)) := [⟨MT.FLUSH, 1, ⟨0, 0, 0⟩, 0, 0⟩]
/-- Cache `true` reads the word in memory: it adds 0 to it. Example; not in the source. -/
def cq4 : List (CReq (pH true)) := [⟨3, 0, ⟨0, 1, 0⟩, 0, 0⟩]

/-- Example; not in the source. -/
def cohA := driveH false 30 startH cq1
/-- Example; not in the source. -/
def cohB := driveH true 60 cohA.1 cq2
/-- Example; not in the source. -/
def cohC := driveH false 50 cohB.1 cq3
/-- Example; not in the source. -/
def cohD := driveH true 30 cohC.1 cq4

/-- Example; not in the source. -/
def trCoh : List (HEv Bool pH) :=
  cohA.2.map (fun e => ⟨false, e⟩) ++ cohB.2.map (fun e => ⟨true, e⟩) ++ cohC.2.map (fun e => ⟨false, e⟩) ++
    cohD.2.map (fun e => ⟨true, e⟩)

theorem trCoh_run : HetRun startH trCoh cohD.1 :=
  (((driveH_run false 30 startH cq1).trans (driveH_run true 60 cohA.1 cq2)).trans
    (driveH_run false 50 cohB.1 cq3)).trans (driveH_run true 30 cohC.1 cq4)

theorem trCoh_acc1 : accepted () cohA.2 = cq1 := by decide +kernel
theorem trCoh_acc2 : accepted () cohB.2 = cq2 := by decide +kernel
theorem trCoh_acc3 : accepted () cohC.2 = cq3 := by decide +kernel
theorem trCoh_acc4 : accepted () cohD.2 = cq4 := by decide +kernel

theorem trCoh_valid : HValid trCoh := by
  refine hvalid_append (hvalid_append (hvalid_append (hvalid_one _ ?_) (hvalid_one _ ?_)) (hvalid_one _ ?_)) (hvalid_one _ ?_)
  · rw [trCoh_acc1]
    intro q hq
    simp only [cq1, List.mem_cons, List.not_mem_nil, or_false] at hq
    subst hq
    exact .write rfl 0 (by decide) (by decide) (by decide)
  · rw [trCoh_acc2]
    intro q hq
    simp only [cq2, List.mem_cons, List.not_mem_nil, or_false] at hq
    rcases hq with rfl | rfl
    · exact .write rfl 2 (by decide) (by decide) (by decide)
    · exact .flush rfl
  · rw [trCoh_acc3]
    intro q hq
    simp only [cq3, List.mem_cons, List.not_mem_nil, or_false] at hq
    subst hq
    exact .flush rfl
  · rw [trCoh_acc4]
    intro q hq
    simp only [cq4, List.mem_cons, List.not_mem_nil, or_false] at hq
    subst hq
    exact .amo (by decide) (by decide) (by decide)

theorem trCoh_visible : visible trCoh =
    [.acc false ⟨MT.WRITE, 0, 16, 1, 1, 2⟩, .resp false ⟨MT.WRITE, 0, 1, 0⟩,
     .acc true ⟨MT.WRITE, 0, 16, 0, 4, 0x01010101⟩, .acc true ⟨MT.FLUSH, 1, 0, 0, 4, 0⟩,
     .resp true ⟨MT.WRITE, 0, 0, 0⟩, .resp true ⟨MT.FLUSH, 1, 0, 0⟩,
     .acc false ⟨MT.FLUSH, 1, 0, 0, 4, 0⟩, .resp false ⟨MT.FLUSH, 1, 0, 0⟩,
     .acc true ⟨3, 0, 16, 0, 4, 0⟩, .resp true ⟨3, 0, 0, 0x14131202⟩] := by decide +kernel

attribute [irreducible] cohA cohB cohC cohD

/-- All merges of `x :: a`, where `f` gives those of `a`, with a list. Example; not in the source. -/
def mergeIn (f : List (WM.Req × WM.Resp) → List (List (WM.Req × WM.Resp))) (x : WM.Req × WM.Resp)
    (a : List (WM.Req × WM.Resp)) : List (WM.Req × WM.Resp) → List (List (WM.Req × WM.Resp))
  | [] => [x :: a]
  | y :: b => (f (y :: b)).map (x :: ·) ++ (mergeIn f x a b).map (y :: ·)

/-- All merges of two lists. Example; not in the source. -/
def merges : List (WM.Req × WM.Resp) → List (WM.Req × WM.Resp) → List (List (WM.Req × WM.Resp))
  | [], b => [b]
  | x :: a, b => mergeIn (merges a) x a b

theorem mem_merges (s : List (Bool × WM.Req × WM.Resp)) :
    s.map (·.2) ∈ merges (WM.ofK false s) (WM.ofK true s) := by
  induction s with
  | nil => simp [WM.ofK, merges]
  | cons x s ih =>
    obtain ⟨k, x⟩ := x
    cases k with
    | false =>
      rw [show WM.ofK false ((false, x) :: s) = x :: WM.ofK false s from rfl,
        show WM.ofK true ((false, x) :: s) = WM.ofK true s from rfl]
      cases hb : WM.ofK true s with
      | nil =>
        rw [hb] at ih
        cases ha : WM.ofK false s <;> rw [ha] at ih <;> simpa [merges, mergeIn] using ih
      | cons y b =>
        rw [hb] at ih
        simp only [merges, mergeIn, List.mem_append, List.mem_map]
        exact .inl ⟨_, ih, rfl⟩
    | true =>
      rw [show WM.ofK true ((true, x) :: s) = x :: WM.ofK true s from rfl,
        show WM.ofK false ((true, x) :: s) = WM.ofK false s from rfl]
      cases ha : WM.ofK false s with
      | nil =>
        rw [ha] at ih
        simpa [merges] using ih
      | cons y a =>
        rw [ha] at ih
        simp only [merges, mergeIn, List.mem_append, List.mem_map]
        exact .inr ⟨_, ih, rfl⟩

/-- The atomic operations of `l` return what they should. Example; not in the source. -/
def amosRight (W : Nat) (M : ByteMem) : List (WM.Req × WM.Resp) → Bool
  | [] => true
  | x :: l => (!MT.isAmo x.1.ty || x.2.data == readLE M (4 * W) 4) && amosRight W (WM.flat M x.1).1 l

theorem amosRight_of {W : Nat} {M : ByteMem} {l : List (WM.Req × WM.Resp)} (h : WM.Legal W M l) :
    amosRight W M l = true := by
  induction l generalizing M with
  | nil => rfl
  | cons x l ih =>
    simp only [amosRight, ih h.2, Bool.and_true, Bool.or_eq_true, Bool.not_eq_true', beq_iff_eq]
    cases ha : MT.isAmo x.1.ty with
    | false => exact .inl rfl
    | true => exact .inr (h.1.2.2.2.2 ha)

/-- Both lists are completely known. -/
theorem ofK_known {k : Bool} {W : Nat} {tr : List (WM.Ev Bool)} {s : List (Bool × WM.Req × WM.Resp)}
    (h : WM.answered k W tr <+: WM.ofK k s ∧ (WM.ofK k s).map (·.1) <+: WM.asked k W tr)
    (hl : (WM.asked k W tr).length = (WM.answered k W tr).length) : WM.ofK k s = WM.answered k W tr := by
  have h1 := h.1.length_le
  have h2 := h.2.length_le
  rw [List.length_map, hl] at h2
  exact (h.1.eq_of_length (by omega)).symm

/-- **C78, the limit.**  With writes of single bytes there need be no such order, although
every store was flushed: the byte written by one cache takes with it, when it is flushed, the
old values of the other three bytes of the word, and the word the other cache wrote and
flushed in between is lost. -/
theorem C78_bytes_lost : ∃ (tr : List (HEv Bool pH)) (H' : HSys Bool pH), HStart startH ∧ HetRun startH tr H' ∧
    HValid tr ∧ ¬ ∃ s, WM.Explains 4 startH.mem (visible tr) s := by
  refine ⟨trCoh, cohD.1, startH_start, trCoh_run, trCoh_valid, ?_⟩
  rintro ⟨s, h1, h2⟩
  rw [trCoh_visible] at h2
  have e1 := ofK_known (h2 false) (by decide +kernel)
  have e2 := ofK_known (h2 true) (by decide +kernel)
  have hm := mem_merges s
  rw [e1, e2] at hm
  have hr := amosRight_of h1
  revert hr
  generalize s.map (·.2) = l at hm
  revert l
  decide +kernel

end Verif
