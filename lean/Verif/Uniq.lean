import Verif.L1
import Verif.UnitLemmas

/-!
# A line is in at most one way
-/

namespace Verif
variable {p : Params}

/-- The entry holds a line or dirty words of a line. -/
def Entry.Present (e : Entry p) : Prop := e.val = true ∨ e.dty ≠ 0

/-- No two ways of a set hold the same line. -/
def UniqF (f : Way → Idx p → Entry p) : Prop :=
  ∀ w ∈ p.ways, ∀ w' ∈ p.ways, ∀ j, (f w j).Present → (f w' j).Present →
    (f w j).tag = (f w' j).tag → w = w'

/-- Entries may only disappear. -/
theorem UniqF.shrink {f g : Way → Idx p → Entry p} (h : UniqF f)
    (hs : ∀ w ∈ p.ways, ∀ j, (g w j).Present → (f w j).Present ∧ (g w j).tag = (f w j).tag) :
    UniqF g := by
  intro w hw w' hw' j h1 h2 ht
  obtain ⟨a1, a2⟩ := hs w hw j h1
  obtain ⟨b1, b2⟩ := hs w' hw' j h2
  exact h w hw w' hw' j a1 b1 (by rw [← a2, ← b2, ht])

/-! ## Tag look-up -/

/-- Exactly one way can match. Proof device; not in the source. -/
def L1.UniqAt (L : L1 p) (j : Idx p) : Prop :=
  ∀ w ∈ p.ways, ∀ w' ∈ p.ways, (L.ent w j).Present → (L.ent w' j).Present →
    (L.ent w j).tag = (L.ent w' j).tag → w = w'

/-- Proof device; not in the source. -/
inductive LookupCases (L : L1 p) (a : Addr p) : Prop
  | hit (h : (L.lookup a).hit = true) (hi : (L.lookup a).inval = false)
      (hv : (L.ent (L.lookup a).way a.idx).val = true)
      (ht : (L.ent (L.lookup a).way a.idx).tag = a.tag)
  | inval (h : (L.lookup a).hit = false) (hi : (L.lookup a).inval = true)
      (hv : (L.ent (L.lookup a).way a.idx).val = false)
      (hd : (L.ent (L.lookup a).way a.idx).dty ≠ 0)
      (ht : (L.ent (L.lookup a).way a.idx).tag = a.tag)
  | miss (h : (L.lookup a).hit = false) (hi : (L.lookup a).inval = false)
      (hn : ∀ w ∈ p.ways, (L.ent w a.idx).Present → (L.ent w a.idx).tag ≠ a.tag)

/-- Possible results of looking at one entry. -/
theorem cmpStep_cases (tag : Tag p) (f : Way → Entry p) (c : Cmp) (w : Way) :
    (cmpStep true tag f c w = { c with hit := true, way := w } ∧ (f w).val = true ∧ (f w).tag = tag) ∨
    (cmpStep true tag f c w = { c with inval := true, way := w } ∧ (f w).val = false ∧ (f w).dty ≠ 0 ∧
      (f w).tag = tag) ∨
    (cmpStep true tag f c w = c ∧ ((f w).Present → (f w).tag ≠ tag)) := by
  simp only [cmpStep, lineDirty, Bool.true_and, Entry.Present]
  by_cases ht : (f w).tag = tag
  · cases hv : (f w).val
    · by_cases hd : (f w).dty = 0
      · simp [ht, hd]
      · have hd' : ¬ (f w).dty = 0#p.nWords := hd
        simp [ht, hd']
    · simp [ht]
  · simp [ht]

theorem lookup_cases {L : L1 p} {a : Addr p} (hu : L.UniqAt a.idx) : LookupCases L a := by
  have hl : L.lookup a = p.ways.foldl (cmpStep true a.tag (fun w => L.ent w a.idx)) ⟨false, false, false⟩ := by
    simp [L1.lookup, comparing]
  cases h2 : p.twoWay
  · have hw : p.ways = [false] := by simp [Params.ways, h2]
    rw [hw] at hl
    simp only [List.foldl] at hl
    rcases cmpStep_cases a.tag (fun w => L.ent w a.idx) ⟨false, false, false⟩ false with
      ⟨h, h3, h4⟩ | ⟨h, h3, h4, h5⟩ | ⟨h, h3⟩ <;> rw [h] at hl
    · exact .hit (by rw [hl]) (by rw [hl]) (by rw [hl]; exact h3) (by rw [hl]; exact h4)
    · exact .inval (by rw [hl]) (by rw [hl]) (by rw [hl]; exact h3) (by rw [hl]; exact h4) (by rw [hl]; exact h5)
    · refine .miss (by rw [hl]) (by rw [hl]) ?_
      intro w hm; rw [hw] at hm; simp only [List.mem_singleton] at hm; subst hm; exact h3
  · have hw : p.ways = [false, true] := by simp [Params.ways, h2]
    have hmf : false ∈ p.ways := by rw [hw]; simp
    have hmt : true ∈ p.ways := by rw [hw]; simp
    have hu := hu false hmf true hmt
    rw [hw] at hl
    simp only [List.foldl] at hl
    have hcon : (L.ent false a.idx).Present → (L.ent true a.idx).Present →
        (L.ent false a.idx).tag = a.tag → (L.ent true a.idx).tag = a.tag → False := by
      intro h1 h2 h3 h4
      exact absurd (hu h1 h2 (by rw [h3, h4])) (by simp)
    rcases cmpStep_cases a.tag (fun w => L.ent w a.idx) ⟨false, false, false⟩ false with
      ⟨h, h3, h4⟩ | ⟨h, h3, h4, h5⟩ | ⟨h, h3⟩ <;> rw [h] at hl <;>
    rcases cmpStep_cases a.tag (fun w => L.ent w a.idx) _ true with
      ⟨g, g3, g4⟩ | ⟨g, g3, g4, g5⟩ | ⟨g, g3⟩ <;> rw [g] at hl
    · exact (hcon (.inl h3) (.inl g3) h4 g4).elim
    · exact (hcon (.inl h3) (.inr g4) h4 g5).elim
    · exact .hit (by rw [hl]) (by rw [hl]) (by rw [hl]; exact h3) (by rw [hl]; exact h4)
    · exact (hcon (.inr h4) (.inl g3) h5 g4).elim
    · exact (hcon (.inr h4) (.inr g4) h5 g5).elim
    · exact .inval (by rw [hl]) (by rw [hl]) (by rw [hl]; exact h3) (by rw [hl]; exact h4) (by rw [hl]; exact h5)
    · exact .hit (by rw [hl]) (by rw [hl]) (by rw [hl]; exact g3) (by rw [hl]; exact g4)
    · exact .inval (by rw [hl]) (by rw [hl]) (by rw [hl]; exact g3) (by rw [hl]; exact g4) (by rw [hl]; exact g5)
    · refine .miss (by rw [hl]) (by rw [hl]) ?_
      intro w hm; rw [hw] at hm; simp only [List.mem_cons, List.not_mem_nil, or_false] at hm
      rcases hm with hm | hm <;> subst hm
      · exact h3
      · exact g3

theorem setAt_same {α : Type} (f : Way → Idx p → α) (w : Way) (j : Idx p) (a : α) : setAt f w j a w j = a := by
  simp [setAt]

theorem setAt_ne {α : Type} (f : Way → Idx p → α) {w w' : Way} {j j' : Idx p} (a : α)
    (h : ¬ (w' = w ∧ j' = j)) : setAt f w j a w' j' = f w' j' := by
  simp only [setAt]; rw [if_neg h]

/-- Replacing an entry by one that no other way of the set holds. -/
theorem UniqF.setAt {f : Way → Idx p → Entry p} (h : UniqF f) (w0 : Way) (j0 : Idx p) (e : Entry p)
    (hs : ∀ w ∈ p.ways, w ≠ w0 → (f w j0).Present → e.Present → (f w j0).tag ≠ e.tag) :
    UniqF (setAt f w0 j0 e) := by
  intro w hw w' hw' j h1 h2 ht
  by_cases hj : j = j0
  · subst hj
    by_cases hww : w = w0
    · by_cases hww' : w' = w0
      · rw [hww, hww']
      · subst hww
        rw [setAt_same] at h1 ht
        rw [setAt_ne _ _ (fun hx => hww' hx.1)] at h2 ht
        exact absurd ht.symm (hs w' hw' hww' h2 h1)
    · by_cases hww' : w' = w0
      · subst hww'
        rw [setAt_same] at h2 ht
        rw [setAt_ne _ _ (fun hx => hww hx.1)] at h1 ht
        exact absurd ht (hs w hw hww h1 h2)
      · rw [setAt_ne _ _ (fun hx => hww hx.1)] at h1 ht
        rw [setAt_ne _ _ (fun hx => hww' hx.1)] at h2 ht
        exact h w hw w' hw' j h1 h2 ht
  · rw [setAt_ne _ _ (fun hx => hj hx.2)] at h1 ht
    rw [setAt_ne _ _ (fun hx => hj hx.2)] at h2 ht
    exact h w hw w' hw' j h1 h2 ht

end Verif
