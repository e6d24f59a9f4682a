import Verif.UnitLemmas

/-!
# C44, C45: the tag check and the tag update unit

For every tag array contents, request tag, offset and length.
-/

namespace Verif
variable {p : Params}

/-- The tag entry of a way makes the line with tag `t` present: it is valid. -/
def Entry.HoldsLine (e : Entry p) (t : Tag p) : Prop := e.val = true ∧ e.tag = t

/-- The tag entry of a way keeps dirty words of the invalidated line with tag `t`. -/
def Entry.Remains (e : Entry p) (t : Tag p) : Prop :=
  e.val = false ∧ e.tag = t ∧ ∃ j, j < p.nWords ∧ e.dty.getLsbD j = true

theorem tag_dty_ne_zero (d : Dty p) : d ≠ 0 ↔ ∃ j, j < p.nWords ∧ d.getLsbD j = true := by
  constructor
  · intro h
    apply Classical.byContradiction
    intro hn
    apply h
    apply BitVec.eq_of_getLsbD_eq
    intro j hj
    cases hb : d.getLsbD j with
    | true => exact absurd ⟨j, hj, hb⟩ hn
    | false => simp
  · rintro ⟨j, _, h⟩ rfl
    simp at h

theorem cmpStep_true (t : Tag p) (ents : Way → Entry p) (c : Cmp) (i : Way) [Decidable ((ents i).HoldsLine t)]
    [Decidable ((ents i).Remains t)] :
    cmpStep true t ents c i =
      ⟨c.hit || decide ((ents i).HoldsLine t), c.inval || decide ((ents i).Remains t),
        if (ents i).HoldsLine t ∨ (ents i).Remains t then i else c.way⟩ := by
  have hd := tag_dty_ne_zero (ents i).dty
  by_cases h1 : (ents i).tag = t <;> by_cases h2 : (ents i).val = true <;> by_cases h3 : (ents i).dty = 0
  all_goals
    have hr : (ents i).Remains t ↔ (ents i).val = false ∧ (ents i).tag = t ∧ (ents i).dty ≠ 0 := by
      rw [hd]; rfl
    have hp : (ents i).HoldsLine t ↔ (ents i).val = true ∧ (ents i).tag = t := Iff.rfl
    have h3' := h3
    simp only [BitVec.ofNat_eq_ofNat] at h3'
    simp [cmpStep, lineDirty, h1, h2, h3', hr, hp]

open Classical in
theorem comparing_true (t : Tag p) (ents : Way → Entry p) :
    comparing p true false t ents = p.ways.foldl (fun c i =>
      ⟨c.hit || decide ((ents i).HoldsLine t), c.inval || decide ((ents i).Remains t),
        if (ents i).HoldsLine t ∨ (ents i).Remains t then i else c.way⟩) ⟨false, false, false⟩ := by
  simp only [comparing, Bool.not_false, Bool.and_self, if_true]
  congr 1
  funext c i
  exact cmpStep_true t ents c i

/-- **C44.**  When the unit is disabled, or the access is an initialisation, it
reports nothing. -/
theorem C44_disabled (en isInit : Bool) (t : Tag p) (ents : Way → Entry p) (h : en = false ∨ isInit = true) :
    (comparing p en isInit t ents).hit = false ∧ (comparing p en isInit t ents).inval = false := by
  rcases h with rfl | rfl <;> simp [comparing]

/-- **C44.**  A hit is reported exactly if some way holds the line. -/
theorem C44_hit (t : Tag p) (ents : Way → Entry p) :
    (comparing p true false t ents).hit = true ↔ ∃ w ∈ p.ways, (ents w).HoldsLine t := by
  classical
  rw [comparing_true]
  by_cases h : p.twoWay = true <;> simp [Params.ways, h]

/-- **C44.**  A hit on an invalidated line is reported exactly if some way still keeps
dirty words of the line. -/
theorem C44_inval (t : Tag p) (ents : Way → Entry p) :
    (comparing p true false t ents).inval = true ↔ ∃ w ∈ p.ways, (ents w).Remains t := by
  classical
  rw [comparing_true]
  by_cases h : p.twoWay = true <;> simp [Params.ways, h]

/-- **C44.**  The way reported with either kind of hit is one that holds the line
(or its dirty remains). -/
theorem C44_way (t : Tag p) (ents : Way → Entry p)
    (h : (comparing p true false t ents).hit = true ∨ (comparing p true false t ents).inval = true) :
    (comparing p true false t ents).way ∈ p.ways ∧
    ((ents (comparing p true false t ents).way).HoldsLine t ∨ (ents (comparing p true false t ents).way).Remains t) := by
  classical
  have h' : ∃ w ∈ p.ways, (ents w).HoldsLine t ∨ (ents w).Remains t := by
    rcases h with h | h
    · obtain ⟨w, h1, h2⟩ := (C44_hit t ents).1 h; exact ⟨w, h1, .inl h2⟩
    · obtain ⟨w, h1, h2⟩ := (C44_inval t ents).1 h; exact ⟨w, h1, .inr h2⟩
  clear h
  rw [comparing_true]
  by_cases h : p.twoWay = true
  · simp only [Params.ways, h, if_true, List.foldl_cons, List.foldl_nil]
    obtain ⟨w, -, hw⟩ := h'
    by_cases h1 : (ents true).HoldsLine t ∨ (ents true).Remains t
    · simp only [if_pos h1]; exact ⟨by simp, h1⟩
    · have : w = false := by
        cases w
        · rfl
        · exact absurd hw h1
      subst this
      simp only [if_neg h1, if_pos hw]
      exact ⟨by simp, hw⟩
  · have hww : p.ways = [false] := by simp [Params.ways, h]
    rw [hww] at h' ⊢
    simp only [List.foldl_cons, List.foldl_nil]
    obtain ⟨w, hm, hw⟩ := h'
    have : w = false := by simpa using hm
    subst this
    simp only [if_pos hw]
    exact ⟨by simp, hw⟩

/-- **C44.**  If only one way holds the line, that is the one reported. -/
theorem C44_way_unique (t : Tag p) (ents : Way → Entry p) (w : Way) (hw : w ∈ p.ways)
    (h : (ents w).HoldsLine t ∨ (ents w).Remains t)
    (hu : ∀ w' ∈ p.ways, (ents w').HoldsLine t ∨ (ents w').Remains t → w' = w) :
    (comparing p true false t ents).way = w := by
  have h' : (comparing p true false t ents).hit = true ∨ (comparing p true false t ents).inval = true := by
    rcases h with h | h
    · exact .inl ((C44_hit t ents).2 ⟨w, hw, h⟩)
    · exact .inr ((C44_inval t ents).2 ⟨w, hw, h⟩)
  obtain ⟨h1, h2⟩ := C44_way t ents h'
  exact hu _ h1 h2

/-- **C44.**  The line-dirty output tells whether some word is dirty. -/
theorem C44_line_dirty (e : Entry p) :
    lineDirty true e = true ↔ ∃ j, j < p.nWords ∧ e.dty.getLsbD j = true := by
  rw [← tag_dty_ne_zero]; simp [lineDirty]

theorem tag_wordOf_toNat (off : Off p) : (wordOf p off).toNat = off.toNat / 4 := by
  have h : off.toNat < 2 ^ (p.nwBits + 2) := off.isLt
  simp only [wordOf, BitVec.toNat_setWidth, BitVec.toNat_ushiftRight, Nat.shiftRight_eq_div_pow]
  apply Nat.mod_eq_of_lt
  rw [Nat.pow_add] at h
  generalize 2 ^ p.nwBits = x at *
  omega

theorem wordOf_succ_toNat (off : Off p) : (wordOf p off + 1).toNat = (off.toNat / 4 + 1) % p.nWords := by
  rw [BitVec.toNat_add, tag_wordOf_toNat]
  simp only [Params.nWords]
  by_cases h : p.nwBits = 0
  · rw [h]; simp [Nat.mod_one]
  · rw [show (1 : BitVec p.nwBits).toNat = 1 by
      change (BitVec.ofNat _ 1).toNat = 1
      rw [BitVec.toNat_ofNat]
      exact Nat.mod_eq_of_lt (Nat.one_lt_two_pow h)]

/-- The words a write of length `len` at offset `off` touches, as the dirty bits see it:
the word of the offset and, for the double-word write, the next one. Proof device; not in the source. -/
def Touches (p : Params) (off : Off p) (len : Len p) (j : Nat) : Prop :=
  j = off.toNat / 4 ∨ (len.toNat = 3 ∧ j = (off.toNat / 4 + 1) % p.nWords)

/-- **C44.**  The word-dirty output tells whether all touched words are dirty already. -/
theorem C44_word_dirty (e : Entry p) (off : Off p) (len : Len p) :
    wordDirty p e off len = true ↔ ∀ j, Touches p off len j → e.dty.getLsbD j = true := by
  simp only [wordDirty, tag_wordOf_toNat, wordOf_succ_toNat, Touches]
  split
  · rename_i h
    rw [Bool.and_eq_true]
    constructor
    · rintro ⟨h1, h2⟩ j (rfl | ⟨_, rfl⟩)
      · exact h1
      · exact h2
    · intro H; exact ⟨H _ (.inl rfl), H _ (.inr ⟨h, rfl⟩)⟩
  · rename_i h
    constructor
    · rintro h1 j (rfl | ⟨h2, _⟩)
      · exact h1
      · exact absurd h2 h
    · intro H; exact H _ (.inl rfl)

/-! ## C45: the tag update unit -/

theorem tag_setBit (d : Dty p) (i j : Nat) (hj : j < p.nWords) :
    (setBit d i).getLsbD j = true ↔ (d.getLsbD j = true ∨ j = i) := by
  rw [setBit, BitVec.getLsbD_or, BitVec.getLsbD_twoPow]
  by_cases h : i = j
  · subst h; simp [hj]
  · have : ¬ j = i := fun e => h e.symm
    simp [h, this]

theorem getLsbD_markDirty (d : Dty p) (off : Off p) (len : Len p) (j : Nat) (hj : j < p.nWords) :
    (markDirty p d off len).getLsbD j = true ↔ (d.getLsbD j = true ∨ Touches p off len j) := by
  simp only [markDirty, Touches]
  split
  · rename_i h
    rw [tag_setBit _ _ _ hj, tag_setBit _ _ _ hj, tag_wordOf_toNat, wordOf_succ_toNat]
    simp [h, or_assoc]
  · rename_i h
    rw [tag_setBit _ _ _ hj, tag_wordOf_toNat]
    simp [h]

/-- **C45.**  A write hit keeps tag and valid bit and adds exactly the touched words to
the dirty words. -/
theorem C45_write_hit (old : Entry p) (off : Off p) (len : Len p) (r : Dty p) :
    (updateTag p .wrHit old off len r).tag = old.tag ∧ (updateTag p .wrHit old off len r).val = old.val ∧
    ∀ j, j < p.nWords → ((updateTag p .wrHit old off len r).dty.getLsbD j = true ↔
      (old.dty.getLsbD j = true ∨ Touches p off len j)) :=
  ⟨rfl, rfl, fun _ hj => getLsbD_markDirty _ _ _ _ hj⟩

/-- **C45.**  The refill for a write makes the line valid; dirty are the words kept over
the refill and the touched words. -/
theorem C45_write_refill (old : Entry p) (off : Off p) (len : Len p) (r : Dty p) :
    (updateTag p .wrRefill old off len r).tag = old.tag ∧ (updateTag p .wrRefill old off len r).val = true ∧
    ∀ j, j < p.nWords → ((updateTag p .wrRefill old off len r).dty.getLsbD j = true ↔
      (r.getLsbD j = true ∨ Touches p off len j)) :=
  ⟨rfl, rfl, fun _ hj => getLsbD_markDirty _ _ _ _ hj⟩

/-- **C45.**  The refill for a read makes the line valid; dirty are the words kept over
the refill. -/
theorem C45_read_refill (old : Entry p) (off : Off p) (len : Len p) (r : Dty p) :
    updateTag p .rdRefill old off len r = ⟨true, r, old.tag⟩ := rfl

/-- **C45.**  Clearing removes everything, whatever the entry was; invalidation only
clears the valid bit; the remaining commands change nothing. -/
theorem C45_other (old : Entry p) (off : Off p) (len : Len p) (r : Dty p) :
    updateTag p .clear old off len r = ⟨false, 0, 0⟩ ∧
    updateTag p .inv old off len r = ⟨false, old.dty, old.tag⟩ ∧
    updateTag p .flush old off len r = old ∧ updateTag p .none old off len r = old :=
  ⟨rfl, rfl, rfl, rfl⟩

/-- **C45.**  After a write hit or a write refill the word-dirty check of the same
write succeeds: the dirty bits are written only once. -/
theorem C45_then_dirty (cmd : TagCmd) (hc : cmd = .wrHit ∨ cmd = .wrRefill) (old : Entry p) (off : Off p)
    (len : Len p) (r : Dty p) : wordDirty p (updateTag p cmd old off len r) off len = true := by
  rw [C44_word_dirty]
  intro j hj
  have h4 : off.toNat / 4 < p.nWords := by
    have := (wordOf p off).isLt
    rw [tag_wordOf_toNat] at this
    exact this
  have hlt : j < p.nWords := by
    rcases hj with rfl | ⟨_, rfl⟩
    · exact h4
    · exact Nat.mod_lt _ (Nat.two_pow_pos _)
  rcases hc with rfl | rfl
  · exact (C45_write_hit old off len r).2.2 j hlt |>.2 (.inr hj)
  · exact (C45_write_refill old off len r).2.2 j hlt |>.2 (.inr hj)

/-! ## Concrete cases -/

namespace ExTag
/-- Proof device; not in the source. -/
abbrev pt : Params := ⟨1, 4, 2, 2, 1, true⟩
/-- Way 0 holds line 5 with word 2 dirty, way 1 the dirty remains of line 9. -/
def ents : Way → Entry pt := fun w => if w then ⟨false, 1, 9⟩ else ⟨true, 4, 5⟩

example : comparing pt true false 5 ents = ⟨true, false, false⟩ := by decide
example : comparing pt true false 9 ents = ⟨false, true, true⟩ := by decide
example : comparing pt true false 7 ents = ⟨false, false, false⟩ := by decide
example : comparing pt true true 5 ents = ⟨false, false, false⟩ := by decide
/-- A double-word write to the last word wraps around to word 0. -/
example : (updateTag pt .wrHit (ents false) 12 3 0).dty = 0b1101 := by decide
example : Touches pt 12 3 0 := .inr ⟨rfl, rfl⟩
end ExTag

end Verif
