import Verif.RTL

/-!
# Lemmas about the leaf units
-/

namespace Verif
variable {p : Params}

/-! ## merge -/

@[simp] theorem getLsbD_merge {n : Nat} (m o d : BitVec n) (i : Nat) :
    (merge m o d).getLsbD i = if m.getLsbD i then d.getLsbD i else o.getLsbD i := by
  by_cases h : i < n
  · simp only [merge, BitVec.getLsbD_or, BitVec.getLsbD_and, BitVec.getLsbD_not, h]
    cases m.getLsbD i <;> simp
  · simp [merge, BitVec.getLsbD_of_ge _ _ (Nat.le_of_not_lt h)]

theorem merge_idem {n : Nat} (m o d : BitVec n) : merge m (merge m o d) d = merge m o d := by
  apply BitVec.eq_of_getLsbD_eq
  intro i hi
  simp only [getLsbD_merge]
  split <;> rfl

@[simp] theorem merge_zero {n : Nat} (o d : BitVec n) : merge 0 o d = o := by
  apply BitVec.eq_of_getLsbD_eq
  intro i hi
  simp

@[simp] theorem merge_ones {n : Nat} (o d : BitVec n) : merge (~~~ 0#n) o d = d := by
  apply BitVec.eq_of_getLsbD_eq
  intro i hi
  rw [getLsbD_merge, BitVec.getLsbD_not]
  simp [hi]

@[simp] theorem expand_zero : expand p 0 = 0 := by
  apply BitVec.eq_of_getLsbD_eq
  intro i hi
  simp [expand]

@[simp] theorem getLsbD_expand (d : Dty p) (i : Nat) :
    (expand p d).getLsbD i = (decide (i < p.lineBits) && d.getLsbD (i / 32)) := by
  simp [expand]

/-! ## Geometry -/

theorem dataBits_le_lineBits (wf : p.WF) : p.dataBits ≤ p.lineBits := by
  have h : 2 ^ p.lenBits ≤ 2 ^ p.offBits := Nat.pow_le_pow_right (by decide) wf.fits
  simp only [Params.dataBits, Params.lineBits, Params.nWords, Params.offBits, Nat.pow_add] at *
  omega

theorem dataBits_pos : 0 < p.dataBits := by
  simp only [Params.dataBits]
  have := Nat.two_pow_pos p.lenBits
  omega

theorem getLsbD_replicate (w : Nat) (d : Data p) (i : Nat) :
    (replicate p w d).getLsbD i = (decide (i < p.lineBits) && d.getLsbD (i % w)) := by
  simp [replicate]

theorem replicate_trunc (wf : p.WF) (w : Nat) (hw : 0 < w) (hle : w ≤ p.dataBits) (d : Data p) :
    replicate p w ((replicate p w d).setWidth p.dataBits) = replicate p w d := by
  have hl := dataBits_le_lineBits wf
  apply BitVec.eq_of_getLsbD_eq
  intro i hi
  have h1 : i % w < w := Nat.mod_lt _ hw
  simp only [getLsbD_replicate, BitVec.getLsbD_setWidth, Nat.mod_mod]
  have h2 : i % w < p.dataBits := by omega
  have h3 : i % w < p.lineBits := by omega
  simp [h2, h3]

/-- The MSHR keeps only the low data-width bits of the replicated write data
(BlockingCacheDpathRTL.py:204); replicating them again gives the same line. -/
theorem replicator_trunc (wf : p.WF) (len : Len p) (d : Data p) :
    replicator p false len ((replicator p false len d).setWidth p.dataBits) =
      replicator p false len d := by
  have hd := @dataBits_pos p
  simp only [replicator, Bool.false_eq_true, if_false]
  split
  · exact replicate_trunc wf _ hd (Nat.le_refl _) d
  split
  · simp only [doubleWord]
    split
    · next h2 =>
      have hl := dataBits_le_lineBits wf
      have hdb : p.dataBits = 32 := by simp [Params.dataBits, h2]
      apply BitVec.eq_of_getLsbD_eq
      intro i hi
      simp only [getLsbD_mkBits, BitVec.getLsbD_setWidth]
      by_cases h : i % 64 < 32
      · have h3 : i % 64 < p.lineBits := by omega
        have h4 : i % 64 < p.dataBits := by omega
        simp [h, h3, h4]
      · simp [h]
    · rfl
  cases hf : (List.range p.lenBits).find? (fun i => len.toNat = 2 ^ i) with
  | none => exact replicate_trunc wf _ hd (Nat.le_refl _) d
  | some i =>
    have hi : i ∈ List.range p.lenBits := List.mem_of_find?_eq_some hf
    have hi : i < p.lenBits := by simpa using hi
    have h2 : 2 ^ i ≤ 2 ^ p.lenBits := Nat.pow_le_pow_right (by decide) (by omega)
    have h3 := Nat.two_pow_pos i
    exact replicate_trunc wf _ (by omega) (by simp only [Params.dataBits]; omega) d

/-! ## Line numbers -/

theorem mem_ways_false : false ∈ p.ways := by
  simp [Params.ways]; split <;> simp

theorem mem_ways_true : (true ∈ p.ways) ↔ p.twoWay = true := by
  simp [Params.ways]; cases p.twoWay <;> simp

theorem mem_ways {w : Way} : w ∈ p.ways ↔ (w = true → p.twoWay = true) := by
  cases w
  · simp [mem_ways_false]
  · simp [mem_ways_true]

theorem indexer_toNat (idx : Idx p) (w : Way) (hw : w ∈ p.ways) :
    (indexer p idx w).toNat = idx.toNat + w.toNat * 2 ^ p.idxBits := by
  have hi := idx.isLt
  cases hw2 : p.twoWay
  · have : w = false := by
      cases w
      · rfl
      · rw [mem_ways_true] at hw; simp [hw] at hw2
    subst this
    have hb : p.cntBits = p.idxBits := by simp [Params.cntBits, Params.wayBits, hw2]
    simp [indexer, BitVec.toNat_setWidth, hb,
      Nat.mod_eq_of_lt hi]
  · have hb : p.cntBits = p.idxBits + 1 := by simp [Params.cntBits, Params.wayBits, hw2]
    have hp : 2 ^ (p.idxBits + 1) = 2 ^ p.idxBits + 2 ^ p.idxBits := by rw [Nat.pow_succ]; omega
    have hpos := Nat.two_pow_pos p.idxBits
    simp only [indexer, BitVec.toNat_add, BitVec.toNat_mul, BitVec.toNat_setWidth,
      BitVec.toNat_ofNat, hb]
    cases w
    · have : idx.toNat < 2 ^ (p.idxBits + 1) := by omega
      simp [Nat.mod_eq_of_lt this]
    · have h1 : idx.toNat % 2 ^ (p.idxBits + 1) = idx.toNat := Nat.mod_eq_of_lt (by omega)
      have h2 : 1 % 2 ^ (p.idxBits + 1) = 1 := Nat.mod_eq_of_lt (by omega)
      have h3 : 2 ^ p.idxBits % 2 ^ (p.idxBits + 1) = 2 ^ p.idxBits := Nat.mod_eq_of_lt (by omega)
      have h4 : (idx.toNat + 2 ^ p.idxBits) % 2 ^ (p.idxBits + 1) = idx.toNat + 2 ^ p.idxBits :=
        Nat.mod_eq_of_lt (by omega)
      simp [h1, h2, h3, h4]

/-- Distinct (set, way) pairs have distinct data array addresses. -/
theorem indexer_inj {i i' : Idx p} {w w' : Way} (hw : w ∈ p.ways) (hw' : w' ∈ p.ways) :
    indexer p i w = indexer p i' w' ↔ w = w' ∧ i = i' := by
  constructor
  · intro h
    have h := congrArg BitVec.toNat h
    rw [indexer_toNat _ _ hw, indexer_toNat _ _ hw'] at h
    have h1 := i.isLt
    have h2 := i'.isLt
    have : w = w' := by
      cases w <;> cases w' <;> simp at h ⊢ <;> omega
    subst this
    refine ⟨rfl, BitVec.eq_of_toNat_eq (by omega)⟩
  · rintro ⟨rfl, rfl⟩; rfl

theorem cntWay_mem (c : BitVec p.cntBits) : cntWay p c ∈ p.ways := by
  rw [mem_ways]; simp [cntWay]; intro h _; exact h

theorem cntIdx_toNat (c : BitVec p.cntBits) : (cntIdx p c).toNat = c.toNat / 2 ^ p.wayBits := by
  have h := c.isLt
  simp only [cntIdx, BitVec.toNat_setWidth, BitVec.toNat_ushiftRight, Nat.shiftRight_eq_div_pow]
  apply Nat.mod_eq_of_lt
  apply Nat.div_lt_of_lt_mul
  rw [Nat.mul_comm, ← Nat.pow_add]; exact h

/-- Line number of a (way, set) pair. Proof device; not in the source. -/
def numOf (p : Params) (w : Way) (j : Idx p) : BitVec p.cntBits :=
  BitVec.ofNat _ (j.toNat * 2 ^ p.wayBits + w.toNat)

theorem numOf_toNat (w : Way) (j : Idx p) (hw : w ∈ p.ways) :
    (numOf p w j).toNat = j.toNat * 2 ^ p.wayBits + w.toNat := by
  have hj := j.isLt
  have : j.toNat * 2 ^ p.wayBits + w.toNat < 2 ^ p.cntBits := by
    rw [mem_ways] at hw
    simp only [Params.cntBits, Params.wayBits, Nat.pow_add]
    cases h : p.twoWay
    · cases w <;> simp_all
    · simp only [if_true]; cases w <;> simp <;> omega
  simp [numOf, Nat.mod_eq_of_lt this]

theorem cntWay_numOf (w : Way) (j : Idx p) (hw : w ∈ p.ways) : cntWay p (numOf p w j) = w := by
  have h := numOf_toNat w j hw
  rw [mem_ways] at hw
  simp only [cntWay, BitVec.getLsbD, Nat.testBit_zero, h, Params.wayBits]
  cases h : p.twoWay
  · cases w <;> simp_all
  · cases w <;> simp <;> omega

theorem cntIdx_numOf (w : Way) (j : Idx p) (hw : w ∈ p.ways) : cntIdx p (numOf p w j) = j := by
  apply BitVec.eq_of_toNat_eq
  rw [cntIdx_toNat, numOf_toNat w j hw]
  rw [mem_ways] at hw
  simp only [Params.wayBits]
  cases h : p.twoWay
  · cases w <;> simp_all
  · cases w <;> simp <;> omega

/-- A line number is determined by its way and index parts. -/
theorem cnt_ext {c c' : BitVec p.cntBits} (hw : cntWay p c = cntWay p c')
    (hi : cntIdx p c = cntIdx p c') : c = c' := by
  apply BitVec.eq_of_toNat_eq
  have hi := congrArg BitVec.toNat hi
  rw [cntIdx_toNat, cntIdx_toNat] at hi
  simp only [cntWay, Params.wayBits, BitVec.getLsbD, Nat.testBit_zero] at *
  cases h : p.twoWay
  · simpa [h] using hi
  · simp [h] at hi hw; omega

theorem cnt_numOf (c : BitVec p.cntBits) : numOf p (cntWay p c) (cntIdx p c) = c :=
  cnt_ext (cntWay_numOf _ _ (cntWay_mem c)) (cntIdx_numOf _ _ (cntWay_mem c))

theorem cntBits_pos (wf : p.WF) : 1 ≤ p.cntBits := by
  have := wf.idx; simp only [Params.cntBits]; omega

end Verif
