import Verif.Bytes

/-!
# Sub-word reads and writes (C21, C22, C39)

The write-enable mask, the data replicator and the data-select mux together
implement byte-granular access to a line.
-/

namespace Verif
variable {p : Params}

/-- `find?` of the replicator/mux loops. -/
theorem find_pow (n k : Nat) (hk : k < n) :
    (List.range n).find? (fun i => decide (2 ^ k = 2 ^ i)) = some k := by
  rw [List.find?_eq_some_iff_append]
  refine ⟨by simp, List.range k, List.range' (k + 1) (n - k - 1), ?_, ?_⟩
  · rw [List.range_eq_range', List.range_eq_range', ← List.singleton_append,
      show [k] = List.range' k 1 by simp, ← List.append_assoc, ]
    have h1 : List.range' 0 k ++ List.range' k 1 = List.range' 0 (k + 1) := by
      have := List.range'_append (s := 0) (m := k) (n := 1) (step := 1)
      simpa using this
    rw [h1]
    have := List.range'_append (s := 0) (m := k + 1) (n := n - k - 1) (step := 1)
    simp only [Nat.zero_add, Nat.one_mul] at this
    rw [this]
    congr 1; omega
  · intro a ha
    have : a < k := by simpa using ha
    simp only [Bool.not_eq_true', decide_eq_false_iff_not]
    intro h
    have := Nat.pow_right_inj (a := 2) (by decide) |>.1 h
    omega

theorem bytes_le (q : CReq p) : q.bytes ≤ 2 ^ p.lenBits := by
  simp only [CReq.bytes]; split
  · exact Nat.le_refl _
  · exact Nat.le_of_lt q.len.isLt

/-- A power-of-two byte count is the data width or encoded directly. -/
theorem bytes_cases {q : CReq p} {k : Nat} (h : q.bytes = 2 ^ k) :
    (q.len.toNat = 0 ∧ k = p.lenBits) ∨ (q.len.toNat = 2 ^ k ∧ k < p.lenBits) := by
  simp only [CReq.bytes] at h
  split at h
  · left; exact ⟨by assumption, ((Nat.pow_right_inj (a := 2) (by decide)).1 h).symm⟩
  · right
    refine ⟨h, ?_⟩
    have := q.len.isLt
    rw [h] at this
    exact (Nat.pow_lt_pow_iff_right (by decide)).1 this

/-- The replicator repeats the addressed bytes. -/
theorem replicator_pow {q : CReq p} {k : Nat} (h : q.bytes = 2 ^ k) :
    replicator p false q.len q.data = replicate p (8 * 2 ^ k) q.data := by
  rcases bytes_cases h with ⟨h1, h2⟩ | ⟨h1, h2⟩
  · simp only [replicator, h1, Bool.false_eq_true, if_false, if_true, h2, Params.dataBits]
  · have h0 : q.len.toNat ≠ 0 := by rw [h1]; exact Nat.pos_iff_ne_zero.1 (Nat.two_pow_pos k)
    have h3 : q.len.toNat ≠ 3 := by
      rw [h1]
      intro h3
      match k with
      | 0 => simp at h3
      | 1 => simp at h3
      | k + 2 =>
        have : 2 ^ (k + 2) = 4 * 2 ^ k := by rw [Nat.pow_add]; omega
        omega
    simp only [replicator, Bool.false_eq_true, if_false, h0, h3]
    rw [h1, find_pow _ _ h2]

/-- The write mask selects exactly the addressed bytes. -/
theorem wordMaskBytes_pow (wf : p.WF) {q : CReq p} {k : Nat} (h : q.bytes = 2 ^ k) :
    wordMaskBytes p q.len = 2 ^ k := by
  obtain ⟨hl1, hl2⟩ := wf.len
  have hlen : p.lenBits = 2 ∨ p.lenBits = 3 ∨ p.lenBits = 4 := by omega
  rcases bytes_cases h with ⟨h1, h2⟩ | ⟨h1, h2⟩
  · subst h2
    rcases hlen with hl | hl | hl <;> simp [wordMaskBytes, h1, hl]
  · have hk : k = 0 ∨ k = 1 ∨ k = 2 ∨ k = 3 := by omega
    rcases hk with hk | hk | hk | hk <;> subst hk <;> simp only [wordMaskBytes, h1] <;>
      rcases hlen with hl | hl | hl <;> simp [hl] <;> omega

theorem getLsbD_byteMask (len : Len p) (off : Off p) (i : Nat) (hi : i < 4 * p.nWords) :
    (byteMask p len off).getLsbD i =
      (decide (off.toNat ≤ i) && decide (i < off.toNat + wordMaskBytes p len)) := by
  simp only [byteMask, BitVec.getLsbD_shiftLeft, hi, decide_true, Bool.true_and, getLsbD_mkBits]
  by_cases h : i < off.toNat
  · have : ¬ off.toNat ≤ i := by omega
    simp [h, this]
  · have h1 : off.toNat ≤ i := by omega
    have h2 : i - off.toNat < 4 * p.nWords := by omega
    have h3 : (i - off.toNat < wordMaskBytes p len) ↔ (i < off.toNat + wordMaskBytes p len) := by omega
    simp only [h, h1, h2, decide_true, decide_false, Bool.not_false, Bool.true_and]
    exact decide_eq_decide.2 h3

theorem getLsbD_wbenReq (len : Len p) (off : Off p) (i : Nat) (hi : i < p.lineBits) :
    (wbenReq p len off).getLsbD i =
      (decide (8 * off.toNat ≤ i) && decide (i < 8 * (off.toNat + wordMaskBytes p len))) := by
  have h1 : i / 8 < 4 * p.nWords := by simp only [Params.lineBits] at hi; omega
  simp only [wbenReq, getLsbD_mkBits, hi, decide_true, Bool.true_and]
  rw [getLsbD_byteMask _ _ _ h1]
  congr 1 <;> exact decide_eq_decide.2 (by omega)

/-- **C21.**  An aligned write of `2^k` bytes stores exactly these bytes. -/
theorem writeLine_pow (wf : p.WF) {q : CReq p} {k : Nat} (h : q.bytes = 2 ^ k)
    (al : 2 ^ k ∣ q.addr.off.toNat) (l : Line p) :
    writeLine q l = putBytes l q.addr.off.toNat (2 ^ k) q.data.toNat := by
  apply BitVec.eq_of_getLsbD_eq
  intro i hi
  rw [writeLine, getLsbD_merge, getLsbD_wbenReq _ _ _ hi, wordMaskBytes_pow wf h, replicator_pow h,
    getLsbD_putBytes _ _ _ _ _ hi, getLsbD_replicate]
  simp only [hi, decide_true, Bool.true_and, Bool.and_eq_true, decide_eq_true_eq]
  split
  · rename_i hh
    obtain ⟨c, hc⟩ := al
    rw [← BitVec.getLsbD.eq_1]
    congr 1
    have h1 : i = (i - 8 * q.addr.off.toNat) + 8 * 2 ^ k * c := by
      have : 8 * 2 ^ k * c = 8 * q.addr.off.toNat := by rw [hc, Nat.mul_assoc]
      omega
    have h2 : i - 8 * q.addr.off.toNat < 8 * 2 ^ k := by omega
    rw [h1, Nat.add_mul_mod_self_left, Nat.mod_eq_of_lt h2]
    omega
  · rfl

/-- **C35 (unit part).**  With 32-bit data a write with `len = 3` at an 8-byte
aligned offset stores the data zero extended to 8 bytes. -/
theorem writeLine_dword (hp : p.lenBits = 2) {q : CReq p} (h : q.len.toNat = 3)
    (al : 8 ∣ q.addr.off.toNat) (l : Line p) :
    writeLine q l = putBytes l q.addr.off.toNat 8 q.data.toNat := by
  apply BitVec.eq_of_getLsbD_eq
  intro i hi
  have hm : wordMaskBytes p q.len = 8 := by simp [wordMaskBytes, h]
  rw [writeLine, getLsbD_merge, getLsbD_wbenReq _ _ _ hi, hm, getLsbD_putBytes _ _ _ _ _ hi]
  simp only [Bool.and_eq_true, decide_eq_true_eq]
  split
  · rename_i hh
    obtain ⟨c, hc⟩ := al
    have hr : replicator p false q.len q.data = doubleWord p q.data := by simp [replicator, h]
    rw [hr, doubleWord, if_pos hp, getLsbD_mkBits]
    simp only [hi, decide_true, Bool.true_and]
    have h1 : i % 64 = i - 8 * q.addr.off.toNat := by omega
    rw [h1, ← BitVec.getLsbD.eq_1]
    by_cases h2 : i - 8 * q.addr.off.toNat < 32
    · simp [h2]
    · have : p.dataBits ≤ i - 8 * q.addr.off.toNat := by
        simp only [Params.dataBits, hp]; omega
      rw [BitVec.getLsbD_of_ge _ _ this]; simp
  · rfl

theorem getLsbD_chunk (k : Nat) (l : Line p) (off : Off p) (i : Nat) :
    (chunk p k l off).getLsbD i =
      (decide (i < p.dataBits) && (decide (i < 8 * 2 ^ k) &&
        l.getLsbD (off.toNat / 2 ^ k * (8 * 2 ^ k) + i))) := by
  simp only [chunk, BitVec.getLsbD_setWidth, BitVec.getLsbD_extractLsb']

/-- **C22.**  An aligned read of `2^k` bytes returns these bytes, zero extended. -/
theorem readLine_pow (wf : p.WF) {q : CReq p} {k : Nat} (h : q.bytes = 2 ^ k)
    (al : 2 ^ k ∣ q.addr.off.toNat) (l : Line p) (i : Nat) (hi : i < p.dataBits) :
    (readLine q l).getLsbD i =
      (decide (i < 8 * 2 ^ k) && l.getLsbD (8 * q.addr.off.toNat + i)) := by
  obtain ⟨c, hc⟩ := al
  have e : q.addr.off.toNat / 2 ^ k * (8 * 2 ^ k) = 8 * q.addr.off.toNat := by
    rw [hc, Nat.mul_div_cancel_left _ (Nat.two_pow_pos k), Nat.mul_comm c, Nat.mul_assoc]
  simp only [readLine, dataSelect, Bool.not_true, Bool.false_eq_true, if_false]
  rcases bytes_cases h with ⟨h1, h2⟩ | ⟨h1, h2⟩
  · simp only [h1, if_true]
    split
    · rename_i ho
      have h0 : q.addr.off.toNat = 0 := by
        have := q.addr.off.isLt
        have ho' : 2 ^ p.offBits = 2 ^ p.lenBits := by rw [ho]
        rw [ho'] at this
        rw [h2] at hc
        have h3 : c = 0 := by
          cases c with
          | zero => rfl
          | succ c => exfalso; rw [hc, Nat.mul_succ] at this; omega
        rw [hc, h3]; rfl
      rw [BitVec.getLsbD_setWidth, h0, h2]
      simp only [hi, decide_true, Bool.true_and, Nat.mul_zero, Nat.zero_add]
      have : i < 8 * 2 ^ p.lenBits := hi
      simp [this]
    · rw [getLsbD_chunk, ← h2, e]; simp [hi]
  · have h0 : q.len.toNat ≠ 0 := by rw [h1]; exact Nat.pos_iff_ne_zero.1 (Nat.two_pow_pos k)
    simp only [h0, if_false]
    rw [h1, find_pow _ _ h2]
    simp only
    rw [getLsbD_chunk, e]; simp [hi]

/-- **C39.**  A refill writes exactly the words whose dirty bit is clear. -/
theorem refill_merge (d : Dty p) (old new : Line p) (i : Nat) :
    (merge (~~~ expand p d) old new).getLsbD i =
      if d.getLsbD (i / 32) then old.getLsbD i else new.getLsbD i := by
  by_cases hi : i < p.lineBits
  · simp only [getLsbD_merge, BitVec.getLsbD_not, getLsbD_expand, hi, decide_true, Bool.true_and]
    cases d.getLsbD (i / 32) <;> simp
  · simp [BitVec.getLsbD_of_ge _ _ (Nat.le_of_not_lt hi)]

end Verif
