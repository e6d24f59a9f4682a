import Verif.Mem
import Verif.UnitLemmas

/-!
# Bytes and lines: the byte memory seen line by line
-/

namespace Verif
variable {p : Params}

theorem if_congr {α : Type} {a b : Prop} [Decidable a] [Decidable b] {x y u v : α} (h : a ↔ b)
    (h1 : x = u) (h2 : y = v) : (if a then x else y) = if b then u else v := by
  subst h1 h2; by_cases ha : a
  · rw [if_pos ha, if_pos (h.1 ha)]
  · rw [if_neg ha, if_neg (fun hb => ha (h.2 hb))]

theorem testBit_add_mul (a b i : Nat) (ha : a < 256) :
    (a + 256 * b).testBit i = if i < 8 then a.testBit i else b.testBit (i - 8) := by
  rw [show (256 : Nat) = 2 ^ 8 from rfl, Nat.add_comm, Nat.testBit_two_pow_mul_add (i := 8) b ha]

theorem readLE_testBit (M : ByteMem) (a n i : Nat) :
    (readLE M a n).testBit i = (decide (i < 8 * n) && (M (a + i / 8)).getLsbD (i % 8)) := by
  induction n generalizing a i with
  | zero => simp [readLE]
  | succ n ih =>
    simp only [readLE]
    rw [testBit_add_mul _ _ _ (M a).isLt]
    split
    · rename_i h
      have h1 : i / 8 = 0 := by omega
      have h2 : i % 8 = i := by omega
      have h3 : i < 8 * (n + 1) := by omega
      simp [h1, h2, h3, BitVec.getLsbD]
    · rename_i h
      rw [ih]
      have h1 : a + 1 + (i - 8) / 8 = a + i / 8 := by omega
      have h2 : (i - 8) % 8 = i % 8 := by omega
      have h3 : (i - 8 < 8 * n) ↔ (i < 8 * (n + 1)) := by omega
      rw [h1, h2]
      simp only [decide_eq_decide.2 h3]

theorem readLE_lt (M : ByteMem) (a n : Nat) : readLE M a n < 2 ^ (8 * n) := by
  induction n generalizing a with
  | zero => simp [readLE]
  | succ n ih =>
    have h1 := (M a).isLt
    have h2 := ih (a + 1)
    have h3 : (2 : Nat) ^ (8 * (n + 1)) = 256 * 2 ^ (8 * n) := by
      rw [show 8 * (n + 1) = 8 + 8 * n by omega, Nat.pow_add]
    simp only [readLE]
    omega

theorem writeLE_getLsbD (M : ByteMem) (a n v x b : Nat) :
    (writeLE M a n v x).getLsbD b =
      if a ≤ x ∧ x < a + n then decide (b < 8) && v.testBit (8 * (x - a) + b) else (M x).getLsbD b := by
  simp only [writeLE]
  split
  · rw [BitVec.getLsbD_ofNat, show (256 : Nat) = 2 ^ 8 from rfl, ← Nat.pow_mul, Nat.testBit_div_two_pow]
    congr 2; omega
  · rfl

/-! ## Line addresses -/

/-- Line number. Proof device; not in the source. -/
def LAddr.num (la : LAddr p) : Nat := la.tag.toNat * 2 ^ p.idxBits + la.idx.toNat

theorem LAddr.num_inj {a b : LAddr p} (h : a.num = b.num) : a = b := by
  have ha := a.idx.isLt
  have hb := b.idx.isLt
  simp only [LAddr.num] at h
  have h1 : a.tag.toNat = b.tag.toNat := by
    have := congrArg (· / 2 ^ p.idxBits) h
    rw [Nat.add_comm, Nat.add_mul_div_right _ _ (Nat.two_pow_pos _), Nat.div_eq_of_lt ha,
      Nat.add_comm (_ * _), Nat.add_mul_div_right _ _ (Nat.two_pow_pos _), Nat.div_eq_of_lt hb] at this
    omega
  have h2 : a.idx.toNat = b.idx.toNat := by rw [h1] at h; omega
  cases a; cases b
  simp only [LAddr.mk.injEq]
  exact ⟨BitVec.eq_of_toNat_eq h1, BitVec.eq_of_toNat_eq h2⟩

theorem flat_eq (a : Addr p) : a.flat = a.la.num * 2 ^ p.offBits + a.off.toNat := rfl

theorem flat_off0 (la : LAddr p) : (⟨la.tag, la.idx, 0⟩ : Addr p).flat = la.num * 2 ^ p.offBits := by
  simp [Addr.flat, LAddr.num]

/-- Bytes per line. -/
theorem lineBits_eq : p.lineBits = 8 * 2 ^ p.offBits := by
  simp only [Params.lineBits, Params.nWords, Params.offBits, Nat.pow_add]; omega

/-- The contents of a line of memory. -/
def view (M : ByteMem) (la : LAddr p) : Line p :=
  BitVec.ofNat _ (readLE M (la.num * 2 ^ p.offBits) (2 ^ p.offBits))

theorem getLsbD_view (M : ByteMem) (la : LAddr p) (i : Nat) (hi : i < p.lineBits) :
    (view M la).getLsbD i = (M (la.num * 2 ^ p.offBits + i / 8)).getLsbD (i % 8) := by
  simp only [view, BitVec.getLsbD_ofNat, readLE_testBit, hi, decide_true, Bool.true_and]
  have : i < 8 * 2 ^ p.offBits := by rwa [← lineBits_eq]
  simp [this]

/-- Replace the `n` bytes from byte `off` of a line by the low bytes of `v`. -/
def putBytes (l : Line p) (off n v : Nat) : Line p :=
  mkBits _ fun i => if 8 * off ≤ i ∧ i < 8 * (off + n) then v.testBit (i - 8 * off) else l.getLsbD i

@[simp] theorem getLsbD_putBytes (l : Line p) (off n v i : Nat) (hi : i < p.lineBits) :
    (putBytes l off n v).getLsbD i =
      if 8 * off ≤ i ∧ i < 8 * (off + n) then v.testBit (i - 8 * off) else l.getLsbD i := by
  simp only [putBytes, getLsbD_mkBits, hi, decide_true, Bool.true_and]

/-- Lines are disjoint intervals of bytes. -/
theorem num_bytes {la lb : LAddr p} {x y : Nat} (hx : x < 2 ^ p.offBits) (hy : y < 2 ^ p.offBits)
    (h : la.num * 2 ^ p.offBits + x = lb.num * 2 ^ p.offBits + y) : la = lb ∧ x = y := by
  have h1 : la.num = lb.num := by
    have := congrArg (· / 2 ^ p.offBits) h
    rwa [Nat.add_comm, Nat.add_mul_div_right _ _ (Nat.two_pow_pos _), Nat.div_eq_of_lt hx,
      Nat.add_comm (_ * _), Nat.add_mul_div_right _ _ (Nat.two_pow_pos _), Nat.div_eq_of_lt hy,
      Nat.zero_add, Nat.zero_add] at this
  exact ⟨LAddr.num_inj h1, by rw [h1] at h; omega⟩

theorem view_write (M : ByteMem) (a : LAddr p) (off n v : Nat) (h : off + n ≤ 2 ^ p.offBits)
    (la : LAddr p) :
    view (writeLE M (a.num * 2 ^ p.offBits + off) n v) la =
      if la = a then putBytes (view M a) off n v else view M la := by
  apply BitVec.eq_of_getLsbD_eq
  intro i hi
  have hb : i / 8 < 2 ^ p.offBits := by rw [lineBits_eq] at hi; omega
  rw [getLsbD_view _ _ _ hi, writeLE_getLsbD]
  by_cases hla : la = a
  · subst hla
    simp only [if_true]
    rw [getLsbD_putBytes _ _ _ _ _ hi, getLsbD_view _ _ _ hi]
    have e : (la.num * 2 ^ p.offBits + off ≤ la.num * 2 ^ p.offBits + i / 8 ∧
        la.num * 2 ^ p.offBits + i / 8 < la.num * 2 ^ p.offBits + off + n) ↔
        (8 * off ≤ i ∧ i < 8 * (off + n)) := by omega
    rw [if_congr e rfl rfl]
    split
    · rename_i hh
      have h8 : i % 8 < 8 := by omega
      have : 8 * (la.num * 2 ^ p.offBits + i / 8 - (la.num * 2 ^ p.offBits + off)) + i % 8 =
          i - 8 * off := by omega
      rw [this]; simp [h8]
    · rfl
  · rw [if_neg hla, getLsbD_view _ _ _ hi, if_neg]
    rintro ⟨h1, h2⟩
    obtain ⟨d, hd⟩ : ∃ d, la.num * 2 ^ p.offBits + i / 8 = a.num * 2 ^ p.offBits + (off + d) ∧ d < n :=
      ⟨la.num * 2 ^ p.offBits + i / 8 - (a.num * 2 ^ p.offBits + off), by omega, by omega⟩
    exact hla (num_bytes hb (by omega) hd.1).1

theorem read_view (M : ByteMem) (a : LAddr p) (off n i : Nat) (h : off + n ≤ 2 ^ p.offBits) :
    (readLE M (a.num * 2 ^ p.offBits + off) n).testBit i =
      (decide (i < 8 * n) && (view M a).getLsbD (8 * off + i)) := by
  rw [readLE_testBit]
  by_cases hi : i < 8 * n
  · simp only [hi, decide_true, Bool.true_and]
    rw [getLsbD_view _ _ _ (by rw [lineBits_eq]; omega)]
    have h1 : (8 * off + i) / 8 = off + i / 8 := by omega
    have h2 : (8 * off + i) % 8 = i % 8 := by omega
    rw [h1, h2, Nat.add_assoc]
  · simp [hi]

theorem view_masked (M : ByteMem) (a : LAddr p) (mask : Dty p) (d : Line p) (n : Nat) (hn : n ≤ p.nWords)
    (la : LAddr p) (i : Nat) (hi : i < p.lineBits) :
    (view (maskedWrite M (a.num * 2 ^ p.offBits) mask d n) la).getLsbD i =
      if la = a ∧ i / 32 < n ∧ mask.getLsbD (i / 32) then d.getLsbD i else (view M la).getLsbD i := by
  induction n with
  | zero => simp [maskedWrite]
  | succ n ih =>
    have ih := ih (by omega)
    have hoff : 4 * n + 4 ≤ 2 ^ p.offBits := by
      simp only [Params.nWords] at hn
      simp only [Params.offBits, Nat.pow_add]; omega
    simp only [maskedWrite]
    split
    · rename_i hm
      rw [view_write _ _ _ _ _ hoff]
      by_cases hla : la = a
      · subst hla
        simp only [if_true, true_and] at ih ⊢
        rw [getLsbD_putBytes _ _ _ _ _ hi, ih]
        by_cases h32 : i / 32 = n
        · have h1 : 8 * (4 * n) ≤ i ∧ i < 8 * (4 * n + 4) := by omega
          rw [if_pos h1, if_pos (by rw [h32]; exact ⟨by omega, hm⟩)]
          simp only [wordAt, ← BitVec.getLsbD.eq_1]
          rw [BitVec.getLsbD_extractLsb']
          have : i - 8 * (4 * n) < 32 := by omega
          have h2 : 32 * n + (i - 8 * (4 * n)) = i := by omega
          simp [this, h2]
        · have h1 : ¬ (8 * (4 * n) ≤ i ∧ i < 8 * (4 * n + 4)) := by omega
          rw [if_neg h1]
          have : (i / 32 < n) ↔ (i / 32 < n + 1) := by omega
          rw [if_congr (and_congr this Iff.rfl) rfl rfl]
      · simp only [hla, if_false, false_and] at ih ⊢
        exact ih
    · rename_i hm
      rw [ih]
      apply if_congr _ rfl rfl
      constructor
      · rintro ⟨h1, h2, h3⟩; exact ⟨h1, by omega, h3⟩
      · rintro ⟨h1, h2, h3⟩
        refine ⟨h1, ?_, h3⟩
        have : i / 32 ≠ n := by intro h; rw [h] at h3; exact hm h3
        omega

/-! ## Memory requests on lines -/

theorem exec_rd (M : ByteMem) (la : LAddr p) :
    memExec M (.rd la) = (M, ⟨MT.READ, 0, view M la⟩) := by
  simp only [memExec, MReq.rd, flat_off0, MReq.bytes, view, if_true]
  simp

theorem exec_wr_view (M : ByteMem) (a : LAddr p) (mask : Dty p) (d : Line p) (la : LAddr p) :
    view (memExec M (.wr a mask d)).1 la =
      if la = a then merge (expand p mask) (view M la) d else view M la := by
  apply BitVec.eq_of_getLsbD_eq
  intro i hi
  have hw : i / 32 < p.nWords := by
    simp only [Params.lineBits] at hi; omega
  simp only [memExec, MReq.wr, flat_off0, MT.WRITE_ne_READ, if_false, if_true]
  rw [view_masked _ _ _ _ _ (Nat.le_refl _) _ _ hi]
  by_cases h : la = a
  · simp only [h, if_true, getLsbD_merge, getLsbD_expand, hi, hw, true_and, decide_true,
      Bool.true_and]
  · simp [h]

end Verif
