import Verif.Isolate
import Verif.SpecImpl

/-!
# The cache implements `implStep`
-/

namespace Verif
variable {p : Params} {P : Bits p}

/-! ## Sizes -/

theorem sized_iff (wf : p.WF) (q : CReq p) : q.Sized ↔ ∃ k, q.bytes = 2 ^ k := by
  constructor
  · rintro (h | h | h | h | h)
    · exact ⟨0, h⟩
    · exact ⟨1, h⟩
    · exact ⟨2, h⟩
    · exact ⟨3, h⟩
    · exact ⟨4, h⟩
  · rintro ⟨k, h⟩
    have hk : k ≤ p.lenBits := by rcases bytes_cases h with ⟨_, h1⟩ | ⟨_, h1⟩ <;> omega
    have := wf.len.2
    have : k = 0 ∨ k = 1 ∨ k = 2 ∨ k = 3 ∨ k = 4 := by omega
    simp only [CReq.Sized, h]
    rcases this with rfl | rfl | rfl | rfl | rfl <;> simp

theorem maskBytes_stored (wf : p.WF) (q : CReq p) : wordMaskBytes p q.len = q.stored := by
  by_cases h3 : q.len.toNat = 3
  · simp [wordMaskBytes, CReq.stored, h3]
  by_cases hs : q.Sized
  · obtain ⟨k, hk⟩ := (sized_iff wf q).1 hs
    rw [wordMaskBytes_pow wf hk, CReq.stored, if_neg h3, if_pos hs, hk]
  · rw [CReq.stored, if_neg h3, if_neg hs]
    obtain ⟨hl1, hl2⟩ := wf.len
    have hlen : p.lenBits = 2 ∨ p.lenBits = 3 ∨ p.lenBits = 4 := by omega
    simp only [CReq.Sized, CReq.bytes] at hs
    simp only [wordMaskBytes]
    generalize q.len.toNat = n at *
    rcases hlen with hl | hl | hl <;> simp only [hl] at hs ⊢ <;> split at hs <;> grind

/-! ## One line -/

theorem lineEnd_eq (q : CReq p) : q.lineEnd = q.addr.la.num * 2 ^ p.offBits + 2 ^ p.offBits := by
  rw [CReq.lineEnd, q.addr.flat_div, Nat.add_mul, Nat.one_mul]

theorem mod_pow_add {k n x : Nat} (hk : k ≤ p.offBits) : (n * 2 ^ p.offBits + x) % 2 ^ k = x % 2 ^ k := by
  obtain ⟨c, hc⟩ := Nat.pow_dvd_pow 2 hk
  rw [hc, Nat.add_comm, Nat.mul_comm n, Nat.mul_assoc, Nat.add_mul_mod_self_left]

/-- Bit `i` of the replicated data is a bit of the stored byte. -/
theorem replicator_stored (wf : p.WF) (q : CReq p) (hn : q.stored ≠ 0) (i : Nat) (hi : i < p.lineBits) :
    (replicator p false q.len q.data).getLsbD i =
      (q.storedByte (q.addr.la.num * 2 ^ p.offBits + i / 8)).getLsbD (i % 8) := by
  by_cases h3 : q.len.toNat = 3
  · have hr : replicator p false q.len q.data = doubleWord p q.data := by simp [replicator, h3]
    rw [hr, doubleWord, CReq.storedByte, if_pos h3]
    split
    · rename_i hp
      have hko : 3 ≤ p.offBits := by have := wf.nw; simp only [Params.offBits]; omega
      have hm : (q.addr.la.num * 2 ^ p.offBits + i / 8) % 8 = i / 8 % 8 := mod_pow_add (k := 3) hko
      rw [getLsbD_mkBits, hm, BitVec.getLsbD_ofNat]
      simp only [hi, decide_true, Bool.true_and, Nat.mod_lt i (show 0 < 8 by decide)]
      rw [show 256 = 2 ^ 8 by rfl, ← Nat.pow_mul, Nat.testBit_div_two_pow, ← BitVec.getLsbD.eq_1,
        show i % 8 + 8 * (i / 8 % 8) = i % 64 by omega]
      by_cases h2 : i % 64 < 32
      · simp [h2]
      · have : p.dataBits ≤ i % 64 := by simp only [Params.dataBits, hp]; omega
        rw [BitVec.getLsbD_of_ge _ _ this]; simp
    · simp
  · have hs : q.Sized := by
      cases Decidable.em q.Sized with
      | inl h => exact h
      | inr h => exact absurd (by rw [CReq.stored, if_neg h3, if_neg h]) hn
    obtain ⟨k, hk⟩ := (sized_iff wf q).1 hs
    have hkl : k ≤ p.lenBits := by rcases bytes_cases hk with ⟨_, h1⟩ | ⟨_, h1⟩ <;> omega
    have hko : k ≤ p.offBits := Nat.le_trans hkl wf.fits
    rw [replicator_pow hk, getLsbD_replicate, CReq.storedByte, if_neg h3, hk, mod_pow_add hko,
      BitVec.getLsbD_ofNat]
    simp only [hi, decide_true, Bool.true_and, Nat.mod_lt i (show 0 < 8 by decide)]
    rw [show 256 = 2 ^ 8 by rfl, ← Nat.pow_mul, Nat.testBit_div_two_pow, ← BitVec.getLsbD.eq_1]
    congr 1
    rw [Nat.mod_mul]

/-- What the proof needs to know about a store from specification memory `S` to `S'`. -/
structure StoreG (q : CReq p) (S S' : ByteMem) : Prop where
  other : ∀ la, la ≠ q.addr.la → view S' la = view S la
  bits : ∀ l i, i < p.lineBits →
    ((writeLine q l).getLsbD i = (view S' q.addr.la).getLsbD i ∧
      (∀ d : Dty p, (markDirty p d q.addr.off q.len).getLsbD (i / 32) = true) ∧
      (∀ e : Entry p, wordDirty p e q.addr.off q.len = true → e.dty.getLsbD (i / 32) = true)) ∨
    ((writeLine q l).getLsbD i = l.getLsbD i ∧ (view S' q.addr.la).getLsbD i = (view S q.addr.la).getLsbD i)

theorem flat_word (a : Addr p) (x : Nat) : (a.la.num * 2 ^ p.offBits + x) / 4 =
    a.la.num * 2 ^ p.nwBits + x / 4 := by
  rw [offBits_pow, Nat.mul_left_comm, Nat.mul_add_div (by decide)]

theorem store_contained (wf : p.WF) {q : CReq p} (ty : q.ty = MT.WRITE) (hc : q.Contained) (S : ByteMem) :
    StoreG q S (implStep S q).1 := by
  have hword : ∀ x, q.addr.flat ≤ x → x < q.addr.flat + q.stored → x < q.lineEnd →
        x / 4 = q.addr.flat / 4 ∨ q.len.toNat = 3 ∧ x / 4 = q.addr.flat / 4 + 1 := by
    cases hc with
    | read ty' => rw [ty] at ty'; simp at ty'
    | write _ word => exact word
    | amo ty' => exact absurd ty (amo_ty ty').2.1
    | inv ty' => rw [ty] at ty'; simp at ty'
    | flush ty' => rw [ty] at ty'; simp at ty'
  have hoff := q.addr.off.isLt
  have hS : (implStep S q).1 = fun x =>
      if q.addr.flat ≤ x ∧ x < q.addr.flat + q.stored ∧ x < q.lineEnd then q.storedByte x else S x := by
    simp [implStep, ty]
  rw [hS]
  refine ⟨?_, ?_⟩
  · intro la hla
    apply BitVec.eq_of_getLsbD_eq
    intro i hi
    have hb : i / 8 < 2 ^ p.offBits := by rw [lineBits_eq] at hi; omega
    rw [getLsbD_view _ _ _ hi, getLsbD_view _ _ _ hi]
    rw [if_neg]
    rintro ⟨h1, h2, h3⟩
    rw [flat_eq] at h1
    rw [lineEnd_eq] at h3
    have : la.num * 2 ^ p.offBits + i / 8 = q.addr.la.num * 2 ^ p.offBits +
      (la.num * 2 ^ p.offBits + i / 8 - q.addr.la.num * 2 ^ p.offBits) := by omega
    exact hla (num_bytes hb (by omega) this).1
  · intro l i hi
    have hb : i / 8 < 2 ^ p.offBits := by rw [lineBits_eq] at hi; omega
    have hwd : i / 32 < p.nWords := by simp only [Params.lineBits] at hi; omega
    rw [getLsbD_view _ _ _ hi, getLsbD_view _ _ _ hi, writeLine, getLsbD_merge, getLsbD_wbenReq _ _ _ hi,
      maskBytes_stored wf]
    simp only [Bool.and_eq_true, decide_eq_true_eq]
    by_cases hr : 8 * q.addr.off.toNat ≤ i ∧ i < 8 * (q.addr.off.toNat + q.stored)
    · left
      have hx : q.addr.flat ≤ q.addr.la.num * 2 ^ p.offBits + i / 8 ∧
          q.addr.la.num * 2 ^ p.offBits + i / 8 < q.addr.flat + q.stored ∧
          q.addr.la.num * 2 ^ p.offBits + i / 8 < q.lineEnd := by
        rw [flat_eq, lineEnd_eq]; omega
      have hn : q.stored ≠ 0 := by omega
      rw [if_pos hx, if_pos hr]
      refine ⟨replicator_stored wf q hn i hi, ?_⟩
      have hw := hword _ hx.1 hx.2.1 hx.2.2
      rw [flat_word, flat_eq, flat_word, show i / 8 / 4 = i / 32 by omega] at hw
      have hwo := wordOf_toNat q.addr.off
      by_cases h3 : q.len.toNat = 3
      · have hadd : i / 32 = q.addr.off.toNat / 4 + 1 → (wordOf p q.addr.off + 1).toNat = i / 32 := by
          intro he
          have h1 : q.addr.off.toNat / 4 + 1 < 2 ^ p.nwBits := by
            rw [← he]; exact hwd
          have h2 : (1 : BitVec p.nwBits).toNat = 1 := by
            have : 1 < 2 ^ p.nwBits := by omega
            simp [Nat.mod_eq_of_lt this]
          rw [BitVec.toNat_add, wordOf_toNat, h2, Nat.mod_eq_of_lt h1, he]
        have hcase : (wordOf p q.addr.off).toNat = i / 32 ∨ (wordOf p q.addr.off + 1).toNat = i / 32 := by
          rcases hw with hw | ⟨_, hw⟩
          · left; omega
          · right; exact hadd (by omega)
        refine ⟨fun d => ?_, fun e he => ?_⟩
        · simp only [markDirty, h3, if_true, getLsbD_setBit, hwd, decide_true, Bool.true_and]
          rcases hcase with h | h <;> rw [h] <;> simp
        · simp only [wordDirty, h3, if_true, Bool.and_eq_true] at he
          rcases hcase with h | h <;> rw [← h]
          · exact he.1
          · exact he.2
      · have hcase : (wordOf p q.addr.off).toNat = i / 32 := by
          rcases hw with hw | ⟨h, _⟩
          · omega
          · exact absurd h h3
        refine ⟨fun d => ?_, fun e he => ?_⟩
        · simp [markDirty, h3, getLsbD_setBit, hwd, hcase]
        · simp only [wordDirty, h3, if_false] at he
          rw [← hcase]; exact he
    · right
      rw [if_neg hr, if_neg]
      · exact ⟨rfl, rfl⟩
      · rw [flat_eq]
        rintro ⟨h1, h2, _⟩
        exact hr ⟨by omega, by omega⟩

/-- The data of a read of any shape. -/
theorem readLine_impl (wf : p.WF) {q : CReq p} (ty : q.ty = MT.READ) (S : ByteMem) :
    readLine q (view S q.addr.la) = (implStep S q).2 := by
  simp only [implStep, ty, if_true]
  by_cases hs : q.Sized
  · rw [if_pos hs]
    obtain ⟨k, hk⟩ := (sized_iff wf q).1 hs
    have hkl : k ≤ p.lenBits := by rcases bytes_cases hk with ⟨_, h1⟩ | ⟨_, h1⟩ <;> omega
    have hko : k ≤ p.offBits := Nat.le_trans hkl wf.fits
    obtain ⟨c, hc⟩ := Nat.pow_dvd_pow 2 hko
    have hoff := q.addr.off.isLt
    have hpos := Nat.two_pow_pos k
    have hal : q.addr.flat / 2 ^ k * 2 ^ k = q.addr.la.num * 2 ^ p.offBits +
        q.addr.off.toNat / 2 ^ k * 2 ^ k := by
      rw [flat_eq, hc, Nat.mul_left_comm, Nat.mul_add_div hpos, Nat.add_mul]
      congr 1
      rw [Nat.mul_comm, Nat.mul_left_comm, Nat.mul_comm (2 ^ k)]
    have hfit : q.addr.off.toNat / 2 ^ k * 2 ^ k + 2 ^ k ≤ 2 ^ p.offBits := by
      rw [hc, Nat.mul_comm _ c, ← Nat.succ_mul]
      apply Nat.mul_le_mul_right
      exact Nat.div_lt_of_lt_mul (by rw [← hc]; exact hoff)
    apply BitVec.eq_of_getLsbD_eq
    intro i hi
    rw [BitVec.getLsbD_ofNat, hk, hal, read_view _ _ _ _ _ hfit]
    have key : (chunk p k (view S q.addr.la) q.addr.off).getLsbD i = (decide (i < p.dataBits) &&
        (decide (i < 8 * 2 ^ k) && (view S q.addr.la).getLsbD (8 * (q.addr.off.toNat / 2 ^ k * 2 ^ k) + i))) := by
      rw [getLsbD_chunk, show q.addr.off.toNat / 2 ^ k * (8 * 2 ^ k) = 8 * (q.addr.off.toNat / 2 ^ k * 2 ^ k) by
        rw [Nat.mul_left_comm]]
    rw [← key]
    simp only [readLine, dataSelect, Bool.not_true, Bool.false_eq_true, if_false]
    rcases bytes_cases hk with ⟨h1, h2⟩ | ⟨h1, h2⟩
    · simp only [h1, if_true]
      split
      · rename_i ho
        have h0 : q.addr.off.toNat / 2 ^ k = 0 := by
          rw [h2, ← ho]; exact Nat.div_eq_of_lt hoff
        rw [key, h0, BitVec.getLsbD_setWidth, h2]
        have : i < 8 * 2 ^ p.lenBits := hi
        simp [hi, this]
      · rw [h2]
    · have h0 : q.len.toNat ≠ 0 := by rw [h1]; exact Nat.pos_iff_ne_zero.1 hpos
      simp only [h0, if_false]
      rw [h1, find_pow _ _ h2]
  · rw [if_neg hs]
    have h0 : q.len.toNat ≠ 0 := by
      intro h0
      exact hs ((sized_iff wf q).2 ⟨p.lenBits, by simp [CReq.bytes, h0]⟩)
    have hf : (List.range p.lenBits).find? (fun i => decide (q.len.toNat = 2 ^ i)) = none := by
      rw [List.find?_eq_none]
      intro i _
      simp only [decide_eq_true_eq]
      intro h
      exact hs ((sized_iff wf q).2 ⟨i, by simp [CReq.bytes, h0, h]⟩)
    simp only [readLine, dataSelect, Bool.not_true, Bool.false_eq_true, if_false, h0, hf]

end Verif
