import Verif.SpecUnits
import Verif.SubWord

/-!
# The chained data-select mux (C23)

`DataSelectMux` is the slower alternative of the `FastDataSelectMux` the cache
instantiates.  It is modelled separately and compared with it.
-/

namespace Verif
variable {p : Params}

/-- `SubInputMux` of width `8 * 2^i`: lower or upper half of the low
`2 * 8 * 2^i` bits, zero extended, units/muxes.py:14-33. -/
def subMux (p : Params) (i : Nat) (sel : Bool) (inp : Line p) : Line p :=
  (if sel then inp.extractLsb' (8 * 2 ^ i) (8 * 2 ^ i) else inp.extractLsb' 0 (8 * 2 ^ i)).setWidth _

/-- The chain of sub-muxes, widest first: the value after `j` of the `nmuxes`
muxes (`nmuxes = clog2(bitwidth_cacheline // 8) = offBits`), mux `i` selected by
`en & offset[i]`, units/muxes.py:64-80. -/
def muxChain (p : Params) (en : Bool) (off : Off p) (inp : Line p) : Nat → Line p
  | 0 => inp
  | j + 1 =>
    subMux p (p.offBits - 1 - j) (en && off.getLsbD (p.offBits - 1 - j)) (muxChain p en off inp j)

/-- `s.sub[i].out`: the output after the muxes `nmuxes-1, .., i` (units/muxes.py:65-78). -/
def subOut (p : Params) (en : Bool) (off : Off p) (inp : Line p) (i : Nat) : Line p :=
  muxChain p en off inp (p.offBits - i)

/-- Input `i + 2` of the output mux, units/muxes.py:84-90. -/
def chainIn (p : Params) (en : Bool) (off : Off p) (inp : Line p) (i : Nat) : Data p :=
  if i < p.offBits then (subOut p en off inp i).setWidth _ else inp.setWidth _

/-- `DataSelectMux`, units/muxes.py:35-107.  `ninputs - 1 = lenBits + 2`, so the
last input is number `i + 2` with `i = lenBits`. -/
def chainSelect (p : Params) (en amo : Bool) (len : Len p) (off : Off p) (inp : Line p) : Data p :=
  if amo then inp.setWidth _
  else if !en then 0
  else if len.toNat = 0 then chainIn p en off inp p.lenBits
  else match (List.range p.lenBits).find? (fun i => len.toNat = 2 ^ i) with
    | some i => chainIn p en off inp i
    | none => 0

theorem getLsbD_subMux (i : Nat) (sel : Bool) (inp : Line p) (b : Nat) :
    (subMux p i sel inp).getLsbD b =
      (decide (b < p.lineBits) && (decide (b < 8 * 2 ^ i) &&
        inp.getLsbD ((if sel then 8 * 2 ^ i else 0) + b))) := by
  simp only [subMux]
  cases sel <;> simp [BitVec.getLsbD_setWidth, BitVec.getLsbD_extractLsb']

/-- Splitting the position of a chunk one bit further. -/
theorem chunk_split (o i : Nat) :
    o / 2 ^ (i + 1) * 2 ^ (i + 1) + (if o.testBit i then 2 ^ i else 0) = o / 2 ^ i * 2 ^ i := by
  have h1 : o / 2 ^ (i + 1) = o / 2 ^ i / 2 := by rw [Nat.pow_succ, Nat.div_div_eq_div_mul]
  have h2 : o.testBit i = decide (o / 2 ^ i % 2 = 1) := by
    rw [Nat.testBit_eq_decide_div_mod_eq]
  rw [h1, h2, Nat.pow_succ]
  have h3 := Nat.div_add_mod (o / 2 ^ i) 2
  generalize o / 2 ^ i = q at *
  have h4 : q / 2 * (2 ^ i * 2) = (2 * (q / 2)) * 2 ^ i := by
    rw [Nat.mul_comm (2 ^ i), ← Nat.mul_assoc, Nat.mul_comm (q / 2)]
  rw [h4]
  by_cases h : q % 2 = 1
  · simp only [h, decide_true, if_true]
    have : q = 2 * (q / 2) + 1 := by omega
    conv => rhs; rw [this, Nat.add_mul, Nat.one_mul]
  · simp only [h, decide_false, Bool.false_eq_true, if_false]
    have : q = 2 * (q / 2) := by omega
    rw [Nat.add_zero, ← this]

theorem getLsbD_muxChain (off : Off p) (inp : Line p) (j : Nat) (hj : j ≤ p.offBits) (b : Nat) :
    (muxChain p true off inp j).getLsbD b =
      (decide (b < 8 * 2 ^ (p.offBits - j)) &&
        inp.getLsbD (8 * (off.toNat / 2 ^ (p.offBits - j) * 2 ^ (p.offBits - j)) + b)) := by
  induction j generalizing b with
  | zero =>
    have h := off.isLt
    simp only [muxChain, Nat.sub_zero, Nat.div_eq_of_lt h, Nat.zero_mul, Nat.mul_zero, Nat.zero_add]
    by_cases hb : b < 8 * 2 ^ p.offBits
    · simp [hb]
    · simp only [hb, decide_false, Bool.false_and]
      exact BitVec.getLsbD_of_ge _ _ (by rw [lineBits_eq]; omega)
  | succ j ih =>
    have e : p.offBits - j = (p.offBits - 1 - j) + 1 := by omega
    have e' : p.offBits - (j + 1) = p.offBits - 1 - j := by omega
    have ih := ih (by omega)
    rw [e] at ih
    rw [e']
    generalize hi : p.offBits - 1 - j = i at *
    simp only [muxChain, hi, Bool.true_and]
    rw [getLsbD_subMux, ih]
    have hs := chunk_split off.toNat i
    have hp : 2 ^ (i + 1) = 2 * 2 ^ i := by rw [Nat.pow_succ]; omega
    have ht : off.getLsbD i = off.toNat.testBit i := rfl
    rw [ht]
    by_cases hb : b < 8 * 2 ^ i
    · have hl : b < p.lineBits := by
        have : 2 ^ i ≤ 2 ^ p.offBits := Nat.pow_le_pow_right (by decide) (by omega)
        rw [lineBits_eq]; omega
      simp only [hb, hl, decide_true, Bool.true_and]
      cases hbit : off.toNat.testBit i
      · simp only [hbit, Bool.false_eq_true, if_false] at hs ⊢
        have h1 : 0 + b < 8 * 2 ^ (i + 1) := by omega
        simp only [h1, decide_true, Bool.true_and]
        congr 1; omega
      · simp only [hbit, if_true] at hs ⊢
        have h1 : 8 * 2 ^ i + b < 8 * 2 ^ (i + 1) := by omega
        simp only [h1, decide_true, Bool.true_and]
        congr 1; omega
    · simp [hb]

/-- Output of sub-mux `i` of the chain and of the fast mux. -/
theorem chainIn_eq_chunk (off : Off p) (inp : Line p) (i : Nat) (hi : i < p.offBits) :
    chainIn p true off inp i = chunk p i inp off := by
  apply BitVec.eq_of_getLsbD_eq
  intro b hb
  rw [chainIn, if_pos hi, subOut, BitVec.getLsbD_setWidth, getLsbD_muxChain _ _ _ (by omega),
    getLsbD_chunk]
  have e : p.offBits - (p.offBits - i) = i := by omega
  rw [e]
  simp only [hb, decide_true, Bool.true_and]
  congr 2
  rw [← Nat.mul_assoc, ← Nat.mul_assoc, Nat.mul_comm _ 8]

/-- **C23.**  Outside AMOs the two muxes agree for every line, length, offset
(aligned or not), enable and all widths. -/
theorem C23_muxes_agree (wf : p.WF) (en : Bool) (len : Len p) (off : Off p) (inp : Line p) :
    chainSelect p en false len off inp = dataSelect p en false len off inp := by
  have hfit := wf.fits
  cases en
  · simp [chainSelect, dataSelect]
  simp only [chainSelect, dataSelect, Bool.false_eq_true, if_false, Bool.not_true]
  split
  · by_cases h : p.offBits = p.lenBits
    · rw [if_pos h, chainIn, if_neg (by omega)]
    · rw [if_neg h, chainIn_eq_chunk _ _ _ (by omega)]
  · cases hf : (List.range p.lenBits).find? (fun i => len.toNat = 2 ^ i) with
    | none => rfl
    | some i =>
      have hi : i ∈ List.range p.lenBits := List.mem_of_find?_eq_some hf
      simp only [List.mem_range] at hi
      exact chainIn_eq_chunk _ _ _ (by omega)

/-- **C23** (AMO).  For AMOs the chained mux passes the low `data width` bits of the
line, the fast one only the low 32: they agree exactly when the bits between are
zero - in particular always for 32-bit data. -/
theorem C23_amo (wf : p.WF) (en : Bool) (len : Len p) (off : Off p) (inp : Line p) :
    chainSelect p en true len off inp = dataSelect p en true len off inp ↔
      ∀ b, 32 ≤ b → b < p.dataBits → inp.getLsbD b = false := by
  have hl := dataBits_le_lineBits wf
  simp only [chainSelect, dataSelect, if_true]
  constructor
  · intro h b h1 h2
    have := congrArg (fun x => x.getLsbD b) h
    simp only [BitVec.getLsbD_setWidth] at this
    have h3 : ¬ b < 32 := by omega
    simpa [h2, h3] using this
  · intro h
    apply BitVec.eq_of_getLsbD_eq
    intro b hb
    simp only [BitVec.getLsbD_setWidth, hb, decide_true, Bool.true_and]
    by_cases h3 : b < 32
    · simp [h3]
    · simp [h3, h b (by omega) hb]

/-- **C23** (AMO, 32-bit data): always equal. -/
theorem C23_amo32 (wf : p.WF) (h : p.lenBits = 2) (en : Bool) (len : Len p) (off : Off p)
    (inp : Line p) : chainSelect p en true len off inp = dataSelect p en true len off inp := by
  rw [C23_amo wf]
  intro b h1 h2
  simp only [Params.dataBits, h] at h2; omega

/-- **C23** (negative part): with 64-bit data there is a line for which the two muxes
differ on an AMO. -/
theorem C23_amo_differs : let p : Params := ⟨1, 2, 2, 3, 1, true⟩
    p.WF ∧ (chainSelect p true true 4 0 0x0f0e0d0c0b0a09080706050403020100#128).toNat ≠
      (dataSelect p true true 4 0 0x0f0e0d0c0b0a09080706050403020100#128).toNat :=
  ⟨⟨by decide, by decide, by decide, by decide⟩, by decide +kernel⟩

/-- The chained mux on a concrete line: halfword 3. -/
example : let p : Params := ⟨1, 2, 2, 3, 1, true⟩
    (chainSelect p true false 2 6 0x0f0e0d0c0b0a09080706050403020100#128).toNat = 0x0706 := by
  decide +kernel

end Verif
