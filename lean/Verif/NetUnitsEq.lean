import Verif.NetUnits

/-!
# The wire-level leaf units compute the functions of `Units.lean`

For every supported configuration.  The statements are equalities for all
inputs.
-/

namespace Verif.Net
variable {p : Params}

theorem len_cases (wf : p.WF) : p.lenBits = 2 ∨ p.lenBits = 3 ∨ p.lenBits = 4 := by
  have := wf.len; omega

theorem clog2_dataBits (p : Params) : clog2 p.dataBits = p.lenBits + 3 := by
  have : p.dataBits = 2 ^ (p.lenBits + 3) := by simp [Params.dataBits, Nat.pow_add]; omega
  rw [this, clog2_two_pow]

theorem dataBits_pow (p : Params) : p.dataBits = 2 ^ (p.lenBits + 3) := by
  simp [Params.dataBits, Nat.pow_add]; omega

theorem lineBits_pow (p : Params) : p.lineBits = 2 ^ (p.nwBits + 5) := by
  simp [Params.lineBits, Params.nWords, Nat.pow_add]; omega

/-! ## Data replicator -/

/-- `replSel` as a function of the length width only. Proof device; not in the source. -/
private def replSelN (l : Nat) (amo : Bool) (len : BitVec l) : Nat :=
  let n := clog2 (8 * 2 ^ l) - 2 + 2
  (Id.run (do
    let mut sel : BitVec (clog2 n) := 0
    if !amo then
      sel := BitVec.ofNat _ (n - 2)
      if len = BitVec.ofNat _ 0 then
        sel := BitVec.ofNat _ (n - 2)
      else if len = BitVec.ofNat _ 3 then
        sel := BitVec.ofNat _ (n - 1)
      else
        sel := (List.range (n - 3)).foldl
          (fun sel i => if len = BitVec.ofNat _ (2 ^ i) then BitVec.ofNat _ i + 1 else sel) sel
    return sel)).toNat

/-- Proof device; not in the source. -/
private def replSelSpec (l : Nat) (amo : Bool) (len : BitVec l) : Nat :=
  if amo then 0
  else if len.toNat = 0 then l + 1
  else if len.toNat = 3 then l + 2
  else match (List.range l).find? (fun i => len.toNat = 2 ^ i) with
    | some i => i + 1
    | none => l + 1

private theorem replSelN_eq : ∀ l, 2 ≤ l ∧ l ≤ 4 → ∀ (amo : Bool) (len : BitVec l),
    replSelN l amo len = replSelSpec l amo len := by
  intro l hl
  have : l = 2 ∨ l = 3 ∨ l = 4 := by omega
  rcases this with h | h | h <;> subst h <;> decide

theorem replicatorW_eq (wf : p.WF) (amo : Bool) (len : Len p) (d : Data p) :
    replicatorW p amo len d = replicator p amo len d := by
  have hs : (replSel p amo len).toNat = replSelSpec p.lenBits amo len := replSelN_eq _ wf.len amo len
  have hl := wf.len
  have hn : nreplicators p = p.lenBits + 1 := by simp [nreplicators, clog2_dataBits]
  have hline : 64 ≤ p.lineBits := by
    rw [lineBits_pow]
    calc 64 = 2 ^ 6 := rfl
      _ ≤ _ := Nat.pow_le_pow_right (by omega) (by have := wf.nw; omega)
  have hdl : p.dataBits ≤ p.lineBits := by
    rw [lineBits_pow, dataBits_pow]
    exact Nat.pow_le_pow_right (by omega) (by have := wf.fits; simp only [Params.offBits] at this; omega)
  -- the input for a sub-word
  have hrep : ∀ i, i ≤ p.lenBits → replIn p d (i + 1) = replicate p (8 * 2 ^ i) d := by
    intro i hi
    have h1 : ¬ (i + 1 = nreplicators p + 2 - 1) := by omega
    simp only [replIn, h1, if_false, Nat.succ_ne_zero, replicate, Nat.add_sub_cancel]
    have hw : 2 ^ (3 + i) = 8 * 2 ^ i := by rw [Nat.pow_add]
    rw [hw]
    have hpos : 0 < 8 * 2 ^ i := by have := Nat.two_pow_pos i; omega
    apply BitVec.eq_of_getLsbD_eq
    intro j hj
    simp only [getLsbD_mkBits, BitVec.getLsbD_extractLsb', Nat.zero_add]
    have hlt : j % (8 * 2 ^ i) < 2 ^ (3 + i) := by rw [hw]; exact Nat.mod_lt _ hpos
    simp [hlt]
  have hfull : replIn p d (p.lenBits + 1) = replicate p p.dataBits d := hrep _ (Nat.le_refl _)
  have hdw : replIn p d (p.lenBits + 2) = doubleWord p d := by
    have h1 : p.lenBits + 2 = nreplicators p + 2 - 1 := by omega
    have h32 : (p.dataBits = 32 ∧ 64 ≤ p.lineBits) ↔ p.lenBits = 2 := by
      rcases len_cases wf with h | h | h <;> simp [Params.dataBits, h, hline]
    simp only [replIn, h1, if_true, doubleWord, h32]
    by_cases h : p.lenBits = 2
    · simp only [h, if_true]
      apply BitVec.eq_of_getLsbD_eq
      intro j hj
      simp only [getLsbD_mkBits, BitVec.getLsbD_setWidth]
      have hd : p.dataBits = 32 := by simp [Params.dataBits, h]
      have hm : j % 64 < 64 := Nat.mod_lt _ (by omega)
      by_cases hj2 : j % 64 < 32
      · simp [hj2, hm]
      · simp only [hj2, decide_false, Bool.false_and, Bool.and_false]
        rw [BitVec.getLsbD_of_ge _ _ (by omega)]
        simp
    · simp [h]
  have hzero : replIn p d 0 = d.setWidth _ := by
    have h1 : ¬ (0 = nreplicators p + 2 - 1) := by omega
    simp only [replIn, h1, if_false, if_true]
    apply BitVec.eq_of_getLsbD_eq
    intro j hj
    simp only [getLsbD_mkBits, BitVec.getLsbD_setWidth]
    by_cases h : j < p.dataBits
    · simp [h]
    · simp only [h, if_false, Bool.and_false]
      rw [BitVec.getLsbD_of_ge _ _ (by omega)]; simp
  simp only [replicatorW, replicator, hs, replSelSpec]
  cases amo
  · simp only [Bool.false_eq_true, if_false]
    split
    · exact hfull
    · split
      · exact hdw
      · cases hf : (List.range p.lenBits).find? (fun i => decide (len.toNat = 2 ^ i)) with
        | some i =>
          have := List.mem_range.mp (List.mem_of_find?_eq_some hf)
          exact hrep i (by omega)
        | none => exact hfull
  · simp only [if_true]; exact hzero

/-! ## Write bit enable generator -/

/-- Encoding of the write-enable commands, cache_constants.py:47-49. -/
def encWben : WbenCmd → BitVec 2
  | .none => 0
  | .req => 1
  | .dirty => 2

/-- Proof device; not in the source. -/
private def wordMaskBytesN (l : Nat) (len : BitVec l) : Nat :=
  if len.toNat = 1 then 1
  else if len.toNat = 2 then 2
  else if len.toNat = 3 then 8
  else if len.toNat = 4 % 2 ^ l then 4
  else if len.toNat = 8 % 2 ^ l then 8
  else if len.toNat = 16 % 2 ^ l then 16
  else 0

private theorem wordMaskBytesN_le : ∀ l, 2 ≤ l ∧ l ≤ 4 → ∀ len : BitVec l,
    wordMaskBytesN l len = 0 ∨ wordMaskBytesN l len = 1 ∨ wordMaskBytesN l len = 2 ∨
    wordMaskBytesN l len = 4 ∨ wordMaskBytesN l len = 8 ∨ (wordMaskBytesN l len = 16 ∧ l = 4) := by
  intro l hl
  have : l = 2 ∨ l = 3 ∨ l = 4 := by omega
  rcases this with h | h | h <;> subst h <;> decide

theorem wordMaskW_eq (len : Len p) :
    wordMaskW p len = BitVec.ofNat _ (2 ^ wordMaskBytes p len - 1) := by
  have h : ∀ c : Nat, (len = (BitVec.ofNat 32 c).setWidth p.lenBits) ↔
      len.toNat = c % 2 ^ 32 % 2 ^ p.lenBits := by
    intro c
    rw [← BitVec.toNat_inj]; simp
  simp only [wordMaskW, wordMaskBytes, h]
  simp only [show (4 % 2 ^ 32 = 4) from rfl, show (8 % 2 ^ 32 = 8) from rfl,
    show (16 % 2 ^ 32 = 16) from rfl]
  repeat' split
  all_goals rfl

theorem lineBytes (p : Params) : p.lineBits / 8 = 4 * p.nWords := by
  simp only [Params.lineBits]; omega

theorem clog2_lineBytes (p : Params) : clog2 (p.lineBits / 8) = p.nwBits + 2 := by
  have : p.lineBits / 8 = 2 ^ (p.nwBits + 2) := by
    rw [lineBytes]; simp [Params.nWords, Nat.pow_add]; omega
  rw [this, clog2_two_pow]

theorem wbenGenW_eq (cmd : WbenCmd) (dty : Dty p) (off : Off p) (len : Len p) :
    wbenGenW p (encWben cmd) dty off len = writeBitEn p cmd dty off len := by
  cases cmd
  · simp [wbenGenW, encWben, writeBitEn]
  · have e1 : wbenGenW p (encWben .req) dty off len = mkBits _ fun i =>
        (shiftedW p len off).getLsbD (BitVec.ofNat (clog2 (p.lineBits / 8)) (i >>> 3)).toNat := by
      simp [wbenGenW, encWben]
    rw [e1]
    simp only [writeBitEn, wbenReq]
    apply BitVec.eq_of_getLsbD_eq
    intro i hi
    simp only [getLsbD_mkBits, hi, decide_true, Bool.true_and]
    have hb : i / 8 < 4 * p.nWords := by simp only [Params.lineBits] at hi; omega
    have hb2 : i / 8 < 2 ^ (p.nwBits + 2) := by
      simp only [Params.nWords] at hb; rw [Nat.pow_add]; omega
    have hidx : (BitVec.ofNat (clog2 (p.lineBits / 8)) (i >>> 3)).toNat = i / 8 := by
      simp only [clog2_lineBytes, BitVec.toNat_ofNat, Nat.shiftRight_eq_div_pow]
      exact Nat.mod_eq_of_lt hb2
    rw [hidx]
    simp only [shiftedW, byteMask, BitVec.shiftLeft_eq', BitVec.getLsbD_shiftLeft, getLsbD_mkBits]
    have hoff : (off.setWidth (p.lineBits / 8)).toNat = off.toNat := by
      rw [BitVec.toNat_setWidth]
      apply Nat.mod_eq_of_lt
      have h1 := off.isLt
      have h2 : p.offBits ≤ p.lineBits / 8 := by
        rw [lineBytes]; simp only [Params.offBits, Params.nWords]
        have := @Nat.lt_two_pow_self p.nwBits
        have := Nat.two_pow_pos p.nwBits
        omega
      exact Nat.lt_of_lt_of_le h1 (Nat.pow_le_pow_right (by omega) h2)
    rw [hoff, wordMaskW_eq, lineBytes]
    simp only [hb, decide_true, Bool.true_and]
    by_cases ho : i / 8 < off.toNat
    · simp [ho]
    · simp only [ho, decide_false, Bool.not_false, Bool.true_and, BitVec.getLsbD_ofNat,
        Nat.testBit_two_pow_sub_one]
  · have e1 : wbenGenW p (encWben .dirty) dty off len = mkBits _ fun i =>
        !(dty.getLsbD (BitVec.ofNat (clog2 p.nWords) (i >>> 5)).toNat) := by
      simp [wbenGenW, encWben]
    rw [e1]
    simp only [writeBitEn, expand]
    apply BitVec.eq_of_getLsbD_eq
    intro i hi
    simp only [getLsbD_mkBits, hi, decide_true, Bool.true_and, BitVec.getLsbD_not]
    have hb : i / 32 < p.nWords := by simp only [Params.lineBits] at hi; omega
    have : (BitVec.ofNat (clog2 p.nWords) (i >>> 5)).toNat = i / 32 := by
      simp only [Params.nWords, clog2_two_pow, BitVec.toNat_ofNat, Nat.shiftRight_eq_div_pow]
      exact Nat.mod_eq_of_lt hb
    rw [this]

/-! ## Data select mux -/

/-- Proof device; not in the source. -/
private def selSelN (l : Nat) (en amo : Bool) (len : BitVec l) : Nat :=
  let n := clog2 (8 * 2 ^ l)
  (Id.run (do
    let mut sel : BitVec (clog2 n) := 0
    if amo then
      sel := BitVec.ofNat _ 1
    else if !en then
      sel := 0
    else
      if len.toNat = 0 then
        sel := BitVec.ofNat _ (n - 1)
      else
        sel := (List.range (n - 3)).foldl
          (fun sel i => if len.toNat = 2 ^ i then BitVec.ofNat _ i + 2 else sel) sel
    return sel)).toNat

/-- Proof device; not in the source. -/
private def selSelSpec (l : Nat) (en amo : Bool) (len : BitVec l) : Nat :=
  if amo then 1
  else if !en then 0
  else if len.toNat = 0 then l + 2
  else match (List.range l).find? (fun i => len.toNat = 2 ^ i) with
    | some i => i + 2
    | none => 0

private theorem selSelN_eq : ∀ l, 2 ≤ l ∧ l ≤ 4 → ∀ (en amo : Bool) (len : BitVec l),
    selSelN l en amo len = selSelSpec l en amo len := by
  intro l hl
  have : l = 2 ∨ l = 3 ∨ l = 4 := by omega
  rcases this with h | h | h <;> subst h <;> decide

theorem subMuxW_eq (inp : Line p) (off : Off p) (i : Nat) (hi : i ≤ p.lenBits) :
    subMuxW p (3 + i) inp off = chunk p i inp off := by
  have hw : 2 ^ (3 + i) = 8 * 2 ^ i := by rw [Nat.pow_add]
  have hle : 8 * 2 ^ i ≤ p.dataBits :=
    Nat.mul_le_mul_left 8 (Nat.pow_le_pow_right (by omega) hi)
  have hsel : (off.extractLsb' (clog2 (2 ^ (3 + i)) - 3) (p.offBits - (clog2 (2 ^ (3 + i)) - 3))).toNat =
      off.toNat / 2 ^ i := by
    have e : clog2 (2 ^ (3 + i)) - 3 = i := by rw [clog2_two_pow]; omega
    rw [e, BitVec.extractLsb'_toNat, Nat.shiftRight_eq_div_pow]
    apply Nat.mod_eq_of_lt
    have h1 := off.isLt
    by_cases h : i ≤ p.offBits
    · rw [Nat.div_lt_iff_lt_mul (Nat.two_pow_pos i), ← Nat.pow_add]
      rwa [Nat.sub_add_cancel h]
    · have : off.toNat / 2 ^ i = 0 := Nat.div_eq_of_lt
        (Nat.lt_of_lt_of_le h1 (Nat.pow_le_pow_right (by omega) (by omega)))
      rw [this]; exact Nat.two_pow_pos _
  simp only [subMuxW, chunk]
  rw [hsel]
  apply BitVec.eq_of_getLsbD_eq
  intro j hj
  simp only [hw, getLsbD_mkBits, BitVec.getLsbD_setWidth, BitVec.getLsbD_extractLsb', hj, decide_true,
    Bool.true_and]
  by_cases h : j < 8 * 2 ^ i <;> simp [h]

theorem dataSelectW_eq (wf : p.WF) (en amo : Bool) (len : Len p) (off : Off p) (inp : Line p) :
    dataSelectW p en amo len off inp = dataSelect p en amo len off inp := by
  have hs : (selSel p en amo len).toNat = selSelSpec p.lenBits en amo len := selSelN_eq _ wf.len en amo len
  have hl := wf.len
  have hf := wf.fits
  have hfit : p.dataBits < p.lineBits ↔ p.lenBits < p.offBits := by
    rw [lineBits_pow, dataBits_pow]
    rw [Nat.pow_lt_pow_iff_right (by omega)]
    simp only [Params.offBits]; omega
  have hn : nmuxes p = if p.lenBits < p.offBits then p.lenBits + 1 else p.lenBits := by
    simp only [nmuxes, clog2_dataBits, hfit]
    split <;> omega
  have hch : ∀ i, i < p.lenBits → selIn p inp off (i + 2) = chunk p i inp off := by
    intro i hi
    have h1 : ¬ (i + 2 = 0) := by omega
    have h2 : ¬ (i + 2 = 1) := by omega
    have h3 : i + 2 - 2 < nmuxes p := by rw [hn]; split <;> omega
    simp only [selIn, h1, h2, h3, if_false, if_true]
    exact subMuxW_eq inp off i (by omega)
  have hfull : selIn p inp off (p.lenBits + 2) =
      if p.offBits = p.lenBits then inp.setWidth _ else chunk p p.lenBits inp off := by
    have h1 : ¬ (p.lenBits + 2 = 0) := by omega
    have h2 : ¬ (p.lenBits + 2 = 1) := by omega
    by_cases h : p.lenBits < p.offBits
    · have h3 : p.lenBits + 2 - 2 < nmuxes p := by rw [hn, if_pos h]; omega
      have h4 : ¬ (p.offBits = p.lenBits) := by omega
      simp only [selIn, h1, h2, h3, h4, if_false, if_true]
      exact subMuxW_eq inp off _ (Nat.le_refl _)
    · have h3 : ¬ (p.lenBits + 2 - 2 < nmuxes p) := by rw [hn, if_neg h]; omega
      have h4 : p.offBits = p.lenBits := by omega
      simp only [selIn, h1, h2, h3, h4, if_false, if_true]
      apply BitVec.eq_of_getLsbD_eq
      intro j hj
      simp [hj]
  have h32 : 32 ≤ p.dataBits := by
    rw [dataBits_pow]
    calc 32 = 2 ^ 5 := rfl
      _ ≤ _ := Nat.pow_le_pow_right (by omega) (by omega)
  have hamo : selIn p inp off 1 = (inp.setWidth 32).setWidth _ := by
    simp only [selIn, Nat.one_ne_zero, if_false, if_true]
    apply BitVec.eq_of_getLsbD_eq
    intro j hj
    simp only [getLsbD_mkBits, BitVec.getLsbD_setWidth, hj, decide_true, Bool.true_and]
    by_cases h : j < 32 <;> simp [h]
  have hz : selIn p inp off 0 = 0 := by simp [selIn]
  simp only [dataSelectW, dataSelect, hs, selSelSpec]
  cases amo
  · cases en
    · simpa using hz
    · simp only [Bool.false_eq_true, if_false, Bool.not_true]
      split
      · exact hfull
      · cases hf : (List.range p.lenBits).find? (fun i => decide (len.toNat = 2 ^ i)) with
        | some i =>
          have := List.mem_range.mp (List.mem_of_find?_eq_some hf)
          exact hch i (by omega)
        | none => exact hz
  · simpa using hamo

/-! ## Tag array processing unit -/

theorem wordOf_eq (off : Off p) : off.extractLsb' 2 p.nwBits = wordOf p off := by
  apply BitVec.eq_of_getLsbD_eq
  intro j hj
  simp [wordOf, hj]

/-- The way numbers as bit positions. -/
theorem way_mem_iff (k : Way) : k ∈ p.ways ↔ k.toNat < assoc p := by
  cases k <;> cases h : p.twoWay <;> simp [Params.ways, assoc, h]

theorem toNat_beq_one (k : Way) : (k.toNat == 1) = k := by cases k <;> rfl

theorem wordDirtyW_eq (ta : Way → Entry p) (off : Off p) (len : Len p) (k : Way) :
    (wordDirtyW p ta off len).getLsbD k.toNat = (decide (k ∈ p.ways) && wordDirty p (ta k) off len) := by
  simp only [wordDirtyW, getLsbD_mkBits, way_mem_iff, wordDirty, wordOf_eq, toNat_beq_one]

private theorem foldl_or (f : Nat → Bool) (en : Bool) (L : List Nat) (a : Bool) :
    L.foldl (fun d j => if f j && en then true else d) a = (a || (en && L.any f)) := by
  induction L generalizing a with
  | nil => simp
  | cons x L ih =>
    simp only [List.foldl_cons, ih, List.any_cons]
    cases f x <;> cases en <;> cases a <;> simp

theorem lineDirtyW_eq (ta : Way → Entry p) (en : Bool) (k : Way) :
    (lineDirtyW p ta en).getLsbD k.toNat = (decide (k ∈ p.ways) && lineDirty en (ta k)) := by
  simp only [lineDirtyW, getLsbD_mkBits, way_mem_iff, toNat_beq_one, lineDirty]
  rw [foldl_or]
  congr 1
  simp only [Bool.false_or]
  congr 1
  generalize (ta k).dty = d
  rw [Bool.eq_iff_iff]
  simp only [List.any_eq_true, List.mem_range, bne_iff_ne, ne_eq]
  constructor
  · rintro ⟨j, _, hj⟩ rfl
    simp at hj
  · intro h
    apply Classical.byContradiction
    intro hn
    apply h
    apply BitVec.eq_of_getLsbD_eq
    intro j hj
    cases hb : d.getLsbD j
    · simp
    · exact absurd ⟨j, hj, hb⟩ hn

theorem comparingW_eq (isInit en : Bool) (ta : Way → Entry p) (tag : Tag p) :
    comparingW p isInit en ta tag (lineDirtyW p ta en) = comparing p en isInit tag ta := by
  simp only [comparingW, comparing, lineDirtyW_eq]
  cases (!isInit && en)
  · rfl
  · simp only [if_true]
    cases h : p.twoWay
    · have hw : p.ways = [false] := by simp [Params.ways, h]
      rw [hw]
      simp only [List.forIn_cons, List.forIn_nil, List.foldl, cmpStep, show decide (false ∈ [false]) = true from rfl, Bool.true_and]
      generalize hE : ta false = e
      generalize lineDirty en e = d
      generalize e.val = v
      generalize (e.tag == tag) = t
      cases d <;> cases v <;> cases t <;> rfl
    · have hw : p.ways = [false, true] := by simp [Params.ways, h]
      rw [hw]
      simp only [List.forIn_cons, List.forIn_nil, List.foldl, cmpStep, show decide (false ∈ [false, true]) = true from rfl,
        show decide (true ∈ [false, true]) = true from rfl, Bool.true_and]
      generalize hE : ta false = e
      generalize hE' : ta true = e'
      generalize lineDirty en e = d
      generalize e.val = v
      generalize (e.tag == tag) = t
      generalize lineDirty en e' = d'
      generalize e'.val = v'
      generalize (e'.tag == tag) = t'
      cases d <;> cases v <;> cases t <;> cases d' <;> cases v' <;> cases t' <;> rfl

/-! ## Update tag array unit -/

/-- Encoding of the commands, cache_constants.py:35-41. -/
def encTagCmd : TagCmd → BitVec 3
  | .none => 0
  | .clear => 1
  | .wrHit => 2
  | .wrRefill => 3
  | .rdRefill => 4
  | .inv => 5
  | .flush => 6

theorem updateTagW_eq (cmd : TagCmd) (old : Entry p) (off : Off p) (len : Len p) (d : Dty p) :
    updateTagW p (encTagCmd cmd) old off len d = updateTag p cmd old off len d := by
  cases cmd <;> simp [updateTagW, encTagCmd, updateTag, markDirty, wordOf_eq] <;> split <;> rfl

/-! ## Replacement bits -/

theorem replRegIn_eq (out : BitVec (2 ^ p.idxBits)) (wa : Idx p) (wd : Bool) (i : Idx p) :
    (replRegIn p out wa wd).getLsbD i.toNat = if i = wa then wd else out.getLsbD i.toNat := by
  have hi := i.isLt
  simp only [replRegIn, getLsbD_mkBits, hi, decide_true, Bool.true_and]
  have : (wa.toNat = i.toNat) ↔ i = wa := by
    rw [← BitVec.toNat_inj]; exact eq_comm
  simp only [this]

/-! ## Packed words -/

theorem unpack_packEntry (e : Entry p) : unpackEntry (packEntry e) = e := by
  obtain ⟨v, d, t⟩ := e
  simp only [unpackEntry, packEntry, Entry.mk.injEq]
  refine ⟨?_, ?_, ?_⟩
  · rw [BitVec.getLsbD_append, BitVec.getLsbD_append]
    simp only [show ¬ (p.tagBits + p.nWords < p.tagBits) from by omega,
      show p.tagBits + p.nWords - p.tagBits = p.nWords from by omega, Nat.lt_irrefl, if_false,
      Nat.sub_self]
    cases v <;> rfl
  · apply BitVec.eq_of_getLsbD_eq
    intro j hj
    simp only [BitVec.getLsbD_extractLsb', BitVec.getLsbD_append, hj, decide_true, Bool.true_and]
    have : ¬ (p.tagBits + j < p.tagBits) := by omega
    simp [this, Nat.add_sub_cancel_left, hj]
  · apply BitVec.eq_of_getLsbD_eq
    intro j hj
    simp [BitVec.getLsbD_append, hj]

theorem getLsbD_packEntry (e : Entry p) (i : Nat) :
    (packEntry e).getLsbD i =
      if i < p.tagBits then e.tag.getLsbD i
      else if i < p.tagBits + p.nWords then e.dty.getLsbD (i - p.tagBits)
      else decide (i = p.tagBits + p.nWords) && e.val := by
  rw [packEntry, BitVec.getLsbD_append, BitVec.getLsbD_append]
  by_cases h1 : i < p.tagBits
  · simp [h1]
  · by_cases h2 : i < p.tagBits + p.nWords
    · have : i - p.tagBits < p.nWords := by omega
      simp [h1, h2, this]
    · have h3 : ¬ (i - p.tagBits < p.nWords) := by omega
      simp only [h1, h2, h3, if_false]
      by_cases h4 : i = p.tagBits + p.nWords
      · subst h4
        simp only [show p.tagBits + p.nWords - p.tagBits - p.nWords = 0 from by omega, decide_true,
          Bool.true_and]
        cases e.val <;> rfl
      · simp only [h4, decide_false, Bool.false_and]
        rw [BitVec.getLsbD_of_ge _ _ (by omega)]

theorem pack_unpackEntry (x : BitVec (tagArrayBits p)) : packEntry (unpackEntry x) = x := by
  apply BitVec.eq_of_getLsbD_eq
  intro i hi
  rw [getLsbD_packEntry]
  simp only [unpackEntry, BitVec.getLsbD_extractLsb']
  simp only [tagArrayBits] at hi
  by_cases h1 : i < p.tagBits
  · simp [h1]
  · by_cases h2 : i < p.tagBits + p.nWords
    · have h3 : i - p.tagBits < p.nWords := by omega
      have h4 : p.tagBits + (i - p.tagBits) = i := by omega
      simp [h1, h2, h3, h4]
    · have : i = p.tagBits + p.nWords := by omega
      subst this
      simp only [h1, h2, if_false, decide_true, Bool.true_and]

theorem packEntry_inj {e e' : Entry p} (h : packEntry e = packEntry e') : e = e' := by
  rw [← unpack_packEntry e, h, unpack_packEntry]

theorem getLsbD_packAddr (a : Addr p) (i : Nat) :
    (packAddr a).getLsbD i =
      if i < p.idxBits + p.offBits then
        if i < p.offBits then a.off.getLsbD i else a.idx.getLsbD (i - p.offBits)
      else a.tag.getLsbD (i - (p.idxBits + p.offBits)) := by
  show BitVec.getLsbD (w := p.tagBits + (p.idxBits + p.offBits)) (a.tag ++ (a.idx ++ a.off)) i = _
  rw [BitVec.getLsbD_append, BitVec.getLsbD_append]

theorem unpack_packAddr (a : Addr p) : unpackAddr (packAddr a) = a := by
  cases h : unpackAddr (packAddr a) with
  | mk t' x' o' =>
  simp only [unpackAddr, Addr.mk.injEq] at h
  obtain ⟨rfl, rfl, rfl⟩ := h
  cases a with
  | mk t x o =>
  rw [Addr.mk.injEq]
  refine ⟨?_, ?_, ?_⟩ <;> (apply BitVec.eq_of_getLsbD_eq; intro j hj)
  all_goals rw [BitVec.getLsbD_extractLsb', getLsbD_packAddr]
  · have h1 : ¬ (p.idxBits + p.offBits + j < p.idxBits + p.offBits) := by omega
    simp [hj, h1, Nat.add_sub_cancel_left]
  · have h1 : p.offBits + j < p.idxBits + p.offBits := by omega
    have h2 : ¬ (p.offBits + j < p.offBits) := by omega
    simp [hj, h1, h2, Nat.add_sub_cancel_left]
  · have h1 : j < p.idxBits + p.offBits := by omega
    simp [hj, h1]

theorem pack_unpackAddr (x : BitVec p.addrBits) : packAddr (unpackAddr x) = x := by
  apply BitVec.eq_of_getLsbD_eq
  intro i hi
  simp only [Params.addrBits] at hi
  rw [getLsbD_packAddr]
  simp only [unpackAddr, BitVec.getLsbD_extractLsb']
  by_cases h1 : i < p.idxBits + p.offBits
  · by_cases h2 : i < p.offBits
    · simp [h1, h2]
    · have h3 : i - p.offBits < p.idxBits := by omega
      have h4 : p.offBits + (i - p.offBits) = i := by omega
      simp [h1, h2, h3, h4]
  · have h3 : i - (p.idxBits + p.offBits) < p.tagBits := by omega
    have h4 : p.idxBits + p.offBits + (i - (p.idxBits + p.offBits)) = i := by omega
    simp [h1, h3, h4]

/-! ## SRAM -/

theorem SramG.rdata_eq {ι : Type} {n : Nat} (s : SramG ι n) : s.rdata = s.dout := by
  simp [SramG.rdata, SramG.O1]

theorem SramG.edge_dout {ι : Type} [DecidableEq ι] {n : Nat} (s : SramG ι n) (val wr : Bool) (a : ι)
    (d m : BitVec n) : (s.edge val wr a d m).dout = if val && !wr then s.ram a else s.dout := by
  cases val <;> cases wr <;> rfl

theorem SramG.edge_ram {ι : Type} [DecidableEq ι] {n : Nat} (s : SramG ι n) (val wr : Bool) (a : ι)
    (d m : BitVec n) (j : ι) :
    (s.edge val wr a d m).ram j = if val && wr && (j = a : Bool) then merge m (s.ram j) d else s.ram j := by
  apply BitVec.eq_of_getLsbD_eq
  intro i hi
  simp only [SramG.edge, SramG.tick, getLsbD_mkBits, hi, decide_true, Bool.true_and, Bool.not_not]
  by_cases hj : j = a
  · cases val <;> cases wr <;> simp [hj, merge]
    all_goals (cases m.getLsbD i <;> simp [hi])
  · simp [hj]

theorem getLsbD_merge {n : Nat} (m o d : BitVec n) (i : Nat) (hi : i < n) :
    (merge m o d).getLsbD i = if m.getLsbD i then d.getLsbD i else o.getLsbD i := by
  simp only [merge, BitVec.getLsbD_or, BitVec.getLsbD_and, BitVec.getLsbD_not, hi, decide_true,
    Bool.true_and]
  cases m.getLsbD i <;> simp

end Verif.Net
