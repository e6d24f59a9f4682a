import Verif.UnitLemmas
import Verif.PropsUnits

/-!
# Derivation of the parameters (C40)

`CacheDerivedParams` computes widths from byte counts and message types; the
cache model starts from the record `Params`.  Here the derivation itself is
modelled and every supported configuration is shown to give such a record.
-/

namespace Verif

/-- `clog2` of PyMTL3: the number of bits needed to count to `n - 1` (CacheDerivedParams.py:51-64, 94). -/
def clog2 (n : Nat) : Nat := if n ≤ 1 then 0 else Nat.log2 (n - 1) + 1

/-- Constructor arguments of a cache: `num_bytes`, `associativity` and the widths of
the fields of the message types, CacheDerivedParams.py:24-47. -/
structure Config where
  numBytes : Nat
  associativity : Nat
  /-- `MemReqType.data` -/
  cacheline : Nat
  /-- `MemReqType.addr` -/
  addr : Nat
  /-- `MemReqType.opaque` -/
  opaqueBits : Nat
  /-- `CacheReqType.data` -/
  data : Nat
deriving DecidableEq, Repr

namespace Config
variable (c : Config)

/-- CacheDerivedParams.py:49 -/
def total_num_cachelines : Nat := c.numBytes * 8 / c.cacheline
/-- CacheDerivedParams.py:50 -/
def nblocks_per_way : Nat := c.total_num_cachelines / c.associativity
/-- CacheDerivedParams.py:51 -/
def bitwidth_num_lines : Nat := clog2 c.total_num_cachelines
/-- CacheDerivedParams.py:52 -/
def bitwidth_index : Nat := clog2 c.nblocks_per_way
/-- CacheDerivedParams.py:53 -/
def bitwidth_offset : Nat := clog2 (c.cacheline / 8)
/-- CacheDerivedParams.py:54; a Python integer, possibly negative -/
def bitwidth_tag : Int := (c.addr : Int) - c.bitwidth_offset - c.bitwidth_index
/-- CacheDerivedParams.py:55 -/
def bitwidth_data_wben : Nat := (c.cacheline + 7) / 8 * 8
/-- CacheDerivedParams.py:59 -/
def bitwidth_len : Nat := clog2 (c.data / 8)
/-- CacheDerivedParams.py:60-63 -/
def bitwidth_clog_asso : Nat := if c.associativity = 1 then 1 else clog2 c.associativity
/-- CacheDerivedParams.py:64 -/
def bitwidth_mem_len : Nat := clog2 (c.cacheline / 8)
/-- CacheDerivedParams.py:66 -/
def bitwidth_dirty : Nat := c.cacheline / 32
/-- CacheDerivedParams.py:67, 70 -/
def bitwidth_tag_array : Int := c.bitwidth_tag + 1 + c.bitwidth_dirty

/-- The supported configurations: all sizes powers of two, one or two ways, at least
two sets and two words per line, data of 32, 64 or 128 bits not wider than a line,
and an address at least as wide as index and offset. -/
structure Supported : Prop where
  bytes : ∃ k, c.numBytes = 2 ^ k
  line : ∃ k, c.cacheline = 2 ^ k
  word : c.data = 32 ∨ c.data = 64 ∨ c.data = 128
  assoc : c.associativity = 1 ∨ c.associativity = 2
  two_words : 64 ≤ c.cacheline
  fits : c.data ≤ c.cacheline
  two_sets : 2 * c.associativity * c.cacheline ≤ 8 * c.numBytes
  addr_wide : c.bitwidth_offset + c.bitwidth_index ≤ c.addr

/-- The record the cache model uses for this configuration (CacheDerivedParams.py:40-129). -/
def params : Params where
  idxBits := c.bitwidth_index
  tagBits := c.bitwidth_tag.toNat
  nwBits := c.bitwidth_offset - 2
  lenBits := c.bitwidth_len
  opqBits := c.opaqueBits
  twoWay := c.associativity == 2

end Config

@[simp] theorem clog2_two_pow (k : Nat) : clog2 (2 ^ k) = k := by
  cases k with
  | zero => rfl
  | succ k =>
    have hp := Nat.two_pow_pos k
    have h2 : 2 ^ (k + 1) = 2 * 2 ^ k := by rw [Nat.pow_succ]; omega
    have hlt : ¬ 2 ^ (k + 1) ≤ 1 := by omega
    simp only [clog2, hlt, if_false, Nat.add_right_cancel_iff]
    have hne : 2 ^ (k + 1) - 1 ≠ 0 := by omega
    have h3 : k ≤ Nat.log2 (2 ^ (k + 1) - 1) := (Nat.le_log2 hne).2 (by omega)
    have h4 : Nat.log2 (2 ^ (k + 1) - 1) < k + 1 := (Nat.log2_lt hne).2 (by omega)
    omega

/-- `clog2 n` bits are enough for the numbers below `n`, and one bit less is not. -/
theorem clog2_spec (n : Nat) : n ≤ 2 ^ clog2 n ∧ (1 < n → 2 ^ (clog2 n - 1) < n) := by
  simp only [clog2]
  split
  · rename_i h; constructor
    · simpa using h
    · omega
  · rename_i h
    have hne : n - 1 ≠ 0 := by omega
    have h1 := (Nat.log2_lt hne).1 (Nat.lt_succ_self _)
    have h2 := (Nat.le_log2 hne).1 (Nat.le_refl _)
    constructor
    · show n ≤ 2 ^ ((n - 1).log2 + 1)
      simp only [Nat.succ_eq_add_one] at h1; omega
    · intro _; simp only [Nat.add_sub_cancel]; omega

namespace Config
variable {c : Config}

/-- Exponents of a supported configuration. -/
theorem Supported.exps (h : c.Supported) : ∃ i l a d : Nat,
    c.associativity = 2 ^ a ∧ a ≤ 1 ∧ c.cacheline = 2 ^ (l + 3) ∧ 3 ≤ l ∧ c.data = 2 ^ (d + 3) ∧
    2 ≤ d ∧ d ≤ 4 ∧ d ≤ l ∧ c.numBytes = 2 ^ (i + a + l) ∧ 1 ≤ i := by
  obtain ⟨k, hk⟩ := h.bytes
  obtain ⟨m, hm⟩ := h.line
  have h6 : 6 ≤ m := by
    have := h.two_words
    rw [hm] at this
    exact (Nat.pow_le_pow_iff_right (a := 2) (by decide)).1 this
  obtain ⟨d, hd, hd2, hd4⟩ : ∃ d, c.data = 2 ^ (d + 3) ∧ 2 ≤ d ∧ d ≤ 4 := by
    rcases h.word with h | h | h
    · exact ⟨2, h, by decide, by decide⟩
    · exact ⟨3, h, by decide, by decide⟩
    · exact ⟨4, h, by decide, by decide⟩
  have hdl : d + 3 ≤ m := by
    have := h.fits
    rw [hd, hm] at this
    exact (Nat.pow_le_pow_iff_right (a := 2) (by decide)).1 this
  obtain ⟨a, ha, ha1⟩ : ∃ a, c.associativity = 2 ^ a ∧ a ≤ 1 := by
    rcases h.assoc with h | h
    · exact ⟨0, h, by decide⟩
    · exact ⟨1, h, by decide⟩
  have hs : 1 + a + m ≤ k + 3 := by
    have := h.two_sets
    rw [hk, hm, ha] at this
    have e1 : 2 * 2 ^ a * 2 ^ m = 2 ^ (1 + a + m) := by rw [Nat.pow_add, Nat.pow_add]
    have e2 : 8 * 2 ^ k = 2 ^ (k + 3) := by rw [Nat.pow_add]; omega
    rw [e1, e2] at this
    exact (Nat.pow_le_pow_iff_right (a := 2) (by decide)).1 this
  refine ⟨k + 3 - a - m, m - 3, a, d, ha, ha1, ?_, by omega, hd, hd2, hd4, by omega, ?_, by omega⟩
  · rw [hm]; congr 1; omega
  · rw [hk]; congr 1; omega

/-- All derived numbers of a supported configuration in closed form. -/
theorem Supported.numbers (h : c.Supported) : ∃ i l a d : Nat, a ≤ 1 ∧ 3 ≤ l ∧ 2 ≤ d ∧ d ≤ 4 ∧ d ≤ l ∧ 1 ≤ i ∧
    c.associativity = 2 ^ a ∧ c.cacheline = 2 ^ (l + 3) ∧ c.data = 2 ^ (d + 3) ∧
    c.total_num_cachelines = 2 ^ (i + a) ∧ c.nblocks_per_way = 2 ^ i ∧
    c.bitwidth_num_lines = i + a ∧ c.bitwidth_index = i ∧ c.bitwidth_offset = l ∧
    c.bitwidth_len = d := by
  obtain ⟨i, l, a, d, ha, ha1, hl, hl3, hd, hd2, hd4, hdl, hb, hi⟩ := h.exps
  have pp := fun n => Nat.two_pow_pos n
  have ht : c.total_num_cachelines = 2 ^ (i + a) := by
    simp only [total_num_cachelines, hb, hl]
    have : 2 ^ (i + a + l) * 8 = 2 ^ (i + a) * 2 ^ (l + 3) := by
      rw [Nat.pow_add 2 (i + a) l, Nat.pow_add 2 l 3, Nat.mul_assoc]
    rw [this, Nat.mul_div_cancel _ (pp _)]
  have hn : c.nblocks_per_way = 2 ^ i := by
    simp only [nblocks_per_way, ht, ha]
    rw [Nat.pow_add, Nat.mul_div_cancel _ (pp _)]
  have ho : c.cacheline / 8 = 2 ^ l := by
    rw [hl, Nat.pow_add]; omega
  have hle : c.data / 8 = 2 ^ d := by
    rw [hd, Nat.pow_add]; omega
  exact ⟨i, l, a, d, ha1, hl3, hd2, hd4, hdl, hi, ha, hl, hd, ht, hn, by simp [bitwidth_num_lines, ht],
    by simp [bitwidth_index, hn], by simp [bitwidth_offset, ho], by simp [bitwidth_len, hle]⟩

/-- **C40.**  For every supported configuration the derived widths are consistent:
tag, index and offset partition the address; the line-number width covers exactly
`sets * ways` lines; the dirty mask has one bit per 32-bit word; the write mask of
the data array has one bit per bit of the line; the length fields can name every
length below their width; the way number has one bit. -/
theorem C40_widths_consistent (h : c.Supported) :
    c.bitwidth_tag + c.bitwidth_index + c.bitwidth_offset = c.addr ∧ 0 ≤ c.bitwidth_tag ∧
    2 ^ c.bitwidth_index = c.nblocks_per_way ∧
    2 ^ c.bitwidth_num_lines = c.nblocks_per_way * c.associativity ∧
    c.nblocks_per_way * c.associativity * c.cacheline = 8 * c.numBytes ∧
    8 * 2 ^ c.bitwidth_offset = c.cacheline ∧ 32 * c.bitwidth_dirty = c.cacheline ∧
    c.bitwidth_data_wben = c.cacheline ∧ 8 * 2 ^ c.bitwidth_len = c.data ∧
    8 * 2 ^ c.bitwidth_mem_len = c.cacheline ∧ c.bitwidth_clog_asso = 1 := by
  obtain ⟨i, l, a, d, ha1, hl3, hd2, hd4, hdl, hi, ha, hl, hd, ht, hn, hnl, hidx, hoff, hlen⟩ := h.numbers
  obtain ⟨i', l', a', d', ha', _, hl', _, _, _, _, _, hb', _⟩ := h.exps
  have hw := h.addr_wide
  have hl5 : 2 ^ (l + 3) = 32 * 2 ^ (l - 2) := by
    rw [show l + 3 = 5 + (l - 2) by omega, Nat.pow_add]
  have e8 : 2 ^ (l + 3) = 8 * 2 ^ l := by rw [Nat.pow_add]; omega
  have ed : 2 ^ (d + 3) = 8 * 2 ^ d := by rw [Nat.pow_add]; omega
  refine ⟨?_, ?_, by rw [hidx, hn], ?_, ?_, ?_, ?_, ?_, ?_, ?_, ?_⟩
  · simp only [bitwidth_tag]; omega
  · simp only [bitwidth_tag]; omega
  · rw [hnl, hn, ha, Nat.pow_add]
  · have hll : l = l' := by
      have : 2 ^ (l + 3) = 2 ^ (l' + 3) := by rw [← hl, ← hl']
      have := (Nat.pow_right_inj (a := 2) (by decide)).1 this; omega
    have haa : a = a' := by
      have : 2 ^ a = 2 ^ a' := by rw [← ha, ← ha']
      exact (Nat.pow_right_inj (a := 2) (by decide)).1 this
    subst hll haa
    have htt := ht
    simp only [total_num_cachelines, hb', hl] at htt
    have e : 2 ^ (i' + a + l) * 8 = 2 ^ (i' + a) * 2 ^ (l + 3) := by
      rw [Nat.pow_add 2 (i' + a) l, Nat.pow_add 2 l 3, Nat.mul_assoc]
    rw [e, Nat.mul_div_cancel _ (Nat.two_pow_pos _)] at htt
    rw [hn, ha, hl, hb', ← Nat.pow_add, ← htt, ← e, Nat.mul_comm]
  · rw [hoff, hl, e8]
  · simp only [bitwidth_dirty, hl, hl5]; omega
  · simp only [bitwidth_data_wben, hl, e8]; omega
  · rw [hlen, hd, ed]
  · have : c.bitwidth_mem_len = c.bitwidth_offset := rfl
    rw [this, hoff, hl, e8]
  · simp only [bitwidth_clog_asso]
    rcases h.assoc with h | h <;> rw [h] <;> decide

/-- **C40.**  The record used by the cache model is well formed and has exactly the
widths the repository derives. -/
theorem C40_model_params (h : c.Supported) :
    c.params.WF ∧ c.params.idxBits = c.bitwidth_index ∧ (c.params.tagBits : Int) = c.bitwidth_tag ∧
    c.params.offBits = c.bitwidth_offset ∧ c.params.nWords = c.bitwidth_dirty ∧
    c.params.lineBits = c.cacheline ∧ c.params.dataBits = c.data ∧
    c.params.lenBits = c.bitwidth_len ∧ c.params.cntBits = c.bitwidth_num_lines ∧
    c.params.addrBits = c.addr ∧ c.params.ways.length = c.associativity := by
  obtain ⟨i, l, a, d, ha1, hl3, hd2, hd4, hdl, hi, ha, hl, hd, ht, hn, hnl, hidx, hoff, hlen⟩ := h.numbers
  have hw := h.addr_wide
  obtain ⟨h1, h2, -⟩ := C40_widths_consistent h
  have htag : (c.params.tagBits : Int) = c.bitwidth_tag := Int.toNat_of_nonneg h2
  have ho : c.params.offBits = c.bitwidth_offset := by
    simp only [Params.offBits, params]; omega
  have hl5 : 2 ^ (l + 3) = 32 * 2 ^ (l - 2) := by
    rw [show l + 3 = 5 + (l - 2) by omega, Nat.pow_add]
  have hnw : c.params.nWords = 2 ^ (l - 2) := by
    simp only [Params.nWords, params, hoff]
  refine ⟨⟨?_, ?_, ?_, ?_⟩, rfl, htag, ho, ?_, ?_, ?_, rfl, ?_, ?_, ?_⟩
  · simp only [params]; omega
  · simp only [params]; omega
  · simp only [params]; omega
  · rw [ho]; simp only [params]; omega
  · rw [hnw]; simp only [bitwidth_dirty, hl, hl5]; omega
  · rw [Params.lineBits, hnw, hl, hl5]
  · have ed : 2 ^ (d + 3) = 8 * 2 ^ d := by rw [Nat.pow_add]; omega
    simp only [Params.dataBits, params, hlen, hd, ed]
  · simp only [Params.cntBits, Params.wayBits, params, hnl, hidx]
    rcases h.assoc with h' | h'
    · have : a = 0 := by
        rw [h'] at ha; cases a with
        | zero => rfl
        | succ a => rw [Nat.pow_succ] at ha; omega
      simp [h', this]
    · have : a = 1 := by
        rw [h'] at ha; match a, ha1 with
        | 0, _ => simp at ha
        | 1, _ => rfl
      simp [h', this]
  · have e : c.params.idxBits = c.bitwidth_index := rfl
    simp only [Params.addrBits, ho, e]; omega
  · rcases h.assoc with h' | h' <;> simp [params, Params.ways, h']

/-- The default configuration of the repository: 4096 bytes, two ways, 128-bit lines,
32-bit addresses and data (BlockingCacheRTL.py:24). -/
def default2way : Config := ⟨4096, 2, 128, 32, 8, 32⟩

/-- It is supported, with 128 sets, 21 tag bits and 4 words per line. -/
example : default2way.Supported ∧ default2way.params = ⟨7, 21, 2, 2, 8, true⟩ :=
  ⟨⟨⟨12, rfl⟩, ⟨7, rfl⟩, .inl rfl, .inr rfl, by decide, by decide, by decide, by decide⟩, by decide⟩

end Config

/-! ## The line counter -/

/-- **C40.**  The line counter used by initialisation, invalidation and flush, sliced
into a way and an index, enumerates every (set, way) pair exactly once. -/
theorem C40_counter_bijective (p : Params) :
    (∀ c c' : BitVec p.cntBits, cntIdx p c = cntIdx p c' → cntWay p c = cntWay p c' → c = c') ∧
    (∀ c : BitVec p.cntBits, cntWay p c ∈ p.ways) ∧
    (∀ (i : Idx p) (w : Way), w ∈ p.ways → ∃ c : BitVec p.cntBits, cntIdx p c = i ∧ cntWay p c = w) :=
  ⟨fun _ _ h1 h2 => cnt_ext h2 h1, cntWay_mem,
    fun i w hw => ⟨numOf p w i, cntIdx_numOf w i hw, cntWay_numOf w i hw⟩⟩

/-- **C40.**  Every set count that is not a power of two leaves index values beyond the
last set (which is how the collision of C24 arises). -/
theorem C40_other_sizes (n : Nat) (h : ∀ k, n ≠ 2 ^ k) : n < 2 ^ clog2 n := by
  have := (clog2_spec n).1
  have := h (clog2 n)
  omega

/-- **C24** (negative part, with the derived widths).  For every number `n` of lines per
way that is not a power of two there is an index value `i` that an address can have
such that index `i` in way 0 and index 0 in way 1 use the same row. -/
theorem C24_not_pow2_collides (n : Nat) (h : ∀ k, n ≠ 2 ^ k) :
    ∃ i : BitVec (clog2 n), i.toNat = n ∧
      indexerGen (clog2 n) (clog2 (2 * n)) n i 0#1 =
        indexerGen (clog2 n) (clog2 (2 * n)) n 0 1#1 := by
  have hn := C40_other_sizes n h
  exact ⟨BitVec.ofNat _ n, by simp [Nat.mod_eq_of_lt hn], C24_other_sizes_collide _ _ n hn⟩

example : ∀ k, 3 ≠ 2 ^ k := by
  intro k h
  match k with
  | 0 => simp at h
  | 1 => simp at h
  | k + 2 =>
    have := Nat.two_pow_pos k
    rw [Nat.pow_add] at h; omega

end Verif
