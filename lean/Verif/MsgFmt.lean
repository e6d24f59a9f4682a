import Verif.Derived

/-!
# Message formats and their strings (model for C73)

mem_ifcs/MemMsg.py: the bitstructs made by `mk_mem_req_msg` and `mk_mem_resp_msg`, with and without a write mask,
their conversion to and from plain bits, their strings; and the helpers `req`, `resp`, `decode_type` that build
messages from a type string (blocking_cache/BlockingCacheFL.py, test/sim_utils.py).
-/

namespace Verif
namespace Fmt

/-- The arguments of `mk_mem_msg( opq, addr, data, has_wr_mask )`, MemMsg.py:205-206.  PyMTL3 refuses `Bits` of
width 0, so real formats have positive widths; nothing below depends on it. -/
structure Widths where
  opq : Nat
  addr : Nat
  data : Nat
  hasMask : Bool

/-- `LenType = mk_bits( clog2(data>>3) )`, MemMsg.py:81, 143. -/
abbrev Widths.len (w : Widths) : Nat := clog2 (w.data >>> 3)

/-- `WriteMaskType = mk_bits( data >> 5 )`, MemMsg.py:82, 144; a format without write mask (MemMsg.py:122-131,
182-191) has no such field, modelled as one of width 0. -/
abbrev Widths.wmask (w : Widths) : Nat := if w.hasMask then w.data >>> 5 else 0

/-- Request bitstruct, MemMsg.py:108-131. -/
@[ext] structure Req (w : Widths) where
  type_ : BitVec 4
  opq : BitVec w.opq
  addr : BitVec w.addr
  len : BitVec w.len
  wr_mask : BitVec w.wmask
  data : BitVec w.data

/-- Response bitstruct, MemMsg.py:168-191. -/
@[ext] structure Resp (w : Widths) where
  type_ : BitVec 4
  opq : BitVec w.opq
  test : BitVec 2
  len : BitVec w.len
  wr_mask : BitVec w.wmask
  data : BitVec w.data

/-- `to_bits` of a bitstruct (PyMTL3: the fields in the order of their declaration, the first one uppermost),
for the field list of MemMsg.py:108-131. -/
def Req.toBits {w : Widths} (m : Req w) : BitVec (4 + w.opq + w.addr + w.len + w.wmask + w.data) :=
  m.type_ ++ m.opq ++ m.addr ++ m.len ++ m.wr_mask ++ m.data

/-- `from_bits` of a bitstruct (PyMTL3), for the field list of MemMsg.py:108-131. -/
def Req.ofBits (w : Widths) (b : BitVec (4 + w.opq + w.addr + w.len + w.wmask + w.data)) : Req w where
  type_ := b.extractLsb' (w.opq + w.addr + w.len + w.wmask + w.data) 4
  opq := b.extractLsb' (w.addr + w.len + w.wmask + w.data) w.opq
  addr := b.extractLsb' (w.len + w.wmask + w.data) w.addr
  len := b.extractLsb' (w.wmask + w.data) w.len
  wr_mask := b.extractLsb' w.data w.wmask
  data := b.extractLsb' 0 w.data

/-- `to_bits` for the field list of MemMsg.py:168-191. -/
def Resp.toBits {w : Widths} (m : Resp w) : BitVec (4 + w.opq + 2 + w.len + w.wmask + w.data) :=
  m.type_ ++ m.opq ++ m.test ++ m.len ++ m.wr_mask ++ m.data

/-- `from_bits` for the field list of MemMsg.py:168-191. -/
def Resp.ofBits (w : Widths) (b : BitVec (4 + w.opq + 2 + w.len + w.wmask + w.data)) : Resp w where
  type_ := b.extractLsb' (w.opq + 2 + w.len + w.wmask + w.data) 4
  opq := b.extractLsb' (2 + w.len + w.wmask + w.data) w.opq
  test := b.extractLsb' (w.len + w.wmask + w.data) 2
  len := b.extractLsb' (w.wmask + w.data) w.len
  wr_mask := b.extractLsb' w.data w.wmask
  data := b.extractLsb' 0 w.data

/-- The table `MemMsgType.str`, MemMsg.py:38-55. -/
def typeStr (t : BitVec 4) : List Char :=
  match t.toNat with
  | 0 => ['r', 'd']
  | 1 => ['w', 'r']
  | 2 => ['i', 'n']
  | 3 => ['a', 'd']
  | 4 => ['a', 'n']
  | 5 => ['o', 'r']
  | 6 => ['s', 'w']
  | 7 => ['m', 'i']
  | 8 => ['m', 'u']
  | 9 => ['m', 'x']
  | 10 => ['x', 'u']
  | 11 => ['x', 'o']
  | 12 => ['l', 'r']
  | 13 => ['s', 'c']
  | 14 => ['i', 'v']
  | _ => ['f', 'l']

/-- Python's `str.zfill` (Python library). -/
def zfill (k : Nat) (s : List Char) : List Char := List.replicate (k - s.length) '0' ++ s

/-- The string of a `Bits` object (PyMTL3): `"{:x}".format(v).zfill(((nbits-1)>>2)+1)` (PyMTL3 library). -/
def bitsStr {n : Nat} (v : BitVec n) : List Char := zfill (((n - 1) >>> 2) + 1) (Nat.toDigits 16 v.toNat)

/-- `req_to_str`, MemMsg.py:86-106. -/
def Req.str {w : Widths} (m : Req w) : List Char :=
  typeStr m.type_ ++ ':' :: (bitsStr m.opq ++ ':' :: (bitsStr m.addr ++ ':' :: (bitsStr m.len ++ ':' ::
    ((if w.hasMask then bitsStr m.wr_mask ++ [':'] else []) ++
      (if m.type_ ≠ 0 then bitsStr m.data else List.replicate (w.data / 4) ' ')))))

/-- `resp_to_str`, MemMsg.py:149-169. -/
def Resp.str {w : Widths} (m : Resp w) : List Char :=
  typeStr m.type_ ++ ':' :: (bitsStr m.opq ++ ':' :: (bitsStr m.test ++ ':' :: (bitsStr m.len ++ ':' ::
    ((if w.hasMask then bitsStr m.wr_mask ++ [':'] else []) ++
      (if m.type_ ≠ 1 then bitsStr m.data else List.replicate (w.data / 4) ' ')))))

/-- `decode_type`, test/sim_utils.py:177-193, and the same chain in `req` and `resp`, BlockingCacheFL.py:24-58.
`none`: the string is passed on unchanged and the message constructor raises an exception. -/
def decodeType (s : List Char) : Option (BitVec 4) :=
  if s = ['r', 'd'] then some 0
  else if s = ['w', 'r'] then some 1
  else if s = ['i', 'n'] then some 2
  else if s = ['a', 'd'] then some 3
  else if s = ['a', 'n'] then some 4
  else if s = ['o', 'r'] then some 5
  else if s = ['s', 'w'] then some 6
  else if s = ['m', 'i'] then some 7
  else if s = ['m', 'u'] then some 8
  else if s = ['m', 'x'] then some 9
  else if s = ['x', 'u'] then some 10
  else if s = ['x', 'o'] then some 11
  else if s = ['i', 'n', 'v'] then some 14
  else if s = ['f', 'l'] then some 15
  else none

/-! ## Bits -/

theorem mid (a b : Nat) (x : BitVec a) (y : BitVec b) :
    (x ++ y).extractLsb' b a = x ∧ (x ++ y).extractLsb' 0 b = y := by
  constructor
  · exact BitVec.extractLsb'_append_eq_left
  · exact BitVec.extractLsb'_append_eq_right

theorem up {a b : Nat} (x : BitVec a) (y : BitVec b) (i n : Nat) :
    (x ++ y).extractLsb' (i + b) n = x.extractLsb' i n := by
  apply BitVec.eq_of_getLsbD_eq
  intro j hj
  have e1 : ¬ (i + b + j < b) := by omega
  have e2 : i + b + j - b = i + j := by omega
  simp [BitVec.getLsbD_append, hj, e1, e2]

theorem up0 {a b : Nat} (x : BitVec a) (y : BitVec b) (n : Nat) : (x ++ y).extractLsb' b n = x.extractLsb' 0 n := by
  have := up x y 0 n
  rwa [Nat.zero_add] at this

theorem get6 {a b c d e f : Nat} (x : BitVec a) (y : BitVec b) (z : BitVec c) (t : BitVec d) (u : BitVec e) (v : BitVec f) :
    let m := x ++ y ++ z ++ t ++ u ++ v
    m.extractLsb' (b + c + d + e + f) a = x ∧ m.extractLsb' (c + d + e + f) b = y ∧
    m.extractLsb' (d + e + f) c = z ∧ m.extractLsb' (e + f) d = t ∧ m.extractLsb' f e = u ∧ m.extractLsb' 0 f = v := by
  refine ⟨?_, ?_, ?_, ?_, (?_ : _ = u), (mid _ _ _ _).2⟩
  · rw [up, up, up, up]; exact (mid _ _ _ _).1
  · rw [up, up, up]
    rw [up0]; exact (mid _ _ _ _).2
  · rw [up, up, up0]; exact (mid _ _ _ _).2
  · rw [up, up0]; exact (mid _ _ _ _).2
  · rw [up0]; exact (mid _ _ _ _).2

theorem put6 {a b c d e f : Nat} (m : BitVec (a + b + c + d + e + f)) :
    m.extractLsb' (b + c + d + e + f) a ++ m.extractLsb' (c + d + e + f) b ++ m.extractLsb' (d + e + f) c ++
      m.extractLsb' (e + f) d ++ m.extractLsb' f e ++ m.extractLsb' 0 f = m := by
  rw [BitVec.extractLsb'_append_extractLsb'_eq_extractLsb' (by omega),
    BitVec.extractLsb'_append_extractLsb'_eq_extractLsb' (by omega),
    BitVec.extractLsb'_append_extractLsb'_eq_extractLsb' (by omega),
    BitVec.extractLsb'_append_extractLsb'_eq_extractLsb' (by omega),
    BitVec.extractLsb'_append_extractLsb'_eq_extractLsb' (by omega), BitVec.extractLsb'_eq_self]

theorem nat6 {a b c d e f : Nat} (x : BitVec a) (y : BitVec b) (z : BitVec c) (t : BitVec d) (u : BitVec e) (v : BitVec f) :
    (x ++ y ++ z ++ t ++ u ++ v).toNat =
      ((((x.toNat * 2 ^ b + y.toNat) * 2 ^ c + z.toNat) * 2 ^ d + t.toNat) * 2 ^ e + u.toNat) * 2 ^ f + v.toNat := by
  have h : ∀ {p q : Nat} (g : BitVec p) (k : BitVec q), (g ++ k).toNat = g.toNat * 2 ^ q + k.toNat := by
    intro p q g k
    rw [BitVec.toNat_append, ← Nat.shiftLeft_add_eq_or_of_lt k.isLt, Nat.shiftLeft_eq]
  simp only [h]

/-! ## Strings -/

/-- Value of a hexadecimal digit (not in the source: specification). -/
def digitVal (c : Char) : Nat := if c.isDigit then c.toNat - 48 else c.toNat - 87

/-- Value of a hexadecimal number (not in the source: specification). -/
def hexVal (s : List Char) : Nat := s.foldl (fun n c => 16 * n + digitVal c) 0

theorem digitVal_digitChar : ∀ d, d < 16 → digitVal (Nat.digitChar d) = d := by decide

theorem hexVal_toDigits (n : Nat) : hexVal (Nat.toDigits 16 n) = n := by
  induction n using Nat.strongRecOn with
  | _ n ih =>
    rw [Nat.toDigits_eq_if (by omega)]
    split
    · simp [hexVal, digitVal_digitChar _ ‹_›]
    · rw [hexVal, List.foldl_append]
      have := ih (n / 16) (by omega)
      rw [hexVal] at this
      rw [this]
      have hd := digitVal_digitChar (n % 16) (by omega)
      simp only [List.foldl_cons, List.foldl_nil, hd]
      omega

theorem hexVal_zfill (k : Nat) (s : List Char) : hexVal (zfill k s) = hexVal s := by
  rw [zfill, hexVal, List.foldl_append]
  have : ∀ j, (List.replicate j '0').foldl (fun n c => 16 * n + digitVal c) 0 = 0 := by
    intro j
    induction j with
    | zero => rfl
    | succ j ih => rw [List.replicate_succ, List.foldl_cons]; exact ih
  rw [this]; rfl

theorem bitsStr_length {n : Nat} (v : BitVec n) : (bitsStr v).length = (n - 1) / 4 + 1 := by
  have h1 : v.toNat < 16 ^ ((n - 1) / 4 + 1) := by
    refine Nat.lt_of_lt_of_le v.isLt ?_
    rw [show (16 : Nat) = 2 ^ 4 from rfl, ← Nat.pow_mul]
    exact Nat.pow_le_pow_right (by omega) (by omega)
  have h2 := (Nat.length_toDigits_le_iff (b := 16) (by omega) (Nat.succ_pos _)).2 h1
  simp only [bitsStr, zfill, Nat.shiftRight_eq_div_pow, List.length_append, List.length_replicate]
  have : 2 ^ 2 = 4 := rfl
  rw [this]
  omega

theorem bitsStr_inj {n : Nat} {u v : BitVec n} : bitsStr u = bitsStr v ↔ u = v := by
  constructor
  · intro h
    have := congrArg hexVal h
    simp only [bitsStr, hexVal_zfill, hexVal_toDigits] at this
    exact BitVec.eq_of_toNat_eq this
  · intro h; rw [h]

theorem typeStr_length (t : BitVec 4) : (typeStr t).length = 2 := by
  revert t; decide

theorem typeStr_inj {t u : BitVec 4} : typeStr t = typeStr u ↔ t = u := by
  revert t u; decide

theorem app_inj {α : Type} {a b c d : List α} (h : a.length = c.length) : a ++ b = c ++ d ↔ a = c ∧ b = d := by
  constructor
  · intro e; exact List.append_inj e h
  · rintro ⟨rfl, rfl⟩; rfl

/-! ## The theorems -/

/-- **C73, requests and plain bits.**  The fields lie side by side, type uppermost, data lowest; converting to bits
and back, in either order, changes nothing. -/
theorem C73_request_bits (w : Widths) :
    (∀ m : Req w, m.toBits.toNat =
      ((((m.type_.toNat * 2 ^ w.opq + m.opq.toNat) * 2 ^ w.addr + m.addr.toNat) * 2 ^ w.len + m.len.toNat) * 2 ^ w.wmask
        + m.wr_mask.toNat) * 2 ^ w.data + m.data.toNat) ∧
    (∀ m : Req w, Req.ofBits w m.toBits = m) ∧ (∀ b, (Req.ofBits w b).toBits = b) := by
  refine ⟨fun m => nat6 .., fun m => ?_, fun b => put6 b⟩
  obtain ⟨h1, h2, h3, h4, h5, h6⟩ := get6 m.type_ m.opq m.addr m.len m.wr_mask m.data
  exact Req.ext h1 h2 h3 h4 h5 h6

/-- **C73, responses and plain bits.** -/
theorem C73_response_bits (w : Widths) :
    (∀ m : Resp w, m.toBits.toNat =
      ((((m.type_.toNat * 2 ^ w.opq + m.opq.toNat) * 2 ^ 2 + m.test.toNat) * 2 ^ w.len + m.len.toNat) * 2 ^ w.wmask
        + m.wr_mask.toNat) * 2 ^ w.data + m.data.toNat) ∧
    (∀ m : Resp w, Resp.ofBits w m.toBits = m) ∧ (∀ b, (Resp.ofBits w b).toBits = b) := by
  refine ⟨fun m => nat6 .., fun m => ?_, fun b => put6 b⟩
  obtain ⟨h1, h2, h3, h4, h5, h6⟩ := get6 m.type_ m.opq m.test m.len m.wr_mask m.data
  exact Resp.ext h1 h2 h3 h4 h5 h6

/-- Equality of the printed fields. -/
theorem str_core {t t' x : BitVec 4} {b c d e f : Nat} {k : Bool} {o o' : BitVec b} {a a' : BitVec c} {l l' : BitVec d}
    {m m' : BitVec e} {v v' : BitVec f} (hk : k = false → m = m') :
    typeStr t ++ ':' :: (bitsStr o ++ ':' :: (bitsStr a ++ ':' :: (bitsStr l ++ ':' ::
      ((if k then bitsStr m ++ [':'] else []) ++ (if t ≠ x then bitsStr v else List.replicate (f / 4) ' '))))) =
    typeStr t' ++ ':' :: (bitsStr o' ++ ':' :: (bitsStr a' ++ ':' :: (bitsStr l' ++ ':' ::
      ((if k then bitsStr m' ++ [':'] else []) ++ (if t' ≠ x then bitsStr v' else List.replicate (f / 4) ' '))))) ↔
    t = t' ∧ o = o' ∧ a = a' ∧ l = l' ∧ m = m' ∧ (t ≠ x → v = v') := by
  rw [app_inj (by rw [typeStr_length, typeStr_length]), typeStr_inj, List.cons_inj_right,
    app_inj (by rw [bitsStr_length, bitsStr_length]), bitsStr_inj, List.cons_inj_right,
    app_inj (by rw [bitsStr_length, bitsStr_length]), bitsStr_inj, List.cons_inj_right,
    app_inj (by rw [bitsStr_length, bitsStr_length]), bitsStr_inj, List.cons_inj_right,
    app_inj (by cases k <;> simp [bitsStr_length])]
  have hm : (if k then bitsStr m ++ [':'] else []) = (if k then bitsStr m' ++ [':'] else []) ↔ m = m' := by
    cases k with
    | false => simp [hk rfl]
    | true => simp [bitsStr_inj]
  rw [hm]
  constructor
  · rintro ⟨rfl, rfl, rfl, rfl, rfl, h⟩
    refine ⟨rfl, rfl, rfl, rfl, rfl, fun hx => ?_⟩
    rw [if_pos hx, if_pos hx, bitsStr_inj] at h
    exact h
  · rintro ⟨rfl, rfl, rfl, rfl, rfl, h⟩
    refine ⟨rfl, rfl, rfl, rfl, rfl, ?_⟩
    split
    · rw [h ‹_›]
    · rfl

/-- Without write mask there is only one value of the absent field. -/
theorem wmask_none {w : Widths} (h : w.hasMask = false) (a b : BitVec w.wmask) : a = b := by
  apply BitVec.eq_of_toNat_eq
  have e : w.wmask = 0 := by simp [h]
  have h1 := a.isLt
  have h2 := b.isLt
  have e2 : 2 ^ w.wmask = 1 := by rw [e]
  omega

/-- **C73, the string of a request** shows everything but the data of a READ: two requests have the same string
exactly if they agree in all fields, the data aside if they are READs (type 0). -/
theorem C73_request_string {w : Widths} (m n : Req w) :
    m.str = n.str ↔ m.type_ = n.type_ ∧ m.opq = n.opq ∧ m.addr = n.addr ∧ m.len = n.len ∧ m.wr_mask = n.wr_mask ∧
      (m.type_ ≠ 0 → m.data = n.data) :=
  str_core (fun h => wmask_none h _ _)

/-- **C73, the string of a response** shows everything but the data of a WRITE (type 1). -/
theorem C73_response_string {w : Widths} (m n : Resp w) :
    m.str = n.str ↔ m.type_ = n.type_ ∧ m.opq = n.opq ∧ m.test = n.test ∧ m.len = n.len ∧ m.wr_mask = n.wr_mask ∧
      (m.type_ ≠ 1 → m.data = n.data) :=
  str_core (fun h => wmask_none h _ _)

/-- Length of the data column. -/
theorem data_length {f : Nat} (hf : 0 < f) (h4 : f % 4 = 0) (c : Prop) [Decidable c] (v : BitVec f) :
    (if c then bitsStr v else List.replicate (f / 4) ' ').length = f / 4 := by
  split
  · rw [bitsStr_length]; omega
  · rw [List.length_replicate]

/-- **C73, columns.**  If the data width is a positive multiple of 4, all requests of a format have strings of the
same length, and so have all responses: their columns line up in a trace. -/
theorem C73_string_length {w : Widths} (h0 : 0 < w.data) (h4 : w.data % 4 = 0) :
    (∀ m n : Req w, m.str.length = n.str.length) ∧ (∀ m n : Resp w, m.str.length = n.str.length) := by
  have hk : ∀ a b : BitVec w.wmask, (if w.hasMask then bitsStr a ++ [':'] else []).length =
      (if w.hasMask then bitsStr b ++ [':'] else []).length := by
    intro a b
    cases w.hasMask <;> simp [bitsStr_length]
  constructor <;> intro m n <;>
    simp only [Req.str, Resp.str, List.length_append, List.length_cons, typeStr_length, bitsStr_length, data_length h0 h4,
      hk m.wr_mask n.wr_mask]

/-- **C73, type strings.**  A string accepted by the message builders stands for the type whose table string it is,
with one exception, `inv`; so all types can be built from their table strings except LR, SC and INV (12, 13, 14),
and LR and SC cannot be built at all. -/
theorem C73_type_strings :
    (∀ s t, decodeType s = some t ↔ (s = typeStr t ∧ t ≠ 12 ∧ t ≠ 13 ∧ t ≠ 14) ∨ (s = ['i', 'n', 'v'] ∧ t = 14)) ∧
    (∀ t u, typeStr t = typeStr u → t = u) := by
  refine ⟨fun s t => ?_, fun t u => typeStr_inj.1⟩
  constructor
  · intro h
    unfold decodeType at h
    by_cases h_rd : s = ['r', 'd']
    · rw [h_rd] at h ⊢; revert t; decide
    rw [if_neg h_rd] at h
    by_cases h_wr : s = ['w', 'r']
    · rw [h_wr] at h ⊢; revert t; decide
    rw [if_neg h_wr] at h
    by_cases h_in : s = ['i', 'n']
    · rw [h_in] at h ⊢; revert t; decide
    rw [if_neg h_in] at h
    by_cases h_ad : s = ['a', 'd']
    · rw [h_ad] at h ⊢; revert t; decide
    rw [if_neg h_ad] at h
    by_cases h_an : s = ['a', 'n']
    · rw [h_an] at h ⊢; revert t; decide
    rw [if_neg h_an] at h
    by_cases h_or : s = ['o', 'r']
    · rw [h_or] at h ⊢; revert t; decide
    rw [if_neg h_or] at h
    by_cases h_sw : s = ['s', 'w']
    · rw [h_sw] at h ⊢; revert t; decide
    rw [if_neg h_sw] at h
    by_cases h_mi : s = ['m', 'i']
    · rw [h_mi] at h ⊢; revert t; decide
    rw [if_neg h_mi] at h
    by_cases h_mu : s = ['m', 'u']
    · rw [h_mu] at h ⊢; revert t; decide
    rw [if_neg h_mu] at h
    by_cases h_mx : s = ['m', 'x']
    · rw [h_mx] at h ⊢; revert t; decide
    rw [if_neg h_mx] at h
    by_cases h_xu : s = ['x', 'u']
    · rw [h_xu] at h ⊢; revert t; decide
    rw [if_neg h_xu] at h
    by_cases h_xo : s = ['x', 'o']
    · rw [h_xo] at h ⊢; revert t; decide
    rw [if_neg h_xo] at h
    by_cases h_inv : s = ['i', 'n', 'v']
    · rw [h_inv] at h ⊢; revert t; decide
    rw [if_neg h_inv] at h
    by_cases h_fl : s = ['f', 'l']
    · rw [h_fl] at h ⊢; revert t; decide
    rw [if_neg h_fl] at h
    cases h
  · rintro (⟨rfl, h⟩ | ⟨rfl, rfl⟩)
    · revert t; decide
    · rfl

/-! ## Examples: the strings that MemMsg_test.py expects -/

example : Req.str (w := ⟨8, 16, 40, true⟩) ⟨0, 7, 0x1000, 3, 0, 0⟩ = "rd:07:1000:3:0:          ".toList := by decide +kernel
example : Req.str (w := ⟨4, 16, 40, true⟩) ⟨1, 9, 0x2000, 4, 0, 0xdeadbeef⟩ = "wr:9:2000:4:0:00deadbeef".toList := by
  decide +kernel
example : Resp.str (w := ⟨8, 0, 40, true⟩) ⟨0, 7, 2, 3, 1, 0x0000adbeef⟩ = "rd:07:2:3:1:0000adbeef".toList := by
  decide +kernel
example : Resp.str (w := ⟨4, 0, 40, true⟩) ⟨1, 9, 1, 0, 0, 0⟩ = "wr:9:1:0:0:          ".toList := by decide +kernel

/-- The default formats of the cache: 32-bit data has 2 length bits and 1 mask bit. -/
example : (⟨8, 32, 32, true⟩ : Widths).len = 2 ∧ (⟨8, 32, 32, true⟩ : Widths).wmask = 1 ∧
    (⟨8, 32, 32, false⟩ : Widths).wmask = 0 ∧ (⟨8, 32, 128, false⟩ : Widths).len = 4 := by decide +kernel

/-- With a data width that is no multiple of 4 the columns do not line up. -/
example : (Req.str (w := ⟨4, 4, 33, true⟩) ⟨0, 0, 0, 0, 0, 0⟩).length ≠
    (Req.str (w := ⟨4, 4, 33, true⟩) ⟨1, 0, 0, 0, 0, 0⟩).length := by decide +kernel

end Fmt
end Verif
