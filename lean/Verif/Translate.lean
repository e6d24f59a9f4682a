import Verif.Derived
import Verif.SramAny

/-!
# C77: replacing the SRAMs in the translated Verilog

`translate.py --replace-sram` (blocking_cache/translate.py:54-82) edits the Verilog file that PyMTL3 wrote, line by line:
instances of the generic SRAM of certain sizes become instances of the wrapper in
sram/brg_gf14_sram_generic_synopsys.v, which is appended to the file and selects a hard macro by its parameters.
PyMTL3 itself is not modelled; of its output only the name of the instances matters
(`SramGenericPRTL__num_bits_<bits>__num_words_<words> sram`, the name that `replace_sram` looks for).
-/

namespace Verif.Tr

/-! ## The model -/

/-- `pat in s` of Python (Python library). -/
def contains (pat : List Char) : List Char → Bool
  | [] => pat.isEmpty
  | c :: s => pat.isPrefixOf (c :: s) || contains pat s

/-- `s.replace( pat, new )` of Python: from left to right, all occurrences (`skip`: characters of an
occurrence still to be dropped) (Python library). -/
def replaceFrom (pat new : List Char) : Nat → List Char → List Char
  | _, [] => []
  | skip + 1, _ :: s => replaceFrom pat new skip s
  | 0, c :: s =>
    if pat.isPrefixOf (c :: s) then new ++ replaceFrom pat new (pat.length - 1) s
    else c :: replaceFrom pat new 0 s

/-- The text of `replace_sram`, blocking_cache/translate.py:58-79, for one size: what is looked for. -/
def oldText : Nat × Nat → List Char
  | (128, 256) => "SramGenericPRTL__num_bits_128__num_words_256 sram".toList
  | (26, 128) => "SramGenericPRTL__num_bits_26__num_words_128 sram".toList
  | (25, 256) => "SramGenericPRTL__num_bits_25__num_words_256 sram".toList
  | (128, 512) => "SramGenericPRTL__num_bits_128__num_words_512 sram".toList
  | _ => []

/-- What replaces it, blocking_cache/translate.py:58-79. -/
def newText : Nat × Nat → List Char
  | (128, 256) => "SramGenericPRTL #(.num_bits(128) , .num_words(256)) sram".toList
  | (26, 128) => "SramGenericPRTL #(.num_bits(26) , .num_words(128)) sram".toList
  | (25, 256) => "SramGenericPRTL #(.num_bits(25) , .num_words(256)) sram".toList
  | (128, 512) => "SramGenericPRTL #(.num_bits(128) , .num_words(512)) sram".toList
  | _ => []

/-- The branches of `replace_sram` in source order, blocking_cache/translate.py:60, 64, 68, 72. -/
def branches : List (Nat × Nat) := [(128, 256), (26, 128), (25, 256), (128, 512)]

/-- One line, with the remaining branches, blocking_cache/translate.py:60-79.  The line break at the end of the line,
which `rstrip` removes for the test, is not part of the line here: no text that is looked for contains one. -/
def replaceWith : List (Nat × Nat) → List Char → List Char
  | [], line => line
  | z :: zs, line => if contains (oldText z) line then replaceFrom (oldText z) (newText z) 0 line else replaceWith zs line

/-- `replace_sram` on the lines of a file, blocking_cache/translate.py:54-79. -/
def replaceSram (file : List (List Char)) : List (List Char) := file.map (replaceWith branches)

/-- A hard macro: the name of the wrapper around it and the widths of its ports `a` and `d` (translate.py:55-80). -/
structure Macro where
  name : String
  addrBits : Nat
  dataBits : Nat
deriving DecidableEq, Repr

/-- The macro that the module `SramGenericPRTL` instantiates for its parameters, if any,
sram/brg_gf14_sram_generic_synopsys.v:40-54; port widths from lines 93-220. -/
def macroFor (num_bits num_words : Nat) : Option Macro :=
  if num_bits = 128 ∧ num_words = 256 then some ⟨"gf14_sram_256x128", 8, 128⟩
  else if num_bits = 26 ∧ num_words = 128 then some ⟨"gf14_sram_128x26", 7, 26⟩
  else if num_bits = 128 ∧ num_words = 512 then some ⟨"gf14_sram_512x128", 9, 128⟩
  else if num_bits = 25 ∧ num_words = 256 then some ⟨"gf14_sram_256x25", 8, 25⟩
  else none

/-- The macros whose cell has a behavioural model in the file, sram/brg_gf14_sram_generic_synopsys.v:231-330. -/
def modelled : List String := ["gf14_sram_128x26", "gf14_sram_256x128"]

/-- Clock edge of the behavioural models of the cells `sram_128x26` and `sram_256x128`,
sram/brg_gf14_sram_generic_synopsys.v:253-279, 303-328; they differ in their sizes only.  The contents are
indexed by the address; the test and margin pins are tied to 0 and not used. -/
def cellTick {ι : Type} [DecidableEq ι] {n : Nat} (ram : ι → BitVec n) (CEN RDWEN : Bool) (A : ι) (D BW : BitVec n) :
    (ι → BitVec n) × BitVec n :=
  let dout_next := if !CEN && RDWEN then ram A else 0
  let ram_next := fun j => if j = A then mkBits n fun i =>
      if !CEN && !RDWEN && BW.getLsbD i then D.getLsbD i else (ram j).getLsbD i
    else ram j
  (if !CEN && !RDWEN then ram_next else ram, dout_next)

/-- The SRAMs of a cache (bits, words): one tag array per way, BlockingCacheDpathRTL.py:182-183, and the
data array, BlockingCacheDpathRTL.py:317.  The width of a tag array is an integer, CacheDerivedParams.py:70. -/
def srams (c : Config) : List (Int × Nat) :=
  List.replicate c.associativity (c.bitwidth_tag_array, c.nblocks_per_way) ++ [((c.cacheline : Int), c.total_num_cachelines)]

/-! ## Specification -/

/-- The letters of the text of an instance, see the example below (not in the source: text generated by PyMTL3). -/
def nameText : List Char :=
  ['S', 'r', 'a', 'm', 'G', 'e', 'n', 'e', 'r', 'i', 'c', 'P', 'R', 'T', 'L', '_', '_', 'n', 'u', 'm', '_', 'b', 'i', 't', 's', '_']
/-- Not in the source: text generated by PyMTL3. -/
def wordsText : List Char := ['_', '_', 'n', 'u', 'm', '_', 'w', 'o', 'r', 'd', 's', '_']
/-- Not in the source: text generated by PyMTL3. -/
def sramText : List Char := [' ', 's', 'r', 'a', 'm']

/-- The text of an instance of the generic SRAM in the translated file
(not in the source: text generated by PyMTL3). -/
def inst (bits words : Nat) : List Char :=
  nameText ++ Nat.toDigits 10 bits ++ wordsText ++ Nat.toDigits 10 words ++ sramText

/-- The text of an instance of the wrapper with these parameters (translate.py:55-80). -/
def wrapped (bits words : Nat) : List Char :=
  "SramGenericPRTL #(.num_bits(".toList ++ Nat.toDigits 10 bits ++ ") , .num_words(".toList ++ Nat.toDigits 10 words ++
    ")) sram".toList

example : String.ofList (inst 26 128) = "SramGenericPRTL__num_bits_26__num_words_128 sram" ∧
    String.ofList (wrapped 26 128) = "SramGenericPRTL #(.num_bits(26) , .num_words(128)) sram" := by decide +kernel

/-- All SRAMs of the cache become hard macros (not in the source: condition). -/
def AllHard (c : Config) : Prop := ∀ z ∈ srams c, ∃ b : Nat, z.1 = b ∧ (macroFor b z.2).isSome = true

/-- The file can be simulated as it is: the hard macros among the SRAMs have a behavioural model in it
(not in the source: condition). -/
def Closed (c : Config) : Prop := ∀ z ∈ srams c, ∀ b : Nat, z.1 = b → ∀ m, macroFor b z.2 = some m → m.name ∈ modelled

/-! ## Lemmas -/

theorem oldText_eq : ∀ z ∈ branches, oldText z = inst z.1 z.2 := by decide +kernel

theorem newText_eq : ∀ z ∈ branches, newText z = wrapped z.1 z.2 := by decide +kernel

theorem mem_branches (b w : Nat) : (b, w) ∈ branches ↔ (macroFor b w).isSome = true := by
  simp only [branches, macroFor, List.mem_cons, Prod.mk.injEq, List.not_mem_nil, or_false]
  constructor
  · rintro (h | h | h | h) <;> rw [h.1, h.2] <;> rfl
  · intro h
    split at h
    · rename_i h'; exact .inl h'
    split at h
    · rename_i h'; exact .inr (.inl h')
    split at h
    · rename_i h'; exact .inr (.inr (.inr h'))
    split at h
    · rename_i h'; exact .inr (.inr (.inl h'))
    · exact nomatch h

theorem isPrefixOf_iff (a b : List Char) : a.isPrefixOf b = true ↔ ∃ t, b = a ++ t := by
  rw [List.isPrefixOf_iff_prefix]
  exact ⟨fun ⟨t, h⟩ => ⟨t, h.symm⟩, fun ⟨t, h⟩ => ⟨t, h.symm⟩⟩

theorem not_prefix {x : Char} {t l : List Char} (h : x ∉ l) : (x :: t).isPrefixOf l = false := by
  cases hp : (x :: t).isPrefixOf l
  · rfl
  · obtain ⟨u, rfl⟩ := (isPrefixOf_iff _ _).1 hp
    exact absurd (by simp) h

theorem contains_none {x : Char} {t : List Char} : ∀ {l : List Char}, x ∉ l → contains (x :: t) l = false
  | [], _ => rfl
  | c :: s, h => by
    rw [contains, not_prefix h, contains_none (fun hh => h (List.mem_cons_of_mem _ hh))]; rfl

theorem replace_none {x : Char} {t new : List Char} : ∀ {l : List Char}, x ∉ l → replaceFrom (x :: t) new 0 l = l
  | [], _ => rfl
  | c :: s, h => by
    rw [replaceFrom, not_prefix h, replace_none (fun hh => h (List.mem_cons_of_mem _ hh))]; rfl

theorem replace_skip (pat new : List Char) : ∀ (u v : List Char),
    replaceFrom pat new u.length (u ++ v) = replaceFrom pat new 0 v
  | [], v => rfl
  | c :: u, v => by
    show replaceFrom pat new (u.length + 1) (c :: (u ++ v)) = _
    rw [replaceFrom]
    exact replace_skip pat new u v

/-- A text that starts with a letter that occurs nowhere else in the line. -/
theorem contains_at {x : Char} {t a u : List Char} (ha : x ∉ a) (hu : x ∉ u) :
    contains (x :: t) (a ++ x :: u) = true ↔ ∃ v, u = t ++ v := by
  induction a with
  | nil =>
    rw [List.nil_append, contains, contains_none hu, Bool.or_false, isPrefixOf_iff]
    exact ⟨fun ⟨v, h⟩ => ⟨v, by injection h⟩, fun ⟨v, h⟩ => ⟨v, by rw [h]; rfl⟩⟩
  | cons c a ih =>
    have hc : x ≠ c := fun h => ha (h ▸ List.mem_cons_self)
    rw [List.cons_append, contains, ← ih fun h => ha (List.mem_cons_of_mem _ h)]
    have : (x :: t).isPrefixOf (c :: (a ++ x :: u)) = false := by
      rw [List.isPrefixOf]
      simp [hc]
    rw [this, Bool.false_or]

theorem replace_at {x : Char} {t a v new : List Char} (ha : x ∉ a) (hv : x ∉ v) :
    replaceFrom (x :: t) new 0 (a ++ x :: (t ++ v)) = a ++ new ++ v := by
  induction a with
  | nil =>
    rw [List.nil_append, replaceFrom]
    rw [if_pos ((isPrefixOf_iff (x :: t) (x :: (t ++ v))).2 ⟨v, rfl⟩)]
    have : (x :: t).length - 1 = t.length := rfl
    rw [this, replace_skip, replace_none hv]; rfl
  | cons c a ih =>
    have hc : x ≠ c := fun h => ha (h ▸ List.mem_cons_self)
    rw [List.cons_append, replaceFrom]
    have : (x :: t).isPrefixOf (c :: (a ++ x :: (t ++ v))) = false := by
      rw [List.isPrefixOf]
      simp [hc]
    rw [this, if_neg (by decide), ih fun h => ha (List.mem_cons_of_mem _ h)]; rfl

/-- Two numbers followed by a character that is no digit. -/
theorem digits_split : ∀ {u u' : List Char} {c c' : Char} {v v' : List Char}, (∀ x ∈ u, x.isDigit = true) →
    (∀ x ∈ u', x.isDigit = true) → c.isDigit = false → c'.isDigit = false → u ++ c :: v = u' ++ c' :: v' →
    u = u' ∧ v = v'
  | [], [], c, c', v, v', _, _, _, _, h => by injection h with _ h; exact ⟨rfl, h⟩
  | [], x :: u', c, c', v, v', _, h2, h3, _, h => by
    injection h with h _
    rw [h, h2 x List.mem_cons_self] at h3
    exact nomatch h3
  | x :: u, [], c, c', v, v', h1, _, _, h4, h => by
    injection h with h _
    rw [← h, h1 x List.mem_cons_self] at h4
    exact nomatch h4
  | x :: u, x' :: u', c, c', v, v', h1, h2, h3, h4, h => by
    injection h with hx h
    have := digits_split (fun y hy => h1 y (List.mem_cons_of_mem _ hy)) (fun y hy => h2 y (List.mem_cons_of_mem _ hy)) h3 h4 h
    exact ⟨by rw [hx, this.1], this.2⟩

theorem dec_digit (n : Nat) : ∀ x ∈ Nat.toDigits 10 n, x.isDigit = true :=
  fun _ h => Nat.isDigit_of_mem_toDigits (by decide) (by decide) h

theorem dec_inj {m n : Nat} (h : Nat.toDigits 10 m = Nat.toDigits 10 n) : m = n := by
  have h1 := Nat.ofDigitChars_toDigits (b := 10) (n := m) (by decide) (by decide)
  have h2 := Nat.ofDigitChars_toDigits (b := 10) (n := n) (by decide) (by decide)
  rw [← h1, h, h2]

theorem dec_noS (n : Nat) : 'S' ∉ Nat.toDigits 10 n := fun h => by
  have := dec_digit n _ h
  revert this; decide

/-- The text of an instance after its first letter (proof device). -/
def instTail (b w : Nat) : List Char :=
  nameText.tail ++ Nat.toDigits 10 b ++ wordsText ++ Nat.toDigits 10 w ++ sramText

theorem inst_eq (b w : Nat) : inst b w = 'S' :: instTail b w := by
  have : nameText = 'S' :: nameText.tail := by decide
  simp only [inst, instTail]
  rw [this]
  simp

theorem instTail_noS (b w : Nat) : 'S' ∉ instTail b w := by
  simp only [instTail, List.mem_append, not_or]
  exact ⟨⟨⟨⟨by decide, dec_noS b⟩, by decide⟩, dec_noS w⟩, by decide⟩

theorem instTail_prefix {b w b' w' : Nat} {u v : List Char} (h : instTail b w ++ u = instTail b' w' ++ v) :
    b = b' ∧ w = w' ∧ u = v := by
  have e1 : wordsText = '_' :: wordsText.tail := by decide
  have e2 : sramText = ' ' :: sramText.tail := by decide
  simp only [instTail, List.append_assoc] at h
  have h1 := List.append_cancel_left h
  rw [e1, List.cons_append, List.cons_append] at h1
  have h2 := digits_split (dec_digit b) (dec_digit b') (by decide) (by decide) h1
  have h3 := List.append_cancel_left h2.2
  rw [e2, List.cons_append, List.cons_append] at h3
  have h4 := digits_split (dec_digit w) (dec_digit w') (by decide) (by decide) h3
  have h5 := List.append_cancel_left h4.2
  exact ⟨dec_inj h2.1, dec_inj h4.1, h5⟩

theorem contains_inst {b w b' w' : Nat} {a v : List Char} (ha : 'S' ∉ a) (hv : 'S' ∉ v) :
    contains (inst b w) (a ++ inst b' w' ++ v) = true ↔ (b, w) = (b', w') := by
  have e : a ++ inst b' w' ++ v = a ++ 'S' :: (instTail b' w' ++ v) := by rw [inst_eq]; simp
  have hn : 'S' ∉ instTail b' w' ++ v := by
    rw [List.mem_append, not_or]; exact ⟨instTail_noS _ _, hv⟩
  rw [e, inst_eq, contains_at ha hn]
  constructor
  · rintro ⟨u, h⟩
    obtain ⟨h1, h2, _⟩ := instTail_prefix h
    rw [h1, h2]
  · intro h
    injection h with h1 h2
    exact ⟨v, by rw [h1, h2]⟩

theorem replaceWith_inst {b w : Nat} {a v : List Char} (ha : 'S' ∉ a) (hv : 'S' ∉ v) :
    ∀ zs : List (Nat × Nat), (∀ z ∈ zs, z ∈ branches) →
    replaceWith zs (a ++ inst b w ++ v) = a ++ (if (b, w) ∈ zs then wrapped b w else inst b w) ++ v
  | [], _ => by simp [replaceWith]
  | z :: zs, h => by
    have hz := h z List.mem_cons_self
    rw [replaceWith, oldText_eq z hz, newText_eq z hz]
    by_cases he : z = (b, w)
    · subst he
      rw [if_pos ((contains_inst ha hv).2 rfl), if_pos List.mem_cons_self]
      have e : a ++ inst b w ++ v = a ++ 'S' :: (instTail b w ++ v) := by rw [inst_eq]; simp
      show replaceFrom (inst b w) (wrapped b w) 0 _ = _
      rw [e, inst_eq, replace_at ha hv]
    · rw [if_neg (fun hh => he ((contains_inst ha hv).1 hh)), replaceWith_inst ha hv zs fun y hy => h y (List.mem_cons_of_mem _ hy)]
      have : ((b, w) ∈ z :: zs) ↔ (b, w) ∈ zs := by
        rw [List.mem_cons]
        exact ⟨fun hh => hh.resolve_left fun x => he x.symm, .inr⟩
      by_cases hm : (b, w) ∈ zs
      · rw [if_pos hm, if_pos (this.2 hm)]
      · rw [if_neg hm, if_neg (fun x => hm (this.1 x))]

/-! ## Theorems -/

/-- **C77, instances.**  In a line with an instance of the generic SRAM (the rest of the line contains no
capital S), the instance becomes one of the wrapper with the same parameters if and only if the wrapper has a hard macro
for these parameters; otherwise the line stays as it is.  For all numbers of bits and words. -/
theorem C77_instance (b w : Nat) {a v : List Char} (ha : 'S' ∉ a) (hv : 'S' ∉ v) :
    replaceSram [a ++ inst b w ++ v] = [a ++ (if (macroFor b w).isSome then wrapped b w else inst b w) ++ v] := by
  rw [replaceSram, List.map_cons, List.map_nil, replaceWith_inst ha hv branches fun _ h => h]
  by_cases h : (b, w) ∈ branches
  · rw [if_pos h, if_pos ((mem_branches b w).1 h)]
  · rw [if_neg h, if_neg (fun x => h ((mem_branches b w).2 x))]

theorem replaceWith_other {line : List Char} : ∀ zs : List (Nat × Nat), (∀ z ∈ zs, z ∈ branches) →
    (∀ b w, contains (inst b w) line = false) → replaceWith zs line = line
  | [], _, _ => rfl
  | z :: zs, h, hn => by
    rw [replaceWith, oldText_eq z (h z List.mem_cons_self), if_neg (by rw [hn]; decide)]
    exact replaceWith_other zs (fun y hy => h y (List.mem_cons_of_mem _ hy)) hn

/-- **C77, all other lines** stay as they are, and no line is added, removed or moved. -/
theorem C77_other_lines (file : List (List Char)) :
    (replaceSram file).length = file.length ∧
    ∀ (k : Nat) (line : List Char), file[k]? = some line → (∀ b w, contains (inst b w) line = false) → (replaceSram file)[k]? = some line := by
  refine ⟨List.length_map _, fun k line h hn => ?_⟩
  rw [replaceSram, List.getElem?_map, h, Option.map_some, replaceWith_other branches (fun _ h => h) hn]

/-- **C77, ports.**  The ports of each macro have the widths of the SRAM it is used for: one address per
word, all bits. -/
theorem C77_macro_ports {b w : Nat} {m : Macro} (h : macroFor b w = some m) : w = 2 ^ m.addrBits ∧ m.dataBits = b := by
  simp only [macroFor] at h
  split at h
  · rename_i e; injection h with h; subst h; exact ⟨e.2, e.1.symm⟩
  split at h
  · rename_i e; injection h with h; subst h; exact ⟨e.2, e.1.symm⟩
  split at h
  · rename_i e; injection h with h; subst h; exact ⟨e.2, e.1.symm⟩
  split at h
  · rename_i e; injection h with h; subst h; exact ⟨e.2, e.1.symm⟩
  · exact nomatch h

/-- **C77, the cells.**  The behavioural models of the cells do what the wrapper does without a macro, so that C68
covers them too. -/
theorem C77_cells {ι : Type} [DecidableEq ι] {n : Nat} (s : SramV ι n) (CSB1 WEB1 : Bool) (A1 : ι) (I1 WBM1 : BitVec n) :
    s.tick CSB1 WEB1 A1 I1 WBM1 =
      ⟨(cellTick s.ram CSB1 WEB1 A1 I1 WBM1).1, (cellTick s.ram CSB1 WEB1 A1 I1 WBM1).2⟩ := by
  simp only [SramV.tick, cellTick]
  congr 1
  split
  · funext j
    by_cases hj : j = A1
    · simp only [hj, decide_true, Bool.true_and, if_true]
    · simp only [hj, decide_false, Bool.false_and, Bool.false_eq_true, if_false]
      apply BitVec.eq_of_getLsbD_eq
      intro i hi
      rw [getLsbD_mkBits]
      simp [hi]
  · rfl

theorem pow_case {n k lo : Nat} (h : n = 2 ^ k) (h1 : 2 ^ lo ≤ n) (h2 : n < 2 ^ (lo + 1)) : n = 2 ^ lo := by
  subst h
  have a : lo ≤ k := (Nat.pow_le_pow_iff_right (by omega)).1 h1
  have b : k < lo + 1 := (Nat.pow_lt_pow_iff_right (by omega)).1 h2
  have : k = lo := by omega
  rw [this]

theorem not_pow {n : Nat} (k : Nat) (lo : Nat) (h1 : 2 ^ lo < n) (h2 : n < 2 ^ (lo + 1)) : n ≠ 2 ^ k := fun h => by
  have := pow_case h (Nat.le_of_lt h1) h2
  omega

theorem clog2_128 : clog2 128 = 7 := by decide
theorem clog2_256 : clog2 256 = 8 := by decide
theorem clog2_512 : clog2 512 = 9 := by decide
theorem clog2_16 : clog2 16 = 4 := by decide

theorem macro_cases {b w : Nat} (h : (macroFor b w).isSome = true) :
    (b = 128 ∧ w = 256) ∨ (b = 26 ∧ w = 128) ∨ (b = 25 ∧ w = 256) ∨ (b = 128 ∧ w = 512) := by
  have := (mem_branches b w).2 h
  simpa [branches] using this

/-- The data array is a macro for these sizes only. -/
theorem data_hard {c : Config} (hs : c.Supported) (h : (macroFor c.cacheline c.total_num_cachelines).isSome = true) :
    c.cacheline = 128 ∧ (c.numBytes = 4096 ∨ c.numBytes = 8192) := by
  obtain ⟨k, hk⟩ := hs.line
  obtain ⟨j, hj⟩ := hs.bytes
  have key : c.cacheline = 128 ∧ (c.total_num_cachelines = 256 ∨ c.total_num_cachelines = 512) := by
    rcases macro_cases h with h | h | h | h
    · exact ⟨h.1, .inl h.2⟩
    · exact absurd (h.1.symm.trans hk) (not_pow k 4 (by decide) (by decide))
    · exact absurd (h.1.symm.trans hk) (not_pow k 4 (by decide) (by decide))
    · exact ⟨h.1, .inr h.2⟩
  refine ⟨key.1, ?_⟩
  have e := key.2
  simp only [Config.total_num_cachelines, key.1] at e
  rcases e with e | e
  · exact .inl (pow_case (lo := 12) hj (by omega) (by omega))
  · exact .inr (pow_case (lo := 13) hj (by omega) (by omega))

theorem tag_shape {c : Config} (hl : c.cacheline = 128) (n k : Nat) (hn : c.numBytes = 16 * (n * c.associativity))
    (ha : 0 < c.associativity) (hk : clog2 n = k) : c.nblocks_per_way = n ∧ c.bitwidth_tag_array = (c.addr : Int) + 1 - k := by
  have h1 : c.nblocks_per_way = n := by
    simp only [Config.nblocks_per_way, Config.total_num_cachelines, hl, hn]
    have : 16 * (n * c.associativity) * 8 / 128 = n * c.associativity := by omega
    rw [this, Nat.mul_div_cancel _ ha]
  refine ⟨h1, ?_⟩
  simp only [Config.bitwidth_tag_array, Config.bitwidth_tag, Config.bitwidth_offset, Config.bitwidth_index, h1,
    Config.bitwidth_dirty, hl, hk]
  have : clog2 (128 / 8) = 4 := by decide
  rw [this]
  omega

/-- **C77, the caches with hard macros only.**  With addresses of at most 128 bits, all SRAMs of a supported cache are
replaced by hard macros exactly for 128-bit lines, 32-bit addresses and 4 KiB with one or two ways or 8 KiB with two
ways. -/
theorem C77_hard_caches {c : Config} (hs : c.Supported) (h128 : c.addr ≤ 128) :
    AllHard c ↔ c.cacheline = 128 ∧ c.addr = 32 ∧ (c.numBytes = 4096 ∨ (c.numBytes = 8192 ∧ c.associativity = 2)) := by
  have hpos : 0 < c.associativity := by rcases hs.assoc with h | h <;> omega
  have tagMem : (c.bitwidth_tag_array, c.nblocks_per_way) ∈ srams c := by
    simp only [srams, List.mem_append, List.mem_replicate]
    exact .inl ⟨by omega, trivial⟩
  constructor
  · intro h
    obtain ⟨b, hb, hm⟩ := h ((c.cacheline : Int), c.total_num_cachelines) (by simp [srams])
    have hb' : c.cacheline = b := by exact Int.ofNat.inj hb
    subst hb'
    obtain ⟨h1, h2⟩ := data_hard hs hm
    obtain ⟨t, ht, htm⟩ := h _ tagMem
    simp only at ht htm
    refine ⟨h1, ?_⟩
    have tc := macro_cases htm
    rcases hs.assoc with ha | ha <;> rcases h2 with h2 | h2
    · have := tag_shape h1 256 8 (by rw [h2, ha]) hpos (by decide)
      rw [this.1] at tc; rw [this.2] at ht
      exact ⟨by omega, .inl h2⟩
    · have := tag_shape h1 512 9 (by rw [h2, ha]) hpos (by decide)
      rw [this.1] at tc; rw [this.2] at ht
      omega
    · have := tag_shape h1 128 7 (by rw [h2, ha]) hpos (by decide)
      rw [this.1] at tc; rw [this.2] at ht
      exact ⟨by omega, .inl h2⟩
    · have := tag_shape h1 256 8 (by rw [h2, ha]) hpos (by decide)
      rw [this.1] at tc; rw [this.2] at ht
      exact ⟨by omega, .inr ⟨h2, ha⟩⟩
  · rintro ⟨h1, h2, h3⟩ z hz
    simp only [srams, List.mem_append, List.mem_replicate, List.mem_singleton] at hz
    rcases hz with ⟨_, rfl⟩ | rfl
    · rcases hs.assoc with ha | ha <;> rcases h3 with h3 | ⟨h3, h4⟩
      · have := tag_shape h1 256 8 (by rw [h3, ha]) hpos (by decide)
        exact ⟨25, by rw [this.2, h2]; rfl, by rw [this.1]; rfl⟩
      · omega
      · have := tag_shape h1 128 7 (by rw [h3, ha]) hpos (by decide)
        exact ⟨26, by rw [this.2, h2]; rfl, by rw [this.1]; rfl⟩
      · have := tag_shape h1 256 8 (by rw [h3, ha]) hpos (by decide)
        exact ⟨25, by rw [this.2, h2]; rfl, by rw [this.1]; rfl⟩
    · refine ⟨128, by rw [h1], ?_⟩
      simp only [Config.total_num_cachelines, h1]
      rcases h3 with h3 | h3
      · rw [h3]; rfl
      · rw [h3.1]; rfl

/-- **C77, the default options** (translate.py:41-46: 4096 bytes, lines of 128 bits, two ways, 32-bit addresses) give the
only cache all of whose SRAMs become macros with a behavioural model in the file. -/
theorem C77_default_options {c : Config} (hs : c.Supported) (h128 : c.addr ≤ 128) :
    (AllHard c ∧ Closed c) ↔ c.cacheline = 128 ∧ c.addr = 32 ∧ c.numBytes = 4096 ∧ c.associativity = 2 := by
  have hpos : 0 < c.associativity := by rcases hs.assoc with h | h <;> omega
  have tagMem : (c.bitwidth_tag_array, c.nblocks_per_way) ∈ srams c := by
    simp only [srams, List.mem_append, List.mem_replicate]
    exact .inl ⟨by omega, trivial⟩
  rw [C77_hard_caches hs h128]
  constructor
  · rintro ⟨⟨h1, h2, h3⟩, hc⟩
    refine ⟨h1, h2, ?_⟩
    have bad : ¬ (c.bitwidth_tag_array = 25 ∧ c.nblocks_per_way = 256) := fun ⟨x, y⟩ => by
      have := hc _ tagMem 25 x ⟨"gf14_sram_256x25", 8, 25⟩ (by rw [y]; rfl)
      revert this; decide
    rcases hs.assoc with ha | ha <;> rcases h3 with h3 | ⟨h3, h4⟩
    · have := tag_shape h1 256 8 (by rw [h3, ha]) hpos (by decide)
      exact absurd ⟨by rw [this.2, h2]; rfl, this.1⟩ bad
    · omega
    · exact ⟨h3, ha⟩
    · have := tag_shape h1 256 8 (by rw [h3, ha]) hpos (by decide)
      exact absurd ⟨by rw [this.2, h2]; rfl, this.1⟩ bad
  · rintro ⟨h1, h2, h3, h4⟩
    refine ⟨⟨h1, h2, .inl h3⟩, ?_⟩
    intro z hz b hb m hm
    simp only [srams, List.mem_append, List.mem_replicate, List.mem_singleton] at hz
    rcases hz with ⟨_, rfl⟩ | rfl
    · have := tag_shape h1 128 7 (by rw [h3, h4]) hpos (by decide)
      simp only [this.1, this.2, h2] at hb hm
      have : b = 26 := by omega
      subst this
      injection hm with hm; subst hm; decide
    · simp only [h1] at hb
      have : b = 128 := by omega
      subst this
      simp only [Config.total_num_cachelines, h1, h3] at hm
      injection hm with hm; subst hm; decide

/-- The default options of `translate.py` are a supported cache. -/
example : (⟨4096, 2, 128, 32, 8, 32⟩ : Config).Supported ∧ AllHard ⟨4096, 2, 128, 32, 8, 32⟩ ∧ Closed ⟨4096, 2, 128, 32, 8, 32⟩ := by
  have hs : (⟨4096, 2, 128, 32, 8, 32⟩ : Config).Supported :=
    ⟨⟨12, rfl⟩, ⟨7, rfl⟩, .inl rfl, .inr rfl, by decide, by decide, by decide, by decide⟩
  exact ⟨hs, (C77_default_options hs (by decide)).2 ⟨rfl, rfl, rfl, rfl⟩⟩

/-- A line of the translated file, and one with an SRAM for which there is no macro. -/
example : replaceSram [("  ".toList ++ inst 26 128).append "".toList, "  ".toList ++ inst 24 512, "endmodule".toList] =
    ["  SramGenericPRTL #(.num_bits(26) , .num_words(128)) sram".toList,
     "  SramGenericPRTL__num_bits_24__num_words_512 sram".toList, "endmodule".toList] := by decide +kernel

end Verif.Tr
