import Verif.PropsFL

/-!
# The hit/miss tracker with banks (C72)

`HitMissTracker(size, nways, nbanks, linesize)` of blocking_cache/BlockingCacheFL.py with
`nbanks > 0`: the bank bits, between offset and index, are left out of index and tag.
-/

namespace Verif
namespace FL

/-- The sizes computed by `HitMissTracker.__init__(size, nways, nbanks, linesize)`, BlockingCacheFL.py:87-104:
`bank_start = offset_end`, `idx_start = bank_end`.  The field `offEnd`, where the index starts, is `idx_start`.
`int(math.log(x, 2))` is modelled by `Nat.log2`. -/
def Cfg.banked (size nways nbanks linesize : Nat) : Cfg :=
  let nlines := size / linesize
  let nsets := nlines / nways
  let offset_end := Nat.log2 (linesize / 8)
  let bank_end := if 0 < nbanks then offset_end + Nat.log2 nbanks else offset_end
  { nways := nways
    offEnd := bank_end
    idxEnd := bank_end + Nat.log2 nsets
    tagEnd := 32 }

/-- Number of offset bits. Proof device; not in the source. -/
def offsetBits (linesize : Nat) : Nat := Nat.log2 (linesize / 8)

/-- Number of bank bits. Proof device; not in the source. -/
def bankBits (nbanks : Nat) : Nat := if 0 < nbanks then Nat.log2 nbanks else 0

/-- The number of the line that contains byte `a`. -/
def lineOf (linesize a : Nat) : Nat := a / 2 ^ offsetBits linesize

/-- The bank of address `a`. Proof device; not in the source. -/
def bankOf (nbanks linesize a : Nat) : Nat := lineOf linesize a % 2 ^ bankBits nbanks

/-- The address within its bank: the bank bits removed. Proof device; not in the source. -/
def inBank (nbanks linesize a : Nat) : Nat :=
  lineOf linesize a / 2 ^ bankBits nbanks * 2 ^ offsetBits linesize + a % 2 ^ offsetBits linesize

/-- A call of the tracker with another address. Proof device; not in the source. -/
def TOp.mapAddr (f : Nat → Nat) : TOp → TOp
  | .access a => .access (f a)
  | .amo a => .amo (f a)
  | .inval => .inval

/-- The addresses of a call satisfy `P`. Proof device; not in the source. -/
def TOp.All (P : Nat → Prop) : TOp → Prop
  | .access a => P a
  | .amo a => P a
  | .inval => True

theorem inBank_div (nbanks linesize a : Nat) :
    inBank nbanks linesize a / 2 ^ offsetBits linesize = lineOf linesize a / 2 ^ bankBits nbanks := by
  have hp := Nat.two_pow_pos (offsetBits linesize)
  simp only [inBank]
  rw [Nat.mul_comm, Nat.mul_add_div hp, Nat.div_eq_of_lt (Nat.mod_lt _ hp), Nat.add_zero]

section
variable (size nways nbanks linesize : Nat)

theorem banked_offEnd : (Cfg.banked size nways nbanks linesize).offEnd = offsetBits linesize + bankBits nbanks := by
  simp only [Cfg.banked, offsetBits, bankBits]; split <;> rfl

theorem banked_idxEnd : (Cfg.banked size nways nbanks linesize).idxEnd =
    offsetBits linesize + bankBits nbanks + Nat.log2 (size / linesize / nways) := by
  simp only [Cfg.banked, offsetBits, bankBits]; split <;> rfl

/-- Index of a banked tracker. -/
theorem banked_idx (a : Nat) : (Cfg.banked size nways nbanks linesize).idx a =
    lineOf linesize a / 2 ^ bankBits nbanks % 2 ^ Nat.log2 (size / linesize / nways) := by
  simp only [Cfg.idx, slice, banked_offEnd, banked_idxEnd, lineOf]
  generalize Nat.log2 (size / linesize / nways) = k
  rw [Nat.add_sub_cancel_left, Nat.pow_add, Nat.div_div_eq_div_mul]

/-- Tag of a banked tracker. -/
theorem banked_tag (a : Nat) (ha : a < 2 ^ 32) : (Cfg.banked size nways nbanks linesize).tag a =
    lineOf linesize a / 2 ^ bankBits nbanks / 2 ^ Nat.log2 (size / linesize / nways) := by
  simp only [Cfg.tag, slice, banked_idxEnd, lineOf]
  have h32 : (Cfg.banked size nways nbanks linesize).tagEnd = 32 := rfl
  rw [h32]
  generalize Nat.log2 (size / linesize / nways) = j
  rw [Nat.div_div_eq_div_mul, Nat.div_div_eq_div_mul, ← Nat.pow_add, ← Nat.pow_add, ← Nat.add_assoc]
  generalize offsetBits linesize + bankBits nbanks + j = k
  apply Nat.mod_eq_of_lt
  rw [Nat.div_lt_iff_lt_mul (Nat.two_pow_pos k), ← Nat.pow_add]
  exact Nat.lt_of_lt_of_le ha (Nat.pow_le_pow_right (by omega) (by omega))

theorem make_eq_banked : Cfg.make size nways linesize = Cfg.banked size nways 0 linesize := rfl

theorem inBank_lt (a : Nat) (ha : a < 2 ^ 32) : inBank nbanks linesize a < 2 ^ 32 := by
  refine Nat.lt_of_le_of_lt ?_ ha
  have h1 := Nat.div_le_self (lineOf linesize a) (2 ^ bankBits nbanks)
  have h2 := Nat.mul_le_mul_right (2 ^ offsetBits linesize) h1
  have h3 := Nat.div_add_mod a (2 ^ offsetBits linesize)
  simp only [inBank]
  have h4 : lineOf linesize a * 2 ^ offsetBits linesize = 2 ^ offsetBits linesize * (a / 2 ^ offsetBits linesize) := by
    rw [lineOf, Nat.mul_comm]
  omega

/-- The banked tracker sees an address as the tracker without banks sees the address within the bank. -/
theorem banked_slices (a : Nat) (ha : a < 2 ^ 32) :
    (Cfg.banked size nways nbanks linesize).idx a = (Cfg.make size nways linesize).idx (inBank nbanks linesize a) ∧
    (Cfg.banked size nways nbanks linesize).tag a = (Cfg.make size nways linesize).tag (inBank nbanks linesize a) := by
  rw [make_eq_banked, banked_idx, banked_idx, banked_tag _ _ _ _ _ ha,
    banked_tag _ _ _ _ _ (inBank_lt _ _ _ ha)]
  have h0 : bankBits 0 = 0 := rfl
  have : lineOf linesize (inBank nbanks linesize a) / 2 ^ bankBits 0 = lineOf linesize a / 2 ^ bankBits nbanks := by
    rw [h0, Nat.pow_zero, Nat.div_one]; exact inBank_div _ _ _
  rw [this]; exact ⟨rfl, rfl⟩

end

/-- A call depends on index, tag and number of ways only. -/
theorem access_congr {c c' : Cfg} {a a' : Nat} (hn : c.nways = c'.nways) (hi : c.idx a = c'.idx a')
    (ht : c.tag a = c'.tag a') (s : Tracker) : s.access c a = s.access c' a' := by
  simp only [Tracker.access, Tracker.tagCheck, Tracker.find, hn, hi, ht]
  rfl

theorem amo_congr {c c' : Cfg} {a a' : Nat} (hn : c.nways = c'.nways) (hi : c.idx a = c'.idx a')
    (ht : c.tag a = c'.tag a') (s : Tracker) : s.amo c a = s.amo c' a' := by
  simp only [Tracker.amo, Tracker.find, hn, hi, ht]

/-- **C72, a tracker with banks is a tracker of one bank.**  After any calls with 32-bit addresses it predicts
for the next access what the tracker without banks predicts when it gets every address with the bank bits
removed. -/
theorem C72_bank_bits_ignored (size nways nbanks linesize : Nat) (ops : List TOp)
    (ho : ∀ x ∈ ops, x.All (· < 2 ^ 32)) (a : Nat) (ha : a < 2 ^ 32) :
    ((after (Cfg.banked size nways nbanks linesize) ops).access (Cfg.banked size nways nbanks linesize) a).2 =
    ((after (Cfg.make size nways linesize) (ops.map (TOp.mapAddr (inBank nbanks linesize)))).access
      (Cfg.make size nways linesize) (inBank nbanks linesize a)).2 := by
  have key : ∀ s, ops.foldl (TOp.apply (Cfg.banked size nways nbanks linesize)) s =
      (ops.map (TOp.mapAddr (inBank nbanks linesize))).foldl (TOp.apply (Cfg.make size nways linesize)) s := by
    intro s
    induction ops generalizing s with
    | nil => rfl
    | cons x ops ih =>
      have hx := ho x (by simp)
      rw [List.map_cons, List.foldl_cons, List.foldl_cons, ih (fun y hy => ho y (by simp [hy]))]
      congr 1
      cases x with
      | access b =>
        obtain ⟨h1, h2⟩ := banked_slices size nways nbanks linesize b hx
        exact congrArg Prod.fst (access_congr (c := Cfg.banked size nways nbanks linesize) (c' := Cfg.make size nways linesize) rfl h1 h2 s)
      | amo b =>
        obtain ⟨h1, h2⟩ := banked_slices size nways nbanks linesize b hx
        exact amo_congr (c := Cfg.banked size nways nbanks linesize) (c' := Cfg.make size nways linesize) rfl h1 h2 s
      | inval => rfl
  obtain ⟨h1, h2⟩ := banked_slices size nways nbanks linesize a ha
  have h0 : after (Cfg.banked size nways nbanks linesize) ops =
      after (Cfg.make size nways linesize) (ops.map (TOp.mapAddr (inBank nbanks linesize))) := key _
  rw [h0]
  exact congrArg Prod.snd (access_congr (c := Cfg.banked size nways nbanks linesize) (c' := Cfg.make size nways linesize) rfl h1 h2 _)

/-- In one bank index and tag determine the line. -/
theorem same_line {size nways nbanks linesize a b : Nat} (ha : a < 2 ^ 32) (hb : b < 2 ^ 32)
    (hk : bankOf nbanks linesize a = bankOf nbanks linesize b) :
    ((Cfg.banked size nways nbanks linesize).idx a = (Cfg.banked size nways nbanks linesize).idx b ∧
     (Cfg.banked size nways nbanks linesize).tag a = (Cfg.banked size nways nbanks linesize).tag b) ↔
    lineOf linesize a = lineOf linesize b := by
  rw [banked_idx, banked_idx, banked_tag _ _ _ _ _ ha, banked_tag _ _ _ _ _ hb]
  constructor
  · rintro ⟨h1, h2⟩
    have h3 : lineOf linesize a / 2 ^ bankBits nbanks = lineOf linesize b / 2 ^ bankBits nbanks := by
      rw [← Nat.div_add_mod (lineOf linesize a / 2 ^ bankBits nbanks) (2 ^ Nat.log2 (size / linesize / nways)),
        h1, h2, Nat.div_add_mod]
    rw [← Nat.div_add_mod (lineOf linesize a) (2 ^ bankBits nbanks), h3]
    simp only [bankOf] at hk
    rw [hk, Nat.div_add_mod]
  · intro h; rw [h]; exact ⟨rfl, rfl⟩

/-- The set of a line. -/
def setOf (size nways nbanks linesize a : Nat) : Nat :=
  lineOf linesize a / 2 ^ bankBits nbanks % 2 ^ Nat.log2 (size / linesize / nways)

/-- **C72, within one bank the tracker is exact.**  If all addresses belong to the bank of `a`, an access to the
line of `a`, accessed before, hits exactly if fewer than `nways` other lines of its set were accessed since (and
there was no INV and no AMO to the set since). `D` lists the other lines, without repetition. -/
theorem C72_one_bank_lru (size nways nbanks linesize : Nat) (hn : 1 ≤ nways) (pre mid : List TOp) (a b : Nat)
    (ha : a < 2 ^ 32) (hb : b < 2 ^ 32) (hab : lineOf linesize b = lineOf linesize a)
    (hm : ∀ x ∈ mid, match x with
      | .access e => e < 2 ^ 32 ∧ bankOf nbanks linesize e = bankOf nbanks linesize a ∧ lineOf linesize e ≠ lineOf linesize a
      | .amo e => setOf size nways nbanks linesize e ≠ setOf size nways nbanks linesize a
      | .inval => False)
    (D : List Nat) (hD : D.Nodup)
    (hDm : ∀ l, l ∈ D ↔ ∃ e, TOp.access e ∈ mid ∧ setOf size nways nbanks linesize e = setOf size nways nbanks linesize a ∧
      lineOf linesize e = l) :
    ((after (Cfg.banked size nways nbanks linesize) (pre ++ TOp.access a :: mid)).access
      (Cfg.banked size nways nbanks linesize) b).2 = decide (D.length < nways) := by
  have hbk : bankOf nbanks linesize b = bankOf nbanks linesize a := by simp only [bankOf, hab]
  obtain ⟨h1, h2⟩ := (same_line (size := size) (nways := nways) hb ha hbk).2 hab
  have hacc : ∀ e, TOp.access e ∈ mid → e < 2 ^ 32 ∧ bankOf nbanks linesize e = bankOf nbanks linesize a ∧
      lineOf linesize e ≠ lineOf linesize a := fun e he => hm _ he
  have ho : Others (Cfg.banked size nways nbanks linesize) ((Cfg.banked size nways nbanks linesize).idx a)
      ((Cfg.banked size nways nbanks linesize).tag a) mid := by
    intro x hx
    have := hm x hx
    cases x with
    | access e =>
      obtain ⟨g1, g2, g3⟩ := this
      intro hi ht
      exact g3 ((same_line (size := size) (nways := nways) g1 ha g2).1 ⟨hi, ht⟩)
    | amo e => show _ ≠ _; rw [banked_idx, banked_idx]; exact this
    | inval => exact this
  have htag : ∀ e, e < 2 ^ 32 → (Cfg.banked size nways nbanks linesize).tag e =
      lineOf linesize e / 2 ^ bankBits nbanks / 2 ^ Nat.log2 (size / linesize / nways) :=
    fun e he => banked_tag size nways nbanks linesize e he
  have hdis : Distinct (Cfg.banked size nways nbanks linesize) ((Cfg.banked size nways nbanks linesize).idx a) mid
      (D.map fun l => l / 2 ^ bankBits nbanks / 2 ^ Nat.log2 (size / linesize / nways)) := by
    refine ⟨?_, ?_⟩
    · rw [List.nodup_iff_pairwise_ne, List.pairwise_map]
      refine List.Pairwise.imp_of_mem ?_ hD
      intro l l' hl hl' hne heq
      obtain ⟨e, he, hs, rfl⟩ := (hDm l).1 hl
      obtain ⟨e', he', hs', rfl⟩ := (hDm l').1 hl'
      obtain ⟨g1, g2, _⟩ := hacc e he
      obtain ⟨g1', g2', _⟩ := hacc e' he'
      apply hne
      apply (same_line (size := size) (nways := nways) (nbanks := nbanks) g1 g1' (g2.trans g2'.symm)).1
      rw [htag e g1, htag e' g1', banked_idx, banked_idx]
      exact ⟨hs.trans hs'.symm, heq⟩
    · intro t
      rw [List.mem_map]
      constructor
      · rintro ⟨l, hl, rfl⟩
        obtain ⟨e, he, hs, rfl⟩ := (hDm l).1 hl
        exact ⟨e, he, by rw [banked_idx, banked_idx]; exact hs, htag e (hacc e he).1⟩
      · rintro ⟨e, he, hs, rfl⟩
        refine ⟨lineOf linesize e, (hDm _).2 ⟨e, he, ?_, rfl⟩, (htag e (hacc e he).1).symm⟩
        rw [banked_idx, banked_idx] at hs; exact hs
  have := C31_hit_iff_stack_distance (Cfg.banked size nways nbanks linesize) hn pre mid a b h1 h2 ho _ hdis
  rw [this, List.length_map]; rfl

/-- **C72, lines of different banks are confused.**  Right after an access to `a`, an access to `b` hits if the two
addresses differ in bank and offset only, whether or not the line of `b` was ever accessed. -/
theorem C72_banks_alias (size nways nbanks linesize : Nat) (hn : 1 ≤ nways) (ops : List TOp) (a b : Nat)
    (ha : a < 2 ^ 32) (hb : b < 2 ^ 32)
    (hab : lineOf linesize a / 2 ^ bankBits nbanks = lineOf linesize b / 2 ^ bankBits nbanks) :
    ((after (Cfg.banked size nways nbanks linesize) (ops ++ [.access a])).access
      (Cfg.banked size nways nbanks linesize) b).2 = true := by
  have h1 : (Cfg.banked size nways nbanks linesize).idx b = (Cfg.banked size nways nbanks linesize).idx a := by
    rw [banked_idx, banked_idx, hab]
  have h2 : (Cfg.banked size nways nbanks linesize).tag b = (Cfg.banked size nways nbanks linesize).tag a := by
    rw [banked_tag _ _ _ _ _ ha, banked_tag _ _ _ _ _ hb, hab]
  have := C31_hit_iff_stack_distance (Cfg.banked size nways nbanks linesize) hn ops [] a b h1 h2
    (by intro x hx; cases hx) [] ⟨List.nodup_nil, by simp⟩
  rw [this]; simp only [List.length_nil, decide_eq_true_eq]; exact hn

/-! ## A concrete tracker: 4 banks, 2 ways, 16-byte lines, 8 lines (sizes in bits) -/

/-- Two accesses to one line, with one other line of the set in between: a hit; the addresses are in bank 1. -/
example : ((after (Cfg.banked 1024 2 4 128) [.access 0x10, .access 0x110]).access (Cfg.banked 1024 2 4 128) 0x14).2 = true ∧
    setOf 1024 2 4 128 0x110 = setOf 1024 2 4 128 0x10 ∧ lineOf 128 0x110 ≠ lineOf 128 0x10 ∧
    bankOf 4 128 0x110 = 1 ∧ bankOf 4 128 0x10 = 1 := by decide

/-- With two others: a miss. -/
example : ((after (Cfg.banked 1024 2 4 128) [.access 0x10, .access 0x110, .access 0x210]).access
    (Cfg.banked 1024 2 4 128) 0x14).2 = false := by decide

/-- The hypotheses of `C72_one_bank_lru` are met. -/
example : ((after (Cfg.banked 1024 2 4 128) ([.inval] ++ .access 0x10 :: [.access 0x110, .access 0x118])).access
    (Cfg.banked 1024 2 4 128) 0x14).2 = decide ([0x11].length < 2) := by
  apply C72_one_bank_lru 1024 2 4 128 (by decide) [.inval] _ 0x10 0x14 (by decide) (by decide) (by decide)
  · intro x hx
    simp only [List.mem_cons, List.not_mem_nil, or_false] at hx
    rcases hx with rfl | rfl <;> decide
  · decide
  · intro l
    constructor
    · intro h
      simp only [List.mem_cons, List.not_mem_nil, or_false] at h
      exact ⟨0x110, by simp, by decide, by rw [h]; decide⟩
    · rintro ⟨e, he, _, rfl⟩
      simp only [List.mem_cons, List.not_mem_nil, or_false, TOp.access.injEq] at he
      rcases he with rfl | rfl <;> decide

/-- The first access to line 2 (bank 2) is reported as a hit after an access to line 1 (bank 1). -/
example : ((after (Cfg.banked 1024 2 4 128) ([] ++ [.access 0x10])).access (Cfg.banked 1024 2 4 128) 0x20).2 = true ∧
    lineOf 128 0x10 ≠ lineOf 128 0x20 ∧ lineOf 128 0x10 / 2 ^ bankBits 4 = lineOf 128 0x20 / 2 ^ bankBits 4 :=
  ⟨C72_banks_alias 1024 2 4 128 (by decide) [] _ _ (by decide) (by decide) (by decide), by decide, by decide⟩

end FL
end Verif
