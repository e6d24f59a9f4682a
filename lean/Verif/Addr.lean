import Verif.Bytes
import Verif.FL

/-!
# Address slicing (C27)

Packing and unpacking of the address bitstruct, and the slicing done by the FL
model.
-/

namespace Verif
variable {p : Params}

/-- Unpacking of a flat address into the bitstruct of `mk_addr_struct`
(cacheStructs.py:178-186): PyMTL3 assigns the least significant bits to the last
field. -/
def Addr.ofFlat (p : Params) (a : Nat) : Addr p :=
  ⟨BitVec.ofNat _ (a / 2 ^ (p.idxBits + p.offBits)), BitVec.ofNat _ (a / 2 ^ p.offBits), BitVec.ofNat _ a⟩

theorem Addr.num_lt (la : LAddr p) : la.num < 2 ^ (p.tagBits + p.idxBits) := by
  have h1 := la.tag.isLt
  have h2 := la.idx.isLt
  simp only [LAddr.num, Nat.pow_add]
  calc la.tag.toNat * 2 ^ p.idxBits + la.idx.toNat < la.tag.toNat * 2 ^ p.idxBits + 2 ^ p.idxBits := by omega
    _ = (la.tag.toNat + 1) * 2 ^ p.idxBits := by rw [Nat.add_mul, Nat.one_mul]
    _ ≤ 2 ^ p.tagBits * 2 ^ p.idxBits := Nat.mul_le_mul_right _ h1

theorem Addr.flat_lt (a : Addr p) : a.flat < 2 ^ p.addrBits := by
  have h1 := Addr.num_lt a.la
  have h2 := a.off.isLt
  rw [flat_eq]
  have e : 2 ^ p.addrBits = 2 ^ (p.tagBits + p.idxBits) * 2 ^ p.offBits := by
    rw [← Nat.pow_add]; simp only [Params.addrBits]; congr 1; omega
  rw [e]
  calc a.la.num * 2 ^ p.offBits + a.off.toNat < (a.la.num + 1) * 2 ^ p.offBits := by
        rw [Nat.add_mul, Nat.one_mul]; omega
    _ ≤ _ := Nat.mul_le_mul_right _ h1

theorem Addr.flat_div (a : Addr p) : a.flat / 2 ^ p.offBits = a.la.num := by
  rw [flat_eq, Nat.add_comm, Nat.add_mul_div_right _ _ (Nat.two_pow_pos _), Nat.div_eq_of_lt a.off.isLt, Nat.zero_add]

theorem Addr.flat_mod (a : Addr p) : a.flat % 2 ^ p.offBits = a.off.toNat := by
  rw [flat_eq, Nat.add_comm, Nat.add_mul_mod_self_right, Nat.mod_eq_of_lt a.off.isLt]

theorem LAddr.num_div (la : LAddr p) : la.num / 2 ^ p.idxBits = la.tag.toNat := by
  rw [LAddr.num, Nat.add_comm, Nat.add_mul_div_right _ _ (Nat.two_pow_pos _), Nat.div_eq_of_lt la.idx.isLt, Nat.zero_add]

theorem LAddr.num_mod (la : LAddr p) : la.num % 2 ^ p.idxBits = la.idx.toNat := by
  rw [LAddr.num, Nat.add_comm, Nat.add_mul_mod_self_right, Nat.mod_eq_of_lt la.idx.isLt]

/-- **C27 (packing).**  Unpacking inverts packing and packing inverts unpacking:
tag, index and offset partition the address, for all widths. -/
theorem C27_pack_unpack (p : Params) :
    (∀ a : Addr p, a.flat < 2 ^ p.addrBits ∧ Addr.ofFlat p a.flat = a) ∧
    ∀ n, n < 2 ^ p.addrBits → (Addr.ofFlat p n).flat = n := by
  constructor
  · intro a
    refine ⟨a.flat_lt, ?_⟩
    have h1 : a.flat / 2 ^ (p.idxBits + p.offBits) = a.tag.toNat := by
      rw [Nat.add_comm, Nat.pow_add, ← Nat.div_div_eq_div_mul, a.flat_div, LAddr.num_div]; rfl
    cases a with
    | mk t i o =>
      simp only [Addr.ofFlat, Addr.mk.injEq]
      refine ⟨?_, ?_, ?_⟩
      · apply BitVec.eq_of_toNat_eq
        rw [BitVec.toNat_ofNat, h1, Nat.mod_eq_of_lt t.isLt]
      · apply BitVec.eq_of_toNat_eq
        rw [BitVec.toNat_ofNat, Addr.flat_div, LAddr.num_mod]; rfl
      · apply BitVec.eq_of_toNat_eq
        rw [BitVec.toNat_ofNat, Addr.flat_mod]
  · intro n hn
    have ht : n / 2 ^ (p.idxBits + p.offBits) < 2 ^ p.tagBits := by
      rw [Nat.div_lt_iff_lt_mul (Nat.two_pow_pos _), ← Nat.pow_add]; exact hn
    simp only [Addr.flat, Addr.ofFlat, BitVec.toNat_ofNat]
    rw [Nat.mod_eq_of_lt ht]
    have e1 : n / 2 ^ (p.idxBits + p.offBits) = n / 2 ^ p.offBits / 2 ^ p.idxBits := by
      rw [Nat.add_comm, Nat.pow_add, Nat.div_div_eq_div_mul]
    rw [e1, Nat.div_add_mod', Nat.div_add_mod']

namespace FL

theorem slice_num (a : Addr p) : slice a.flat p.offBits p.addrBits = a.la.num := by
  rw [slice, a.flat_div, Nat.mod_eq_of_lt]
  have := Addr.num_lt a.la
  rwa [show p.addrBits - p.offBits = p.tagBits + p.idxBits by simp only [Params.addrBits]; omega]

theorem slice_off (a : Addr p) : slice a.flat 0 p.offBits = a.off.toNat := by
  rw [slice, Nat.pow_zero, Nat.div_one, Nat.sub_zero, a.flat_mod]

theorem idx_flat (a : Addr p) : (Cfg.of p).idx a.flat = a.idx.toNat := by
  simp only [Cfg.idx, Cfg.of, slice, a.flat_div, Nat.add_sub_cancel_left, LAddr.num_mod]; rfl

theorem tag_flat (a : Addr p) : (Cfg.of p).tag a.flat = a.tag.toNat := by
  simp only [Cfg.tag, Cfg.of, slice]
  rw [Nat.pow_add, ← Nat.div_div_eq_div_mul, a.flat_div, LAddr.num_div, Nat.mod_eq_of_lt]
  · rfl
  · have := a.tag.isLt
    rwa [show p.addrBits - (p.offBits + p.idxBits) = p.tagBits by simp only [Params.addrBits]; omega]

/-- **C27 (FL and RTL).**  With the sizes computed by the constructor of the FL
tracker from the cache size in bits, the associativity and the line size, and
32-bit addresses, the FL model slices every address into the same tag and index
as the RTL. -/
theorem C27_fl_slices_as_rtl (p : Params) (h32 : p.addrBits = 32) (a : Addr p) :
    let c := Cfg.make (p.ways.length * 2 ^ p.idxBits * p.lineBits) p.ways.length p.lineBits
    c.tag a.flat = a.tag.toNat ∧ c.idx a.flat = a.idx.toNat ∧
      slice a.flat 0 c.offEnd = a.off.toNat := by
  have hw : 0 < p.ways.length := by simp only [Params.ways]; split <;> simp
  have hl : 0 < p.lineBits := by rw [lineBits_eq]; have := Nat.two_pow_pos p.offBits; omega
  have hc : Cfg.make (p.ways.length * 2 ^ p.idxBits * p.lineBits) p.ways.length p.lineBits = Cfg.of p := by
    simp only [Cfg.make, Cfg.of, Nat.mul_div_cancel _ hl, Nat.mul_div_cancel_left _ hw, Nat.log2_two_pow, h32]
    rw [lineBits_eq, Nat.mul_div_cancel_left _ (by omega), Nat.log2_two_pow]
  simp only [hc]
  exact ⟨tag_flat a, idx_flat a, slice_off a⟩

/-- 2-way cache of 4 sets of 16-byte lines: address `0x1234`. -/
example : Addr.flat (⟨0x48, 3, 4⟩ : Addr ⟨2, 26, 2, 2, 8, true⟩) = 0x1234 ∧
    (Cfg.make (2 * 4 * 128) 2 128).tag 0x1234 = 0x48 ∧ (Cfg.make (2 * 4 * 128) 2 128).idx 0x1234 = 3 := by
  decide

end FL
end Verif
