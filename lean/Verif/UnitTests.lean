import Verif.NetUnits
import Verif.Mux

/-!
# The unit tests of the repository, evaluated on the model

The vectors of blocking_cache/units/tests/arithmetics_tests.py and muxes_tests.py (files that pytest's default
name pattern does not collect), evaluated by the kernel on the wire-level model of each unit (`Net`, `Mux`) and on
the closed form that the proofs use (`Units`).  They are evidence that the model is faithful, not theorems.
-/

namespace Verif.UnitTests
open Verif.Net

/-- 32-bit data, 128-bit lines, 32 bytes, one way: blocking_cache/units/tests/arithmetics_tests.py:19-22, 34-37. -/
abbrev p32 : Params := ⟨1, 27, 2, 2, 8, false⟩
/-- 128-bit data, 128-bit lines, 32 bytes, one way: blocking_cache/units/tests/arithmetics_tests.py:19-22, 50-53. -/
abbrev p128 : Params := ⟨1, 27, 2, 4, 8, false⟩

/-- `in_`, `amo`, `len_`, `out`: `test_replicator_dbw32_clw128`, blocking_cache/units/tests/arithmetics_tests.py:23-31. -/
def repl32 : List (Nat × Bool × Nat × Nat) := [
  (0xabcd1234, false, 0, 0xabcd1234abcd1234abcd1234abcd1234),
  (0xabcd1234, false, 1, 0x34343434343434343434343434343434),
  (0xabcd1234, false, 2, 0x12341234123412341234123412341234),
  (0xabcd1234, false, 3, 0x000000000000000000000000abcd1234),
  (0xabcd1234, true, 0, 0x000000000000000000000000abcd1234)]

/-- The vectors with `len_` 3 were not updated when `len_ == 3` came to mean a double word (units/arithmetics.py:45-53,
76-77): there the unit gives something else, see below; all others agree. -/
example : (repl32.filter (fun v => v.2.2.1 != 3)).all (fun v => (replicatorW p32 v.2.1 (BitVec.ofNat _ v.2.2.1) (BitVec.ofNat _ v.1)).toNat == v.2.2.2 &&
    (replicator p32 v.2.1 (BitVec.ofNat _ v.2.2.1) (BitVec.ofNat _ v.1)).toNat == v.2.2.2) = true := by decide +kernel

/-- `in_`, `amo`, `len_`, `out`: `test_replicator_dbw128_clw128`, blocking_cache/units/tests/arithmetics_tests.py:38-48. -/
def repl128 : List (Nat × Bool × Nat × Nat) := [
  (0x0123456789abcdeffedcba9876543210, false, 0, 0x0123456789abcdeffedcba9876543210),
  (0x0123456789abcdeffedcba9876543210, false, 1, 0x10101010101010101010101010101010),
  (0x0123456789abcdeffedcba9876543210, false, 2, 0x32103210321032103210321032103210),
  (0x0123456789abcdeffedcba9876543210, false, 3, 0x0123456789abcdeffedcba9876543210),
  (0x0123456789abcdeffedcba9876543210, false, 4, 0x76543210765432107654321076543210),
  (0x0123456789abcdeffedcba9876543210, false, 8, 0xfedcba9876543210fedcba9876543210),
  (0x0123456789abcdeffedcba9876543210, true, 8, 0x0123456789abcdeffedcba9876543210)]

/-- The vectors with `len_` 3 were not updated when `len_ == 3` came to mean a double word (units/arithmetics.py:45-53,
76-77): there the unit gives something else, see below; all others agree. -/
example : (repl128.filter (fun v => v.2.2.1 != 3)).all (fun v => (replicatorW p128 v.2.1 (BitVec.ofNat _ v.2.2.1) (BitVec.ofNat _ v.1)).toNat == v.2.2.2 &&
    (replicator p128 v.2.1 (BitVec.ofNat _ v.2.2.1) (BitVec.ofNat _ v.1)).toNat == v.2.2.2) = true := by decide +kernel

/-- `cmd`, `dty_mask`, `offset`, `len_`, `out`: `test_WriteBitEnGen`, blocking_cache/units/tests/arithmetics_tests.py:55-79. -/
def wben : List (Nat × Nat × Nat × Nat × Nat) := [
  (0, 0b0000, 1, 0, 0),
  (1, 0, 0b0001, 1, 0xff00),
  (1, 0b1111, 0b0010, 1, 0xff0000),
  (1, 0b1111, 0b0011, 1, 0xff000000),
  (1, 0, 0b0000, 2, 0xffff),
  (1, 0, 0b0010, 2, 0xffff0000),
  (1, 0, 0b0100, 2, 0xffff00000000),
  (1, 0, 0b0110, 2, 0xffff000000000000),
  (1, 0, 0b1000, 2, 0xffff0000000000000000),
  (1, 0, 0b0000, 4, 0xffffffff),
  (1, 0, 0b0100, 4, 0xffffffff00000000),
  (1, 0, 0b1000, 4, 0xffffffff0000000000000000),
  (1, 0, 0b1100, 4, 0xffffffff000000000000000000000000),
  (1, 0, 0b0000, 8, 0x0000000000000000ffffffffffffffff),
  (1, 0, 0b1000, 8, 0xffffffffffffffff0000000000000000),
  (1, 0, 0b0000, 0, 0xffffffffffffffffffffffffffffffff),
  (2, 0b1, 0b0000, 0, 0xffffffffffffffffffffffff00000000),
  (2, 0b10, 0b0000, 0, 0xffffffffffffffff00000000ffffffff),
  (2, 0b100, 0b0000, 0, 0xffffffff00000000ffffffffffffffff),
  (2, 0b1000, 0b0000, 0, 0x00000000ffffffffffffffffffffffff),
  (2, 0b1010, 0b0000, 0, 0x00000000ffffffff00000000ffffffff)]

example : wben.all (fun v => (wbenGenW p128 (BitVec.ofNat _ v.1) (BitVec.ofNat _ v.2.1) (BitVec.ofNat _ v.2.2.1)
    (BitVec.ofNat _ v.2.2.2.1)).toNat == v.2.2.2.2) = true := by decide +kernel

/-- `in_`, `out`, `en`, `amo`, `len_`, `offset`: `clw128_dbw32`, blocking_cache/units/tests/muxes_tests.py:24-38. -/
def sel32 : List (Nat × Nat × Bool × Bool × Nat × Nat) := [
  (0x0123456789abcdeffedcba9876543210, 0x76543210, true, false, 0, 0b0000),
  (0x0123456789abcdeffedcba9876543210, 0xfedcba98, true, false, 0, 0b0100),
  (0x0123456789abcdeffedcba9876543210, 0x89abcdef, true, false, 0, 0b1000),
  (0x0123456789abcdeffedcba9876543210, 0x01234567, true, false, 0, 0b1100),
  (0x0123456789abcdeffedcba9876543210, 0x0000cdef, true, false, 2, 0b1000),
  (0x0123456789abcdeffedcba9876543210, 0x000089ab, true, false, 2, 0b1010),
  (0x0123456789abcdeffedcba9876543210, 0x00000067, true, false, 1, 0b1100),
  (0x0123456789abcdeffedcba9876543210, 0x00000045, true, false, 1, 0b1101),
  (0x0123456789abcdeffedcba9876543210, 0x00000023, true, false, 1, 0b1110),
  (0x0123456789abcdeffedcba9876543210, 0x00000001, true, false, 1, 0b1111),
  (0x0123456789abcdeffedcba9876543210, 0x76543210, true, true, 1, 0b1111)]

/-- The vectors of `sel32` on a mux (blocking_cache/units/tests/muxes_tests.py:78-133). -/
def sel32On (f : Bool → Bool → Len p32 → Off p32 → Line p32 → Data p32) : Bool :=
  sel32.all fun v => (f v.2.2.1 v.2.2.2.1 (BitVec.ofNat _ v.2.2.2.2.1) (BitVec.ofNat _ v.2.2.2.2.2) (BitVec.ofNat _ v.1)).toNat
    == v.2.1
example : sel32On (dataSelectW p32) = true := by decide +kernel
example : sel32On (dataSelect p32) = true := by decide +kernel
example : sel32On (chainSelect p32) = true := by decide +kernel

/-- `in_`, `out`, `en`, `amo`, `len_`, `offset`: `clw128_dbw128`, blocking_cache/units/tests/muxes_tests.py:40-77. -/
def sel128 : List (Nat × Nat × Bool × Bool × Nat × Nat) := [
  (1, 0, false, false, 0, 0),
  (0x76543210, 0x76543210, false, true, 4, 0),
  (0x0123456789abcdeffedcba9876543210, 0x0123456789abcdeffedcba9876543210, true, false, 0, 0),
  (0x0123456789abcdeffedcba9876543210, 0x0123456789abcdeffedcba9876543210, true, false, 0, 4),
  (0x0123456789abcdeffedcba9876543210, 0xfedcba9876543210, true, false, 0x8, 0b0000),
  (0x0123456789abcdeffedcba9876543210, 0x0123456789abcdef, true, false, 0x8, 0b1000),
  (0x0123456789abcdeffedcba9876543210, 0x76543210, true, false, 0x4, 0b0000),
  (0x0123456789abcdeffedcba9876543210, 0xfedcba98, true, false, 0x4, 0b0100),
  (0x0123456789abcdeffedcba9876543210, 0x89abcdef, true, false, 0x4, 0b1000),
  (0x0123456789abcdeffedcba9876543210, 0x01234567, true, false, 0x4, 0b1100),
  (0x0123456789abcdeffedcba9876543210, 0x3210, true, false, 0x2, 0b0000),
  (0x0123456789abcdeffedcba9876543210, 0x7654, true, false, 0x2, 0b0010),
  (0x0123456789abcdeffedcba9876543210, 0xba98, true, false, 0x2, 0b0100),
  (0x0123456789abcdeffedcba9876543210, 0xfedc, true, false, 0x2, 0b0110),
  (0x0123456789abcdeffedcba9876543210, 0xcdef, true, false, 0x2, 0b1000),
  (0x0123456789abcdeffedcba9876543210, 0x89ab, true, false, 0x2, 0b1010),
  (0x0123456789abcdeffedcba9876543210, 0x4567, true, false, 0x2, 0b1100),
  (0x0123456789abcdeffedcba9876543210, 0x0123, true, false, 0x2, 0b1110),
  (0x0123456789abcdeffedcba9876543210, 0x10, true, false, 0x1, 0b0000),
  (0x0123456789abcdeffedcba9876543210, 0x32, true, false, 0x1, 0b0001),
  (0x0123456789abcdeffedcba9876543210, 0x54, true, false, 0x1, 0b0010),
  (0x0123456789abcdeffedcba9876543210, 0x76, true, false, 0x1, 0b0011),
  (0x0123456789abcdeffedcba9876543210, 0x98, true, false, 0x1, 0b0100),
  (0x0123456789abcdeffedcba9876543210, 0xba, true, false, 0x1, 0b0101),
  (0x0123456789abcdeffedcba9876543210, 0xdc, true, false, 0x1, 0b0110),
  (0x0123456789abcdeffedcba9876543210, 0xfe, true, false, 0x1, 0b0111),
  (0x0123456789abcdeffedcba9876543210, 0xef, true, false, 0x1, 0b1000),
  (0x0123456789abcdeffedcba9876543210, 0xcd, true, false, 0x1, 0b1001),
  (0x0123456789abcdeffedcba9876543210, 0xab, true, false, 0x1, 0b1010),
  (0x0123456789abcdeffedcba9876543210, 0x89, true, false, 0x1, 0b1011),
  (0x0123456789abcdeffedcba9876543210, 0x67, true, false, 0x1, 0b1100),
  (0x0123456789abcdeffedcba9876543210, 0x45, true, false, 0x1, 0b1101),
  (0x0123456789abcdeffedcba9876543210, 0x23, true, false, 0x1, 0b1110),
  (0x0123456789abcdeffedcba9876543210, 0x01, true, false, 0x1, 0b1111)]

/-- The vectors of `sel128` on a mux (blocking_cache/units/tests/muxes_tests.py:78-133). -/
def sel128On (f : Bool → Bool → Len p128 → Off p128 → Line p128 → Data p128) : Bool :=
  sel128.all fun v => (f v.2.2.1 v.2.2.2.1 (BitVec.ofNat _ v.2.2.2.2.1) (BitVec.ofNat _ v.2.2.2.2.2) (BitVec.ofNat _ v.1)).toNat
    == v.2.1
example : sel128On (dataSelectW p128) = true := by decide +kernel
example : sel128On (dataSelect p128) = true := by decide +kernel
example : sel128On (chainSelect p128) = true := by decide +kernel

/-- What the source computes for the two vectors with `len_` 3: 32-bit data are zero-extended to a double word and
replicated, 128-bit data give 0. -/
example : (replicatorW p32 false 3 (BitVec.ofNat _ 0xabcd1234)).toNat = 0x00000000abcd123400000000abcd1234 ∧
    (replicatorW p128 false 3 (BitVec.ofNat _ 0x0123456789abcdeffedcba9876543210)).toNat = 0 := by decide +kernel

/-- `val`, `type`, `wben`, `idx`, `wdata`, `rdata` (`none` for `?`): `test_direct_32x256`, sram/test/SramRTL_test.py:17-44. -/
def sram32x256 : List (Bool × Bool × Nat × Nat × Nat × Option Nat) := [
  (true, false, 0b0000, 0, 0x00000000, none),
  (true, false, 0b0000, 0, 0x00000000, none),
  (true, true, 0b1111, 0, 0x00000000, none),
  (true, false, 0b0000, 0, 0x00000000, none),
  (true, false, 0b0000, 0, 0x00000000, some 0x00000000),
  (true, true, 0b0001, 0, 0xdeadbeef, some 0x00000000),
  (true, false, 0b0000, 0, 0x00000000, none),
  (true, false, 0b0000, 0, 0x00000000, some 0x000000ef),
  (true, true, 0b0110, 0, 0xabcdefab, some 0x000000ef),
  (true, false, 0b0000, 0, 0x00000000, none),
  (true, false, 0b0000, 0, 0x00000000, some 0x00cdefef),
  (true, true, 0b1011, 0, 0xff000000, some 0x00cdefef),
  (true, false, 0b0000, 0, 0x00000000, none),
  (true, false, 0b0000, 0, 0x00000000, some 0xffcd0000),
  (true, true, 0b1111, 0, 0xdeadbeef, some 0xffcd0000),
  (true, false, 0b0000, 0, 0x00000000, none),
  (true, false, 0b0000, 0, 0x00000000, some 0xdeadbeef),
  (true, true, 0b1111, 0, 0xffffffff, some 0xdeadbeef),
  (true, false, 0b0000, 0, 0x00000000, none),
  (true, false, 0b0000, 0, 0x00000000, some 0xffffffff),
  (true, false, 0b0000, 0xfe, 0x00000000, some 0xffffffff),
  (true, true, 0b1111, 0xfe, 0xdeadbeef, none),
  (true, false, 0b1111, 0xfe, 0xbbbbcccc, none),
  (true, false, 0b0000, 0xfe, 0x00000000, some 0xdeadbeef)]

/-- `val`, `type`, `wben`, `idx`, `wdata`, `rdata` (`none` for `?`): `test_direct_128x256`, sram/test/SramRTL_test.py:51-78. -/
def sram128x256 : List (Bool × Bool × Nat × Nat × Nat × Option Nat) := [
  (true, false, 0b0000, 0, 0x00000000, none),
  (true, false, 0b0000, 0, 0x00000000, none),
  (true, true, 0b1111, 0, 0x00000000, none),
  (true, false, 0b0000, 0, 0x00000000, none),
  (true, false, 0b0000, 0, 0x00000000, some 0x00000000),
  (true, true, 0b0001, 0, 0xdeadbeef, some 0x00000000),
  (true, false, 0b0000, 0, 0x00000000, none),
  (true, false, 0b0000, 0, 0x00000000, some 0x000000ef),
  (true, true, 0b0110, 0, 0xabcdefab, some 0x000000ef),
  (true, false, 0b0000, 0, 0x00000000, none),
  (true, false, 0b0000, 0, 0x00000000, some 0x00cdefef),
  (true, true, 0b1011, 0, 0xff000000, some 0x00cdefef),
  (true, false, 0b0000, 0, 0x00000000, none),
  (true, false, 0b0000, 0, 0x00000000, some 0xffcd0000),
  (true, true, 0b1111, 0, 0xdeadbeef, some 0xffcd0000),
  (true, false, 0b0000, 0, 0x00000000, none),
  (true, false, 0b0000, 0, 0x00000000, some 0xdeadbeef),
  (true, true, 0b1111, 0, 0xffffffff, some 0xdeadbeef),
  (true, false, 0b0000, 0, 0x00000000, none),
  (true, false, 0b0000, 0, 0x00000000, some 0xffffffff),
  (true, false, 0b0000, 0xff, 0x00000000, some 0xffffffff),
  (true, true, 0b1111, 0xff, 0xdeadbeef, none),
  (true, false, 0b1111, 0xff, 0xbbbbcccc, none),
  (true, false, 0b0000, 0xff, 0x00000000, some 0xdeadbeef)]

/-- `val`, `type`, `wben`, `idx`, `wdata`, `rdata` (`none` for `?`): `test_direct_128x512`, sram/test/SramRTL_test.py:86-113. -/
def sram128x512 : List (Bool × Bool × Nat × Nat × Nat × Option Nat) := [
  (true, false, 0b0000, 0, 0x00000000, none),
  (true, false, 0b0000, 0, 0x00000000, none),
  (true, true, 0b1111, 0, 0x00000000, none),
  (true, false, 0b0000, 0, 0x00000000, none),
  (true, false, 0b0000, 0, 0x00000000, some 0x00000000),
  (true, true, 0b0001, 0, 0xdeadbeef, some 0x00000000),
  (true, false, 0b0000, 0, 0x00000000, none),
  (true, false, 0b0000, 0, 0x00000000, some 0x000000ef),
  (true, true, 0b0110, 0, 0xabcdefab, some 0x000000ef),
  (true, false, 0b0000, 0, 0x00000000, none),
  (true, false, 0b0000, 0, 0x00000000, some 0x00cdefef),
  (true, true, 0b1011, 0, 0xff000000, some 0x00cdefef),
  (true, false, 0b0000, 0, 0x00000000, none),
  (true, false, 0b0000, 0, 0x00000000, some 0xffcd0000),
  (true, true, 0b1111, 0, 0xdeadbeef, some 0xffcd0000),
  (true, false, 0b0000, 0, 0x00000000, none),
  (true, false, 0b0000, 0, 0x00000000, some 0xdeadbeef),
  (true, true, 0b1111, 0, 0xffffffff, some 0xdeadbeef),
  (true, false, 0b0000, 0, 0x00000000, none),
  (true, false, 0b0000, 0, 0x00000000, some 0xffffffff),
  (true, false, 0b0000, 0x1ff, 0x00000000, some 0xffffffff),
  (true, true, 0b1111, 0x1ff, 0xdeadbeef, none),
  (true, false, 0b1111, 0x1ff, 0xbbbbcccc, none),
  (true, false, 0b0000, 0x1ff, 0x00000000, some 0xdeadbeef)]

/-- Write enables as the vectors mean them, one bit per byte (sram/test/SramRTL_test.py:20-45); the ports of
`SramPRTL` have one per bit (sram/SramPRTL.py:38). -/
def byteEnables (n wben : Nat) : BitVec n := mkBits n fun i => wben.testBit (i / 8)

/-- `run_test_vector_sim` on the SRAM (sram/test/SramRTL_test.py:49): set the inputs, compare the output, clock. -/
def sramOk (n aw : Nat) (en : Nat → BitVec n) (s : SramG (BitVec aw) n) :
    List (Bool × Bool × Nat × Nat × Nat × Option Nat) → Bool
  | [] => true
  | v :: vs => (v.2.2.2.2.2 == none || v.2.2.2.2.2 == some s.rdata.toNat) &&
    sramOk n aw en (s.edge v.1 v.2.1 (BitVec.ofNat _ v.2.2.2.1) (BitVec.ofNat _ v.2.2.2.2.1) (en v.2.2.1)) vs

/-- The vectors hold with enables per byte, and, as `SramPRTL` has enables per bit, not as they are written. -/
example : sramOk 32 8 (byteEnables 32) ⟨fun _ => 0, 0⟩ sram32x256 = true ∧
    sramOk 128 8 (byteEnables 128) ⟨fun _ => 0, 0⟩ sram128x256 = true ∧
    sramOk 128 9 (byteEnables 128) ⟨fun _ => 0, 0⟩ sram128x512 = true ∧
    sramOk 32 8 (BitVec.ofNat 32) ⟨fun _ => 0, 0⟩ sram32x256 = false := by decide +kernel

end Verif.UnitTests
