import Verif.PropsSeq
import Verif.MultiTests
set_option linter.unusedSectionVars false

/-!
# The single-cache directed tests of the repository, for every timing (C46)

blocking_cache/test/GenericTestCases.py, AmoTests.py, InvFlushTests.py and OtherCiferTests.py list
requests and expected responses; the repository runs each of them with one or two fixed choices of
latency and delays.  The tests of `repoTests` are proved to pass in every execution
(`C46_repo_tests`, `C46_repo_tests_terminate`).  The tests of `initTests` use WRITE_INIT or writes
wider than a word, which the functional theorems do not cover (C33, C34); here they are only executed,
with one timing, to check the model; C58 proves that they pass with every timing.
-/

namespace Verif

/-- A directed test: `SingleCacheTestParams`, test/sim_utils.py:219-233. -/
structure SeqTest where
  p : Params
  mem : ByteMem
  reqs : List (CReq p)
  resps : List (CResp p)

/-- A request of `mk_req_resp`, test/sim_utils.py:206-217. -/
def sreq {p : Params} (ty : MType) (opq addr len data : Nat) : CReq p :=
  ⟨ty, BitVec.ofNat _ opq, addrOf p addr, BitVec.ofNat _ len, BitVec.ofNat _ data⟩

/-- A response of `mk_req_resp`, test/sim_utils.py:206-217. -/
def sresp {p : Params} (ty : MType) (opq test len data : Nat) : CResp p :=
  ⟨ty, BitVec.ofNat _ opq, BitVec.ofNat _ test, BitVec.ofNat _ len, BitVec.ofNat _ data⟩

/-- Memory loaded word by word, little endian (`load`, test/sim_utils.py:152-156); other bytes 0. -/
def wordsMem (words : List (Nat × Nat)) : ByteMem := fun x =>
  match words.find? (fun e => e.1 == x / 4 * 4) with
  | some e => BitVec.ofNat 8 (e.2 / 256 ^ (x % 4))
  | none => 0

/-- Decides `CReq.Valid` (proof device). -/
def CReq.validX {p : Params} (q : CReq p) : Bool :=
  (q.ty == MT.READ && (List.range 5).any fun k => q.bytes == 2 ^ k && q.addr.flat % 2 ^ k == 0) ||
  (q.ty == MT.WRITE && (List.range 3).any fun k => q.bytes == 2 ^ k && q.addr.flat % 2 ^ k == 0) ||
  (q.ty == MT.WRITE && q.len.toNat == 3 && p.lenBits == 2 && q.addr.flat % 8 == 0) ||
  (decide (3 ≤ q.ty.toNat ∧ q.ty.toNat ≤ 11) && (p.lenBits == 2 || q.len.toNat == 4) && q.addr.flat % 4 == 0) ||
  q.ty == MT.INV || q.ty == MT.FLUSH

theorem validX_sound {p : Params} {q : CReq p} (h : q.validX = true) : q.Valid := by
  simp only [CReq.validX, Bool.or_eq_true, Bool.and_eq_true, decide_eq_true_eq, beq_iff_eq, List.any_eq_true,
    List.mem_range] at h
  rcases h with ((((⟨h1, k, hk, h2, h3⟩ | ⟨h1, k, hk, h2, h3⟩) | ⟨⟨⟨h1, h2⟩, h3⟩, h4⟩) | ⟨⟨h1, h2⟩, h3⟩) | h) | h
  · exact .read h1 k h2 (Nat.dvd_of_mod_eq_zero h3)
  · exact .write h1 k h2 (by omega) (Nat.dvd_of_mod_eq_zero h3)
  · exact .dword h1 h2 h3 (Nat.dvd_of_mod_eq_zero h4)
  · exact .amo h1 h2 (Nat.dvd_of_mod_eq_zero h3)
  · exact .inv h
  · exact .flush h

/-- What is checked of each test (test/sim_utils.py:127-160). -/
def SeqTest.check (T : SeqTest) : Bool :=
  decide (1 ≤ T.p.idxBits ∧ 1 ≤ T.p.nwBits ∧ (2 ≤ T.p.lenBits ∧ T.p.lenBits ≤ 4) ∧ T.p.lenBits ≤ T.p.offBits) &&
  T.reqs.all CReq.validX && decide (expectSeq T.mem T.reqs = T.resps)

/-! ## The tests -/

/-- blocking_cache/test/GenericTestCases.py:14-41. -/
def genMem : ByteMem := wordsMem
    [(0x0, 0x0), (0x4, 0x1), (0x8, 0x2), (0xc, 0x3), (0x10, 0x4), (0x14, 0x5), (0x18, 0x6), (0x1c, 0x7),
   (0x20, 0x8), (0x24, 0x9), (0x28, 0xa), (0x2c, 0xb), (0x20000, 0xc), (0x20004, 0xd), (0x20008, 0xe),
   (0x2000c, 0xf), (0x20010, 0x10), (0x20014, 0x11), (0x1000, 0x1020304), (0x1004, 0x5060708), (0x1008,
   0x90a0b0c), (0x100c, 0xd0e0f10), (0x2000, 0xfacade), (0x2004, 0x5ca1ded), (0x2070, 0x70facade), (0x2074,
   0x75ca1ded)]

/-- blocking_cache/test/AmoTests.py:13-44. -/
def amoMem : ByteMem := wordsMem
    [(0x0, 0x1), (0x4, 0x2), (0x8, 0x3), (0xc, 0x4), (0x10, 0x11), (0x14, 0x12), (0x18, 0x13), (0x1c, 0x14),
   (0x20, 0x21), (0x24, 0x22), (0x28, 0x23), (0x2c, 0x24), (0x30, 0x31), (0x34, 0x32), (0x38, 0x33), (0x3c,
   0x34), (0x20000, 0x5), (0x20004, 0x6), (0x20008, 0x7), (0x2000c, 0x8), (0x20010, 0x9), (0x20014, 0xa),
   (0x20018, 0xb), (0x2001c, 0xc), (0x30000, 0xd), (0x30004, 0xe), (0x30008, 0xf), (0x3000c, 0x10), (0x5c,
   0x9), (0x60, 0xa)]

/-- blocking_cache/test/InvFlushTests.py:13-47. -/
def invFlushMem : ByteMem := wordsMem
    [(0x0, 0x1), (0x4, 0x2), (0x8, 0x3), (0xc, 0x4), (0x10, 0x11), (0x14, 0x12), (0x18, 0x13), (0x1c, 0x14),
   (0x20, 0x21), (0x24, 0x22), (0x28, 0x23), (0x2c, 0x24), (0x30, 0x31), (0x34, 0x32), (0x38, 0x33), (0x3c,
   0x34), (0x20000, 0x5), (0x20004, 0x6), (0x20008, 0x7), (0x2000c, 0x8), (0x20010, 0x9), (0x20014, 0xa),
   (0x20018, 0xb), (0x2001c, 0xc), (0x30000, 0xd), (0x30004, 0xe), (0x30008, 0xf), (0x3000c, 0x10), (0x30010,
   0xaaa), (0x30014, 0xbbb), (0x30018, 0xccc), (0x5c, 0x9), (0x60, 0xa)]

/-- blocking_cache/test/OtherCiferTests.py:10-45. -/
def otherMem : ByteMem := wordsMem
    [(0x0, 0x1), (0x4, 0x2), (0x8, 0x3), (0xc, 0x4), (0x10, 0x11), (0x14, 0x12), (0x18, 0x13), (0x1c, 0x14),
   (0x20, 0x21), (0x24, 0x22), (0x28, 0x23), (0x2c, 0x24), (0x30, 0x31), (0x34, 0x32), (0x38, 0x33), (0x3c,
   0x34), (0x20000, 0x5), (0x20004, 0x6), (0x20008, 0x7), (0x2000c, 0x8), (0x20010, 0x9), (0x20014, 0xa),
   (0x20018, 0xb), (0x2001c, 0xc), (0x30000, 0xd), (0x30004, 0xe), (0x30008, 0xf), (0x3000c, 0x10), (0x30010,
   0xaaa), (0x30014, 0xbbb), (0x30018, 0xdeadbeef), (0x3001c, 0xffc0ffee), (0x5c, 0x9), (0x60, 0xa)]

/-- `rd_hit_1wd`, blocking_cache/test/GenericTestCases.py:48-55. -/
def t_rd_hit_1wd : SeqTest where
  p := ⟨1, 27, 2, 2, 8, false⟩
  mem := genMem
  reqs := [sreq MT.INIT 0 0xab000 0 0xdeadbeef,
    sreq MT.READ 1 0xab000 0 0x0]
  resps := [sresp MT.INIT 0 0 0 0x0,
    sresp MT.READ 1 1 0 0xdeadbeef]

/-- `rd_hit_many`, blocking_cache/test/GenericTestCases.py:57-67. -/
def t_rd_hit_many : SeqTest where
  p := ⟨1, 27, 2, 2, 8, false⟩
  mem := genMem
  reqs := [sreq MT.INIT 0 0x48000 0 0x0,
    sreq MT.INIT 1 0x48004 0 0x1,
    sreq MT.INIT 2 0x48008 0 0x2,
    sreq MT.INIT 3 0x4800c 0 0x3,
    sreq MT.READ 0 0x48000 0 0x0,
    sreq MT.READ 1 0x48004 0 0x0,
    sreq MT.READ 2 0x48008 0 0x0,
    sreq MT.READ 3 0x4800c 0 0x0]
  resps := [sresp MT.INIT 0 0 0 0x0,
    sresp MT.INIT 1 0 0 0x0,
    sresp MT.INIT 2 0 0 0x0,
    sresp MT.INIT 3 0 0 0x0,
    sresp MT.READ 0 1 0 0x0,
    sresp MT.READ 1 1 0 0x1,
    sresp MT.READ 2 1 0 0x2,
    sresp MT.READ 3 1 0 0x3]

/-- `rd_hit_cline`, blocking_cache/test/GenericTestCases.py:73-86. -/
def t_rd_hit_cline : SeqTest where
  p := ⟨1, 27, 2, 2, 8, false⟩
  mem := genMem
  reqs := [sreq MT.INIT 0 0x20 0 0xdeadbeef,
    sreq MT.INIT 1 0x24 0 0xcafecafe,
    sreq MT.INIT 2 0x28 0 0xfafafafa,
    sreq MT.INIT 3 0x2c 0 0xbabababa,
    sreq MT.READ 4 0x20 0 0x0,
    sreq MT.READ 5 0x24 0 0x0,
    sreq MT.READ 6 0x28 0 0x0,
    sreq MT.READ 7 0x2c 0 0x0]
  resps := [sresp MT.INIT 0 0 0 0x0,
    sresp MT.INIT 1 0 0 0x0,
    sresp MT.INIT 2 0 0 0x0,
    sresp MT.INIT 3 0 0 0x0,
    sresp MT.READ 4 1 0 0xdeadbeef,
    sresp MT.READ 5 1 0 0xcafecafe,
    sresp MT.READ 6 1 0 0xfafafafa,
    sresp MT.READ 7 1 0 0xbabababa]

/-- `wr_hit_clean`, blocking_cache/test/GenericTestCases.py:92-106. -/
def t_wr_hit_clean : SeqTest where
  p := ⟨1, 27, 2, 2, 8, false⟩
  mem := genMem
  reqs := [sreq MT.INIT 0 0x1180 0 0xdeadbeef,
    sreq MT.WRITE 1 0x1180 0 0x32,
    sreq MT.WRITE 1 0x1184 0 0x33,
    sreq MT.WRITE 1 0x1188 0 0x34,
    sreq MT.WRITE 1 0x118c 0 0x35,
    sreq MT.READ 2 0x1180 0 0x0,
    sreq MT.READ 2 0x1184 0 0x0,
    sreq MT.READ 2 0x1188 0 0x0,
    sreq MT.READ 2 0x118c 0 0x0]
  resps := [sresp MT.INIT 0 0 0 0x0,
    sresp MT.WRITE 1 1 0 0x0,
    sresp MT.WRITE 1 1 0 0x0,
    sresp MT.WRITE 1 1 0 0x0,
    sresp MT.WRITE 1 1 0 0x0,
    sresp MT.READ 2 1 0 0x32,
    sresp MT.READ 2 1 0 0x33,
    sresp MT.READ 2 1 0 0x34,
    sresp MT.READ 2 1 0 0x35]

/-- `wr_hit_dirty`, blocking_cache/test/GenericTestCases.py:113-124. -/
def t_wr_hit_dirty : SeqTest where
  p := ⟨1, 27, 2, 2, 8, false⟩
  mem := genMem
  reqs := [sreq MT.INIT 0 0x66660 0 0xdeadbeef,
    sreq MT.WRITE 1 0x66660 0 0xffffffff,
    sreq MT.WRITE 2 0x66664 0 0xc0ef,
    sreq MT.WRITE 3 0x66668 0 0x39287,
    sreq MT.WRITE 4 0x6666c 0 0xabcef,
    sreq MT.READ 5 0x66668 0 0x0]
  resps := [sresp MT.INIT 0 0 0 0x0,
    sresp MT.WRITE 1 1 0 0x0,
    sresp MT.WRITE 2 1 0 0x0,
    sresp MT.WRITE 3 1 0 0x0,
    sresp MT.WRITE 4 1 0 0x0,
    sresp MT.READ 5 1 0 0x39287]

/-- `wr_hit_rd_hit`, blocking_cache/test/GenericTestCases.py:131-140. -/
def t_wr_hit_rd_hit : SeqTest where
  p := ⟨1, 27, 2, 2, 8, false⟩
  mem := genMem
  reqs := [sreq MT.INIT 0 0x0 0 0xdeadbeef,
    sreq MT.READ 1 0x0 0 0x0,
    sreq MT.WRITE 2 0x0 0 0xffffffff,
    sreq MT.READ 3 0x0 0 0x0]
  resps := [sresp MT.INIT 0 0 0 0x0,
    sresp MT.READ 1 1 0 0xdeadbeef,
    sresp MT.WRITE 2 1 0 0x0,
    sresp MT.READ 3 1 0 0xffffffff]

/-- `rd_miss_1wd_cn`, blocking_cache/test/GenericTestCases.py:146-153. -/
def t_rd_miss_1wd_cn : SeqTest where
  p := ⟨1, 27, 2, 2, 8, false⟩
  mem := genMem
  reqs := [sreq MT.READ 0 0x0 0 0x0,
    sreq MT.READ 1 0x4 0 0x0]
  resps := [sresp MT.READ 0 0 0 0x0,
    sresp MT.READ 1 1 0 0x1]

/-- `wr_miss_1wd_cn`, blocking_cache/test/GenericTestCases.py:159-167. -/
def t_wr_miss_1wd_cn : SeqTest where
  p := ⟨1, 27, 2, 2, 8, false⟩
  mem := genMem
  reqs := [sreq MT.WRITE 0 0x0 0 0xc0ffee,
    sreq MT.READ 1 0x0 0 0x0,
    sreq MT.READ 2 0x8 0 0x0]
  resps := [sresp MT.WRITE 0 0 0 0x0,
    sresp MT.READ 1 1 0 0xc0ffee,
    sresp MT.READ 2 1 0 0x2]

/-- `rd_miss_dty`, blocking_cache/test/GenericTestCases.py:173-181. -/
def t_rd_miss_dty : SeqTest where
  p := ⟨1, 27, 2, 2, 8, false⟩
  mem := genMem
  reqs := [sreq MT.WRITE 0 0x0 0 0xbeefbeeb,
    sreq MT.READ 1 0x20000 0 0x0,
    sreq MT.READ 2 0x0 0 0x0]
  resps := [sresp MT.WRITE 0 0 0 0x0,
    sresp MT.READ 1 0 0 0xc,
    sresp MT.READ 2 0 0 0xbeefbeeb]

/-- `rd_ev_1wd`, blocking_cache/test/GenericTestCases.py:187-195. -/
def t_rd_ev_1wd : SeqTest where
  p := ⟨1, 27, 2, 2, 8, false⟩
  mem := genMem
  reqs := [sreq MT.WRITE 0 0x2000 0 0xffffff00,
    sreq MT.READ 1 0x0 0 0x0,
    sreq MT.READ 2 0x2000 0 0x0]
  resps := [sresp MT.WRITE 0 0 0 0x0,
    sresp MT.READ 1 0 0 0x0,
    sresp MT.READ 2 0 0 0xffffff00]

/-- `long_msg_1way`, blocking_cache/test/GenericTestCases.py:198-231. -/
def t_long_msg_1way : SeqTest where
  p := ⟨8, 20, 2, 2, 8, false⟩
  mem := genMem
  reqs := [sreq MT.WRITE 0 0x0 0 0xffffff00,
    sreq MT.WRITE 1 0x4 0 0xffffff01,
    sreq MT.WRITE 2 0x8 0 0xffffff02,
    sreq MT.WRITE 3 0xc 0 0xffffff03,
    sreq MT.WRITE 4 0x1000 0 0xffffff04,
    sreq MT.WRITE 5 0x1004 0 0xffffff05,
    sreq MT.WRITE 6 0x1008 0 0xffffff06,
    sreq MT.WRITE 7 0x100c 0 0xffffff07,
    sreq MT.READ 8 0x2000 0 0x0,
    sreq MT.READ 9 0x2004 0 0x0,
    sreq MT.READ 10 0x1004 0 0x0,
    sreq MT.WRITE 11 0x100c 0 0xffffff09,
    sreq MT.READ 12 0x100c 0 0x0,
    sreq MT.READ 13 0x0 0 0x0,
    sreq MT.WRITE 16 0x70 0 0xffffff00,
    sreq MT.WRITE 17 0x74 0 0xffffff01,
    sreq MT.WRITE 18 0x78 0 0xffffff02,
    sreq MT.WRITE 19 0x7c 0 0xffffff03,
    sreq MT.WRITE 20 0x1070 0 0xffffff04,
    sreq MT.WRITE 21 0x1074 0 0xffffff05,
    sreq MT.WRITE 22 0x1078 0 0xffffff06,
    sreq MT.WRITE 23 0x107c 0 0xffffff07,
    sreq MT.READ 24 0x2070 0 0x0,
    sreq MT.READ 25 0x2074 0 0x0,
    sreq MT.READ 26 0x1074 0 0x0,
    sreq MT.WRITE 27 0x107c 0 0xffffff09,
    sreq MT.READ 28 0x107c 0 0x0,
    sreq MT.READ 29 0x70 0 0x0]
  resps := [sresp MT.WRITE 0 0 0 0x0,
    sresp MT.WRITE 1 1 0 0x0,
    sresp MT.WRITE 2 1 0 0x0,
    sresp MT.WRITE 3 1 0 0x0,
    sresp MT.WRITE 4 0 0 0x0,
    sresp MT.WRITE 5 1 0 0x0,
    sresp MT.WRITE 6 1 0 0x0,
    sresp MT.WRITE 7 1 0 0x0,
    sresp MT.READ 8 0 0 0xfacade,
    sresp MT.READ 9 1 0 0x5ca1ded,
    sresp MT.READ 10 0 0 0xffffff05,
    sresp MT.WRITE 11 1 0 0x0,
    sresp MT.READ 12 1 0 0xffffff09,
    sresp MT.READ 13 0 0 0xffffff00,
    sresp MT.WRITE 16 0 0 0x0,
    sresp MT.WRITE 17 1 0 0x0,
    sresp MT.WRITE 18 1 0 0x0,
    sresp MT.WRITE 19 1 0 0x0,
    sresp MT.WRITE 20 0 0 0x0,
    sresp MT.WRITE 21 1 0 0x0,
    sresp MT.WRITE 22 1 0 0x0,
    sresp MT.WRITE 23 1 0 0x0,
    sresp MT.READ 24 0 0 0x70facade,
    sresp MT.READ 25 1 0 0x75ca1ded,
    sresp MT.READ 26 0 0 0xffffff05,
    sresp MT.WRITE 27 1 0 0x0,
    sresp MT.READ 28 1 0 0xffffff09,
    sresp MT.READ 29 0 0 0xffffff00]

/-- `rd_hit_1b`, blocking_cache/test/GenericTestCases.py:233-243. -/
def t_rd_hit_1b : SeqTest where
  p := ⟨1, 27, 2, 2, 8, false⟩
  mem := genMem
  reqs := [sreq MT.INIT 0 0x0 0 0xabcdef12,
    sreq MT.READ 1 0x0 1 0x0,
    sreq MT.READ 2 0x1 1 0x0,
    sreq MT.READ 3 0x2 1 0x0,
    sreq MT.READ 4 0x3 1 0x0]
  resps := [sresp MT.INIT 0 0 0 0x0,
    sresp MT.READ 1 1 1 0x12,
    sresp MT.READ 2 1 1 0xef,
    sresp MT.READ 3 1 1 0xcd,
    sresp MT.READ 4 1 1 0xab]

/-- `wr_hit_1b`, blocking_cache/test/GenericTestCases.py:245-256. -/
def t_wr_hit_1b : SeqTest where
  p := ⟨1, 27, 2, 2, 8, false⟩
  mem := genMem
  reqs := [sreq MT.INIT 0 0x0 0 0xabcdef12,
    sreq MT.WRITE 1 0x0 1 0x99,
    sreq MT.WRITE 1 0x1 1 0x66,
    sreq MT.WRITE 1 0x2 1 0x33,
    sreq MT.WRITE 1 0x3 1 0x11,
    sreq MT.READ 2 0x0 0 0x0]
  resps := [sresp MT.INIT 0 0 0 0x0,
    sresp MT.WRITE 1 1 1 0x0,
    sresp MT.WRITE 1 1 1 0x0,
    sresp MT.WRITE 1 1 1 0x0,
    sresp MT.WRITE 1 1 1 0x0,
    sresp MT.READ 2 1 0 0x11336699]

/-- `rd_miss_1b`, blocking_cache/test/GenericTestCases.py:258-267. -/
def t_rd_miss_1b : SeqTest where
  p := ⟨1, 27, 2, 2, 8, false⟩
  mem := genMem
  reqs := [sreq MT.READ 0 0x1000 1 0x0,
    sreq MT.READ 1 0x1001 1 0x0,
    sreq MT.READ 2 0x1002 1 0x0,
    sreq MT.READ 3 0x1003 1 0x0]
  resps := [sresp MT.READ 0 0 1 0x4,
    sresp MT.READ 1 1 1 0x3,
    sresp MT.READ 2 1 1 0x2,
    sresp MT.READ 3 1 1 0x1]

/-- `wr_miss_1b`, blocking_cache/test/GenericTestCases.py:269-282. -/
def t_wr_miss_1b : SeqTest where
  p := ⟨1, 27, 2, 2, 8, false⟩
  mem := genMem
  reqs := [sreq MT.WRITE 0 0x1001 1 0x11,
    sreq MT.WRITE 1 0x1005 1 0x22,
    sreq MT.WRITE 2 0x1009 1 0x33,
    sreq MT.WRITE 3 0x100d 1 0x44,
    sreq MT.READ 0 0x1000 0 0x0,
    sreq MT.READ 1 0x1004 0 0x0,
    sreq MT.READ 2 0x1008 0 0x0,
    sreq MT.READ 3 0x100c 0 0x0]
  resps := [sresp MT.WRITE 0 0 1 0x0,
    sresp MT.WRITE 1 1 1 0x0,
    sresp MT.WRITE 2 1 1 0x0,
    sresp MT.WRITE 3 1 1 0x0,
    sresp MT.READ 0 1 0 0x1021104,
    sresp MT.READ 1 1 0 0x5062208,
    sresp MT.READ 2 1 0 0x90a330c,
    sresp MT.READ 3 1 0 0xd0e4410]

/-- `rd_hit_2b`, blocking_cache/test/GenericTestCases.py:284-292. -/
def t_rd_hit_2b : SeqTest where
  p := ⟨1, 27, 2, 2, 8, false⟩
  mem := genMem
  reqs := [sreq MT.INIT 0 0x0 0 0xabcdef12,
    sreq MT.READ 1 0x0 2 0x0,
    sreq MT.READ 2 0x2 2 0x0]
  resps := [sresp MT.INIT 0 0 0 0x0,
    sresp MT.READ 1 1 2 0xef12,
    sresp MT.READ 2 1 2 0xabcd]

/-- `wr_hit_2b`, blocking_cache/test/GenericTestCases.py:294-303. -/
def t_wr_hit_2b : SeqTest where
  p := ⟨1, 27, 2, 2, 8, false⟩
  mem := genMem
  reqs := [sreq MT.INIT 0 0x0 0 0xabcdef12,
    sreq MT.WRITE 1 0x0 2 0x99,
    sreq MT.WRITE 1 0x2 2 0xac13,
    sreq MT.READ 2 0x0 0 0x0]
  resps := [sresp MT.INIT 0 0 0 0x0,
    sresp MT.WRITE 1 1 2 0x0,
    sresp MT.WRITE 1 1 2 0x0,
    sresp MT.READ 2 1 0 0xac130099]

/-- `rd_miss_2b`, blocking_cache/test/GenericTestCases.py:305-312. -/
def t_rd_miss_2b : SeqTest where
  p := ⟨1, 27, 2, 2, 8, false⟩
  mem := genMem
  reqs := [sreq MT.READ 0 0x1000 2 0x0,
    sreq MT.READ 2 0x2002 2 0x0]
  resps := [sresp MT.READ 0 0 2 0x304,
    sresp MT.READ 2 0 2 0xfa]

/-- `wr_miss_2b`, blocking_cache/test/GenericTestCases.py:314-323. -/
def t_wr_miss_2b : SeqTest where
  p := ⟨1, 27, 2, 2, 8, false⟩
  mem := genMem
  reqs := [sreq MT.WRITE 0 0x1000 2 0x11,
    sreq MT.WRITE 2 0x2002 2 0x33,
    sreq MT.READ 0 0x1000 0 0x0,
    sreq MT.READ 2 0x2000 0 0x0]
  resps := [sresp MT.WRITE 0 0 2 0x0,
    sresp MT.WRITE 2 0 2 0x0,
    sresp MT.READ 0 0 0 0x1020011,
    sresp MT.READ 2 0 0 0x33cade]

/-- `rd_data128_line128`, blocking_cache/test/GenericTestCases.py:325-340. -/
def t_rd_data128_line128 : SeqTest where
  p := ⟨1, 27, 2, 4, 8, false⟩
  mem := genMem
  reqs := [sreq MT.READ 0 0x1000 0 0x0,
    sreq MT.READ 2 0x1000 1 0x0,
    sreq MT.READ 3 0x1001 1 0x0,
    sreq MT.READ 4 0x1000 2 0x0,
    sreq MT.READ 5 0x1002 2 0x0,
    sreq MT.READ 6 0x1000 4 0x0,
    sreq MT.READ 7 0x1008 4 0x0,
    sreq MT.READ 8 0x1000 8 0x0,
    sreq MT.READ 9 0x1008 8 0x0]
  resps := [sresp MT.READ 0 0 0 0xd0e0f10090a0b0c0506070801020304,
    sresp MT.READ 2 1 1 0x4,
    sresp MT.READ 3 1 1 0x3,
    sresp MT.READ 4 1 2 0x304,
    sresp MT.READ 5 1 2 0x102,
    sresp MT.READ 6 1 4 0x1020304,
    sresp MT.READ 7 1 4 0x90a0b0c,
    sresp MT.READ 8 1 8 0x506070801020304,
    sresp MT.READ 9 1 8 0xd0e0f10090a0b0c]

/-- `wr_data128_line128`, blocking_cache/test/GenericTestCases.py:342-357. -/
def t_wr_data128_line128 : SeqTest where
  p := ⟨1, 27, 2, 4, 8, false⟩
  mem := genMem
  reqs := [sreq MT.WRITE 0 0x1000 0 0x123456789abcdeffedcba9876543210,
    sreq MT.READ 1 0x1000 0 0x0,
    sreq MT.WRITE 2 0x1000 1 0xff,
    sreq MT.READ 3 0x1000 0 0x0,
    sreq MT.WRITE 4 0x1002 2 0xff,
    sreq MT.READ 5 0x1000 0 0x0,
    sreq MT.WRITE 6 0x100c 4 0xff,
    sreq MT.READ 7 0x1000 0 0x0,
    sreq MT.WRITE 8 0x1000 8 0xff,
    sreq MT.READ 9 0x1000 0 0x0]
  resps := [sresp MT.WRITE 0 0 0 0x0,
    sresp MT.READ 1 1 0 0x123456789abcdeffedcba9876543210,
    sresp MT.WRITE 2 1 1 0x0,
    sresp MT.READ 3 1 0 0x123456789abcdeffedcba98765432ff,
    sresp MT.WRITE 4 1 2 0x0,
    sresp MT.READ 5 1 0 0x123456789abcdeffedcba9800ff32ff,
    sresp MT.WRITE 6 1 4 0x0,
    sresp MT.READ 7 1 0 0xff89abcdeffedcba9800ff32ff,
    sresp MT.WRITE 8 1 8 0x0,
    sresp MT.READ 9 1 0 0xff89abcdef00000000000000ff]

/-- `rd_data32_line64`, blocking_cache/test/GenericTestCases.py:359-367. -/
def t_rd_data32_line64 : SeqTest where
  p := ⟨1, 28, 1, 2, 8, false⟩
  mem := genMem
  reqs := [sreq MT.READ 0 0x1000 0 0x0,
    sreq MT.READ 1 0x1004 0 0x0,
    sreq MT.READ 2 0x1008 0 0x0]
  resps := [sresp MT.READ 0 0 0 0x1020304,
    sresp MT.READ 1 1 0 0x5060708,
    sresp MT.READ 2 0 0 0x90a0b0c]

/-- `rd_hit_1s`, blocking_cache/test/GenericTestCases.py:373-380. -/
def t_rd_hit_1s : SeqTest where
  p := ⟨1, 28, 1, 2, 8, true⟩
  mem := genMem
  reqs := [sreq MT.INIT 0 0x0 0 0xdeadbeef,
    sreq MT.READ 3 0x0 0 0x0]
  resps := [sresp MT.INIT 0 0 0 0x0,
    sresp MT.READ 3 1 0 0xdeadbeef]

/-- `wr_hit_1s`, blocking_cache/test/GenericTestCases.py:382-390. -/
def t_wr_hit_1s : SeqTest where
  p := ⟨1, 28, 1, 2, 8, true⟩
  mem := genMem
  reqs := [sreq MT.INIT 0 0x2070 0 0xc8,
    sreq MT.WRITE 1 0x2070 0 0x133c3,
    sreq MT.READ 2 0x2070 0 0x0]
  resps := [sresp MT.INIT 0 0 0 0x0,
    sresp MT.WRITE 1 1 0 0x0,
    sresp MT.READ 2 1 0 0x133c3]

/-- `wr_miss_1s`, blocking_cache/test/GenericTestCases.py:392-399. -/
def t_wr_miss_1s : SeqTest where
  p := ⟨1, 28, 1, 2, 8, true⟩
  mem := genMem
  reqs := [sreq MT.WRITE 1 0x2070 0 0x133c3,
    sreq MT.READ 2 0x2070 0 0x0]
  resps := [sresp MT.WRITE 1 0 0 0x0,
    sresp MT.READ 2 1 0 0x133c3]

/-- `rd_hit_2s`, blocking_cache/test/GenericTestCases.py:401-410. -/
def t_rd_hit_2s : SeqTest where
  p := ⟨1, 28, 1, 2, 8, true⟩
  mem := genMem
  reqs := [sreq MT.INIT 0 0x0 0 0xdeadbeef,
    sreq MT.WRITE 2 0x2000 0 0xd4,
    sreq MT.READ 2 0x0 0 0x0,
    sreq MT.READ 3 0x2000 0 0x0]
  resps := [sresp MT.INIT 0 0 0 0x0,
    sresp MT.WRITE 2 0 0 0x0,
    sresp MT.READ 2 1 0 0xdeadbeef,
    sresp MT.READ 3 1 0 0xd4]

/-- `wr_hit_2s`, blocking_cache/test/GenericTestCases.py:412-423. -/
def t_wr_hit_2s : SeqTest where
  p := ⟨1, 28, 1, 2, 8, true⟩
  mem := genMem
  reqs := [sreq MT.INIT 1 0x0 0 0xac7f,
    sreq MT.WRITE 2 0x0 0 0x8713450,
    sreq MT.READ 4 0x0 0 0x0,
    sreq MT.WRITE 3 0x1000 0 0xabcde,
    sreq MT.READ 5 0x1000 0 0x0,
    sreq MT.READ 5 0x0 0 0x0]
  resps := [sresp MT.INIT 1 0 0 0x0,
    sresp MT.WRITE 2 1 0 0x0,
    sresp MT.READ 4 1 0 0x8713450,
    sresp MT.WRITE 3 0 0 0x0,
    sresp MT.READ 5 1 0 0xabcde,
    sresp MT.READ 5 1 0 0x8713450]

/-- `wr_miss_2s`, blocking_cache/test/GenericTestCases.py:425-434. -/
def t_wr_miss_2s : SeqTest where
  p := ⟨1, 28, 1, 2, 8, true⟩
  mem := genMem
  reqs := [sreq MT.WRITE 2 0x0 0 0x8713450,
    sreq MT.WRITE 3 0x1000 0 0xabcde,
    sreq MT.READ 4 0x0 0 0x0,
    sreq MT.READ 5 0x1000 0 0x0]
  resps := [sresp MT.WRITE 2 0 0 0x0,
    sresp MT.WRITE 3 0 0 0x0,
    sresp MT.READ 4 1 0 0x8713450,
    sresp MT.READ 5 1 0 0xabcde]

/-- `ev_2way`, blocking_cache/test/GenericTestCases.py:436-446. -/
def t_ev_2way : SeqTest where
  p := ⟨1, 28, 1, 2, 8, true⟩
  mem := genMem
  reqs := [sreq MT.WRITE 2 0x0 0 0x133c3,
    sreq MT.WRITE 3 0x20000 0 0xc0ffee,
    sreq MT.READ 4 0x1000 0 0x0,
    sreq MT.READ 5 0x20000 0 0x0,
    sreq MT.READ 6 0x0 0 0x0]
  resps := [sresp MT.WRITE 2 0 0 0x0,
    sresp MT.WRITE 3 0 0 0x0,
    sresp MT.READ 4 0 0 0x1020304,
    sresp MT.READ 5 1 0 0xc0ffee,
    sresp MT.READ 6 0 0 0x133c3]

/-- `long_msg_2way`, blocking_cache/test/GenericTestCases.py:448-498. -/
def t_long_msg_2way : SeqTest where
  p := ⟨7, 21, 2, 2, 8, true⟩
  mem := genMem
  reqs := [sreq MT.WRITE 0 0xa0000 0 0xffffff00,
    sreq MT.WRITE 1 0xa0004 0 0xffffff01,
    sreq MT.WRITE 2 0xa0008 0 0xffffff02,
    sreq MT.WRITE 3 0xa000c 0 0xffffff03,
    sreq MT.WRITE 4 0x1000 0 0xffffff04,
    sreq MT.WRITE 5 0x1004 0 0xffffff05,
    sreq MT.WRITE 6 0x1008 0 0xffffff06,
    sreq MT.WRITE 7 0x100c 0 0xffffff07,
    sreq MT.READ 8 0x2000 0 0x0,
    sreq MT.READ 9 0x2004 0 0x0,
    sreq MT.READ 10 0x1004 0 0x0,
    sreq MT.WRITE 11 0x100c 0 0xffffff09,
    sreq MT.READ 12 0x100c 0 0x0,
    sreq MT.READ 13 0xa0000 0 0x0,
    sreq MT.WRITE 16 0xa0070 0 0xffffff00,
    sreq MT.WRITE 17 0xa0074 0 0xffffff01,
    sreq MT.WRITE 18 0xa0078 0 0xffffff02,
    sreq MT.WRITE 19 0xa007c 0 0xffffff03,
    sreq MT.WRITE 20 0x1070 0 0xffffff04,
    sreq MT.WRITE 21 0x1074 0 0xffffff05,
    sreq MT.WRITE 22 0x1078 0 0xffffff06,
    sreq MT.WRITE 23 0x107c 0 0xffffff07,
    sreq MT.READ 24 0x2070 0 0x0,
    sreq MT.READ 25 0x2074 0 0x0,
    sreq MT.READ 26 0x1074 0 0x0,
    sreq MT.WRITE 27 0x107c 0 0xffffff09,
    sreq MT.READ 28 0x107c 0 0x0,
    sreq MT.READ 29 0xa0070 0 0x0]
  resps := [sresp MT.WRITE 0 0 0 0x0,
    sresp MT.WRITE 1 1 0 0x0,
    sresp MT.WRITE 2 1 0 0x0,
    sresp MT.WRITE 3 1 0 0x0,
    sresp MT.WRITE 4 0 0 0x0,
    sresp MT.WRITE 5 1 0 0x0,
    sresp MT.WRITE 6 1 0 0x0,
    sresp MT.WRITE 7 1 0 0x0,
    sresp MT.READ 8 0 0 0xfacade,
    sresp MT.READ 9 1 0 0x5ca1ded,
    sresp MT.READ 10 1 0 0xffffff05,
    sresp MT.WRITE 11 1 0 0x0,
    sresp MT.READ 12 1 0 0xffffff09,
    sresp MT.READ 13 0 0 0xffffff00,
    sresp MT.WRITE 16 0 0 0x0,
    sresp MT.WRITE 17 1 0 0x0,
    sresp MT.WRITE 18 1 0 0x0,
    sresp MT.WRITE 19 1 0 0x0,
    sresp MT.WRITE 20 0 0 0x0,
    sresp MT.WRITE 21 1 0 0x0,
    sresp MT.WRITE 22 1 0 0x0,
    sresp MT.WRITE 23 1 0 0x0,
    sresp MT.READ 24 0 0 0x70facade,
    sresp MT.READ 25 1 0 0x75ca1ded,
    sresp MT.READ 26 1 0 0xffffff05,
    sresp MT.WRITE 27 1 0 0x0,
    sresp MT.READ 28 1 0 0xffffff09,
    sresp MT.READ 29 0 0 0xffffff00]

/-- `dbw64_clw64`, blocking_cache/test/GenericTestCases.py:500-507. -/
def t_dbw64_clw64 : SeqTest where
  p := ⟨1, 28, 1, 3, 8, true⟩
  mem := genMem
  reqs := [sreq MT.WRITE 0 0x4 4 0x1,
    sreq MT.READ 1 0x4 1 0x0]
  resps := [sresp MT.WRITE 0 0 4 0x0,
    sresp MT.READ 1 1 1 0x1]

/-- `cifer_hypo1`, blocking_cache/test/AmoTests.py:50-58. -/
def t_cifer_hypo1 : SeqTest where
  p := ⟨1, 28, 1, 2, 8, false⟩
  mem := amoMem
  reqs := [sreq MT.WRITE 0 0x5c 0 0xfff,
    sreq MT.READ 1 0x8 0 0x0,
    sreq MT.READ 2 0x60 0 0x0]
  resps := [sresp MT.WRITE 0 0 0 0x0,
    sresp MT.READ 1 0 0 0x3,
    sresp MT.READ 2 0 0 0xa]

/-- `subword`, blocking_cache/test/AmoTests.py:60-68. -/
def t_subword : SeqTest where
  p := ⟨1, 27, 2, 2, 8, false⟩
  mem := amoMem
  reqs := [sreq MT.WRITE 0 0x0 1 0x1,
    sreq 3 1 0x0 0 0x2,
    sreq MT.READ 2 0x0 0 0x0]
  resps := [sresp MT.WRITE 0 0 1 0x0,
    sresp 3 1 0 0 0x1,
    sresp MT.READ 2 0 0 0x3]

/-- `amo_read`, blocking_cache/test/AmoTests.py:70-78. -/
def t_amo_read : SeqTest where
  p := ⟨1, 28, 1, 2, 8, false⟩
  mem := amoMem
  reqs := [sreq MT.READ 0 0x0 0 0x0,
    sreq 3 1 0x0 0 0x10,
    sreq MT.READ 2 0x0 0 0x0]
  resps := [sresp MT.READ 0 0 0 0x1,
    sresp 3 1 0 0 0x1,
    sresp MT.READ 2 0 0 0x11]

/-- `line_1way`, blocking_cache/test/AmoTests.py:80-95. -/
def t_line_1way : SeqTest where
  p := ⟨1, 27, 2, 2, 8, false⟩
  mem := amoMem
  reqs := [sreq MT.WRITE 0 0x0 0 0xf,
    sreq 3 1 0x0 0 0x10,
    sreq MT.READ 2 0x0 0 0x0,
    sreq MT.WRITE 0 0x4 0 0xf0,
    sreq 3 3 0x4 0 0x3,
    sreq MT.READ 4 0x4 0 0x0,
    sreq 3 5 0x8 0 0x4,
    sreq MT.READ 6 0x8 0 0x0,
    sreq 3 5 0xc 0 0x5,
    sreq MT.READ 6 0xc 0 0x0]
  resps := [sresp MT.WRITE 0 0 0 0x0,
    sresp 3 1 0 0 0xf,
    sresp MT.READ 2 0 0 0x1f,
    sresp MT.WRITE 0 1 0 0x0,
    sresp 3 3 0 0 0xf0,
    sresp MT.READ 4 0 0 0xf3,
    sresp 3 5 0 0 0x3,
    sresp MT.READ 6 0 0 0x7,
    sresp 3 5 0 0 0x4,
    sresp MT.READ 6 0 0 0x9]

/-- `diff_tag`, blocking_cache/test/AmoTests.py:97-105. -/
def t_diff_tag : SeqTest where
  p := ⟨1, 27, 2, 2, 8, true⟩
  mem := amoMem
  reqs := [sreq MT.WRITE 1 0x0 0 0xff,
    sreq 3 2 0x20000 0 0x1,
    sreq MT.READ 3 0x0 0 0x0]
  resps := [sresp MT.WRITE 1 0 0 0x0,
    sresp 3 2 0 0 0x5,
    sresp MT.READ 3 1 0 0xff]

/-- `line_2way`, blocking_cache/test/AmoTests.py:108-119. -/
def t_line_2way : SeqTest where
  p := ⟨1, 27, 2, 2, 8, true⟩
  mem := amoMem
  reqs := [sreq MT.WRITE 1 0x0 0 0xff,
    sreq 3 2 0x20000 0 0x1,
    sreq MT.WRITE 2 0x30000 0 0x1f,
    sreq MT.READ 2 0x0 0 0x0,
    sreq MT.READ 2 0x30000 0 0x0,
    sreq MT.READ 2 0x20000 0 0x0]
  resps := [sresp MT.WRITE 1 0 0 0x0,
    sresp 3 2 0 0 0x5,
    sresp MT.WRITE 2 0 0 0x0,
    sresp MT.READ 2 1 0 0xff,
    sresp MT.READ 2 1 0 0x1f,
    sresp MT.READ 2 0 0 0x6]

/-- `amo_ad`, blocking_cache/test/AmoTests.py:121-129. -/
def t_amo_ad : SeqTest where
  p := ⟨1, 28, 1, 2, 8, false⟩
  mem := amoMem
  reqs := [sreq 3 0 0x4 0 0x1,
    sreq MT.READ 1 0x0 0 0x0,
    sreq MT.READ 2 0x4 0 0x0]
  resps := [sresp 3 0 0 0 0x2,
    sresp MT.READ 1 0 0 0x1,
    sresp MT.READ 2 1 0 0x3]

/-- `amo_an`, blocking_cache/test/AmoTests.py:131-139. -/
def t_amo_an : SeqTest where
  p := ⟨1, 28, 1, 2, 8, false⟩
  mem := amoMem
  reqs := [sreq 4 0 0x4 0 0x1,
    sreq MT.READ 1 0x0 0 0x0,
    sreq MT.READ 2 0x4 0 0x0]
  resps := [sresp 4 0 0 0 0x2,
    sresp MT.READ 1 0 0 0x1,
    sresp MT.READ 2 1 0 0x0]

/-- `amo_or`, blocking_cache/test/AmoTests.py:141-149. -/
def t_amo_or : SeqTest where
  p := ⟨1, 28, 1, 2, 8, false⟩
  mem := amoMem
  reqs := [sreq 5 0 0x4 0 0x1,
    sreq MT.READ 1 0x0 0 0x0,
    sreq MT.READ 2 0x4 0 0x0]
  resps := [sresp 5 0 0 0 0x2,
    sresp MT.READ 1 0 0 0x1,
    sresp MT.READ 2 1 0 0x3]

/-- `amo_sw`, blocking_cache/test/AmoTests.py:151-159. -/
def t_amo_sw : SeqTest where
  p := ⟨1, 28, 1, 2, 8, false⟩
  mem := amoMem
  reqs := [sreq 6 0 0x4 0 0xf,
    sreq MT.READ 1 0x0 0 0x0,
    sreq MT.READ 2 0x4 0 0x0]
  resps := [sresp 6 0 0 0 0x2,
    sresp MT.READ 1 0 0 0x1,
    sresp MT.READ 2 1 0 0xf]

/-- `amo_mi`, blocking_cache/test/AmoTests.py:161-169. -/
def t_amo_mi : SeqTest where
  p := ⟨1, 28, 1, 2, 8, false⟩
  mem := amoMem
  reqs := [sreq 7 0 0x4 0 0xffffffff,
    sreq MT.READ 1 0x0 0 0x0,
    sreq MT.READ 2 0x4 0 0x0]
  resps := [sresp 7 0 0 0 0x2,
    sresp MT.READ 1 0 0 0x1,
    sresp MT.READ 2 1 0 0xffffffff]

/-- `amo_mu`, blocking_cache/test/AmoTests.py:171-179. -/
def t_amo_mu : SeqTest where
  p := ⟨1, 28, 1, 2, 8, false⟩
  mem := amoMem
  reqs := [sreq 8 0 0x4 0 0x1,
    sreq MT.READ 1 0x0 0 0x0,
    sreq MT.READ 2 0x4 0 0x0]
  resps := [sresp 8 0 0 0 0x2,
    sresp MT.READ 1 0 0 0x1,
    sresp MT.READ 2 1 0 0x1]

/-- `amo_mx`, blocking_cache/test/AmoTests.py:181-189. -/
def t_amo_mx : SeqTest where
  p := ⟨1, 28, 1, 2, 8, false⟩
  mem := amoMem
  reqs := [sreq 9 0 0x4 0 0x7fffffff,
    sreq MT.READ 1 0x0 0 0x0,
    sreq MT.READ 2 0x4 0 0x0]
  resps := [sresp 9 0 0 0 0x2,
    sresp MT.READ 1 0 0 0x1,
    sresp MT.READ 2 1 0 0x7fffffff]

/-- `amo_xu`, blocking_cache/test/AmoTests.py:191-199. -/
def t_amo_xu : SeqTest where
  p := ⟨1, 28, 1, 2, 8, false⟩
  mem := amoMem
  reqs := [sreq 10 0 0x4 0 0xffffffff,
    sreq MT.READ 1 0x0 0 0x0,
    sreq MT.READ 2 0x4 0 0x0]
  resps := [sresp 10 0 0 0 0x2,
    sresp MT.READ 1 0 0 0x1,
    sresp MT.READ 2 1 0 0xffffffff]

/-- `amo_xo`, blocking_cache/test/AmoTests.py:201-209. -/
def t_amo_xo : SeqTest where
  p := ⟨1, 28, 1, 2, 8, false⟩
  mem := amoMem
  reqs := [sreq 11 0 0x4 0 0x2,
    sreq MT.READ 1 0x0 0 0x0,
    sreq MT.READ 2 0x4 0 0x0]
  resps := [sresp 11 0 0 0 0x2,
    sresp MT.READ 1 0 0 0x1,
    sresp MT.READ 2 1 0 0x0]

/-- `same_line`, blocking_cache/test/AmoTests.py:211-219. -/
def t_same_line : SeqTest where
  p := ⟨1, 27, 2, 2, 8, false⟩
  mem := amoMem
  reqs := [sreq MT.WRITE 1 0x0 0 0xff,
    sreq 3 2 0x4 0 0x1,
    sreq MT.READ 3 0x0 0 0x0]
  resps := [sresp MT.WRITE 1 0 0 0x0,
    sresp 3 2 0 0 0x2,
    sresp MT.READ 3 0 0 0xff]

/-- `amo_hypo2`, blocking_cache/test/AmoTests.py:221-231. -/
def t_amo_hypo2 : SeqTest where
  p := ⟨1, 27, 2, 2, 8, true⟩
  mem := amoMem
  reqs := [sreq MT.READ 0 0x0 0 0x0,
    sreq 3 1 0x0 0 0x0,
    sreq MT.WRITE 2 0x0 0 0x0,
    sreq 3 3 0x0 0 0x0,
    sreq MT.READ 4 0x0 0 0x0]
  resps := [sresp MT.READ 0 0 0 0x1,
    sresp 3 1 0 0 0x1,
    sresp MT.WRITE 2 0 0 0x0,
    sresp 3 3 0 0 0x0,
    sresp MT.READ 4 0 0 0x0]

/-- `amo_hypo3`, blocking_cache/test/AmoTests.py:233-242. -/
def t_amo_hypo3 : SeqTest where
  p := ⟨1, 27, 2, 2, 8, true⟩
  mem := amoMem
  reqs := [sreq MT.READ 0 0x0 0 0x0,
    sreq MT.WRITE 1 0x10 0 0x0,
    sreq 3 2 0x10 0 0x0,
    sreq MT.READ 3 0x0 0 0x0]
  resps := [sresp MT.READ 0 0 0 0x1,
    sresp MT.WRITE 1 0 0 0x0,
    sresp 3 2 0 0 0x0,
    sresp MT.READ 3 1 0 0x1]

/-- `amo_hypo4`, blocking_cache/test/AmoTests.py:244-253. -/
def t_amo_hypo4 : SeqTest where
  p := ⟨1, 28, 1, 2, 8, true⟩
  mem := amoMem
  reqs := [sreq MT.WRITE 0 0x10 0 0x0,
    sreq MT.READ 1 0x0 0 0x0,
    sreq 3 2 0x10 0 0x0,
    sreq MT.READ 3 0x0 0 0x0]
  resps := [sresp MT.WRITE 0 0 0 0x0,
    sresp MT.READ 1 0 0 0x1,
    sresp 3 2 0 0 0x0,
    sresp MT.READ 3 1 0 0x1]

/-- `amo_hypo5`, blocking_cache/test/AmoTests.py:255-265. -/
def t_amo_hypo5 : SeqTest where
  p := ⟨1, 27, 2, 2, 8, true⟩
  mem := amoMem
  reqs := [sreq MT.READ 0 0x10 0 0x0,
    sreq MT.READ 1 0x30 0 0x0,
    sreq 3 2 0x10 0 0x0,
    sreq MT.READ 3 0x10 0 0x0,
    sreq MT.READ 4 0x30 0 0x0]
  resps := [sresp MT.READ 0 0 0 0x11,
    sresp MT.READ 1 0 0 0x31,
    sresp 3 2 0 0 0x11,
    sresp MT.READ 3 0 0 0x11,
    sresp MT.READ 4 1 0 0x31]

/-- `amo_hypo6`, blocking_cache/test/AmoTests.py:267-277. -/
def t_amo_hypo6 : SeqTest where
  p := ⟨1, 27, 2, 2, 8, true⟩
  mem := amoMem
  reqs := [sreq MT.READ 0 0x10 0 0x0,
    sreq MT.READ 1 0x30 0 0x0,
    sreq 3 2 0x30 0 0x1,
    sreq MT.READ 3 0x30 0 0x0,
    sreq MT.READ 4 0x10 0 0x0]
  resps := [sresp MT.READ 0 0 0 0x11,
    sresp MT.READ 1 0 0 0x31,
    sresp 3 2 0 0 0x31,
    sresp MT.READ 3 0 0 0x32,
    sresp MT.READ 4 1 0 0x11]

/-- `invalidation_short`, blocking_cache/test/InvFlushTests.py:53-68. -/
def t_invalidation_short : SeqTest where
  p := ⟨3, 25, 2, 2, 8, true⟩
  mem := invFlushMem
  reqs := [sreq MT.READ 1 0x0 0 0x0,
    sreq MT.READ 2 0x10 0 0x0,
    sreq MT.READ 3 0x20 0 0x0,
    sreq MT.READ 4 0x0 0 0x0,
    sreq MT.READ 5 0x10 0 0x0,
    sreq MT.READ 6 0x20 0 0x0,
    sreq MT.INV 7 0x0 0 0x0,
    sreq MT.READ 8 0x0 0 0x0,
    sreq MT.READ 9 0x10 0 0x0,
    sreq MT.READ 10 0x20 0 0x0]
  resps := [sresp MT.READ 1 0 0 0x1,
    sresp MT.READ 2 0 0 0x11,
    sresp MT.READ 3 0 0 0x21,
    sresp MT.READ 4 1 0 0x1,
    sresp MT.READ 5 1 0 0x11,
    sresp MT.READ 6 1 0 0x21,
    sresp MT.INV 7 0 0 0x0,
    sresp MT.READ 8 0 0 0x1,
    sresp MT.READ 9 0 0 0x11,
    sresp MT.READ 10 0 0 0x21]

/-- `inv_evict_short`, blocking_cache/test/InvFlushTests.py:70-80. -/
def t_inv_evict_short : SeqTest where
  p := ⟨3, 25, 2, 2, 8, true⟩
  mem := invFlushMem
  reqs := [sreq MT.WRITE 1 0x14 0 0xc0ffee,
    sreq MT.READ 2 0x20014 0 0x0,
    sreq MT.INV 3 0x0 0 0x0,
    sreq MT.READ 4 0x30014 0 0x0,
    sreq MT.READ 5 0x14 0 0x0]
  resps := [sresp MT.WRITE 1 0 0 0x0,
    sresp MT.READ 2 0 0 0xa,
    sresp MT.INV 3 0 0 0x0,
    sresp MT.READ 4 0 0 0xbbb,
    sresp MT.READ 5 0 0 0xc0ffee]

/-- `invalidation_medium`, blocking_cache/test/InvFlushTests.py:82-104. -/
def t_invalidation_medium : SeqTest where
  p := ⟨3, 25, 2, 2, 8, true⟩
  mem := invFlushMem
  reqs := [sreq MT.READ 1 0x0 0 0x0,
    sreq MT.READ 2 0x10 0 0x0,
    sreq MT.READ 3 0x20 0 0x0,
    sreq MT.READ 4 0x0 0 0x0,
    sreq MT.READ 5 0x10 0 0x0,
    sreq MT.READ 6 0x20 0 0x0,
    sreq MT.INV 7 0x0 0 0x0,
    sreq MT.READ 8 0x0 0 0x0,
    sreq MT.READ 9 0x10 0 0x0,
    sreq MT.READ 10 0x20 0 0x0,
    sreq MT.READ 11 0x0 0 0x0,
    sreq MT.READ 12 0x10 0 0x0,
    sreq MT.READ 13 0x20 0 0x0,
    sreq MT.INV 14 0x0 0 0x0,
    sreq MT.READ 15 0x0 0 0x0,
    sreq MT.READ 16 0x10 0 0x0,
    sreq MT.READ 17 0x20 0 0x0]
  resps := [sresp MT.READ 1 0 0 0x1,
    sresp MT.READ 2 0 0 0x11,
    sresp MT.READ 3 0 0 0x21,
    sresp MT.READ 4 1 0 0x1,
    sresp MT.READ 5 1 0 0x11,
    sresp MT.READ 6 1 0 0x21,
    sresp MT.INV 7 0 0 0x0,
    sresp MT.READ 8 0 0 0x1,
    sresp MT.READ 9 0 0 0x11,
    sresp MT.READ 10 0 0 0x21,
    sresp MT.READ 11 1 0 0x1,
    sresp MT.READ 12 1 0 0x11,
    sresp MT.READ 13 1 0 0x21,
    sresp MT.INV 14 0 0 0x0,
    sresp MT.READ 15 0 0 0x1,
    sresp MT.READ 16 0 0 0x11,
    sresp MT.READ 17 0 0 0x21]

/-- `flush_short`, blocking_cache/test/InvFlushTests.py:106-120. -/
def t_flush_short : SeqTest where
  p := ⟨3, 25, 2, 2, 8, true⟩
  mem := invFlushMem
  reqs := [sreq MT.READ 1 0x0 0 0x0,
    sreq MT.WRITE 2 0x10 0 0xdeadbeef,
    sreq MT.READ 3 0x20 0 0x0,
    sreq MT.WRITE 4 0x30 0 0xc0ffee,
    sreq MT.FLUSH 5 0x0 0 0x0,
    sreq MT.READ 6 0x0 0 0x0,
    sreq MT.READ 7 0x10 0 0x0,
    sreq MT.READ 8 0x20 0 0x0,
    sreq MT.READ 9 0x30 0 0x0]
  resps := [sresp MT.READ 1 0 0 0x1,
    sresp MT.WRITE 2 0 0 0x0,
    sresp MT.READ 3 0 0 0x21,
    sresp MT.WRITE 4 0 0 0x0,
    sresp MT.FLUSH 5 0 0 0x0,
    sresp MT.READ 6 1 0 0x1,
    sresp MT.READ 7 1 0 0xdeadbeef,
    sresp MT.READ 8 1 0 0x21,
    sresp MT.READ 9 1 0 0xc0ffee]

/-- `flush_last_line1`, blocking_cache/test/InvFlushTests.py:122-131. -/
def t_flush_last_line1 : SeqTest where
  p := ⟨1, 27, 2, 2, 8, false⟩
  mem := invFlushMem
  reqs := [sreq MT.WRITE 1 0x0 0 0x1,
    sreq MT.FLUSH 2 0x0 0 0x0,
    sreq MT.READ 3 0x0 0 0x0]
  resps := [sresp MT.WRITE 1 0 0 0x0,
    sresp MT.FLUSH 2 0 0 0x0,
    sresp MT.READ 3 1 0 0x1]

/-- `flush_last_line2`, blocking_cache/test/InvFlushTests.py:133-144. -/
def t_flush_last_line2 : SeqTest where
  p := ⟨1, 27, 2, 2, 8, false⟩
  mem := invFlushMem
  reqs := [sreq MT.WRITE 1 0x0 0 0x1,
    sreq MT.WRITE 2 0x10 0 0x2,
    sreq MT.FLUSH 3 0x0 0 0x0,
    sreq MT.READ 4 0x0 0 0x0,
    sreq MT.READ 5 0x10 0 0x0]
  resps := [sresp MT.WRITE 1 0 0 0x0,
    sresp MT.WRITE 2 0 0 0x0,
    sresp MT.FLUSH 3 0 0 0x0,
    sresp MT.READ 4 1 0 0x1,
    sresp MT.READ 5 1 0 0x2]

/-- `inv_flush_short`, blocking_cache/test/InvFlushTests.py:146-161. -/
def t_inv_flush_short : SeqTest where
  p := ⟨3, 25, 2, 2, 8, true⟩
  mem := invFlushMem
  reqs := [sreq MT.READ 1 0x0 0 0x0,
    sreq MT.WRITE 2 0x10 0 0xdeadbeef,
    sreq MT.READ 3 0x20 0 0x0,
    sreq MT.WRITE 4 0x30 0 0xc0ffee,
    sreq MT.FLUSH 5 0x0 0 0x0,
    sreq MT.INV 6 0x0 0 0x0,
    sreq MT.READ 7 0x0 0 0x0,
    sreq MT.READ 8 0x10 0 0x0,
    sreq MT.READ 9 0x20 0 0x0,
    sreq MT.READ 10 0x30 0 0x0]
  resps := [sresp MT.READ 1 0 0 0x1,
    sresp MT.WRITE 2 0 0 0x0,
    sresp MT.READ 3 0 0 0x21,
    sresp MT.WRITE 4 0 0 0x0,
    sresp MT.FLUSH 5 0 0 0x0,
    sresp MT.INV 6 0 0 0x0,
    sresp MT.READ 7 0 0 0x1,
    sresp MT.READ 8 0 0 0xdeadbeef,
    sresp MT.READ 9 0 0 0x21,
    sresp MT.READ 10 0 0 0xc0ffee]

/-- `inv_simple1`, blocking_cache/test/InvFlushTests.py:163-171. -/
def t_inv_simple1 : SeqTest where
  p := ⟨1, 27, 2, 2, 8, true⟩
  mem := invFlushMem
  reqs := [sreq MT.WRITE 1 0x0 0 0xff,
    sreq MT.INV 2 0x0 0 0x0,
    sreq MT.READ 3 0x0 0 0x0]
  resps := [sresp MT.WRITE 1 0 0 0x0,
    sresp MT.INV 2 0 0 0x0,
    sresp MT.READ 3 0 0 0xff]

/-- `inv_simple2`, blocking_cache/test/InvFlushTests.py:173-181. -/
def t_inv_simple2 : SeqTest where
  p := ⟨1, 27, 2, 2, 8, true⟩
  mem := invFlushMem
  reqs := [sreq MT.READ 1 0x0 0 0x0,
    sreq MT.INV 2 0x0 0 0x0,
    sreq MT.READ 3 0x0 0 0x0]
  resps := [sresp MT.READ 1 0 0 0x1,
    sresp MT.INV 2 0 0 0x0,
    sresp MT.READ 3 0 0 0x1]

/-- `inv_simple3`, blocking_cache/test/InvFlushTests.py:183-193. -/
def t_inv_simple3 : SeqTest where
  p := ⟨1, 27, 2, 2, 8, true⟩
  mem := invFlushMem
  reqs := [sreq MT.WRITE 1 0x0 0 0xff,
    sreq MT.INV 2 0x0 0 0x0,
    sreq MT.WRITE 3 0x4 0 0x22,
    sreq MT.READ 4 0x0 0 0x0,
    sreq MT.READ 4 0x4 0 0x0]
  resps := [sresp MT.WRITE 1 0 0 0x0,
    sresp MT.INV 2 0 0 0x0,
    sresp MT.WRITE 3 0 0 0x0,
    sresp MT.READ 4 1 0 0xff,
    sresp MT.READ 4 1 0 0x22]

/-- `inv_refill_short1`, blocking_cache/test/InvFlushTests.py:195-205. -/
def t_inv_refill_short1 : SeqTest where
  p := ⟨1, 27, 2, 2, 8, true⟩
  mem := invFlushMem
  reqs := [sreq MT.WRITE 1 0x14 0 0xc0ffee,
    sreq MT.WRITE 2 0x1c 0 0xdeadbeef,
    sreq MT.INV 3 0x0 0 0x0,
    sreq MT.READ 4 0x14 0 0x0,
    sreq MT.READ 5 0x1c 0 0x0]
  resps := [sresp MT.WRITE 1 0 0 0x0,
    sresp MT.WRITE 2 1 0 0x0,
    sresp MT.INV 3 0 0 0x0,
    sresp MT.READ 4 0 0 0xc0ffee,
    sresp MT.READ 5 1 0 0xdeadbeef]

/-- `inv_refill_short2`, blocking_cache/test/InvFlushTests.py:207-218. -/
def t_inv_refill_short2 : SeqTest where
  p := ⟨1, 27, 2, 2, 8, true⟩
  mem := invFlushMem
  reqs := [sreq MT.WRITE 1 0x0 0 0x1,
    sreq MT.WRITE 2 0x20000 0 0x2,
    sreq MT.INV 3 0x0 0 0x0,
    sreq MT.READ 4 0x0 0 0x0,
    sreq MT.READ 5 0x20000 0 0x0,
    sreq MT.READ 6 0x20004 0 0x0]
  resps := [sresp MT.WRITE 1 0 0 0x0,
    sresp MT.WRITE 2 0 0 0x0,
    sresp MT.INV 3 0 0 0x0,
    sresp MT.READ 4 0 0 0x1,
    sresp MT.READ 5 0 0 0x2,
    sresp MT.READ 6 1 0 0x6]

/-- `inv_refill_short3`, blocking_cache/test/InvFlushTests.py:220-231. -/
def t_inv_refill_short3 : SeqTest where
  p := ⟨1, 27, 2, 2, 8, true⟩
  mem := invFlushMem
  reqs := [sreq MT.WRITE 1 0x0 0 0x1,
    sreq MT.WRITE 2 0x20000 0 0x2,
    sreq MT.INV 3 0x0 0 0x0,
    sreq MT.READ 4 0x20000 0 0x0,
    sreq MT.READ 5 0x0 0 0x0,
    sreq MT.READ 6 0x20004 0 0x0]
  resps := [sresp MT.WRITE 1 0 0 0x0,
    sresp MT.WRITE 2 0 0 0x0,
    sresp MT.INV 3 0 0 0x0,
    sresp MT.READ 4 0 0 0x2,
    sresp MT.READ 5 0 0 0x1,
    sresp MT.READ 6 1 0 0x6]

/-- `inv_refill_short4`, blocking_cache/test/InvFlushTests.py:233-245. -/
def t_inv_refill_short4 : SeqTest where
  p := ⟨1, 27, 2, 2, 8, true⟩
  mem := invFlushMem
  reqs := [sreq MT.WRITE 1 0x0 0 0xc0ffee,
    sreq MT.WRITE 2 0xc 0 0xdeadbeef,
    sreq MT.INV 3 0x0 0 0x0,
    sreq MT.WRITE 4 0x20000 0 0x1,
    sreq MT.READ 5 0xc 0 0x0,
    sreq MT.READ 6 0x0 0 0x0,
    sreq MT.READ 7 0x20000 0 0x0]
  resps := [sresp MT.WRITE 1 0 0 0x0,
    sresp MT.WRITE 2 1 0 0x0,
    sresp MT.INV 3 0 0 0x0,
    sresp MT.WRITE 4 0 0 0x0,
    sresp MT.READ 5 0 0 0xdeadbeef,
    sresp MT.READ 6 1 0 0xc0ffee,
    sresp MT.READ 7 1 0 0x1]

/-- `inv_refill1`, blocking_cache/test/InvFlushTests.py:248-260. -/
def t_inv_refill1 : SeqTest where
  p := ⟨1, 27, 2, 2, 8, true⟩
  mem := invFlushMem
  reqs := [sreq MT.WRITE 1 0x0 0 0xc0ffee,
    sreq MT.WRITE 2 0x2000c 0 0xdeadbeef,
    sreq MT.INV 3 0x0 0 0x0,
    sreq MT.READ 4 0x0 0 0x0,
    sreq MT.READ 5 0x30000 0 0x0,
    sreq MT.READ 7 0x0 0 0x0,
    sreq MT.READ 6 0x2000c 0 0x0]
  resps := [sresp MT.WRITE 1 0 0 0x0,
    sresp MT.WRITE 2 0 0 0x0,
    sresp MT.INV 3 0 0 0x0,
    sresp MT.READ 4 0 0 0xc0ffee,
    sresp MT.READ 5 0 0 0xd,
    sresp MT.READ 7 1 0 0xc0ffee,
    sresp MT.READ 6 0 0 0xdeadbeef]

/-- `inv_refill2`, blocking_cache/test/InvFlushTests.py:263-273. -/
def t_inv_refill2 : SeqTest where
  p := ⟨1, 27, 2, 2, 8, true⟩
  mem := invFlushMem
  reqs := [sreq MT.WRITE 1 0x0 0 0xc0ffee,
    sreq MT.WRITE 2 0x2000c 0 0xdeadbeef,
    sreq MT.INV 3 0x0 0 0x0,
    sreq 3 4 0x0 0 0x1,
    sreq MT.READ 5 0x0 0 0x0]
  resps := [sresp MT.WRITE 1 0 0 0x0,
    sresp MT.WRITE 2 0 0 0x0,
    sresp MT.INV 3 0 0 0x0,
    sresp 3 4 0 0 0xc0ffee,
    sresp MT.READ 5 0 0 0xc0ffef]

/-- `inv_refill3`, blocking_cache/test/InvFlushTests.py:276-287. -/
def t_inv_refill3 : SeqTest where
  p := ⟨1, 27, 2, 2, 8, true⟩
  mem := invFlushMem
  reqs := [sreq MT.WRITE 1 0x0 0 0xc0ffee,
    sreq MT.WRITE 2 0x20000 0 0x1,
    sreq MT.INV 3 0x0 0 0x0,
    sreq 3 4 0x20000 0 0x10,
    sreq MT.READ 5 0x0 0 0x0,
    sreq MT.READ 6 0x20000 0 0x0]
  resps := [sresp MT.WRITE 1 0 0 0x0,
    sresp MT.WRITE 2 0 0 0x0,
    sresp MT.INV 3 0 0 0x0,
    sresp 3 4 0 0 0x1,
    sresp MT.READ 5 0 0 0xc0ffee,
    sresp MT.READ 6 0 0 0x11]

/-- `inv_refill4`, blocking_cache/test/InvFlushTests.py:290-301. -/
def t_inv_refill4 : SeqTest where
  p := ⟨1, 27, 2, 2, 8, true⟩
  mem := invFlushMem
  reqs := [sreq MT.WRITE 1 0x0 0 0xc0ffee,
    sreq MT.WRITE 2 0x20000 0 0x1,
    sreq 3 4 0x20000 0 0x10,
    sreq MT.INV 3 0x0 0 0x0,
    sreq MT.READ 5 0x0 0 0x0,
    sreq MT.READ 6 0x20000 0 0x0]
  resps := [sresp MT.WRITE 1 0 0 0x0,
    sresp MT.WRITE 2 0 0 0x0,
    sresp 3 4 0 0 0x1,
    sresp MT.INV 3 0 0 0x0,
    sresp MT.READ 5 0 0 0xc0ffee,
    sresp MT.READ 6 0 0 0x11]

/-- `inv_refill5`, blocking_cache/test/InvFlushTests.py:304-312. -/
def t_inv_refill5 : SeqTest where
  p := ⟨1, 27, 2, 2, 8, false⟩
  mem := invFlushMem
  reqs := [sreq MT.WRITE 1 0xe 2 0xffee,
    sreq MT.INV 2 0x0 0 0x0,
    sreq MT.READ 3 0xe 2 0x0]
  resps := [sresp MT.WRITE 1 0 2 0x0,
    sresp MT.INV 2 0 0 0x0,
    sresp MT.READ 3 0 2 0xffee]

/-- `hypo_1`, blocking_cache/test/InvFlushTests.py:314-322. -/
def t_hypo_1 : SeqTest where
  p := ⟨1, 27, 2, 2, 8, false⟩
  mem := invFlushMem
  reqs := [sreq MT.FLUSH 0 0x0 0 0x0,
    sreq MT.FLUSH 1 0x0 0 0x0]
  resps := [sresp MT.FLUSH 0 0 0 0x0,
    sresp MT.FLUSH 1 0 0 0x0]

/-- `hypo_2`, blocking_cache/test/InvFlushTests.py:324-335. -/
def t_hypo_2 : SeqTest where
  p := ⟨1, 27, 2, 2, 8, false⟩
  mem := invFlushMem
  reqs := [sreq MT.WRITE 0 0x0 0 0xa,
    sreq MT.INV 1 0x0 0 0x0,
    sreq MT.READ 2 0x0 0 0x0,
    sreq MT.INV 3 0x0 0 0x0,
    sreq MT.READ 4 0x0 0 0x0]
  resps := [sresp MT.WRITE 0 0 0 0x0,
    sresp MT.INV 1 0 0 0x0,
    sresp MT.READ 2 0 0 0xa,
    sresp MT.INV 3 0 0 0x0,
    sresp MT.READ 4 0 0 0xa]

/-- `hypo_test`, blocking_cache/test/InvFlushTests.py:337-345. -/
def t_hypo_test : SeqTest where
  p := ⟨1, 28, 1, 3, 8, true⟩
  mem := invFlushMem
  reqs := [sreq 7 0 0x30010 4 0x0,
    sreq 3 1 0x30010 4 0x0]
  resps := [sresp 7 0 0 4 0xaaa,
    sresp 3 1 0 4 0x0]

/-- `len3_short`, blocking_cache/test/OtherCiferTests.py:51-72. -/
def t_len3_short : SeqTest where
  p := ⟨7, 21, 2, 2, 8, true⟩
  mem := otherMem
  reqs := [sreq MT.READ 1 0x20010 0 0x0,
    sreq MT.READ 2 0x20014 0 0x0,
    sreq MT.WRITE 3 0x20010 0 0xdead,
    sreq MT.READ 4 0x20010 0 0x0,
    sreq MT.READ 5 0x20014 0 0x0,
    sreq MT.WRITE 6 0x20010 3 0xbeef,
    sreq MT.READ 7 0x20010 0 0x0,
    sreq MT.READ 8 0x20014 0 0x0,
    sreq MT.READ 9 0x30018 0 0x0,
    sreq MT.READ 10 0x3001c 0 0x0,
    sreq MT.WRITE 11 0x30018 0 0xfff0fff0,
    sreq MT.READ 12 0x30018 0 0x0,
    sreq MT.READ 13 0x3001c 0 0x0,
    sreq MT.WRITE 14 0x30018 3 0xdeaddead,
    sreq MT.READ 15 0x30018 0 0x0,
    sreq MT.READ 16 0x3001c 0 0x0]
  resps := [sresp MT.READ 1 0 0 0x9,
    sresp MT.READ 2 1 0 0xa,
    sresp MT.WRITE 3 1 0 0x0,
    sresp MT.READ 4 1 0 0xdead,
    sresp MT.READ 5 1 0 0xa,
    sresp MT.WRITE 6 1 3 0x0,
    sresp MT.READ 7 1 0 0xbeef,
    sresp MT.READ 8 1 0 0x0,
    sresp MT.READ 9 0 0 0xdeadbeef,
    sresp MT.READ 10 1 0 0xffc0ffee,
    sresp MT.WRITE 11 1 0 0x0,
    sresp MT.READ 12 1 0 0xfff0fff0,
    sresp MT.READ 13 1 0 0xffc0ffee,
    sresp MT.WRITE 14 1 3 0x0,
    sresp MT.READ 15 1 0 0xdeaddead,
    sresp MT.READ 16 1 0 0x0]

/-! ## The theorems -/

/-- The directed tests whose requests are valid
(GenericTestCases.py, AmoTests.py, InvFlushTests.py, OtherCiferTests.py). -/
def repoTests : List SeqTest :=
  [t_rd_miss_1wd_cn, t_wr_miss_1wd_cn, t_rd_miss_dty, t_rd_ev_1wd, t_long_msg_1way, t_rd_miss_1b,
   t_wr_miss_1b, t_rd_miss_2b, t_wr_miss_2b, t_rd_data128_line128, t_rd_data32_line64, t_wr_miss_1s,
   t_wr_miss_2s, t_ev_2way, t_long_msg_2way, t_dbw64_clw64, t_cifer_hypo1, t_subword, t_amo_read,
   t_line_1way, t_diff_tag, t_line_2way, t_amo_ad, t_amo_an, t_amo_or, t_amo_sw, t_amo_mi, t_amo_mu,
   t_amo_mx, t_amo_xu, t_amo_xo, t_same_line, t_amo_hypo2, t_amo_hypo3, t_amo_hypo4, t_amo_hypo5,
   t_amo_hypo6, t_invalidation_short, t_inv_evict_short, t_invalidation_medium, t_flush_short,
   t_flush_last_line1, t_flush_last_line2, t_inv_flush_short, t_inv_simple1, t_inv_simple2, t_inv_simple3,
   t_inv_refill_short1, t_inv_refill_short2, t_inv_refill_short3, t_inv_refill_short4, t_inv_refill1,
   t_inv_refill2, t_inv_refill3, t_inv_refill4, t_inv_refill5, t_hypo_1, t_hypo_2, t_hypo_test, t_len3_short]


set_option maxRecDepth 100000 in
theorem repoTests_checked : repoTests.all SeqTest.check = true := by decide +kernel

theorem SeqTest.of_check {T : SeqTest} (h : T.check = true) :
    T.p.WF ∧ (∀ q ∈ T.reqs, q.Valid) ∧ expectSeq T.mem T.reqs = T.resps := by
  simp only [SeqTest.check, Bool.and_eq_true, decide_eq_true_eq, List.all_eq_true] at h
  obtain ⟨⟨⟨h1, h2, h3, h4⟩, h5⟩, h6⟩ := h
  exact ⟨⟨h1, h2, h3, h4⟩, fun q hq => validX_sound (h5 q hq), h6⟩

/-- **C46, the tests of the repository.**  Each of the directed tests, run from its memory image with
any timing of the processor side, of memory and of the clock: the responses that have left the
cache are those the test lists, in order; when as many have left as there are requests, all of
them. -/
theorem C46_repo_tests : ∀ T ∈ repoTests, ∀ (S S' : Sys Unit T.p) (tr : List (Ev Unit T.p)),
    Start S → S.mem = T.mem → Run S tr S' → accepted () tr <+: T.reqs →
    responses () tr <+: T.resps ∧ ((responses () tr).length = T.reqs.length → responses () tr = T.resps) := by
  intro T hT S S' tr h0 hm h ha
  obtain ⟨wf, hv, he⟩ := SeqTest.of_check (List.all_eq_true.1 repoTests_checked T hT)
  have := C46_test wf h0 h hv ha
  rwa [hm, he] at this

/-- **C46, the tests of the repository terminate.**  If the output ports are ready again and again,
memory answers and the source keeps offering, every directed test reaches the point where exactly
the listed responses have left. -/
theorem C46_repo_tests_terminate : ∀ T ∈ repoTests, ∀ X : Inf Unit T.p, Start (X.st 0) → (X.st 0).mem = T.mem →
    X.PortsReady () → X.MemoryAnswers () → X.Sources () T.reqs →
    ∃ t, ∀ t', t ≤ t' → responses () (X.trace t') = T.resps := by
  intro T hT X h0 hm hp hma hs
  obtain ⟨wf, hv, he⟩ := SeqTest.of_check (List.all_eq_true.1 repoTests_checked T hT)
  have := C46_terminates wf X h0 hp hma hv hs
  rwa [hm, he] at this

/-! ## Concrete cases -/

/-- Reset, then the memory of the test, arbitrary SRAM contents (test/sim_utils.py:152-156). -/
def SeqTest.start (T : SeqTest) : Sys Unit T.p :=
  ⟨fun _ => (garbage T.p).step ⟨true, false, default, true, true, false, default⟩, fun _ => [], fun _ => [], T.mem⟩

theorem SeqTest.start_start (T : SeqTest) : Start T.start :=
  ⟨fun _ => ⟨garbage T.p, ⟨true, false, default, true, true, false, default⟩, rfl, rfl⟩, fun _ => rfl, fun _ => rfl⟩

/-- The hypotheses of both theorems are met for every test of the list. -/
example : ∀ T ∈ repoTests, ∃ X : Inf Unit T.p, Start (X.st 0) ∧ (X.st 0).mem = T.mem ∧
    X.PortsReady () ∧ X.MemoryAnswers () ∧ X.Sources () T.reqs := by
  intro T hT
  obtain ⟨wf, hv, he⟩ := SeqTest.of_check (List.all_eq_true.1 repoTests_checked T hT)
  have hi : ∀ q ∈ T.reqs, q.ty ≠ MT.INIT := by
    intro q hq h
    have h1 := hv q hq
    cases h1 with
    | amo ty _ _ => rw [h] at ty; exact absurd ty.1 (by decide)
    | read ty | write ty | dword ty | inv ty | flush ty => rw [h] at ty; exact absurd ty (by decide)
  exact ⟨LiveEx.inf T.start T.reqs, T.start_start, rfl, (LiveEx.inf_fair _ _).1, (LiveEx.inf_fair _ _).2,
    LiveEx.inf_sources _ hi⟩

/-! ## Tests with WRITE_INIT or wide writes: model validation only -/

/-- As `driveIn`, but WRITE_INIT is offered too (not in the source: example driver). -/
def rawIn {p : Params} (S : Sys Unit p) (q : Option (CReq p)) : In p :=
  let i0 : In p := ⟨false, false, default, true, true, false, default⟩
  let i1 := match q with
    | some q => if ((S.cache ()).out i0).reqRdy then { i0 with reqEn := true, req := q } else i0
    | none => i0
  match S.respQ () with
    | r :: _ => { i1 with mrespEn := true, mresp := r }
    | [] => i1

/-- As `drive` (not in the source: example driver). -/
def rawDrive {p : Params} : Nat → Sys Unit p → List (CReq p) → List (CResp p)
  | 0, _, _ => []
  | n + 1, S, qs =>
    let i := rawIn S qs.head?
    let x := driveMem (S.clock () i)
    responses () (S.clockEvs () i) ++ rawDrive n x.1 (if i.reqEn then qs.tail else qs)

/-- The directed tests that use WRITE_INIT, and `wr_data128_line128`. -/
def initTests : List SeqTest :=
  [t_rd_hit_1wd, t_rd_hit_many, t_rd_hit_cline, t_wr_hit_clean, t_wr_hit_dirty, t_wr_hit_rd_hit, t_rd_hit_1b,
   t_wr_hit_1b, t_rd_hit_2b, t_wr_hit_2b, t_wr_data128_line128, t_rd_hit_1s, t_wr_hit_1s, t_rd_hit_2s,
   t_wr_hit_2s]

set_option maxRecDepth 100000 in
/-- The model passes them with the timing of `rawDrive` (a test of the model, one timing). -/
example : initTests.all (fun T => decide (rawDrive 80 T.start T.reqs = T.resps)) = true := by decide +kernel

end Verif
