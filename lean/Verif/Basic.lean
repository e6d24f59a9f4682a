/-!
# Parameters, messages and bit helpers of the cache model

Everything is parametric in the widths; nothing is fixed to the default
configuration of the repository.
-/

namespace Verif

/-- Parameters of one cache.

Models `CacheDerivedParams.__init__`, blocking_cache/CacheDerivedParams.py:24-77.
The constructor of the repository receives byte counts and message types and
derives bit widths with `clog2`; the model starts from the derived bit widths
(`Verif/Derived.lean` models the derivation and shows that every power-of-two
configuration yields such a record).  Only associativity 1 and 2 elaborate in
the repository (`ReplacementBitsReg` has 1-bit ports, registers.py:21-25), so
associativity is a Boolean. -/
structure Params where
  /-- `bitwidth_index`, CacheDerivedParams.py:52 -/
  idxBits : Nat
  /-- `bitwidth_tag`, CacheDerivedParams.py:54 -/
  tagBits : Nat
  /-- log2 of the number of 32-bit words per line;
  `bitwidth_offset = nwBits + 2`, CacheDerivedParams.py:53 -/
  nwBits : Nat
  /-- `bitwidth_len = clog2(bitwidth_data // 8)`, CacheDerivedParams.py:59 -/
  lenBits : Nat
  /-- `bitwidth_opaque`, CacheDerivedParams.py:46 -/
  opqBits : Nat
  /-- `associativity == 2` -/
  twoWay : Bool
deriving DecidableEq, Repr

namespace Params
variable (p : Params)

/-- `bitwidth_offset`, CacheDerivedParams.py:53 -/
def offBits : Nat := p.nwBits + 2
/-- `bitwidth_dirty = bitwidth_cacheline // 32`, CacheDerivedParams.py:66 -/
def nWords : Nat := 2 ^ p.nwBits
/-- `bitwidth_cacheline`, CacheDerivedParams.py:44 -/
def lineBits : Nat := 32 * p.nWords
/-- `bitwidth_data`, CacheDerivedParams.py:47 -/
def dataBits : Nat := 8 * 2 ^ p.lenBits
/-- `clog2(associativity)`; used for slicing the line counter,
BlockingCacheCtrlRTL.py:403 -/
def wayBits : Nat := if p.twoWay then 1 else 0
/-- `bitwidth_num_lines = clog2(total_num_cachelines)`, CacheDerivedParams.py:51 -/
def cntBits : Nat := p.idxBits + p.wayBits
/-- `bitwidth_addr`, CacheDerivedParams.py:45 -/
def addrBits : Nat := p.tagBits + (p.idxBits + p.offBits)

/-- The ways iterated over by `for i in range(p.associativity)`.
Way 0 is `false`, way 1 is `true` (BlockingCacheDpathRTL.py:119-121, units/arithmetics.py:282). -/
def ways : List Bool := if p.twoWay then [false, true] else [false]

/-- Configurations covered by the theorems: at least two sets, at least two
words per line (so that the double-word replication is defined,
arithmetics.py:44), data width 32, 64 or 128 (arithmetics.py:174 "hardcoded to
work for up to 128 bit"), line at least as wide as the data
(FastDataSelectMux, muxes.py:156-161). -/
structure WF : Prop where
  idx : 1 ≤ p.idxBits
  nw : 1 ≤ p.nwBits
  len : 2 ≤ p.lenBits ∧ p.lenBits ≤ 4
  fits : p.lenBits ≤ p.offBits

end Params

/-- Build a bit vector from its bits (bit 0 = least significant)
(bits assigned one by one, as in units/arithmetics.py:208-215). -/
def mkBits : (n : Nat) → (Nat → Bool) → BitVec n
  | 0, _ => 0#0
  | n + 1, f => BitVec.cons (f n) (mkBits n f)

@[simp] theorem getLsbD_mkBits (n : Nat) (f : Nat → Bool) (i : Nat) :
    (mkBits n f).getLsbD i = (decide (i < n) && f i) := by
  induction n with
  | zero => simp [mkBits]
  | succ n ih =>
    simp only [mkBits, BitVec.getLsbD_cons, ih]
    by_cases h : i = n
    · subst h; simp
    · simp only [h, if_false]
      have : (i < n) = (i < n + 1) := by simp; omega
      simp [this]

section types
variable (p : Params)

/-- A cache line (`BitsCacheline`), CacheDerivedParams.py:82 -/
abbrev Line := BitVec p.lineBits
/-- Word dirty mask (`BitsDirty`), CacheDerivedParams.py:100 -/
abbrev Dty := BitVec p.nWords
/-- Processor-side data (`BitsData`), CacheDerivedParams.py:81 -/
abbrev Data := BitVec p.dataBits
/-- Index (`BitsIdx`), CacheDerivedParams.py:83 -/
abbrev Idx := BitVec p.idxBits
/-- Tag (`BitsTag`), CacheDerivedParams.py:84 -/
abbrev Tag := BitVec p.tagBits
/-- Offset (`BitsOffset`), CacheDerivedParams.py:85 -/
abbrev Off := BitVec p.offBits
/-- Length field (`BitsLen`), CacheDerivedParams.py:77 -/
abbrev Len := BitVec p.lenBits
/-- Opaque field (`BitsOpaque`), CacheDerivedParams.py:78 -/
abbrev Opq := BitVec p.opqBits
/-- A way number; 1 bit for both supported associativities
(`bitwidth_clog_asso`, CacheDerivedParams.py:60-63). -/
abbrev Way := Bool

/-- Address bitstruct, `mk_addr_struct`, cacheStructs.py:178-186.  The
conversion between the struct and the flat address (tag most significant) is
modelled in `Verif/Addr.lean`. -/
structure Addr where
  tag : Tag p
  idx : Idx p
  off : Off p
deriving DecidableEq, Repr

/-- Address of a cache line. -/
structure LAddr where
  tag : Tag p
  idx : Idx p
deriving DecidableEq, Repr

/-- Tag array entry, `mk_tag_array_struct`, cacheStructs.py:188-194. -/
structure Entry where
  val : Bool
  dty : Dty p
  tag : Tag p
deriving DecidableEq, Repr

end types

/-- Line part of an address (the fields tag and index, cacheStructs.py:178-186). -/
def Addr.la {p : Params} (a : Addr p) : LAddr p := ⟨a.tag, a.idx⟩

/-- All-zero entry: `p.StructTagArray()`, arithmetics.py:303. -/
def Entry.zero (p : Params) : Entry p := ⟨false, 0, 0⟩

instance {p : Params} : Inhabited (Entry p) := ⟨Entry.zero p⟩
instance {p : Params} : Inhabited (Addr p) := ⟨⟨0, 0, 0⟩⟩

/-- Message types, `MemMsgType`, mem_ifcs/MemMsg.py:18-34 and
constants/constants.py:24-38. -/
abbrev MType := BitVec 4
namespace MT
/-- mem_ifcs/MemMsg.py:19 -/
abbrev READ : MType := 0#4
/-- mem_ifcs/MemMsg.py:20 -/
abbrev WRITE : MType := 1#4
/-- mem_ifcs/MemMsg.py:21 -/
abbrev INIT : MType := 2#4
/-- mem_ifcs/MemMsg.py:36 -/
abbrev AMO : MType := 3#4
/-- mem_ifcs/MemMsg.py:33 -/
abbrev INV : MType := 14#4
/-- mem_ifcs/MemMsg.py:34 -/
abbrev FLUSH : MType := 15#4
/-- `(type >= AMO_ADD) & (type < INV)`, BlockingCacheCtrlRTL.py:266-267, 278-279. -/
def isAmo (t : MType) : Bool := decide (3 ≤ t.toNat) && decide (t.toNat < 14)

@[simp] theorem READ_ne_WRITE : (READ = WRITE) = False := eq_false (by decide)
@[simp] theorem READ_ne_INIT : (READ = INIT) = False := eq_false (by decide)
@[simp] theorem READ_ne_AMO : (READ = AMO) = False := eq_false (by decide)
@[simp] theorem READ_ne_INV : (READ = INV) = False := eq_false (by decide)
@[simp] theorem READ_ne_FLUSH : (READ = FLUSH) = False := eq_false (by decide)
@[simp] theorem WRITE_ne_READ : (WRITE = READ) = False := eq_false (by decide)
@[simp] theorem WRITE_ne_INIT : (WRITE = INIT) = False := eq_false (by decide)
@[simp] theorem WRITE_ne_AMO : (WRITE = AMO) = False := eq_false (by decide)
@[simp] theorem WRITE_ne_INV : (WRITE = INV) = False := eq_false (by decide)
@[simp] theorem WRITE_ne_FLUSH : (WRITE = FLUSH) = False := eq_false (by decide)
@[simp] theorem INIT_ne_READ : (INIT = READ) = False := eq_false (by decide)
@[simp] theorem INIT_ne_WRITE : (INIT = WRITE) = False := eq_false (by decide)
@[simp] theorem INIT_ne_AMO : (INIT = AMO) = False := eq_false (by decide)
@[simp] theorem INIT_ne_INV : (INIT = INV) = False := eq_false (by decide)
@[simp] theorem INIT_ne_FLUSH : (INIT = FLUSH) = False := eq_false (by decide)
@[simp] theorem AMO_ne_READ : (AMO = READ) = False := eq_false (by decide)
@[simp] theorem AMO_ne_WRITE : (AMO = WRITE) = False := eq_false (by decide)
@[simp] theorem AMO_ne_INIT : (AMO = INIT) = False := eq_false (by decide)
@[simp] theorem AMO_ne_INV : (AMO = INV) = False := eq_false (by decide)
@[simp] theorem AMO_ne_FLUSH : (AMO = FLUSH) = False := eq_false (by decide)
@[simp] theorem INV_ne_READ : (INV = READ) = False := eq_false (by decide)
@[simp] theorem INV_ne_WRITE : (INV = WRITE) = False := eq_false (by decide)
@[simp] theorem INV_ne_INIT : (INV = INIT) = False := eq_false (by decide)
@[simp] theorem INV_ne_AMO : (INV = AMO) = False := eq_false (by decide)
@[simp] theorem INV_ne_FLUSH : (INV = FLUSH) = False := eq_false (by decide)
@[simp] theorem FLUSH_ne_READ : (FLUSH = READ) = False := eq_false (by decide)
@[simp] theorem FLUSH_ne_WRITE : (FLUSH = WRITE) = False := eq_false (by decide)
@[simp] theorem FLUSH_ne_INIT : (FLUSH = INIT) = False := eq_false (by decide)
@[simp] theorem FLUSH_ne_AMO : (FLUSH = AMO) = False := eq_false (by decide)
@[simp] theorem FLUSH_ne_INV : (FLUSH = INV) = False := eq_false (by decide)
@[simp] theorem isAmo_READ : isAmo READ = false := rfl
@[simp] theorem isAmo_WRITE : isAmo WRITE = false := rfl
@[simp] theorem isAmo_INIT : isAmo INIT = false := rfl
@[simp] theorem isAmo_AMO : isAmo AMO = true := rfl
@[simp] theorem isAmo_INV : isAmo INV = false := rfl
@[simp] theorem isAmo_FLUSH : isAmo FLUSH = false := rfl
end MT

/-- Processor request message, `mk_mem_req_msg(.., has_wr_mask=False)`,
mem_ifcs/MemMsg.py:125-131. -/
structure CReq (p : Params) where
  ty : MType
  opq : Opq p
  addr : Addr p
  len : Len p
  data : Data p
deriving DecidableEq, Repr

/-- Processor response message, `mk_mem_resp_msg(.., has_wr_mask=False)`,
mem_ifcs/MemMsg.py:186-192.  `test` is 2 bits wide. -/
structure CResp (p : Params) where
  ty : MType
  opq : Opq p
  test : BitVec 2
  len : Len p
  data : Data p
deriving DecidableEq, Repr

/-- Memory request message, `mk_mem_req_msg(.., has_wr_mask=True)`,
mem_ifcs/MemMsg.py:113-120.  The length field of a memory message has
`bitwidth_mem_len = clog2(bitwidth_cacheline // 8) = offBits` bits. -/
structure MReq (p : Params) where
  ty : MType
  opq : Opq p
  addr : Addr p
  len : BitVec p.offBits
  wmask : Dty p
  data : Line p
deriving DecidableEq, Repr

/-- Memory response message, `mk_mem_resp_msg(.., has_wr_mask=True)`,
mem_ifcs/MemMsg.py:174-181.  The `test`, `len` and `wr_mask` fields are never
looked at by the cache and are left out. -/
structure MResp (p : Params) where
  ty : MType
  opq : Opq p
  data : Line p
deriving DecidableEq, Repr

/-- Pipeline message, `mk_pipeline_msg`, cacheStructs.py:125-148. -/
structure PMsg (p : Params) where
  ty : MType
  opq : Opq p
  addr : Addr p
  len : Len p
  data : Line p
deriving DecidableEq, Repr

/-- MSHR entry, `mk_MSHR_msg`, cacheStructs.py:150-176. -/
structure MshrMsg (p : Params) where
  ty : MType
  opq : Opq p
  addr : Addr p
  len : Len p
  data : Data p
  repl : Way
  amoHit : Bool
  dirty : Dty p
deriving DecidableEq, Repr

instance {p : Params} : Inhabited (CReq p) := ⟨⟨0, 0, default, 0, 0⟩⟩
instance {p : Params} : Inhabited (MResp p) := ⟨⟨0, 0, 0⟩⟩
instance {p : Params} : Inhabited (PMsg p) := ⟨⟨0, 0, default, 0, 0⟩⟩
instance {p : Params} : Inhabited (MshrMsg p) := ⟨⟨0, 0, default, 0, 0, false, false, 0⟩⟩

end Verif
