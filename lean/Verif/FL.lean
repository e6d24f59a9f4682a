import Verif.Basic
import Verif.Spec

/-!
# Model of the functional-level reference model

`HitMissTracker` and `ModelCache` of blocking_cache/BlockingCacheFL.py, and the
generator `gen_req_resp` of test/sim_utils.py that drives them.  The sizes here are
those for `nbanks = 0`, the only value the repository passes (sim_utils.py:92); FLBank.lean has banks.
-/

namespace Verif
namespace FL

/-- `Bits[lo:hi]` of PyMTL3, as a number (BlockingCacheFL.py:128-130). -/
def slice (a lo hi : Nat) : Nat := a / 2 ^ lo % 2 ^ (hi - lo)

/-- Sizes of a tracker, `HitMissTracker.__init__`, BlockingCacheFL.py:85-104.
`offset_start = 0`, `bank_start = bank_end = idx_start = offset_end`,
`tag_start = idx_end`. -/
structure Cfg where
  nways : Nat
  /-- `offset_end` -/
  offEnd : Nat
  /-- `idx_end` -/
  idxEnd : Nat
  /-- `tag_end`, 32 in the repository -/
  tagEnd : Nat

/-- The sizes computed by `HitMissTracker.__init__(size, nways, 0, linesize)`
(sizes in bits), BlockingCacheFL.py:87-104.  `int(math.log(x, 2))` is modelled
by `Nat.log2` (floating point is not modelled). -/
def Cfg.make (size nways linesize : Nat) : Cfg :=
  let nlines := size / linesize
  let nsets := nlines / nways
  { nways := nways
    offEnd := Nat.log2 (linesize / 8)
    idxEnd := Nat.log2 (linesize / 8) + Nat.log2 nsets
    tagEnd := 32 }

/-- State of the tracker: arrays `line`, `valid`, `lru`, BlockingCacheFL.py:106-121. -/
structure Tracker where
  line : Nat → Nat → Nat
  valid : Nat → Nat → Bool
  lru : Nat → List Nat

/-- Initial state, BlockingCacheFL.py:106-121. -/
def Tracker.init (c : Cfg) : Tracker :=
  { line := fun _ _ => 0, valid := fun _ _ => false, lru := fun _ => List.range c.nways }

/-- `split_address`, BlockingCacheFL.py:126-131 (tag and index; the offset is
not used by the tracker). -/
def Cfg.tag (c : Cfg) (a : Nat) : Nat := slice a c.idxEnd c.tagEnd
/-- `split_address`, BlockingCacheFL.py:126-131. -/
def Cfg.idx (c : Cfg) (a : Nat) : Nat := slice a c.offEnd c.idxEnd

/-- `xs[i] := v` on arrays modelled as functions (as in BlockingCacheFL.py:137-175). -/
def put {α : Type} (f : Nat → α) (i : Nat) (v : α) : Nat → α := fun j => if j = i then v else f j

/-- `lru_hit`, BlockingCacheFL.py:134-136. -/
def Tracker.lruHit (s : Tracker) (idx way : Nat) : Tracker :=
  { s with lru := put s.lru idx (way :: (s.lru idx).erase way) }

/-- `lru_get`, BlockingCacheFL.py:140-141. -/
def Tracker.lruGet (s : Tracker) (idx : Nat) : Nat := (s.lru idx).getLastD 0

/-- The loop of `tag_check` (and of `amo_req`): the first way that is valid and
has the tag, BlockingCacheFL.py:145-149 and 174-178. -/
def Tracker.find (c : Cfg) (s : Tracker) (tag idx : Nat) : Option Nat :=
  (List.range c.nways).find? fun w => s.valid idx w && s.line idx w == tag

/-- `tag_check`, BlockingCacheFL.py:144-150. -/
def Tracker.tagCheck (c : Cfg) (s : Tracker) (tag idx : Nat) : Tracker × Bool :=
  match s.find c tag idx with
  | some w => (s.lruHit idx w, true)
  | none => (s, false)

/-- `refill`, BlockingCacheFL.py:153-157. -/
def Tracker.refill (s : Tracker) (tag idx : Nat) : Tracker :=
  let victim := s.lruGet idx
  let s1 : Tracker := { s with line := put s.line idx (put (s.line idx) victim tag)
                               valid := put s.valid idx (put (s.valid idx) victim true) }
  s1.lruHit idx victim

/-- `access_address`, BlockingCacheFL.py:161-166. -/
def Tracker.access (c : Cfg) (s : Tracker) (a : Nat) : Tracker × Bool :=
  let r := s.tagCheck c (c.tag a) (c.idx a)
  if r.2 then (r.1, true) else (r.1.refill (c.tag a) (c.idx a), false)

/-- `lru_set`, BlockingCacheFL.py:168-170. -/
def Tracker.lruSet (s : Tracker) (idx way : Nat) : Tracker :=
  { s with lru := put s.lru idx ((s.lru idx).erase way ++ [way]) }

/-- `amo_req`, BlockingCacheFL.py:172-178. -/
def Tracker.amo (c : Cfg) (s : Tracker) (a : Nat) : Tracker :=
  match s.find c (c.tag a) (c.idx a) with
  | some w =>
    let s1 : Tracker := { s with valid := put s.valid (c.idx a) (put (s.valid (c.idx a)) w false) }
    s1.lruSet (c.idx a) w
  | none => s

/-- `invalidate`, BlockingCacheFL.py:180-184 (all ways of all sets). -/
def Tracker.invalidate (s : Tracker) : Tracker := { s with valid := fun _ _ => false }

/-! ## `ModelCache` -/

variable {p : Params}

/-- `x[lo:lo+n]` for a line `x`, zero extended (`zext`) to the data width. -/
def getSlice {w : Nat} (v : BitVec w) (m lo n : Nat) : BitVec m :=
  mkBits m fun i => decide (i < n) && v.getLsbD (lo + i)

/-- `x[lo:lo+n] = d` (as in BlockingCacheFL.py:252-300). -/
def setSlice {w m : Nat} (v : BitVec w) (lo n : Nat) (d : BitVec m) : BitVec w :=
  mkBits w fun i => if lo ≤ i ∧ i < lo + n then d.getLsbD (i - lo) else v.getLsbD i

/-- State of `ModelCache`, BlockingCacheFL.py:187-226: tracker and the
dictionary from line numbers to lines.  The transaction list is the output of
the generator; the counter `self.opaque` is never read. -/
structure Model (p : Params) where
  tracker : Tracker
  mem : Nat → Option (Line p)

/-- The dictionary entry, created with value 0 if absent,
BlockingCacheFL.py:240-241, 257-258, 273-274. -/
def lookup (m : Nat → Option (Line p)) (n : Nat) : Line p := (m n).getD 0

/-- One pair of the initial memory image, BlockingCacheFL.py:220-226. -/
def loadWord (m : Nat → Option (Line p)) (av : Nat × BitVec 32) : Nat → Option (Line p) :=
  let offset := slice av.1 0 p.offBits
  let addr := slice av.1 p.offBits p.addrBits
  put m addr (some (setSlice (lookup m addr) (8 * offset) 32 av.2))

/-- `ModelCache.__init__`, BlockingCacheFL.py:188-226. -/
def Model.init (c : Cfg) (image : List (Nat × BitVec 32)) : Model p :=
  { tracker := Tracker.init c, mem := image.foldl loadWord (fun _ => none) }

/-- Number of bytes accessed by `read`/`write`: `len_`, or the full data width
if `len_ == 0`, BlockingCacheFL.py:242-245, 259-262. -/
def nbytes (q : CReq p) : Nat := if q.len.toNat = 0 then 2 ^ p.lenBits else q.len.toNat

/-- Key used by `amo`: `new_addr.int()`, a signed number, so negative (and
never present) if the most significant address bit is set,
BlockingCacheFL.py:286, 290, 296.  (`self.mem[new_addr]` in lines 288-289 uses a
`Bits` object as key; it has a different hash from the integer keys, so the
entry it creates is never read.) -/
def amoKey (a : Nat) : Option Nat :=
  let n := slice a p.offBits p.addrBits
  if n < 2 ^ (p.addrBits - p.offBits - 1) then some n else none

/-- `AMO_FUNS`, BlockingCacheFL.py:64-73, keyed by the message type
(mem_ifcs/MemMsg.py:22-30); `none` for the keys not in the table. -/
def AMO_FUNS (t : MType) : Option (BitVec 32 → BitVec 32 → BitVec 32) :=
  match t.toNat with
  | 3 => some fun m a => m + a
  | 4 => some fun m a => m &&& a
  | 5 => some fun m a => m ||| a
  | 6 => some fun _ a => a
  | 7 => some fun m a => if m.toInt < a.toInt then m else a
  | 8 => some fun m a => if a.toNat < m.toNat then a else m      -- Python `min(m, a)`
  | 9 => some fun m a => if m.toInt > a.toInt then m else a
  | 10 => some fun m a => if a.toNat > m.toNat then a else m     -- Python `max(m, a)`
  | 11 => some fun m a => m ^^^ a
  | _ => none

/-- `check_hit`, BlockingCacheFL.py:228-234, as the test field. -/
def testBit (b : Bool) : BitVec 2 := if b then 1 else 0

/-- One request through `gen_req_resp` (sim_utils.py:94-107) and the method of
`ModelCache` it dispatches to; `none` when Python raises.  The requests of the
transaction list are not modelled, only the responses.
`read` 236-250, `write` 252-266, `init` 268-281, `amo` 283-300,
`invalidate` 302-306, `flush` 308-311 of BlockingCacheFL.py. -/
def Model.step (c : Cfg) (s : Model p) (q : CReq p) : Option (Model p × CResp p) :=
  let a := q.addr.flat
  let new_addr := slice a p.offBits p.addrBits
  let offset := slice a 0 p.offBits
  if q.ty = MT.READ then
    let t := s.tracker.access c a
    let l := lookup s.mem new_addr
    -- slicing beyond the end of the line raises
    if offset + nbytes q ≤ 2 ^ p.offBits then
      some (⟨t.1, put s.mem new_addr (some l)⟩,
        ⟨MT.READ, q.opq, testBit t.2, q.len, getSlice l _ (8 * offset) (8 * nbytes q)⟩)
    else none
  else if q.ty = MT.WRITE then
    let t := s.tracker.access c a
    let l := lookup s.mem new_addr
    if offset + nbytes q ≤ 2 ^ p.offBits then
      some (⟨t.1, put s.mem new_addr (some (setSlice l (8 * offset) (8 * nbytes q) q.data))⟩,
        ⟨MT.WRITE, q.opq, testBit t.2, q.len, 0⟩)
    else none
  else if q.ty = MT.INIT then
    let t := s.tracker.access c a
    let l := lookup s.mem new_addr
    -- assigning the full-width value to a narrower slice raises
    if offset + 2 ^ p.lenBits ≤ 2 ^ p.offBits ∧ q.len.toNat = 0 then
      some (⟨t.1, put s.mem new_addr (some (setSlice l (8 * offset) p.dataBits q.data))⟩,
        ⟨MT.INIT, q.opq, 0, q.len, 0⟩)
    else none
  else if MT.AMO.toNat ≤ q.ty.toNat ∧ q.ty.toNat ≤ 11 then
    let t := s.tracker.amo c a
    match amoKey (p := p) a, AMO_FUNS q.ty with
    | some k, some f =>
      match s.mem k with
      | some l =>
        if offset + 4 ≤ 2 ^ p.offBits then
          let ret : BitVec 32 := getSlice l 32 (8 * offset) 32
          some (⟨t, put s.mem k (some (setSlice l (8 * offset) 32 (f ret (q.data.setWidth 32))))⟩,
            ⟨q.ty, q.opq, 0, q.len, ret.setWidth _⟩)
        else none
      | none => none
    | _, _ => none
  else if q.ty = MT.INV then
    some (⟨s.tracker.invalidate, s.mem⟩, ⟨MT.INV, q.opq, 0, 0, 0⟩)
  else if q.ty = MT.FLUSH then some (s, ⟨MT.FLUSH, q.opq, 0, 0, 0⟩)
  else none

/-- `gen_req_resp`, sim_utils.py:89-108: the responses, `none` if an exception
is raised. -/
def Model.run (c : Cfg) : Model p → List (CReq p) → Option (Model p × List (CResp p))
  | s, [] => some (s, [])
  | s, q :: qs =>
    match s.step c q with
    | none => none
    | some (s', r) =>
      match Model.run c s' qs with
      | none => none
      | some (s'', rs) => some (s'', r :: rs)

/-- The tracker configuration of the reference model of a cache `p` (BlockingCacheFL.py:187-200). -/
def Cfg.of (p : Params) : Cfg :=
  { nways := p.ways.length, offEnd := p.offBits, idxEnd := p.offBits + p.idxBits, tagEnd := p.addrBits }

end FL
end Verif
