import Verif.Sys
import Verif.NetEnc
import Verif.NetUnits

/-!
# SRAMs whose output is unspecified when they are not read

The Python SRAM (sram/SramGenericPRTL.py:41-46) keeps its output register when it is not
read.  The Verilog that replaces it in a chip (sram/brg_gf14_sram_generic_synopsys.v) does
not: the behavioural branch outputs 0, and the hard macros `gf14_sram_*` are black boxes
whose output is unspecified after a write or an idle cycle.  Here the cache is clocked with
SRAMs that output *anything* in the cycle after one in which they were not read.
-/

namespace Verif
open Net (packEntry unpackEntry tagArrayBits encTagWben)
variable {p : Params}

/-- What the SRAMs put on their output registers when they are not read (sram/brg_gf14_sram_generic_synopsys.v). -/
structure Junk (p : Params) where
  tag : Way → Entry p
  data : Line p

/-- The tag array of way `w` is read in this cycle: `port0_val` and not `port0_type`,
BlockingCacheDpathRTL.py:182-189, BlockingCacheCtrlRTL.py:371-390, 408-438. -/
def St.tagRead (s : St p) (i : In p) (w : Way) : Bool :=
  s.tagVal0 (s.trans0 i) w && !(cs0 (s.trans0 i)).wr

/-- The data array is read in this cycle, BlockingCacheDpathRTL.py:317-322,
BlockingCacheCtrlRTL.py:595-629. -/
def St.dataRead (s : St p) : Bool := s.cs1.val && !s.cs1.wr

/-- One clock edge with SRAMs that output `g` unless they are read.  Everything else is
`St.step` (as `St.step`, RTL.lean; the SRAMs of BlockingCacheDpathRTL.py with sram/SramPRTL.py). -/
def St.stepJ (s : St p) (i : In p) (g : Junk p) : St p :=
  { s.step i with
    tagDout := fun w => if s.tagRead i w then (s.step i).tagDout w else g.tag w
    data := ⟨(s.step i).data.ram, if s.dataRead then (s.step i).data.dout else g.data⟩ }

/-- The outputs in a sequence of cycles, with the inputs and the junk of each cycle (not in the source: iteration). -/
def St.outsJ (s : St p) : List (In p × Junk p) → List (Out p)
  | [] => []
  | (i, g) :: l => s.out i :: (s.stepJ i g).outsJ l

/-- The outputs of the cache with the Python SRAMs (not in the source: iteration). -/
def St.outs (s : St p) : List (In p) → List (Out p)
  | [] => []
  | i :: l => s.out i :: (s.step i).outs l

/-! ## Systems with such SRAMs -/

section
variable {ι : Type} [DecidableEq ι]

/-- One clock edge of cache `k`; as `Sys.clock` with `St.stepJ` (test/sim_utils.py:127-150). -/
def Sys.clockJ (S : Sys ι p) (k : ι) (i : In p) (g : Junk p) : Sys ι p :=
  { S.clock k i with cache := upd S.cache k ((S.cache k).stepJ i g) }

/-- One step of the system; as `Step`, with arbitrary junk at every clock edge (test/sim_utils.py:127-150). -/
inductive JStep : Sys ι p → List (Ev ι p) → Sys ι p → Prop
  | clock (S : Sys ι p) (k : ι) (i : In p) (g : Junk p) (h : S.CanClock k i) :
      JStep S (S.clockEvs k i) (S.clockJ k i g)
  | exec (S : Sys ι p) (k : ι) (m : MReq p) (ms : List (MReq p)) (h : S.reqQ k = m :: ms) :
      JStep S [.exec k m (memExec S.mem m).2] (S.exec k m)

/-- A finite execution with its events (not in the source: iteration). -/
inductive JRun : Sys ι p → List (Ev ι p) → Sys ι p → Prop
  | refl (S : Sys ι p) : JRun S [] S
  | snoc {S S' S'' : Sys ι p} {tr ev : List (Ev ι p)} (h : JRun S tr S') (hs : JStep S' ev S'') :
      JRun S (tr ++ ev) S''

end

/-! ## The Verilog SRAM -/

/-- State of the Verilog module `SramGenericPRTL` without a hard macro:
brg_gf14_sram_generic_synopsys.v:27, 55 (`q`, `ram`). -/
structure SramV (ι : Type) (n : Nat) where
  ram : ι → BitVec n
  q : BitVec n

/-- `read_logic`, `write_logic`, `update_sram`, brg_gf14_sram_generic_synopsys.v:34-38, 58-80.
The array is only updated by a write; `q` becomes 0 unless the array is read. -/
def SramV.tick {ι : Type} [DecidableEq ι] {n : Nat} (s : SramV ι n) (CSB1 WEB1 : Bool) (A1 : ι)
    (I1 WBM1 : BitVec n) : SramV ι n where
  ram := if !CSB1 && !WEB1 then
      fun j => mkBits n fun i =>
        if (j = A1 : Bool) && (!CSB1 && !WEB1 && WBM1.getLsbD i) then I1.getLsbD i else (s.ram j).getLsbD i
    else s.ram
  q := if !CSB1 && WEB1 then s.ram A1 else 0

/-- Clock edge of `SramPRTL` (sram/SramPRTL.py:46-60) around the Verilog module. -/
def SramV.edge {ι : Type} [DecidableEq ι] {n : Nat} (s : SramV ι n) (val wr : Bool) (idx : ι) (wdata wben : BitVec n) :
    SramV ι n :=
  s.tick (!val) (!wr) idx wdata wben

/-- The tag array of way `w` after the clock edge, built from the Verilog module; ports as in
BlockingCacheDpathRTL.py:182-189. -/
def St.tagV (s : St p) (i : In p) (w : Way) : SramV (Idx p) (tagArrayBits p) :=
  (⟨fun j => packEntry (s.tagRam w j), packEntry (s.tagDout w)⟩ : SramV (Idx p) (tagArrayBits p)).edge
    (s.tagVal0 (s.trans0 i) w) (cs0 (s.trans0 i)).wr (s.tagIdx0 i (s.trans0 i))
    (packEntry (s.tagWdata0 i (s.trans0 i))) (encTagWben p (cs0 (s.trans0 i)).wben)

/-- The data array after the clock edge, built from the Verilog module; ports as in
BlockingCacheDpathRTL.py:279-290, 317-322. -/
def St.dataV (s : St p) : SramV (BitVec p.cntBits) p.lineBits :=
  (⟨s.data.ram, s.data.dout⟩ : SramV (BitVec p.cntBits) p.lineBits).edge s.cs1.val s.cs1.wr
    (indexer p s.addr1.idx s.wayOff) s.req1.data
    (writeBitEn p s.cs1.wben s.dtyMask1 s.req1.addr.off s.req1.len)

/-- One clock edge of the cache with the Verilog SRAMs (sram/brg_gf14_sram_generic_synopsys.v). -/
def St.stepV (s : St p) (i : In p) : St p :=
  { s.step i with
    tagRam := fun w j => unpackEntry ((s.tagV i w).ram j)
    tagDout := fun w => unpackEntry (s.tagV i w).q
    data := ⟨s.dataV.ram, s.dataV.q⟩ }

/-- The outputs of the cache with the Verilog SRAMs (not in the source: iteration). -/
def St.outsV (s : St p) : List (In p) → List (Out p)
  | [] => []
  | i :: l => s.out i :: (s.stepV i).outsV l

end Verif
