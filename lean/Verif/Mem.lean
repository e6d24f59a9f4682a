import Verif.Spec
import Verif.L1

/-!
# The memory behind the cache

`memExec` models one dequeue-execute-enqueue of `MemoryCL.up_mem`,
test/MemoryCL.py:61-102, on a `MagicMemoryFL` (PyMTL3 standard library, not in
/repo: modelled as a flat little-endian byte memory whose `amo` reads, combines
and writes one 32-bit word).
-/

namespace Verif
variable {p : Params}

/-- Word `j` of a line: `req.data[32*j:32*(j+1)]`, test/MemoryCL.py:90. -/
def wordAt (l : Line p) (j : Nat) : BitVec 32 := l.extractLsb' (32 * j) 32

/-- Masked write: for every word `j < n` whose mask bit is set,
`s.mem.write(req.addr + 4*j, 4, req.data[32*j:32*(j+1)])`, test/MemoryCL.py:88-90. -/
def maskedWrite (M : ByteMem) (a : Nat) (mask : Dty p) (d : Line p) : Nat → ByteMem
  | 0 => M
  | j + 1 =>
    let M := maskedWrite M a mask d j
    if mask.getLsbD j then writeLE M (a + 4 * j) 4 (wordAt d j).toNat else M

/-- `len_`, test/MemoryCL.py:70-71. -/
def MReq.bytes (m : MReq p) : Nat := if m.len.toNat = 0 then 2 ^ p.offBits else m.len.toNat

/-- Execution of one memory request, test/MemoryCL.py:73-100.  An AMO works on
the 32-bit word at its address ("Assume AMO operations are always a word",
line 97); for lengths other than 4 the standard library would be given operands
of different widths, which the correctness theorems exclude
(`CReq.Valid.amo`). -/
def memExec (M : ByteMem) (m : MReq p) : ByteMem × MResp p :=
  if m.ty = MT.READ then (M, ⟨m.ty, m.opq, BitVec.ofNat _ (readLE M m.addr.flat m.bytes)⟩)
  else if m.ty = MT.WRITE then
    (maskedWrite M m.addr.flat m.wmask m.data p.nWords, ⟨m.ty, m.opq, 0⟩)
  else
    let old := BitVec.ofNat 32 (readLE M m.addr.flat 4)
    (writeLE M m.addr.flat 4 (amoFun m.ty old (m.data.setWidth 32)).toNat,
      ⟨m.ty, m.opq, old.setWidth _⟩)

/-- Execution of a queue of requests in order (test/MemoryCL.py:62-104). -/
def memRun (M : ByteMem) : List (MReq p) → ByteMem × List (MResp p)
  | [] => (M, [])
  | m :: ms => ((memRun (memExec M m).1 ms).1, (memExec M m).2 :: (memRun (memExec M m).1 ms).2)

/-- Memory requests in a message list (not in the source: projection of a list). -/
def memMsgs (l : List (Msg p)) : List (MReq p) :=
  l.filterMap fun
    | .mem m => some m
    | .resp _ => none

/-- Responses in a message list (not in the source: projection of a list). -/
def respMsgs (l : List (Msg p)) : List (CResp p) :=
  l.filterMap fun
    | .mem _ => none
    | .resp r => some r

@[simp] theorem memMsgs_nil : memMsgs ([] : List (Msg p)) = [] := rfl
@[simp] theorem memMsgs_append (a b : List (Msg p)) : memMsgs (a ++ b) = memMsgs a ++ memMsgs b := by
  simp [memMsgs]
@[simp] theorem memMsgs_resp (r : CResp p) (l : List (Msg p)) : memMsgs (.resp r :: l) = memMsgs l := by
  simp [memMsgs]
@[simp] theorem memMsgs_mem (m : MReq p) (l : List (Msg p)) :
    memMsgs (.mem m :: l) = m :: memMsgs l := by simp [memMsgs]
@[simp] theorem respMsgs_nil : respMsgs ([] : List (Msg p)) = [] := rfl
@[simp] theorem respMsgs_append (a b : List (Msg p)) :
    respMsgs (a ++ b) = respMsgs a ++ respMsgs b := by simp [respMsgs]
@[simp] theorem respMsgs_resp (r : CResp p) (l : List (Msg p)) :
    respMsgs (.resp r :: l) = r :: respMsgs l := by simp [respMsgs]
@[simp] theorem respMsgs_mem (m : MReq p) (l : List (Msg p)) :
    respMsgs (.mem m :: l) = respMsgs l := by simp [respMsgs]

@[simp] theorem memRun_append (M : ByteMem) (a b : List (MReq p)) :
    memRun M (a ++ b) = ((memRun (memRun M a).1 b).1, (memRun M a).2 ++ (memRun (memRun M a).1 b).2) := by
  induction a generalizing M with
  | nil => simp [memRun]
  | cons m ms ih => simp [memRun, ih]

theorem MReq.canon_ty (m : MReq p) : m.canon.ty = m.ty := by
  simp only [MReq.canon]; split
  · rfl
  split <;> rfl

/-- The canonical form of a request has the same effect and the same answer
up to the opaque field. -/
theorem memExec_canon (M : ByteMem) (m : MReq p) :
    (memExec M m.canon).1 = (memExec M m).1 ∧ (memExec M m.canon).2.ty = (memExec M m).2.ty ∧
    (memExec M m.canon).2.data = (memExec M m).2.data := by
  by_cases h1 : m.ty = MT.READ
  · simp [MReq.canon, h1, memExec, MReq.bytes]
  by_cases h2 : m.ty = MT.WRITE
  · simp [MReq.canon, h2, memExec]
  · simp [MReq.canon, h1, h2, memExec]

@[simp] theorem memExec_ty (M : ByteMem) (m : MReq p) : (memExec M m).2.ty = m.ty := by
  simp only [memExec]; split
  · rfl
  split <;> rfl

end Verif
