import Verif.MemCL

/-!
# Ports of the test memory that share no bytes (specification for C89)

Which bytes a request looks at or changes, said without the memory's code, and what
the requests of one port would get from a memory all of their own.
-/

namespace Verif.MemPorts
variable {p : Params} {ι : Type} [DecidableEq ι]

/-- The request changes byte `x` (not in the source: specification of test/MemoryCL.py:82-97).  A READ changes
nothing; a WRITE changes the four bytes of each word whose mask bit is set, or, at a port without masks, the
`len` bytes at its address; anything else changes the four bytes at its address. -/
def Changes (mask : Bool) (m : MReq p) (x : Nat) : Prop :=
  if m.ty = MT.READ then False
  else if m.ty = MT.WRITE then
    if mask then
      m.addr.flat ≤ x ∧ x < m.addr.flat + 4 * p.nWords ∧ m.wmask.getLsbD ((x - m.addr.flat) / 4) = true
    else m.addr.flat ≤ x ∧ x < m.addr.flat + m.bytes
  else m.addr.flat ≤ x ∧ x < m.addr.flat + 4

/-- The answer to the request depends on byte `x` (not in the source: specification of test/MemoryCL.py:75-99). -/
def LooksAt (m : MReq p) (x : Nat) : Prop :=
  if m.ty = MT.READ then m.addr.flat ≤ x ∧ x < m.addr.flat + m.bytes
  else if m.ty = MT.WRITE then False
  else m.addr.flat ≤ x ∧ x < m.addr.flat + 4

/-- The requests `ms`, and nothing else, executed one after the other on contents `M`: final contents and
responses (test/MemoryCL.py:63-102 with one port). -/
def alone (mask : Bool) (M : ByteMem) : List (MReq p) → ByteMem × List (MResp p)
  | [] => (M, [])
  | m :: ms =>
    let r := memExecG mask M m
    let t := alone mask r.1 ms
    (t.1, r.2 :: t.2)

/-- No request of another port changes a byte that a request of port `k` looks at or changes (not in the source:
hypothesis about the use of test/MemoryCL.py). -/
def Undisturbed (mask : ι → Bool) (reqs : ι → List (MReq p)) (k : ι) : Prop :=
  ∀ j, j ≠ k → ∀ w ∈ reqs j, ∀ m ∈ reqs k, ∀ x,
    Changes (mask j) w x → ¬ LooksAt m x ∧ ¬ Changes (mask k) m x

/-- Every byte a request looks at has been changed by an earlier request of the list (not in the source: hypothesis
about the use of test/MemoryCL.py; the message lists of test/MemoryCL_test.py:85-205 are of this kind). -/
def WritesFirst (mask : Bool) (reqs : List (MReq p)) : Prop :=
  ∀ a m b, reqs = a ++ m :: b → ∀ x, LooksAt m x → ∃ w ∈ a, Changes mask w x

/-- All queues of the memory are empty (not in the source: predicate on the queues of test/MemoryCL.py:41-53). -/
def Drained (H : MemHist ι p) : Prop := ∀ k, H.st.reqQ k = [] ∧ H.st.respQ k = []

end Verif.MemPorts
