import Verif.RTL

/-!
# Event-level machine `L1`

A proof device between the RTL and the flat memory.  It has the tag, data and
replacement arrays of the cache, no pipeline, no SRAM latency and no stalls.
It reacts atomically to two events:

* a processor request is accepted (`L1.accept`),
* memory answers the outstanding read or AMO (`L1.answer`),

and each reaction produces the list of messages (to memory or to the
processor) that the event causes, in order.  `Verif/Sim*.lean` proves that
the RTL emits exactly these messages, in this order.
-/

namespace Verif
variable {p : Params}

/-- A message leaving the cache, either to memory or to the processor.  Memory
requests are kept in the canonical form of `MReq.canon`. Event-level machine, a proof device; not in the source. -/
inductive Msg (p : Params)
  | mem (m : MReq p)
  | resp (r : CResp p)
deriving DecidableEq, Repr

/-- Forget the fields that carry no information: the opaque field of every
memory request, mask and data of a read, the mask of an AMO. Event-level machine, a proof device; not in the source. -/
def MReq.canon (m : MReq p) : MReq p :=
  if m.ty = MT.READ then { m with opq := 0, wmask := 0, data := 0 }
  else if m.ty = MT.WRITE then { m with opq := 0 }
  else { m with opq := 0, wmask := 0 }

/-- Read of a whole line. -/
def MReq.rd (a : LAddr p) : MReq p := ⟨MT.READ, 0, ⟨a.tag, a.idx, 0⟩, 0, 0, 0⟩
/-- Write of the words `mask` of a line. -/
def MReq.wr (a : LAddr p) (mask : Dty p) (d : Line p) : MReq p :=
  ⟨MT.WRITE, 0, ⟨a.tag, a.idx, 0⟩, 0, mask, d⟩
/-- Atomic operation forwarded for a processor request. Event-level machine, a proof device; not in the source. -/
def MReq.amo (q : CReq p) : MReq p :=
  ⟨q.ty, 0, q.addr, (offLenSel p true q.len q.addr.off).2, 0, q.data.setWidth _⟩

/-- What the cache is waiting for. Event-level machine, a proof device; not in the source. -/
inductive Cur (p : Params)
  | idle
  /-- waiting for the line of a missing read or write; `dty` are the words of
  the way that must survive the refill -/
  | fill (q : CReq p) (way : Way) (dty : Dty p)
  /-- waiting for the result of an AMO -/
  | amo (q : CReq p) (hit : Bool) (way : Way)
deriving DecidableEq, Repr

/-- State of the event-level machine. Event-level machine, a proof device; not in the source. -/
structure L1 (p : Params) where
  ent : Way → Idx p → Entry p
  dat : Way → Idx p → Line p
  rep : Idx p → Way
  cur : Cur p

/-- Update of one array element. Event-level machine, a proof device; not in the source. -/
def setAt {α : Type} (f : Way → Idx p → α) (w : Way) (j : Idx p) (a : α) : Way → Idx p → α :=
  fun w' j' => if w' = w ∧ j' = j then a else f w' j'

/-- Update of one replacement bit. Event-level machine, a proof device; not in the source. -/
def setRep (f : Idx p → Way) (j : Idx p) (a : Way) : Idx p → Way :=
  fun j' => if j' = j then a else f j'

/-- The state reached by the initialisation after reset. Event-level machine, a proof device; not in the source. -/
def L1.init (p : Params) : L1 p :=
  ⟨fun _ _ => Entry.zero p, fun _ _ => 0, fun _ => false, .idle⟩

/-- Tag look-up. Event-level machine, a proof device; not in the source. -/
def L1.lookup (L : L1 p) (a : Addr p) : Cmp :=
  comparing p true false a.tag (fun w => L.ent w a.idx)

/-- Response to `q`. Event-level machine, a proof device; not in the source. -/
def mkResp (q : CReq p) (hit : Bool) (d : Data p) : CResp p :=
  ⟨q.ty, q.opq, (BitVec.ofBool hit).setWidth 2, q.len, d⟩

/-- The line after the write `q`. -/
def writeLine (q : CReq p) (l : Line p) : Line p :=
  merge (wbenReq p q.len q.addr.off) l (replicator p false q.len q.data)

/-- The data returned by the read `q`. Event-level machine, a proof device; not in the source. -/
def readLine (q : CReq p) (l : Line p) : Data p :=
  dataSelect p true false q.len q.addr.off l

/-- Line write-back message for a way. Event-level machine, a proof device; not in the source. -/
def L1.wb (L : L1 p) (w : Way) (j : Idx p) : Msg p :=
  .mem (.wr ⟨(L.ent w j).tag, j⟩ (L.ent w j).dty (L.dat w j))

/-- A read or write request. Event-level machine, a proof device; not in the source. -/
def L1.rw (L : L1 p) (q : CReq p) : L1 p × List (Msg p) :=
  let c := L.lookup q.addr
  let j := q.addr.idx
  let rep' := setRep L.rep j (replPolicy p true (c.hit || c.inval) c.way (L.rep j))
  let e := L.ent c.way j
  if c.hit then
    if q.ty = MT.WRITE then
      ({ L with
          ent := if !c.inval && !wordDirty p e q.addr.off q.len then
              setAt L.ent c.way j ⟨e.val, markDirty p e.dty q.addr.off q.len, q.addr.tag⟩
            else L.ent
          dat := setAt L.dat c.way j (writeLine q (L.dat c.way j))
          rep := rep' },
        [.resp (mkResp q true 0)])
    else ({ L with rep := rep' }, [.resp (mkResp q true (readLine q (L.dat c.way j)))])
  else if c.inval then
    ({ L with rep := rep', cur := .fill q c.way e.dty }, [.mem (.rd q.addr.la)])
  else
    let v := L.rep j
    ({ L with rep := rep', cur := .fill q v 0 },
      (if (L.ent v j).dty != 0 then [L.wb v j] else []) ++ [.mem (.rd q.addr.la)])

/-- An atomic memory operation. Event-level machine, a proof device; not in the source. -/
def L1.amo (L : L1 p) (q : CReq p) : L1 p × List (Msg p) :=
  let c := L.lookup q.addr
  let j := q.addr.idx
  let h := c.hit || c.inval
  ({ L with
      rep := if h then setRep L.rep j (replPolicy p true true (!c.way) (L.rep j)) else L.rep
      cur := .amo q h c.way },
    (if ((L.ent c.way j).dty != 0) && h then [L.wb c.way j] else []) ++ [.mem (.amo q)])

/-- Line number `n` of the flush/invalidate/init loop. Event-level machine, a proof device; not in the source. -/
def lineNo (p : Params) (n : Nat) : BitVec p.cntBits := BitVec.ofNat _ n

/-- Write-backs of the lines number `n-1` down to `0`. -/
def L1.flushMsgs (L : L1 p) : Nat → List (Msg p)
  | 0 => []
  | n + 1 =>
    (if (L.ent (cntWay p (lineNo p n)) (cntIdx p (lineNo p n))).dty != 0 then
      [L.wb (cntWay p (lineNo p n)) (cntIdx p (lineNo p n))] else []) ++ L.flushMsgs n

/-- Acceptance of a processor request. Event-level machine, a proof device; not in the source. -/
def L1.accept (L : L1 p) (q : CReq p) : L1 p × List (Msg p) :=
  if q.ty = MT.READ ∨ q.ty = MT.WRITE then L.rw q
  else if MT.isAmo q.ty then L.amo q
  else if q.ty = MT.INV then
    ({ L with ent := fun w j => { L.ent w j with val := false } }, [.resp (mkResp q false 0)])
  else if q.ty = MT.FLUSH then
    ({ L with ent := fun w j => { L.ent w j with dty := 0 } },
      L.flushMsgs (2 ^ p.cntBits) ++ [.resp (mkResp q false 0)])
  else (L, [])

/-- The answer of memory to the outstanding read or AMO. Event-level machine, a proof device; not in the source. -/
def L1.answer (L : L1 p) (line : Line p) : L1 p × List (Msg p) :=
  match L.cur with
  | .idle => (L, [])
  | .fill q w d =>
    let j := q.addr.idx
    let l := merge (~~~ expand p d) (L.dat w j) line
    if q.ty = MT.WRITE then
      ({ L with
          ent := setAt L.ent w j ⟨true, markDirty p d q.addr.off q.len, q.addr.tag⟩
          dat := setAt L.dat w j (writeLine q l)
          cur := .idle },
        [.resp (mkResp q false 0)])
    else
      ({ L with
          ent := setAt L.ent w j ⟨true, d, q.addr.tag⟩
          dat := setAt L.dat w j l
          cur := .idle },
        [.resp (mkResp q false (readLine q l))])
  | .amo q h w =>
    ({ L with
        ent := if h then setAt L.ent w q.addr.idx ⟨false, 0, q.addr.tag⟩ else L.ent
        cur := .idle },
      [.resp (mkResp q false ((line.setWidth 32).setWidth _))])

end Verif
