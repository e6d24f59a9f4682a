import Verif.SimBase
import Verif.Uniq

/-!
# Simulation of the RTL by the event-level machine: phases

`PhU U s L rest O` says that the RTL registers `s` are in one of the phases of an
operation, that `L` is the event-level state in which every accepted request
and delivered answer has been processed completely, that `rest` are the
messages caused by these events that have not yet reached the M2 stage, and
that `O` are the types of the memory requests that were emitted and not yet
answered.
-/

namespace Verif
variable {p : Params} {U : Prop}

/-- Proof device; not in the source. -/
def TagsAre (s : St p) (f : Way → Idx p → Entry p) : Prop :=
  ∀ w ∈ p.ways, ∀ j, s.tagRam w j = f w j

/-- Proof device; not in the source. -/
def DatAre (r : BitVec p.cntBits → Line p) (f : Way → Idx p → Line p) : Prop :=
  ∀ w ∈ p.ways, ∀ j, r (indexer p j w) = f w j

/-- M1 contents of an accepted request. Proof device; not in the source. -/
def reqPMsg (q : CReq p) : PMsg p :=
  ⟨q.ty, q.opq, q.addr, q.len, replicator p (MT.isAmo q.ty) q.len q.data⟩

/-- Transaction of a read, write or AMO request. Proof device; not in the source. -/
def reqTrans (t : MType) : Trans :=
  if t = MT.READ then .readReq else if t = MT.WRITE then .writeReq else .amoReq

/-- Way numbers occurring in the event-level state exist; a line is in at most
one way, also counting the one being fetched. -/
structure L1.Ok (L : L1 p) : Prop where
  rep : ∀ j, L.rep j ∈ p.ways
  cur : match L.cur with
    | .idle => True
    | .fill q w _ => w ∈ p.ways ∧ (q.ty = MT.READ ∨ q.ty = MT.WRITE)
    | .amo q _ w => w ∈ p.ways ∧ MT.isAmo q.ty = true
  uniq : UniqF L.ent
  pend : match L.cur with
    | .fill q w _ => ∀ w' ∈ p.ways, w' ≠ w → (L.ent w' q.addr.idx).Present →
        (L.ent w' q.addr.idx).tag ≠ q.addr.tag
    | _ => True

/-- The part of `L1.Ok` that survives WRITE_INIT. Proof device; not in the source. -/
structure L1.Wk (L : L1 p) : Prop where
  rep : ∀ j, L.rep j ∈ p.ways
  cur : match L.cur with
    | .idle => True
    | .fill q w _ => w ∈ p.ways ∧ (q.ty = MT.READ ∨ q.ty = MT.WRITE)
    | .amo q _ w => w ∈ p.ways ∧ MT.isAmo q.ty = true

/-- `L1.Ok` if `U`, its weak part in any case.  `U` says that no WRITE_INIT was accepted. Proof device; not in the source. -/
structure L1.OkU (U : Prop) (L : L1 p) : Prop where
  wk : L.Wk
  full : U → L.Ok

theorem L1.Ok.wk {L : L1 p} (h : L.Ok) : L.Wk := ⟨h.rep, h.cur⟩
theorem L1.Ok.okU {L : L1 p} (h : L.Ok) : L.OkU U := ⟨h.wk, fun _ => h⟩

/-- The MSHR entry describes the pending miss or AMO. Proof device; not in the source. -/
def MshrOk (m : MshrMsg p) (c : Cur p) : Prop :=
  match c with
  | .idle => False
  | .fill q w d => m.ty = q.ty ∧ m.opq = q.opq ∧ m.addr = q.addr ∧ m.len = q.len ∧
      m.data = (replicator p false q.len q.data).setWidth _ ∧ m.repl = w ∧ m.dirty = d
  | .amo q h w => m.ty = q.ty ∧ m.opq = q.opq ∧ m.addr = q.addr ∧ m.len = q.len ∧
      m.repl = w ∧ m.amoHit = h

/-- Type of the memory request a pending miss or AMO sends. Proof device; not in the source. -/
def Cur.mty : Cur p → MType
  | .idle => 0
  | .fill _ _ _ => MT.READ
  | .amo q _ _ => q.ty

/-- The rest value of the line counter. -/
def cntMax (p : Params) : BitVec p.cntBits := BitVec.ofNat _ (2 ^ p.cntBits - 1)

/-- No memory traffic. Proof device; not in the source. -/
structure Quiet (s : St p) (O : List MType) : Prop where
  mem : s.mrespEn0 = false
  out : O = []
  slot : memTypes s.slot.msgs = []

/-- Tag, data and replacement arrays agree with the event-level machine. Proof device; not in the source. -/
structure Arr (s : St p) (L : L1 p) : Prop where
  tags : TagsAre s L.ent
  dat : DatAre s.dataNext.ram L.dat
  rep : s.rep = L.rep

/-- Transactions that occupy M1 without a pending request. Proof device; not in the source. -/
def flowT : Trans → Bool
  | .invalid | .cleanHit | .cacheInit | .replayRead | .replayWrite | .replayAmo | .replayInv
  | .replayFlush => true
  | _ => false

/-- Proof device; not in the source. -/
structure PFlow (s : St p) (L : L1 p) (rest : List (Msg p)) (O : List MType) : Prop where
  cnt : s.cnt = cntMax p
  fsm : s.fsm = .ready
  num : s.mshrNum = 0
  quiet : Quiet s O
  t1 : flowT s.t1 = true
  ci : s.t1 = .cacheInit → blocking s.t2 = false
  cur : L.cur = .idle
  arr : Arr s L
  restEq : rest = s.adv.msgs
  restMem : memTypes rest = []

/-- M1 holds the accepted request `q`, whose tags were read in state `L0`. Proof device; not in the source. -/
structure ReqCore (s : St p) (L0 : L1 p) (q : CReq p) : Prop where
  ty : q.ty = MT.READ ∨ q.ty = MT.WRITE ∨ MT.isAmo q.ty = true
  t1 : s.t1 = reqTrans q.ty
  evict2 : s.evict2 = false
  req1 : s.req1 = reqPMsg q
  eff : ∀ w ∈ p.ways, s.effTag w = L0.ent w q.addr.idx
  hitInfo : s.hitInfo = s.hitInfoIn
  ok : L0.Wk
  rep : s.rep = L0.rep

/-- Proof device; not in the source. -/
structure PReq (U : Prop) (s : St p) (L : L1 p) (rest : List (Msg p)) (O : List MType)
    (L0 : L1 p) (q : CReq p) : Prop extends ReqCore s L0 q where
  cnt : s.cnt = cntMax p
  fsm : s.fsm = .ready
  num : s.mshrNum = 0
  quiet : Quiet s O
  cur : L0.cur = .idle
  tags : TagsAre s L0.ent ∨ TagsAre s L.ent
  dat : DatAre s.dataNext.ram L.dat
  acc : L0.accept q = (L, rest)
  full : U → L0.Ok

/-- Proof device; not in the source. -/
structure PPass2 (s : St p) (L : L1 p) (rest : List (Msg p)) (O : List MType)
    (q : CReq p) : Prop where
  cnt : s.cnt = cntMax p
  fsm : s.fsm = .ready
  num : s.mshrNum = 0
  mem : s.mrespEn0 = false
  out : O = []
  slot : memTypes s.slot.msgs = [MT.WRITE]
  t1 : s.t1 = reqTrans q.ty
  evict2 : s.evict2 = true
  req1 : s.req1 = reqPMsg q
  tags : TagsAre s L.ent
  dat : DatAre s.dataNext.ram L.dat
  cur : (L.cur = .fill q (s.rep q.addr.idx) 0 ∧
          L.rep = setRep s.rep q.addr.idx (replPolicy p true false false (s.rep q.addr.idx)) ∧
          rest = [.mem (.rd q.addr.la)]) ∨
        (∃ h w, L.cur = .amo q h w ∧ s.hitStall = (h, w) ∧ s.rep = L.rep ∧
          rest = [.mem (.amo q)])

/-- Proof device; not in the source. -/
structure PWait (s : St p) (L : L1 p) (rest : List (Msg p)) (O : List MType) : Prop where
  cnt : s.cnt = cntMax p
  fsm : s.fsm = .ready
  num : s.mshrNum = 1
  t1 : s.t1 = .invalid
  restEq : rest = []
  mshr : MshrOk s.mshr L.cur
  arr : Arr s L
  mem : s.mrespEn0 = true → s.mresp0.ty = MT.WRITE
  out : (s.t2 = .invalid ∧ (O = [L.cur.mty] ∨ O = [MT.WRITE, L.cur.mty])) ∨
        (memTypes s.slot.msgs = [L.cur.mty] ∧ (O = [] ∨ O = [MT.WRITE]))

/-- Proof device; not in the source. -/
structure PAns (U : Prop) (s : St p) (L : L1 p) (rest : List (Msg p)) (O : List MType) (L0 : L1 p) : Prop where
  cnt : s.cnt = cntMax p
  fsm : s.fsm = .ready
  num : s.mshrNum = 1
  t1 : s.t1 = .invalid
  t2 : s.t2 = .invalid
  out : O = []
  mshr : MshrOk s.mshr L0.cur
  ok : L0.OkU U
  arr : Arr s L0
  mem : s.mrespEn0 = true
  memTy : s.mresp0.ty = L0.cur.mty
  ans : L0.answer s.mresp0.data = (L, rest)

/-- Proof device; not in the source. -/
structure PRefill (U : Prop) (s : St p) (L : L1 p) (rest : List (Msg p)) (O : List MType) (L0 : L1 p)
    (q : CReq p) (w : Way) (d : Dty p) : Prop where
  cnt : s.cnt = cntMax p
  fsm : s.fsm = .replay
  num : s.mshrNum = 1
  t1 : s.t1 = .refill
  t2 : s.t2 = .invalid
  mem : s.mrespEn0 = false
  out : O = []
  cur : L0.cur = .fill q w d
  mshr : MshrOk s.mshr L0.cur
  ok : L0.OkU U
  reqA : s.req1.addr = q.addr
  dty : s.dtyMask1 = d
  way : s.wayPtr1 = w
  tags : TagsAre s (setAt L0.ent w q.addr.idx ⟨true, d, q.addr.tag⟩)
  dat : DatAre s.data.ram L0.dat
  rep : s.rep = L0.rep
  ans : L0.answer s.req1.data = (L, rest)

/-- Common part of the invalidation phases. Proof device; not in the source. -/
structure InvC (U : Prop) (s : St p) (L : L1 p) (rest : List (Msg p)) (O : List MType)
    (q : CReq p) : Prop where
  quiet : Quiet s O
  cur : L.cur = .idle
  qty : q.ty = MT.INV
  tags : ∀ w ∈ p.ways, ∀ j, L.ent w j = { s.tagRam w j with val := false }
  dat : DatAre s.dataNext.ram L.dat
  rep : s.rep = L.rep
  restEq : rest = [.resp (mkResp q false 0)]
  uq : U → UniqF s.tagRam

/-- Proof device; not in the source. -/
structure PInv0 (U : Prop) (s : St p) (L : L1 p) (rest : List (Msg p)) (O : List MType)
    (q : CReq p) : Prop extends InvC U s L rest O q where
  fsm : s.fsm = .inv
  num : s.mshrNum = 0
  t1 : s.t1 = .invStart
  cnt : s.cnt = cntMax p
  req1 : s.req1 = reqPMsg q

/-- The MSHR entry of an invalidation or flush. Proof device; not in the source. -/
structure MshrQ (m : MshrMsg p) (q : CReq p) : Prop where
  ty : m.ty = q.ty
  opq : m.opq = q.opq
  len : m.len = q.len

/-- Proof device; not in the source. -/
structure PInv1 (U : Prop) (s : St p) (L : L1 p) (rest : List (Msg p)) (O : List MType)
    (q : CReq p) : Prop extends InvC U s L rest O q where
  fsm : s.fsm = .inv
  num : s.mshrNum = 1
  t1 : s.t1 = .invWrite
  t2 : blocking s.t2 = false
  mshr : MshrQ s.mshr q
  done : ∀ c : BitVec p.cntBits, s.cnt.toNat < c.toNat →
    (s.tagRam (cntWay p c) (cntIdx p c)).val = false

/-- Proof device; not in the source. -/
structure PInv2 (U : Prop) (s : St p) (L : L1 p) (rest : List (Msg p)) (O : List MType)
    (q : CReq p) : Prop extends InvC U s L rest O q where
  cnt : s.cnt = cntMax p
  fsm : s.fsm = .replay
  num : s.mshrNum = 1
  t1 : s.t1 = .invWrite
  t2 : blocking s.t2 = false
  mshr : MshrQ s.mshr q
  done : ∀ c : BitVec p.cntBits, (s.tagRam (cntWay p c) (cntIdx p c)).val = false

/-- Common part of the flush phases; lines number `n` and above are clean. -/
structure FlC (U : Prop) (s : St p) (L : L1 p) (L0 : L1 p) (q : CReq p) (n : Nat) : Prop where
  cur : L.cur = .idle
  qty : q.ty = MT.FLUSH
  tags : TagsAre s L0.ent
  clr : ∀ w ∈ p.ways, ∀ j, L.ent w j = { L0.ent w j with dty := 0 }
  dat : DatAre s.data.ram L0.dat
  ldat : L.dat = L0.dat
  rep : s.rep = L.rep
  clean : ∀ c : BitVec p.cntBits, n ≤ c.toNat → (L0.ent (cntWay p c) (cntIdx p c)).dty = 0
  uq : U → UniqF L0.ent

/-- Proof device; not in the source. -/
structure PFl0 (U : Prop) (s : St p) (L : L1 p) (rest : List (Msg p)) (O : List MType)
    (L0 : L1 p) (q : CReq p) : Prop extends FlC U s L L0 q (2 ^ p.cntBits) where
  quiet : Quiet s O
  fsm : s.fsm = .flush
  num : s.mshrNum = 0
  t1 : s.t1 = .flushStart
  cnt : s.cnt = cntMax p
  req1 : s.req1 = reqPMsg q
  restEq : rest = L0.flushMsgs (2 ^ p.cntBits) ++ [.resp (mkResp q false 0)]

/-- Proof device; not in the source. -/
structure PFl1 (U : Prop) (s : St p) (L : L1 p) (rest : List (Msg p)) (O : List MType)
    (L0 : L1 p) (q : CReq p) (c : Nat) : Prop extends FlC U s L L0 q (c + 1) where
  quiet : Quiet s O
  lt : c < 2 ^ p.cntBits
  fsm : s.fsm = if c = 0 then .replay else .flush
  num : s.mshrNum = 1
  mshr : MshrQ s.mshr q
  t1 : s.t1 = .flushRead
  cnt : s.cnt + 1 = lineNo p c
  evict2 : s.evict2 = false
  way : s.updWay1 = cntWay p (lineNo p c)
  idx : s.flushIdx1 = cntIdx p (lineNo p c)
  eff : s.effTag s.updWay1 = L0.ent (cntWay p (lineNo p c)) (cntIdx p (lineNo p c))
  restEq : rest = L0.flushMsgs (c + 1) ++ [.resp (mkResp q false 0)]

/-- Proof device; not in the source. -/
structure PFl2 (U : Prop) (s : St p) (L : L1 p) (rest : List (Msg p)) (O : List MType)
    (L0 : L1 p) (q : CReq p) (c : Nat) : Prop extends FlC U s L L0 q (c + 1) where
  lt : c < 2 ^ p.cntBits
  fsm : s.fsm = .flushWait
  num : s.mshrNum = 1
  mshr : MshrQ s.mshr q
  t1 : s.t1 = .flushWait
  cnt : s.cnt + 1 = lineNo p c
  restEq : rest = L0.flushMsgs c ++ [.resp (mkResp q false 0)]
  out : (s.mrespEn0 = false ∧ memTypes s.slot.msgs = [MT.WRITE] ∧ O = []) ∨
        (s.mrespEn0 = false ∧ s.t2 = .flushWait ∧ O = [MT.WRITE]) ∨
        (s.mrespEn0 = true ∧ s.mresp0.ty = MT.WRITE ∧ s.t2 = .flushWait ∧ O = [])

/-- Proof device; not in the source. -/
structure PFl3 (U : Prop) (s : St p) (L : L1 p) (rest : List (Msg p)) (O : List MType)
    (L0 : L1 p) (q : CReq p) (c : Nat) : Prop extends FlC U s L L0 q c where
  quiet : Quiet s O
  lt : c < 2 ^ p.cntBits
  fsm : s.fsm = if c = 0 then .replay else .flush
  num : s.mshrNum = 1
  mshr : MshrQ s.mshr q
  t1 : s.t1 = .flushWrite
  t2 : s.t2 = .flushWait
  cnt : s.cnt + 1 = lineNo p c
  restEq : rest = L0.flushMsgs c ++ [.resp (mkResp q false 0)]

/-- Initialisation after reset; `cnt` is the line cleared next. -/
structure PInit (s : St p) : Prop where
  fsm : s.fsm = .init
  num : s.mshrNum = 0
  mem : s.mrespEn0 = false
  t1 : (s.t1 = .invalid ∧ s.cnt = cntMax p) ∨
    (s.t1 = .cacheInit ∧ s.updWay1 = cntWay p (s.cnt + 1) ∧ s.flushIdx1 = cntIdx p (s.cnt + 1))
  t2 : blocking s.t2 = false
  reqD : s.req1.data = 0
  dty : s.dtyMask1 = 0
  rep : s.rep = fun _ => false
  tags : ∀ c : BitVec p.cntBits, s.cnt.toNat < c.toNat →
    (s.tagRam (cntWay p c) (cntIdx p c)).val = false ∧
    (s.tagRam (cntWay p c) (cntIdx p c)).dty = 0
  dat : ∀ c : BitVec p.cntBits, s.cnt.toNat < c.toNat →
    s.dataNext.ram (indexer p (cntIdx p c) (cntWay p c)) = 0

/-- An event-level state as left by the initialisation: nothing valid, nothing
dirty.  (The tag fields hold whatever was on the request port.). Proof device; not in the source. -/
structure L1.Clean (L : L1 p) : Prop where
  val : ∀ w ∈ p.ways, ∀ j, (L.ent w j).val = false
  dty : ∀ w ∈ p.ways, ∀ j, (L.ent w j).dty = 0
  dat : ∀ w ∈ p.ways, ∀ j, L.dat w j = 0
  rep : L.rep = fun _ => false
  cur : L.cur = .idle

/-- M1 holds a WRITE_INIT. Proof device; not in the source. -/
structure PIni (s : St p) (L : L1 p) (rest : List (Msg p)) (O : List MType) : Prop where
  cnt : s.cnt = cntMax p
  fsm : s.fsm = .ready
  num : s.mshrNum = 0
  quiet : Quiet s O
  t1 : s.t1 = .initReq
  cur : L.cur = .idle
  tags : TagsAre s L.ent
  dat : DatAre s.dataNext.ram L.dat
  rep : replBitsNext s.rep true s.req1.addr.idx (replPolicy p true false false s.repRd) = L.rep
  restEq : rest = s.adv.msgs
  restMem : memTypes rest = []

/-- The phases of the cache; with `U` there is no WRITE_INIT. Proof device; not in the source. -/
inductive PhU (U : Prop) (s : St p) (L : L1 p) (rest : List (Msg p)) (O : List MType) : Prop
  | flow (h : PFlow s L rest O)
  | req (L0 q) (h : PReq U s L rest O L0 q)
  | pass2 (q) (h : PPass2 s L rest O q)
  | wait (h : PWait s L rest O)
  | ans (L0) (h : PAns U s L rest O L0)
  | refill (L0 q w d) (h : PRefill U s L rest O L0 q w d)
  | inv0 (q) (h : PInv0 U s L rest O q)
  | inv1 (q) (h : PInv1 U s L rest O q)
  | inv2 (q) (h : PInv2 U s L rest O q)
  | fl0 (L0 q) (h : PFl0 U s L rest O L0 q)
  | fl1 (L0 q c) (h : PFl1 U s L rest O L0 q c)
  | fl2 (L0 q c) (h : PFl2 U s L rest O L0 q c)
  | fl3 (L0 q c) (h : PFl3 U s L rest O L0 q c)
  | ini (hU : ¬ U) (h : PIni s L rest O)

/-- The phases without WRITE_INIT. Proof device; not in the source. -/
abbrev Ph (s : St p) (L : L1 p) (rest : List (Msg p)) (O : List MType) : Prop := PhU True s L rest O

/-- The simulation relation; `E` are the messages caused so far and not yet
emitted on the ports. Proof device; not in the source. -/
structure RU (U : Prop) (s : St p) (L : L1 p) (E : List (Msg p)) (O : List MType) : Prop where
  ok : L.OkU U
  ph : ∃ rest, E = s.slot.msgs ++ rest ∧ PhU U s L rest O

/-- The simulation relation without WRITE_INIT. Proof device; not in the source. -/
abbrev R (s : St p) (L : L1 p) (E : List (Msg p)) (O : List MType) : Prop := RU True s L E O

/-- What the environment guarantees in a cycle: no reset, a request only when
the cache is ready (with `U` no WRITE_INIT), memory answers in order with the type of
the oldest outstanding request. Proof device; not in the source. -/
structure LegalU (U : Prop) (s : St p) (O : List MType) (i : In p) : Prop where
  noReset : i.reset = false
  req : i.reqEn = true → s.reqRdy i = true ∧ (U → i.req.ty ≠ MT.INIT)
  mem : i.mrespEn = true → ∃ O', O = i.mresp.ty :: O'

/-- Proof device; not in the source. -/
abbrev Legal (s : St p) (O : List MType) (i : In p) : Prop := LegalU True s O i

/-- The event-level reaction to the inputs of a cycle. Proof device; not in the source. -/
def L1.cycle (L : L1 p) (i : In p) : L1 p × List (Msg p) :=
  if i.reqEn then L.accept i.req
  else if i.mrespEn && (i.mresp.ty != MT.WRITE) then L.answer i.mresp.data
  else (L, [])

/-- WRITE_INIT: the tag goes to way `w` with the dirty bits `d`, the data to way 0;
event-level effect of the rows TRANS_TYPE_INIT_REQ of BlockingCacheCtrlRTL.py:379 (tag array),
430 (way enable), 530-538 (replacement bit), 612 (data array) and 720 (response). -/
def L1.initOp (L : L1 p) (q : CReq p) (w : Way) (d : Dty p) : L1 p × List (Msg p) :=
  let j := q.addr.idx
  ({ L with
      ent := setAt L.ent w j ⟨true, d, q.addr.tag⟩
      dat := setAt L.dat false j (writeLine q (L.dat false j))
      rep := setRep L.rep j (replPolicy p true false false (L.rep j)) },
    [.resp (mkResp q false 0)])

/-- The event-level reaction to the inputs of a cycle, WRITE_INIT included.  Way
and dirty bits of a WRITE_INIT come from registers of other requests. Proof device; not in the source. -/
def St.cyc (s : St p) (L : L1 p) (i : In p) : L1 p × List (Msg p) :=
  if i.reqEn = true ∧ i.req.ty = MT.INIT then L.initOp i.req s.repRd s.mshr.dirty
  else L.cycle i

theorem cyc_cycle {s : St p} {O : List MType} {i : In p} (hl : Legal s O i) (L : L1 p) :
    s.cyc L i = L.cycle i := by
  simp only [St.cyc]
  rw [if_neg]
  rintro ⟨h1, h2⟩
  exact (hl.req h1).2 trivial h2

theorem cyc_noReq {s : St p} {i : In p} (h : i.reqEn = false) (L : L1 p) : s.cyc L i = L.cycle i := by
  simp only [St.cyc]
  rw [if_neg]
  rintro ⟨h1, h2⟩
  rw [h] at h1; cases h1

/-- Outstanding memory requests after the memory input of a cycle. Proof device; not in the source. -/
def outTail (O : List MType) (i : In p) : List MType := if i.mrespEn then O.tail else O

end Verif
