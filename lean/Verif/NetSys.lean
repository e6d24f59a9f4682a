import Verif.NetVals
import Verif.PropsNet
import Verif.Sys
import Verif.Addr

/-!
# The system at the level of wires

The system of `Sys.lean` with the netlist of `Net.lean` in place of the cycle
model of the cache: registers hold codes and packed words, messages have flat
addresses and all their fields, and a cycle runs the update blocks in an
arbitrary order, starting from whatever values the wires had.

`refines` shows that every execution is an execution of `Sys.lean`.
-/

namespace Verif.Net
variable {p : Params} {ι : Type} [DecidableEq ι]

/-! ## Memory on messages -/

/-- Masked write to a flat address, test/MemoryCL.py:88-90: word `j` of the
data goes to `req.addr + 4*j` if bit `j` of the mask is set. -/
def maskedWriteW (M : ByteMem) (a : Nat) (mask : Dty p) (d : Line p) (n : Nat) : ByteMem := Id.run do
  let mut M := M
  for j in List.range n do
    if mask.getLsbD j then
      M := writeLE M (a + 4 * j) 4 (d.extractLsb' (32 * j) 32).toNat
  return M

/-- Execution of one memory request message, test/MemoryCL.py:66-102, with all
the fields of the response.  The memory requests of the cache have a write mask
field (CacheParams.py:53-56). -/
def memExecW (M : ByteMem) (m : WMReq p) : ByteMem × WMResp p :=
  let len := if m.len.toNat = 0 then p.lineBits / 8 else m.len.toNat
  if m.ty = MT.READ then
    (M, ⟨m.ty, m.opq, 0, m.len, m.wmask, BitVec.ofNat _ (readLE M m.addr.toNat len)⟩)
  else if m.ty = MT.WRITE then
    (maskedWriteW M m.addr.toNat m.wmask m.data p.nWords, ⟨m.ty, m.opq, 0, 0, 0, 0⟩)
  else
    let old := BitVec.ofNat 32 (readLE M m.addr.toNat 4)
    (writeLE M m.addr.toNat 4 (amoFun m.ty old (m.data.extractLsb' 0 32)).toNat,
      ⟨m.ty, m.opq, 0, m.len, 0, old.setWidth _⟩)

theorem flat_unpackAddr (x : BitVec p.addrBits) : (unpackAddr x).flat = x.toNat := by
  have h : unpackAddr x = Addr.ofFlat p x.toNat := by
    simp only [unpackAddr, Addr.ofFlat, Addr.mk.injEq]
    refine ⟨?_, ?_, ?_⟩ <;>
      (apply BitVec.eq_of_toNat_eq
       simp only [BitVec.extractLsb'_toNat, BitVec.toNat_ofNat, Nat.shiftRight_eq_div_pow, Nat.pow_zero, Nat.div_one])
  rw [h]
  exact (C27_pack_unpack (p := p)).2 _ x.isLt

theorem flat_eq_pack (a : Addr p) : a.flat = (packAddr a).toNat := by
  rw [← flat_unpackAddr, unpack_packAddr]

private theorem forIn_if {α σ : Type} (l : List α) (c : α → Bool) (g : σ → α → σ) (s : σ) :
    (forIn (m := Id) l s fun j s => if c j then pure (.yield (g s j)) else pure (.yield s)).run =
      l.foldl (fun s j => if c j then g s j else s) s := by
  induction l generalizing s with
  | nil => rfl
  | cons a l ih =>
    simp only [List.forIn_cons, List.foldl_cons]
    cases c a
    · exact ih s
    · exact ih (g s a)

theorem maskedWriteW_eq (M : ByteMem) (a : Nat) (mask : Dty p) (d : Line p) (n : Nat) :
    maskedWriteW M a mask d n = maskedWrite M a mask d n := by
  have key : ∀ n, maskedWriteW M a mask d n =
      (List.range n).foldl (fun M j => if mask.getLsbD j then writeLE M (a + 4 * j) 4 (d.extractLsb' (32 * j) 32).toNat
        else M) M := fun n => forIn_if (List.range n) (fun j => mask.getLsbD j)
        (fun M j => writeLE M (a + 4 * j) 4 (d.extractLsb' (32 * j) 32).toNat) M
  induction n with
  | zero => rfl
  | succ n ih =>
    rw [maskedWrite, ← ih, key, key, List.range_succ, List.foldl_append]
    rfl

theorem lineBits_div : p.lineBits / 8 = 2 ^ p.offBits := by
  simp only [Params.lineBits, Params.nWords, Params.offBits, Nat.pow_add]
  omega

/-- The memory on messages is the memory of `Mem.lean`. -/
theorem memExecW_eq (M : ByteMem) (m : WMReq p) :
    (memExecW M m).1 = (memExec M (decMReq m)).1 ∧ decMResp (memExecW M m).2 = (memExec M (decMReq m)).2 := by
  have e1 : (decMReq m).addr.flat = m.addr.toNat := flat_unpackAddr _
  have e2 : (decMReq m).bytes = if m.len.toNat = 0 then p.lineBits / 8 else m.len.toNat := by
    rw [lineBits_div]; rfl
  have e3 : m.data.extractLsb' 0 32 = m.data.setWidth 32 := extractLsb'_eq_setWidth _ _
  simp only [memExecW, memExec, e1, e2, e3, maskedWriteW_eq]
  by_cases h1 : m.ty = MT.READ
  · have : (decMReq m).ty = MT.READ := h1
    simp only [h1, this, if_true]
    exact ⟨trivial, rfl⟩
  · have h1' : (decMReq m).ty ≠ MT.READ := h1
    by_cases h2 : m.ty = MT.WRITE
    · have : (decMReq m).ty = MT.WRITE := h2
      simp only [h2, this, if_true]
      exact ⟨rfl, rfl⟩
    · have h2' : (decMReq m).ty ≠ MT.WRITE := h2
      simp only [h1, h1', h2, h2', if_false]
      exact ⟨rfl, rfl⟩

/-! ## The system -/

/-- Registers and wires of the caches, queues of messages, memory. System as in the harness, test/sim_utils.py:283-314. -/
structure NSys (ι : Type) (p : Params) where
  regs : ι → Regs p
  wires : ι → (x : Wire) → T p x
  reqQ : ι → List (WMReq p)
  respQ : ι → List (WMResp p)
  mem : ByteMem

/-- Observable events, with messages as they are on the ports. System as in the harness, test/sim_utils.py:283-314. -/
inductive WEv (ι : Type) (p : Params)
  | acc (k : ι) (q : WReq p)
  | mreq (k : ι) (m : WMReq p)
  | resp (k : ι) (r : CResp p)
  | exec (k : ι) (m : WMReq p) (r : WMResp p)

/-- The wires of cache `k` after running the blocks `L` with inputs `i`. System as in the harness, test/sim_utils.py:283-314. -/
def NSys.run (N : NSys ι p) (k : ι) (i : PIn p) (L : List Blk) : (x : Wire) → T p x :=
  runBlks (N.regs k) i L (N.wires k)

/-- The inputs respect the protocol; `w` are the wires at the end of the cycle. System as in the harness, test/sim_utils.py:283-314. -/
structure NSys.CanClock (N : NSys ι p) (k : ι) (i : PIn p) (w : (x : Wire) → T p x) : Prop where
  noReset : i.reset = false
  req : i.cachereqEn = true → (outOf w).cachereqRdy = true ∧ i.cachereqMsg.ty ≠ MT.INIT
  mem : i.memrespEn = true → (outOf w).memrespRdy = true ∧ ∃ l, N.respQ k = i.memrespMsg :: l

/-- One clock edge of cache `k`, when its wires have the values `w`. System as in the harness, test/sim_utils.py:283-314. -/
def NSys.clock (N : NSys ι p) (k : ι) (i : PIn p) (w : (x : Wire) → T p x) : NSys ι p :=
  { regs := upd N.regs k (regsNext (N.regs k) i w)
    wires := fun k' => if k' = k then w else N.wires k'
    reqQ := upd N.reqQ k (N.reqQ k ++ if (outOf w).memreqEn then [(outOf w).memreqMsg] else [])
    respQ := upd N.respQ k (if i.memrespEn then (N.respQ k).tail else N.respQ k)
    mem := N.mem }

/-- The events of a clock edge. System as in the harness, test/sim_utils.py:283-314. -/
def wclockEvs (k : ι) (i : PIn p) (w : (x : Wire) → T p x) : List (WEv ι p) :=
  (if i.cachereqEn then [.acc k i.cachereqMsg] else []) ++
    (if (outOf w).memreqEn then [.mreq k (outOf w).memreqMsg] else []) ++
    (if (outOf w).cacherespEn then [.resp k (outOf w).cacherespMsg] else [])

/-- Memory executes the oldest request of port `k`. System as in the harness, test/sim_utils.py:283-314. -/
def NSys.exec (N : NSys ι p) (k : ι) (m : WMReq p) : NSys ι p :=
  { N with
    reqQ := upd N.reqQ k (N.reqQ k).tail
    respQ := upd N.respQ k (N.respQ k ++ [(memExecW N.mem m).2])
    mem := (memExecW N.mem m).1 }

/-- One step.  In a clock step the update blocks run in the order `L`, which
contains every block `levels` times but is otherwise arbitrary. System as in the harness, test/sim_utils.py:283-314. -/
inductive NStep : NSys ι p → List (WEv ι p) → NSys ι p → Prop
  | clock (N : NSys ι p) (k : ι) (i : PIn p) (L : List Blk) (hL : Sched.Rounds Blk levels L)
      (h : N.CanClock k i (N.run k i L)) :
      NStep N (wclockEvs k i (N.run k i L)) (N.clock k i (N.run k i L))
  | exec (N : NSys ι p) (k : ι) (m : WMReq p) (ms : List (WMReq p)) (h : N.reqQ k = m :: ms) :
      NStep N [.exec k m (memExecW N.mem m).2] (N.exec k m)

/-- A finite execution with its events. System as in the harness, test/sim_utils.py:283-314. -/
inductive NRun : NSys ι p → List (WEv ι p) → NSys ι p → Prop
  | refl (N : NSys ι p) : NRun N [] N
  | snoc {N N' N'' : NSys ι p} {tr ev : List (WEv ι p)} (h : NRun N tr N') (hs : NStep N' ev N'') :
      NRun N (tr ++ ev) N''

/-- Initial states: every cache has seen a clock edge with reset asserted, with
arbitrary values in all registers, SRAMs and wires before; the ports are empty;
wires and memory contents are arbitrary. System as in the harness, test/sim_utils.py:283-314. -/
structure NStart (N : NSys ι p) : Prop where
  reset : ∀ k, ∃ r i w, i.reset = true ∧ N.regs k = regsNext r i w
  reqQ : ∀ k, N.reqQ k = []
  respQ : ∀ k, N.respQ k = []

/-! ## Refinement -/

/-- An event of the wire level as an event of `Sys.lean`. System as in the harness, test/sim_utils.py:283-314. -/
def decEv : WEv ι p → Ev ι p
  | .acc k q => .acc k (decReq q)
  | .mreq k m => .mreq k (decMReq m)
  | .resp k r => .resp k r
  | .exec k m r => .exec k (decMReq m) (decMResp r)

/-- The state `N` represents `S`. System as in the harness, test/sim_utils.py:283-314. -/
structure REnc (N : NSys ι p) (S : Sys ι p) : Prop where
  cache : ∀ k, Enc (N.regs k) (S.cache k)
  reqQ : ∀ k, S.reqQ k = (N.reqQ k).map decMReq
  respQ : ∀ k, S.respQ k = (N.respQ k).map decMResp
  mem : S.mem = N.mem

omit [DecidableEq ι] in
theorem decEv_clock (k : ι) {s : St p} {i : PIn p} {w : (x : Wire) → T p x}
    (ho : outOf w = encOut (s.out (decIn i))) (S : Sys ι p) (hs : S.cache k = s) :
    (wclockEvs k i w).map decEv = S.clockEvs k (decIn i) := by
  subst hs
  simp only [wclockEvs, Sys.clockEvs, ho, encOut, List.map_append, apply_ite (List.map decEv), List.map_cons,
    List.map_nil, decEv, dec_encMReq]
  rfl

theorem REnc.clock (wf : p.WF) {N : NSys ι p} {S : Sys ι p} (h : REnc N S) (k : ι) (i : PIn p)
    {w : (x : Wire) → T p x} (hw : Settled (N.regs k) i w) : REnc (N.clock k i w) (S.clock k (decIn i)) := by
  obtain ⟨ho, he⟩ := sim wf (h.cache k) hw
  constructor
  · intro k'
    simp only [NSys.clock, Sys.clock, upd]
    split
    · exact he
    · exact h.cache k'
  · intro k'
    simp only [NSys.clock, Sys.clock, upd]
    split
    · rw [h.reqQ, List.map_append, ho]
      simp only [encOut]
      by_cases hm : ((S.cache k).out (decIn i)).mreqEn = true
      · simp [hm, dec_encMReq]
      · simp [hm]
    · exact h.reqQ k'
  · intro k'
    simp only [NSys.clock, Sys.clock, upd]
    split
    · rw [h.respQ]
      simp only [apply_ite (List.map decMResp), List.map_tail]
      rfl
    · exact h.respQ k'
  · exact h.mem

theorem REnc.exec {N : NSys ι p} {S : Sys ι p} (h : REnc N S) (k : ι) (m : WMReq p) :
    REnc (N.exec k m) (S.exec k (decMReq m)) := by
  obtain ⟨h1, h2⟩ := memExecW_eq N.mem m
  constructor
  · exact h.cache
  · intro k'
    simp only [NSys.exec, Sys.exec, upd]
    split
    · rw [h.reqQ, List.map_tail]
    · exact h.reqQ k'
  · intro k'
    simp only [NSys.exec, Sys.exec, upd]
    split
    · rw [h.respQ, List.map_append, List.map_cons, List.map_nil, h2, h.mem]
    · exact h.respQ k'
  · simp only [NSys.exec, Sys.exec, h1, h.mem]

/-- Every step of the wire level is a step of the cycle model. -/
theorem NStep.refine (wf : p.WF) {N N' : NSys ι p} {S : Sys ι p} (h : REnc N S) {ev : List (WEv ι p)}
    (hs : NStep N ev N') : ∃ S', Step S (ev.map decEv) S' ∧ REnc N' S' := by
  cases hs with
  | clock k i L hL hc =>
    have hw : Settled (N.regs k) i (N.run k i L) := runBlks_settled (N.regs k) i hL (N.wires k)
    obtain ⟨ho, _⟩ := sim wf (h.cache k) hw
    refine ⟨S.clock k (decIn i), ?_, h.clock wf k i hw⟩
    rw [decEv_clock k ho S rfl]
    refine .clock S k (decIn i) ⟨hc.noReset, ?_, ?_⟩
    · intro hq
      obtain ⟨a, b⟩ := hc.req hq
      rw [ho] at a
      exact ⟨a, b⟩
    · intro hm
      obtain ⟨_, l, hl⟩ := hc.mem hm
      exact ⟨l.map decMResp, by rw [h.respQ, hl]; rfl⟩
  | exec k m ms hq =>
    refine ⟨S.exec k (decMReq m), ?_, h.exec k m⟩
    have : (List.map decEv [WEv.exec k m (memExecW N.mem m).2]) =
        [Ev.exec k (decMReq m) (memExec S.mem (decMReq m)).2] := by
      simp only [List.map_cons, List.map_nil, decEv, (memExecW_eq N.mem m).2, h.mem]
    rw [this]
    exact .exec S k (decMReq m) (ms.map decMReq) (by rw [h.reqQ, hq]; rfl)

theorem NRun.refine (wf : p.WF) {N N' : NSys ι p} {S : Sys ι p} (h : REnc N S) {tr : List (WEv ι p)}
    (hr : NRun N tr N') : ∃ S', Run S (tr.map decEv) S' ∧ REnc N' S' := by
  induction hr with
  | refl => exact ⟨S, .refl S, h⟩
  | snoc _ hs ih =>
    obtain ⟨S1, h1, e1⟩ := ih
    obtain ⟨S2, h2, e2⟩ := hs.refine wf e1
    exact ⟨S2, by rw [List.map_append]; exact .snoc h1 h2, e2⟩

/-! ## Reset -/

/-- A state of the cycle model that keeps its SRAMs and its registers without
reset for a cycle. System as in the harness, test/sim_utils.py:283-314. -/
def holdSt (r : Regs p) : St p where
  mrespEn0 := false
  fsm := .ready
  cnt := 0
  t1 := .invalid
  wayPtr1 := false
  updWay1 := false
  wasStalled := true
  t2 := .invalid
  evict2 := false
  hit2 := false
  flushSent2 := false
  mresp0 := default
  req1 := default
  flushIdx1 := 0
  dtyMask1 := 0
  rep := fun _ => false
  tagRam := fun k j => unpackEntry ((r.tagArrays k).ram j)
  tagDout := fun k => unpackEntry (r.tagArrays k).dout
  tagStall := r.tagStall
  mshrNum := 0
  mshr := default
  hitStall := r.hitStall
  req2 := default
  wmask2 := 0
  data := ⟨r.dataArray.ram, r.dataArray.dout⟩
  dataStall := r.dataStall

/-- Registers after a clock edge with reset are those of the cycle model after
such an edge, whatever the registers and the wires were before. -/
theorem reset_start (r : Regs p) (i : PIn p) (w : (x : Wire) → T p x) (hr : i.reset = true) :
    ∃ (s : St p) (j : In p), j.reset = true ∧ Enc (regsNext r i w) (St.step s j) := by
  refine ⟨holdSt (regsNext r i w), ⟨true, false, default, true, true, false, default⟩, rfl, ?_⟩
  rw [regsNext_reset r i w hr]
  generalize regsNext r { i with reset := false } w = r'
  have hs : St.step (holdSt (rstRegs r')) ⟨true, false, default, true, true, false, default⟩ =
      (St.next (holdSt (rstRegs r')) ⟨true, false, default, true, true, false, default⟩).rst := rfl
  rw [hs]
  have ht : (holdSt (rstRegs r')).trans0 ⟨true, false, default, true, true, false, default⟩ = .invalid := rfl
  constructor
  case replBits => intro x; show (0 : BitVec _).getLsbD _ = false; simp
  case mshr =>
    show (⟨0, 0, 0, 0, 0, false, false, 0⟩ : WMshr p) = ⟨0, 0, packAddr ⟨0, 0, 0⟩, 0, 0, false, false, 0⟩
    rw [packAddr_zero]
  case tagRam =>
    intro k j
    simp only [St.rst, St.next, ht, St.tagVal0]
    simp only [Bool.and_false, Bool.false_and, Bool.false_eq_true, if_false]
    exact (pack_unpackEntry _).symm
  case tagDout =>
    intro k
    simp only [St.rst, St.next, ht, St.tagVal0]
    simp only [Bool.and_false, Bool.false_and, Bool.false_eq_true, if_false]
    exact (pack_unpackEntry _).symm
  case dataRam => intro j; rfl
  all_goals first | rfl | (intro k; rfl)

omit [DecidableEq ι] in
theorem NStart.refine {N : NSys ι p} (h : NStart N) : ∃ S : Sys ι p, Start S ∧ REnc N S := by
  have : ∀ k, ∃ c : St p, (∃ s i, i.reset = true ∧ c = St.step s i) ∧ Enc (N.regs k) c := by
    intro k
    obtain ⟨r, i, w, hi, hr⟩ := h.reset k
    obtain ⟨s, j, hj, he⟩ := reset_start r i w hi
    exact ⟨St.step s j, ⟨s, j, hj, rfl⟩, hr ▸ he⟩
  refine ⟨⟨fun k => (this k).choose, fun _ => [], fun _ => [], N.mem⟩, ⟨?_, fun _ => rfl, fun _ => rfl⟩, ⟨?_, ?_, ?_, rfl⟩⟩
  · intro k; exact (this k).choose_spec.1
  · intro k; exact (this k).choose_spec.2
  · intro k; rw [h.reqQ]; rfl
  · intro k; rw [h.respQ]; rfl

/-! ## The converse: the cycle model describes nothing that the wires cannot do -/

/-- Input ports for inputs of the cycle model and a given memory response message. System as in the harness, test/sim_utils.py:283-314. -/
def encIn (i : In p) (m : WMResp p) : PIn p :=
  ⟨i.reset, i.reqEn, encReq i.req, i.respRdy, i.mreqRdy, i.mrespEn, m⟩

/-- A response message with the given type, opaque and data. System as in the harness, test/sim_utils.py:283-314. -/
def encMResp (m : MResp p) : WMResp p := ⟨m.ty, m.opq, 0, 0, 0, m.data⟩

theorem dec_encIn (i : In p) (m : WMResp p) (h : decMResp m = i.mresp) : decIn (encIn i m) = i := by
  cases i
  simp only [encIn, decIn, dec_encReq]
  simp only at h
  rw [h]

/-- Every step of the cycle model is a step of the wires, under every complete
schedule. -/
theorem REnc.lift (wf : p.WF) {N : NSys ι p} {S S' : Sys ι p} (h : REnc N S) {ev : List (Ev ι p)}
    (hs : Step S ev S') {L : List Blk} (hL : Sched.Rounds Blk levels L) :
    ∃ N' ev', NStep N ev' N' ∧ ev'.map decEv = ev ∧ REnc N' S' := by
  cases hs with
  | clock k i hc =>
    have : ∃ m, decMResp m = i.mresp ∧ (i.mrespEn = true → ∃ l, N.respQ k = m :: l) := by
      cases hm : i.mrespEn
      · exact ⟨encMResp i.mresp, rfl, fun h => by cases h⟩
      · obtain ⟨l, hl⟩ := hc.mem hm
        rw [h.respQ] at hl
        cases hq : N.respQ k with
        | nil => rw [hq] at hl; cases hl
        | cons m l' =>
          rw [hq] at hl
          simp only [List.map_cons, List.cons.injEq] at hl
          exact ⟨m, hl.1, fun _ => ⟨l', rfl⟩⟩
    obtain ⟨m, hm, hl⟩ := this
    have hd := dec_encIn i m hm
    have hw : Settled (N.regs k) (encIn i m) (N.run k (encIn i m) L) :=
      runBlks_settled (N.regs k) (encIn i m) hL (N.wires k)
    obtain ⟨ho, _⟩ := sim wf (h.cache k) hw
    rw [hd] at ho
    refine ⟨_, _, .clock N k (encIn i m) L hL ⟨hc.noReset, ?_, ?_⟩, ?_, ?_⟩
    · intro hq
      obtain ⟨a, b⟩ := hc.req hq
      rw [ho]
      exact ⟨a, b⟩
    · intro hq
      rw [ho]
      exact ⟨rfl, hl hq⟩
    · rw [decEv_clock k (s := S.cache k) (by rw [hd]; exact ho) S rfl, hd]
    · have := h.clock wf k (encIn i m) hw
      rwa [hd] at this
  | exec k m ms hq =>
    rw [h.reqQ] at hq
    cases hn : N.reqQ k with
    | nil => rw [hn] at hq; cases hq
    | cons m' ms' =>
      rw [hn] at hq
      simp only [List.map_cons, List.cons.injEq] at hq
      obtain ⟨rfl, _⟩ := hq
      refine ⟨_, _, .exec N k m' ms' hn, ?_, h.exec k m'⟩
      simp only [List.map_cons, List.map_nil, decEv, (memExecW_eq N.mem m').2, h.mem]

theorem REnc.lift_run (wf : p.WF) {N : NSys ι p} {S S' : Sys ι p} (h : REnc N S) {tr : List (Ev ι p)}
    (hr : Run S tr S') {L : List Blk} (hL : Sched.Rounds Blk levels L) :
    ∃ N' tr', NRun N tr' N' ∧ tr'.map decEv = tr ∧ REnc N' S' := by
  induction hr with
  | refl => exact ⟨N, [], .refl N, rfl, h⟩
  | snoc _ hs ih =>
    obtain ⟨N1, t1, r1, e1, h1⟩ := ih
    obtain ⟨N2, t2, r2, e2, h2⟩ := h1.lift wf hs hL
    exact ⟨N2, t1 ++ t2, .snoc r1 r2, by rw [List.map_append, e1, e2], h2⟩

/-- Registers that hold a given state of the cycle model. System as in the harness, test/sim_utils.py:283-314. -/
def encSt (s : St p) : Regs p where
  memrespEnM0 := s.mrespEn0
  fsmM0 := encFsm s.fsm
  counterM0 := s.cnt
  transM1 := encTrans s.t1
  wayPtrM1 := s.wayPtr1
  updTagWayM1 := s.updWay1
  wasStalled := s.wasStalled
  transM2 := encTrans s.t2
  isEvictM2 := s.evict2
  hitRegM2 := s.hit2
  flushSentM2 := s.flushSent2
  pipelineRegM0 := encMResp s.mresp0
  cachereqM1 := s.req1
  flushIdxM1 := s.flushIdx1
  dtyBitsMaskM1 := s.dtyMask1
  replBits := mkBits _ fun j => s.rep (BitVec.ofNat _ j)
  tagArrays := fun k => ⟨fun j => packEntry (s.tagRam k j), packEntry (s.tagDout k)⟩
  tagStall := s.tagStall
  mshrNum := s.mshrNum
  mshr := encMshr s.mshr
  hitStall := s.hitStall
  cachereqM2 := s.req2
  writeMaskM2 := s.wmask2
  dataArray := ⟨s.data.ram, s.data.dout⟩
  dataStall := s.dataStall

theorem enc_encSt (s : St p) : Enc (encSt s) s := by
  constructor
  case replBits =>
    intro x
    simp only [encSt, getLsbD_mkBits]
    have := x.isLt
    simp [this]
  all_goals first | rfl | (intro k; rfl) | (intro k j; rfl)

omit [DecidableEq ι] in
/-- Every start of the cycle model is represented by a start of the wires. -/
theorem start_lift (wf : p.WF) {S : Sys ι p} (h : Start S) : ∃ N : NSys ι p, NStart N ∧ REnc N S := by
  have : ∀ k, ∃ r : Regs p, (∃ r' i w, i.reset = true ∧ r = regsNext r' i w) ∧ Enc r (S.cache k) := by
    intro k
    obtain ⟨s, i, hi, hs⟩ := h.reset k
    have hw := runBlks_settled (encSt s) (encIn i (encMResp i.mresp)) (rounds_rep mem_blks levels) zeroW
    have he := (sim wf (enc_encSt s) hw).2
    rw [dec_encIn i _ rfl, ← hs] at he
    exact ⟨_, ⟨_, _, _, hi, rfl⟩, he⟩
  refine ⟨⟨fun k => (this k).choose, fun _ => zeroW, fun _ => [], fun _ => [], S.mem⟩,
    ⟨fun k => (this k).choose_spec.1, fun _ => rfl, fun _ => rfl⟩, ⟨fun k => (this k).choose_spec.2, ?_, ?_, rfl⟩⟩
  · intro k; rw [h.reqQ]; rfl
  · intro k; rw [h.respQ]; rfl

end Verif.Net
