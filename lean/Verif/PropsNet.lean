import Verif.NetSched

/-!
# C51: the order of the update blocks does not matter

A simulator may run the update blocks of a cycle in any order and as often as it
likes, starting from whatever values the wires had in the previous cycle.  If it
runs every block often enough, or stops when no block changes anything, the
wires end with the same values.  Neither the ports nor the registers after the
clock edge depend on the order.
-/

set_option linter.unusedSimpArgs false

namespace Verif.Net
variable {p : Params}

/-- All update blocks, in the order of the source. Proof device; not in the source. -/
def blks : List Blk :=
  [.b_memrespRdy, .b_memrespValM0, .b_memrespWrAckM0, .b_prevFlushDoneM0, .b_fsm_M0_next_state,
   .b_transaction_logic_M0, .b_up_counter_en_logic_M0, .b_counterEn, .b_update_way_idx_M0_loigc,
   .b_stallM0, .b_cReqMuxSelM0, .b_cachereqRdy, .b_cs_table_M0, .b_cRegEnM0, .b_cTagInitIdxM0,
   .b_cIsAmoM0, .b_tag_array_val_logic_M0, .b_stallM1, .b_pointer_logic,
   .b_asso_data_array_offset_way_M1, .b_flushRefillM1, .b_up_flush_tag_read_logic_M1,
   .b_status_logic_M1, .b_evictBypass, .b_cTagProcEnM1, .b_cs_table_M1, .b_cRegEnM1, .b_pipeEnM1,
   .b_cStallRegEnM1, .b_cHitStallEnM1, .b_cIsInitM1, .b_cFlushInitEnM1, .b_cFlushIdxSelM1,
   .b_cDirtyMaskM1, .b_stallM2, .b_cs_table_M2, .b_cRegEnM2, .b_pipeEnM2, .b_cStallRegEnM2,
   .b_cIsAmoM2, .b_cHitM2, .b_mshrDeallocOut, .b_mshrDeallocMuxIn, .b_sAmoHitM0, .b_reqMuxM0,
   .b_up_cachereq_addr_M1_forward, .b_addrMuxM0, .b_lenMuxM0, .b_replicator_M0, .b_wdataMuxM0,
   .b_cachereqM0, .b_hitWayBypassM1, .b_updWayMuxM0, .b_new_tag_array_entry_logic,
   .b_tagIdxMuxM0, .b_tagTagMuxM0, .b_tagStructM0, .b_tag_array_struct_M0_bits_to_bitstruct,
   .b_sMemrespTypeM0, .b_sCachereqTypeM0, .b_update_register_bits, .b_tagRdataM1, .b_mshrAllocIn,
   .b_entry_logic, .b_full_logic, .b_word_dirty_logic, .b_line_dirty_logic, .b_comparing_logic,
   .b_tag_entry_output_logic, .b_writeMaskM1, .b_hitStallInM1, .b_hitStallOutM1,
   .b_evictWayMuxM1, .b_flushIdxMuxM1, .b_evictAddrM1, .b_evictMuxM1, .b_cachereqM1b,
   .b_dataWdataM1, .b_index_logic, .b_WbenGen_M1, .b_sCachereqTypeM1, .b_sMshrPtr, .b_sMshrType,
   .b_sAmoHitWayM1, .b_stallEngM2, .b_rdMuxM2, .b_data_size_mux_M2, .b_offset_selection_logic,
   .b_sCachereqTypeM2, .b_memreqAddrOut, .b_memreq_addr_bits_to_bitstruct, .b_memreqM2,
   .b_cacherespM2]

theorem mem_blks (B : Blk) : B ∈ blks := by cases B <;> decide

/-- Running the blocks `L` one after the other, starting with the values `w₀`. Proof device; not in the source. -/
def runBlks (r : Regs p) (i : PIn p) (L : List Blk) (w₀ : (x : Wire) → T p x) : (x : Wire) → T p x :=
  Sched.runs (net r i) blkOf L w₀

/-- Running one block. Proof device; not in the source. -/
def runOne (r : Regs p) (i : PIn p) (B : Blk) (w₀ : (x : Wire) → T p x) : (x : Wire) → T p x :=
  Sched.runBlk (net r i) blkOf B w₀

/-- All wires zero: their values when PyMTL3 has elaborated the design. Proof device; not in the source. -/
def zeroW : (x : Wire) → T p x := by
  intro x
  cases x
  all_goals
    simp only [T]
    first
      | exact false
      | exact (0 : BitVec _)
      | exact ⟨0, 0, 0, 0, 0⟩
      | exact ⟨0, 0, 0, 0, 0, 0⟩
      | exact ⟨0, 0, 0, 0, 0, false, false, 0⟩
      | exact ⟨0, 0, 0⟩
      | exact ⟨false, 0, 0⟩
      | exact fun _ => ⟨false, 0, 0⟩
      | exact (false, false)
      | exact ⟨0, 0, ⟨0, 0, 0⟩, 0, 0⟩

/-- **C51.**  For every content of the registers and SRAMs and every input,
exactly one valuation of the wires is left unchanged by all update blocks; every
schedule that runs all blocks `levels` times, in any order, reaches it from any
wire values. -/
theorem C51_settles (r : Regs p) (i : PIn p) :
    ∃ w : (x : Wire) → T p x,
      (∀ B, runOne r i B w = w) ∧
      (∀ w', (∀ B, runOne r i B w' = w') → w' = w) ∧
      (∀ L, Sched.Rounds Blk levels L → ∀ w₀, runBlks r i L w₀ = w) ∧
      ∀ L w₀, (∀ B, runOne r i B (runBlks r i L w₀) = runBlks r i L w₀) → runBlks r i L w₀ = w := by
  have hs := Sched.settled_exists (net_local r i) lvl_lt zeroW
  refine ⟨_, fun B => Sched.stable_of_settled hs B, ?_, ?_, ?_⟩
  · intro w' h
    exact Sched.settled_unique (net_local r i) (Sched.settled_of_stable (blk := blkOf) h) hs
  · intro L hL w₀
    exact Sched.rounds_settle (net_local r i) hs lvl_lt hL w₀
  · intro L w₀ h
    exact Sched.settled_unique (net_local r i) (Sched.settled_of_stable (blk := blkOf) h) hs

/-- Consequence: two complete schedules, from different wire values, drive the
same ports and load the same values into the registers. -/
theorem C51_schedule_independent (r : Regs p) (i : PIn p) {L L' : List Blk}
    (hL : Sched.Rounds Blk levels L) (hL' : Sched.Rounds Blk levels L') (w₀ w₀' : (x : Wire) → T p x) :
    outOf (runBlks r i L w₀) = outOf (runBlks r i L' w₀') ∧
    regsNext r i (runBlks r i L w₀) = regsNext r i (runBlks r i L' w₀') := by
  obtain ⟨w, _, _, h, _⟩ := C51_settles r i
  rw [h L hL w₀, h L' hL' w₀']
  exact ⟨rfl, rfl⟩

theorem settled_iff (r : Regs p) (i : PIn p) (w : (x : Wire) → T p x) :
    Settled r i w ↔ ∀ B, runOne r i B w = w :=
  ⟨fun h B => Sched.stable_of_settled h B, fun h => Sched.settled_of_stable (blk := blkOf) h⟩

theorem runBlks_settled (r : Regs p) (i : PIn p) {L : List Blk} (hL : Sched.Rounds Blk levels L)
    (w₀ : (x : Wire) → T p x) : Settled r i (runBlks r i L w₀) := by
  obtain ⟨w, h1, _, h, _⟩ := C51_settles r i
  rw [h L hL w₀, settled_iff]
  exact h1

/-- `n` times the same list of blocks. Proof device; not in the source. -/
def rep (n : Nat) (L : List Blk) : List Blk :=
  match n with
  | 0 => []
  | n + 1 => L ++ rep n L

theorem rounds_rep {L : List Blk} (h : ∀ B, B ∈ L) (n : Nat) : Sched.Rounds Blk n (rep n L) := by
  induction n with
  | zero => exact .zero _
  | succ n ih => exact .succ h ih

/-- Complete schedules exist: source order and its reverse. -/
example : Sched.Rounds Blk levels (rep levels blks) ∧ Sched.Rounds Blk levels (rep levels blks.reverse) ∧
    rep levels blks ≠ rep levels blks.reverse :=
  ⟨rounds_rep mem_blks _, rounds_rep (fun B => List.mem_reverse.2 (mem_blks B)) _, by decide⟩

/-! ## Way numbers -/

/-- The way-select signals of a valuation: everything that indexes a list or a
vector with one element per way. Proof device; not in the source. -/
def selects (w : (x : Wire) → T p x) : List Way :=
  [w .cUpdTagWayM0, w .cRepWrM0, w .cWayOffsetM1, w .hitWayBypassM1, w .updWayMuxM0, w .sRepRdM1,
   w .sHitWayM1, w .sMshrPtr, w .sAmoHitWayM1, (w .mshrDeallocOut).repl, (w .mshrAllocIn).repl,
   (w .hitStallInM1).2, (w .hitStallOutM1).2]

/-- The way numbers in the registers. Proof device; not in the source. -/
def regSelects (r : Regs p) : List Way :=
  [r.wayPtrM1, r.updTagWayM1, r.mshr.repl, r.hitStall.2]

/-- All way numbers exist; the replacement bits are way numbers, too. Proof device; not in the source. -/
def WaysExist (r : Regs p) (w : (x : Wire) → T p x) : Prop :=
  (∀ k ∈ selects w, k ∈ p.ways) ∧ (∀ k ∈ regSelects r, k ∈ p.ways) ∧
  (∀ j, r.replBits.getLsbD j ∈ p.ways) ∧ ∀ j, (w .replRegIn).getLsbD j ∈ p.ways

theorem mem_ways_two (h : p.twoWay = true) (k : Way) : k ∈ p.ways := by
  simp [Params.ways, h]

theorem mem_ways_one (h : p.twoWay = false) (k : Way) : k ∈ p.ways ↔ k = false := by
  simp [Params.ways, h]

theorem false_mem_ways : false ∈ p.ways := by
  simp only [Params.ways]; split <;> simp

private theorem comparing_way (h : p.twoWay = false) (a b : Bool) (t : Way → Entry p) (g : Tag p)
    (d : BitVec (assoc p)) : (comparingW p a b t g d).way = false := by
  have hw : p.ways = [false] := by simp [Params.ways, h]
  simp only [comparingW, hw, List.forIn_cons, List.forIn_nil]
  generalize (t false).val = x
  generalize ((t false).tag == g) = y
  generalize BitVec.getLsbD d _ = z
  cases a <;> cases b <;> cases x <;> cases y <;> cases z <;> rfl

private theorem tagVal_way (h : p.twoWay = false) (t : BitVec 5) (c : BitVec p.cntBits) (a : Way) (b : Bool) (d e : Way) :
    (tagValB p t c a b d e).2 = false := by
  have hw : p.ways = [false] := by simp [Params.ways, h]
  simp only [tagValB, hw, List.forIn_cons, List.forIn_nil]
  generalize (t == TR.CACHE_INIT || t == TR.INV_WRITE || t == TR.REPLAY_INV || t == TR.FLUSH_READ ||
    t == TR.FLUSH_WRITE || t == TR.REPLAY_FLUSH) = x1
  generalize (t == TR.REFILL || t == TR.REPLAY_WRITE) = x2
  generalize (t == TR.REPLAY_AMO && b) = x3
  generalize (t == TR.INIT_REQ) = x4
  generalize (t == TR.CLEAN_HIT) = x5
  generalize (t == TR.READ_REQ || t == TR.WRITE_REQ || t == TR.AMO_REQ) = x6
  generalize (c.toNat % assoc p == Bool.toNat false) = x7
  cases x1 <;> cases x2 <;> cases x3 <;> cases x4 <;> cases x5 <;> cases x6 <;> cases x7 <;> rfl

private theorem wayOffset_way (t : BitVec 5) (h1 h2 : Bool) : wayOffsetB t false false h1 h2 false false false = false := by
  simp only [wayOffsetB]
  generalize (t == TR.REPLAY_READ || t == TR.REPLAY_WRITE || t == TR.REFILL) = x1
  generalize (t == TR.READ_REQ || t == TR.WRITE_REQ) = x2
  generalize (t == TR.AMO_REQ) = x3
  generalize (t == TR.FLUSH_READ || t == TR.CACHE_INIT) = x4
  cases x1 <;> cases x2 <;> cases x3 <;> cases x4 <;> cases h1 <;> cases h2 <;> rfl

/-- Way numbers: if all way numbers in the registers and on the wires
exist, they exist after running any block (so at every moment of a cycle, also
before the wires have settled), and after the clock edge. -/
theorem ways_exist_step (r : Regs p) (i : PIn p) (w : (x : Wire) → T p x) (h : WaysExist r w) :
    (∀ B, WaysExist r (runOne r i B w)) ∧ WaysExist (regsNext r i w) w := by
  cases hp : p.twoWay
  · simp only [WaysExist, selects, regSelects, mem_ways_one hp, List.mem_cons, List.not_mem_nil, or_false,
      forall_eq_or_imp, forall_eq] at h ⊢
    obtain ⟨⟨w1, w2, w3, w4, w5, w6, w7, w8, w9, w10, w11, w12, w13⟩, ⟨r1, r2, r3, r4⟩, hr, hw⟩ := h
    constructor
    · intro B
      simp only [runOne, Sched.runBlk]
      refine ⟨⟨?_, ?_, ?_, ?_, ?_, ?_, ?_, ?_, ?_, ?_, ?_, ?_, ?_⟩, ⟨r1, r2, r3, r4⟩, hr, ?_⟩
      case refine_14 =>
        intro j
        split
        · simp only [net, replRegIn, getLsbD_mkBits]
          simp [hr, w2]
        · exact hw j
      all_goals
        split
        · simp only [net, comparing_way hp, tagVal_way hp, r1, r2, r3, hr, w1, w3, w4, w6, w7, w8,
            w9, w10, w13, wayOffset_way, replPolicy, hp, ite_self, Bool.false_eq_true, if_false]
          try (split <;> assumption)
        · assumption
    · refine ⟨⟨w1, w2, w3, w4, w5, w6, w7, w8, w9, w10, w11, w12, w13⟩, ⟨?_, ?_, ?_, ?_⟩, ?_, hw⟩
      · simp only [regsNext, regEnRst, w8, r1, ite_self]
      · simp only [regsNext, regEnRst, w1, r2, ite_self]
      · simp only [regsNext, regEnRst]
        split
        · rfl
        · split <;> assumption
      · simp only [regsNext, regEn]
        split <;> assumption
      · intro j
        simp only [regsNext, regEnRst]
        split
        · simp
        · split
          · exact hw j
          · exact hr j
  · exact ⟨fun B => ⟨fun k _ => mem_ways_two hp k, fun k _ => mem_ways_two hp k, fun j => mem_ways_two hp _,
      fun j => mem_ways_two hp _⟩, ⟨fun k _ => mem_ways_two hp k, fun k _ => mem_ways_two hp k,
      fun j => mem_ways_two hp _, fun j => mem_ways_two hp _⟩⟩

/-- Moments of a simulation: registers and wires after any number of cycles with
arbitrary inputs (also reset at any time), in each of which the blocks run in an
arbitrary order, completely or not.  At power-on the wires and the registers
that hold way numbers are zero; all other registers and the SRAMs are arbitrary. Proof device; not in the source. -/
inductive Moment : Regs p → ((x : Wire) → T p x) → Prop
  | power (r : Regs p) (h : ∀ k ∈ regSelects r, k = false) (hb : r.replBits = 0) : Moment r zeroW
  | block {r : Regs p} {w : (x : Wire) → T p x} (h : Moment r w) (i : PIn p) (B : Blk) : Moment r (runOne r i B w)
  | edge {r : Regs p} {w : (x : Wire) → T p x} (h : Moment r w) (i : PIn p) : Moment (regsNext r i w) w

/-- **C51.**  At every moment of a simulation, also before the wires have
settled, every signal used to select a way selects a way that exists: no list of
ways is indexed out of range in a direct-mapped cache. -/
theorem C51_ways_exist {r : Regs p} {w : (x : Wire) → T p x} (h : Moment r w) :
    (∀ k ∈ selects w, k ∈ p.ways) ∧ (∀ k ∈ regSelects r, k ∈ p.ways) := by
  have : WaysExist r w := by
    induction h with
    | power r h hb =>
      refine ⟨?_, fun k hk => h k hk ▸ false_mem_ways, ?_, ?_⟩
      · intro k hk
        have : k = false := by
          simpa [selects, zeroW] using hk
        exact this ▸ false_mem_ways
      · intro j; rw [hb]; simpa using false_mem_ways
      · intro j
        have : (zeroW (p := p) .replRegIn) = (0 : BitVec _) := rfl
        rw [this]; simpa using false_mem_ways
    | block _ i B ih => exact (ways_exist_step _ i _ ih).1 B
    | edge _ i ih => exact (ways_exist_step _ i _ ih).2
  exact ⟨this.1, this.2.1⟩

/-- Registers all zero. Proof device; not in the source. -/
def zeroRegs : Regs p where
  memrespEnM0 := false
  fsmM0 := 0
  counterM0 := 0
  transM1 := 0
  wayPtrM1 := false
  updTagWayM1 := false
  wasStalled := false
  transM2 := 0
  isEvictM2 := false
  hitRegM2 := false
  flushSentM2 := false
  pipelineRegM0 := ⟨0, 0, 0, 0, 0, 0⟩
  cachereqM1 := ⟨0, 0, ⟨0, 0, 0⟩, 0, 0⟩
  flushIdxM1 := 0
  dtyBitsMaskM1 := 0
  replBits := 0
  tagArrays := fun _ => ⟨fun _ => 0, 0⟩
  tagStall := fun _ => ⟨false, 0, 0⟩
  mshrNum := 0
  mshr := ⟨0, 0, 0, 0, 0, false, false, 0⟩
  hitStall := (false, false)
  cachereqM2 := ⟨0, 0, ⟨0, 0, 0⟩, 0, 0⟩
  writeMaskM2 := 0
  dataArray := ⟨fun _ => 0, 0⟩
  dataStall := 0

theorem Moment.blocks {r : Regs p} {w : (x : Wire) → T p x} (h : Moment r w) (i : PIn p) (L : List Blk) :
    Moment r (runBlks r i L w) := by
  induction L generalizing w with
  | nil => exact h
  | cons B L ih => exact ih (h.block i B)

/-- A reset cycle and half a cycle of a direct-mapped and of a two-way cache
with 32-bit addresses. -/
example (i j : PIn ⟨2, 26, 2, 2, 8, false⟩) (hi : i.reset = true) :
    ∃ r w, Moment r w ∧ r = regsNext zeroRegs i (runBlks zeroRegs i blks zeroW) ∧ r.counterM0 = 3 ∧
      w = runBlks r j (blks.take 40) (runBlks zeroRegs i blks zeroW) := by
  refine ⟨_, _, ((Moment.power zeroRegs (by simp [regSelects, zeroRegs]) rfl).blocks i blks).edge i |>.blocks j
    (blks.take 40), rfl, ?_, rfl⟩
  simp only [regsNext, hi, if_true]
  rfl

end Verif.Net
