import Verif.SramSim
import Verif.PropsSingle
import Verif.PropsLive
import Verif.PropsUnits
import Verif.NetUnitsEq

/-!
# C68: the cache does not depend on what its SRAMs output when they are not read
-/

namespace Verif
open Net (packEntry unpackEntry tagArrayBits encTagWben SramG merge_packEntry unpack_packEntry)
variable {p : Params}

theorem Twin.refl_reset {s : St p} (h : ∃ (t : St p) (i : In p), i.reset = true ∧ s = t.step i) : Twin s s := by
  obtain ⟨t, i, hi, rfl⟩ := h
  unfold St.step
  rw [hi]
  exact ⟨Tidy.rst _, (t.next i).rst.tagDout, (t.next i).rst.tagStall, (t.next i).rst.hitStall, (t.next i).rst.data.dout,
    (t.next i).rst.dataStall, rfl, rst_alike _ _ _ _ _ _⟩

/-- The junk with which `stepJ` is `step`. Proof device; not in the source. -/
def St.held (s : St p) : Junk p := ⟨s.tagDout, s.data.dout⟩

theorem stepJ_held (s : St p) (i : In p) : s.stepJ i s.held = s.step i := by
  have h1 : (s.step i).tagDout = fun w => if s.tagRead i w then s.tagRam w (s.tagIdx0 i (s.trans0 i)) else s.tagDout w := by
    unfold St.step; cases i.reset <;> rfl
  have h2 : (s.step i).data.dout = if s.dataRead then s.data.ram (indexer p s.addr1.idx s.wayOff) else s.data.dout := by
    unfold St.step; cases i.reset <;> rfl
  have e1 : (fun w => if s.tagRead i w then (s.step i).tagDout w else s.tagDout w) = (s.step i).tagDout := by
    funext w
    rw [h1]
    dsimp only
    split <;> rfl
  have e2 : (if s.dataRead then (s.step i).data.dout else s.data.dout) = (s.step i).data.dout := by
    rw [h2]
    split <;> rfl
  unfold St.stepJ St.held
  dsimp only
  rw [e1, e2]

theorem Twin.outs {s s' : St p} (h : Twin s s') : ∀ (l : List (In p × Junk p)), s'.outsJ l = s.outs (l.map (·.1))
  | [] => rfl
  | (i, g) :: l => by
    have h1 := h.step i s.held g
    rw [stepJ_held] at h1
    show s'.out i :: (s'.stepJ i g).outsJ l = s.out i :: (s.step i).outs (l.map (·.1))
    rw [h.out i, h1.outs l]

theorem Twin.reset (t : St p) {i : In p} (hi : i.reset = true) (g : Junk p) : Twin (t.step i) (t.stepJ i g) := by
  have e : t.step i = (t.next i).rst := by unfold St.step; rw [hi]; rfl
  refine ⟨e ▸ Tidy.rst _, (t.stepJ i g).tagDout, (t.step i).tagStall, (t.step i).hitStall, (t.stepJ i g).data.dout,
    (t.step i).dataStall, rfl, ?_⟩
  rw [e]
  exact rst_alike _ _ _ _ _ _

/-- **C68.**  After a reset from any state, whatever the SRAMs output after cycles in which they
were not read (the cycle of the reset included), and whatever inputs arrive (further resets
included), every output of the cache is in every cycle what it is with the Python SRAMs. -/
theorem C68_same_outputs (t : St p) {i : In p} (hi : i.reset = true) (g : Junk p) (l : List (In p × Junk p)) :
    (t.stepJ i g).outsJ l = (t.step i).outs (l.map (·.1)) :=
  (Twin.reset t hi g).outs l

/-! ## Systems -/

section
set_option linter.unusedSectionVars false
variable {ι : Type} [DecidableEq ι]

/-- The systems differ only in the caches, which are twins. Proof device; not in the source. -/
structure STwin (S S' : Sys ι p) : Prop where
  cache : ∀ k, Twin (S.cache k) (S'.cache k)
  reqQ : S'.reqQ = S.reqQ
  respQ : S'.respQ = S.respQ
  mem : S'.mem = S.mem

theorem STwin.start {S : Sys ι p} (h : Start S) : STwin S S :=
  ⟨fun k => Twin.refl_reset (h.reset k), rfl, rfl, rfl⟩

theorem STwin.evs {S S' : Sys ι p} (h : STwin S S') (k : ι) (i : In p) : S'.clockEvs k i = S.clockEvs k i := by
  unfold Sys.clockEvs
  rw [(h.cache k).out i]

theorem STwin.can {S S' : Sys ι p} (h : STwin S S') {k : ι} {i : In p} (hc : S'.CanClock k i) : S.CanClock k i := by
  refine ⟨hc.noReset, fun hr => ?_, fun hm => ?_⟩
  · rw [← (h.cache k).out i]
    exact hc.req hr
  · rw [← h.respQ]
    exact hc.mem hm

theorem STwin.clock {S S' : Sys ι p} (h : STwin S S') (k : ι) (i : In p) (g : Junk p) :
    STwin (S.clock k i) (S'.clockJ k i g) where
  cache k' := by
    show Twin (upd S.cache k ((S.cache k).step i) k') (upd S'.cache k ((S'.cache k).stepJ i g) k')
    by_cases hk : k' = k
    · subst hk
      rw [upd_same, upd_same]
      have := (h.cache k').step i (S.cache k').held g
      rwa [stepJ_held] at this
    · rw [upd_other _ hk, upd_other _ hk]
      exact h.cache k'
  reqQ := by
    show upd S'.reqQ k (S'.reqQ k ++ if ((S'.cache k).out i).mreqEn then [((S'.cache k).out i).mreq] else []) = _
    rw [(h.cache k).out i, h.reqQ]
    rfl
  respQ := by
    show upd S'.respQ k (if i.mrespEn then (S'.respQ k).tail else S'.respQ k) = _
    rw [h.respQ]
    rfl
  mem := h.mem

theorem STwin.exec {S S' : Sys ι p} (h : STwin S S') (k : ι) (m : MReq p) : STwin (S.exec k m) (S'.exec k m) where
  cache := h.cache
  reqQ := by
    show upd S'.reqQ k (S'.reqQ k).tail = _
    rw [h.reqQ]; rfl
  respQ := by
    show upd S'.respQ k (S'.respQ k ++ [(memExec S'.mem m).2]) = _
    rw [h.respQ, h.mem]; rfl
  mem := by
    show (memExec S'.mem m).1 = _
    rw [h.mem]; rfl

theorem STwin.step {S S' S'' : Sys ι p} (h : STwin S S') {ev : List (Ev ι p)} (hs : JStep S' ev S'') :
    ∃ T, Step S ev T ∧ STwin T S'' := by
  cases hs with
  | clock k i g hc =>
    refine ⟨S.clock k i, ?_, h.clock k i g⟩
    rw [h.evs k i]
    exact .clock S k i (h.can hc)
  | exec k m ms hm =>
    refine ⟨S.exec k m, ?_, h.exec k m⟩
    rw [h.mem]
    exact .exec S k m ms (by rw [← h.reqQ]; exact hm)

/-- **C68.**  Every execution of a system whose caches have such SRAMs is, event for event, an
execution of the system with the Python SRAMs, with the same memory and the same messages in
flight.  So every property of the events of executions (C01 to C63) holds for it. -/
theorem C68_same_executions {S S' : Sys ι p} {tr : List (Ev ι p)} (h0 : Start S) (h : JRun S tr S') :
    ∃ T, Run S tr T ∧ T.mem = S'.mem ∧ T.reqQ = S'.reqQ ∧ T.respQ = S'.respQ ∧
      ∀ k i, (S'.cache k).out i = (T.cache k).out i := by
  suffices ∃ T, Run S tr T ∧ STwin T S' by
    obtain ⟨T, hr, ht⟩ := this
    exact ⟨T, hr, ht.mem.symm, ht.reqQ.symm, ht.respQ.symm, fun k i => (ht.cache k).out i⟩
  induction h with
  | refl => exact ⟨_, .refl _, STwin.start h0⟩
  | snoc _ hs ih =>
    obtain ⟨T, hr, ht⟩ := ih
    obtain ⟨T', hs', ht'⟩ := ht.step hs
    exact ⟨T', .snoc hr hs', ht'⟩

/-- Conversely every execution with the Python SRAMs is one with such SRAMs. -/
theorem C68_python_is_an_instance {S S' : Sys ι p} {tr : List (Ev ι p)} (h : Run S tr S') : JRun S tr S' := by
  induction h with
  | refl => exact .refl _
  | @snoc S' S'' tr ev _ hs ih =>
    refine .snoc ih ?_
    cases hs with
    | clock k i hc =>
      have : S'.clock k i = S'.clockJ k i (S'.cache k).held := by
        unfold Sys.clockJ
        rw [stepJ_held]
        rfl
      rw [this]
      exact .clock S' k i _ hc
    | exec k m ms hm => exact .exec S' k m ms hm

/-- The flat-memory guarantee (C01) with such SRAMs. -/
theorem C68_flat_memory (wf : p.WF) {S S' : Sys Unit p} {tr : List (Ev Unit p)} (h0 : Start S) (h : JRun S tr S')
    (hv : ∀ q ∈ accepted () tr, q.Valid) :
    (responses () tr).map (·.data) <+: (flatRun S.mem (accepted () tr)).2 := by
  obtain ⟨T, hr, _⟩ := C68_same_executions h0 h
  exact C01_responses_equal_flat_memory wf h0 hr hv

end

/-! ## The Verilog SRAM -/

theorem SramV.edge_ram {ι : Type} [DecidableEq ι] {n : Nat} (s : SramV ι n) (val wr : Bool) (a : ι)
    (d m : BitVec n) (j : ι) :
    (s.edge val wr a d m).ram j = if val && wr && (j = a : Bool) then merge m (s.ram j) d else s.ram j := by
  rw [← SramG.edge_ram ⟨s.ram, 0⟩ val wr a d m j]
  cases val <;> cases wr
  case true.true => rfl
  all_goals
    show s.ram j = _
    rw [SramG.edge_ram]
    simp

theorem SramV.edge_q {ι : Type} [DecidableEq ι] {n : Nat} (s : SramV ι n) (val wr : Bool) (a : ι)
    (d m : BitVec n) : (s.edge val wr a d m).q = if val && !wr then s.ram a else 0 := by
  cases val <;> cases wr <;> rfl

/-- The Verilog SRAM after a history of operations. Proof device; not in the source. -/
def SramV.run {ι : Type} [DecidableEq ι] {n : Nat} (s : SramV ι n) : List (SramOp ι n) → SramV ι n
  | [] => s
  | o :: l => (s.edge o.val o.wr o.idx o.wdata o.wben).run l

/-- **C68.**  The Verilog SRAM holds, after any history, what the Python SRAM holds; after a read it
outputs the same word, after any other operation 0. -/
theorem C68_verilog_sram {ι : Type} [DecidableEq ι] {n : Nat} (init : ι → BitVec n) (q d : BitVec n) (ops : List (SramOp ι n))
    (o : SramOp ι n) :
    ((⟨init, q⟩ : SramV ι n).run (ops ++ [o])).ram = ((⟨init, d⟩ : Sram ι n).run (ops ++ [o])).ram ∧
      (o.reads → ((⟨init, q⟩ : SramV ι n).run (ops ++ [o])).q = ((⟨init, d⟩ : Sram ι n).run (ops ++ [o])).dout) ∧
      (¬ o.reads → ((⟨init, q⟩ : SramV ι n).run (ops ++ [o])).q = 0) := by
  have hram : ∀ (ops : List (SramOp ι n)) (s : SramV ι n) (t : Sram ι n), s.ram = t.ram → (s.run ops).ram = (t.run ops).ram := by
    intro ops
    induction ops with
    | nil => intro s t h; exact h
    | cons o l ih =>
      intro s t h
      refine ih _ _ ?_
      funext j
      rw [SramV.edge_ram, h]
      rfl
  have happ : ∀ (a b : List (SramOp ι n)) (s : SramV ι n), s.run (a ++ b) = (s.run a).run b := by
    intro a
    induction a with
    | nil => intro b s; rfl
    | cons o l ih => intro b s; exact ih _ _
  refine ⟨hram _ _ _ rfl, fun ho => ?_, fun ho => ?_⟩
  · rw [happ, Sram.run_append]
    show (SramV.edge _ o.val o.wr o.idx o.wdata o.wben).q = (Sram.step _ o.val o.wr o.idx o.wdata o.wben).dout
    rw [SramV.edge_q, hram ops _ ⟨init, d⟩ rfl]
    simp [Sram.step, ho.1, ho.2]
  · rw [happ]
    show (SramV.edge _ o.val o.wr o.idx o.wdata o.wben).q = 0
    rw [SramV.edge_q]
    split
    · next h => exact absurd (by simpa [SramOp.reads] using h) ho
    · rfl

/-- The output of the Verilog SRAMs when they are not read. Proof device; not in the source. -/
def zeroJunk (p : Params) : Junk p := ⟨fun _ => unpackEntry 0, 0⟩

theorem stepV_eq (s : St p) (i : In p) : s.stepV i = s.stepJ i (zeroJunk p) := by
  have h1 : (s.step i).tagRam = (s.next i).tagRam := by unfold St.step; cases i.reset <;> rfl
  have h2 : (s.step i).tagDout = (s.next i).tagDout := by unfold St.step; cases i.reset <;> rfl
  have h3 : (s.step i).data = (s.next i).data := by unfold St.step; cases i.reset <;> rfl
  have e1 : (fun w j => unpackEntry ((s.tagV i w).ram j)) = (s.step i).tagRam := by
    funext w j
    rw [h1]
    unfold St.tagV
    rw [SramV.edge_ram]
    dsimp only
    rw [merge_packEntry]
    show _ = if s.tagVal0 (s.trans0 i) w && (cs0 (s.trans0 i)).wr && decide (j = s.tagIdx0 i (s.trans0 i)) then
      tagMerge (cs0 (s.trans0 i)).wben (s.tagRam w j) (s.tagWdata0 i (s.trans0 i)) else s.tagRam w j
    split
    · exact unpack_packEntry _
    · exact unpack_packEntry _
  have e2 : (fun w => unpackEntry (s.tagV i w).q) = fun w => if s.tagRead i w then (s.step i).tagDout w else (zeroJunk p).tag w := by
    funext w
    rw [h2]
    unfold St.tagV
    rw [SramV.edge_q]
    show unpackEntry (if s.tagRead i w then packEntry (s.tagRam w (s.tagIdx0 i (s.trans0 i))) else 0) =
      if s.tagRead i w then (if s.tagRead i w then s.tagRam w (s.tagIdx0 i (s.trans0 i)) else s.tagDout w) else unpackEntry 0
    split
    · exact unpack_packEntry _
    · rfl
  have e3 : (⟨s.dataV.ram, s.dataV.q⟩ : Sram _ _) =
      ⟨(s.step i).data.ram, if s.dataRead then (s.step i).data.dout else (zeroJunk p).data⟩ := by
    rw [h3]
    congr 1
    · funext j
      unfold St.dataV
      rw [SramV.edge_ram]
      rfl
    · unfold St.dataV
      rw [SramV.edge_q]
      show (if s.dataRead then s.data.ram (indexer p s.addr1.idx s.wayOff) else 0) =
        if s.dataRead then (if s.dataRead then s.data.ram (indexer p s.addr1.idx s.wayOff) else s.data.dout) else 0
      split <;> rfl
  unfold St.stepV St.stepJ
  rw [e1, e2, e3]

/-- **C68.**  After a reset from any state the cache with the Verilog SRAMs and the cache with the
Python SRAMs have the same outputs in every cycle, for all inputs. -/
theorem C68_verilog_cache (t : St p) {i : In p} (hi : i.reset = true) (l : List (In p)) :
    (t.stepV i).outsV l = (t.step i).outs l := by
  have key : ∀ (l : List (In p)) (s : St p), s.outsV l = s.outsJ (l.map fun i => (i, zeroJunk p)) := by
    intro l
    induction l with
    | nil => intro s; rfl
    | cons i l ih =>
      intro s
      show s.out i :: (s.stepV i).outsV l = s.out i :: (s.stepJ i (zeroJunk p)).outsJ _
      rw [ih, stepV_eq]
  rw [key, stepV_eq, C68_same_outputs t hi, List.map_map]
  congr 1
  exact List.map_id l

end Verif
