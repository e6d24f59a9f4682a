import Verif.L1
import Verif.UnitLemmas

/-!
# Simulation of the RTL by the event-level machine: M2 slot and stall lemmas
-/

namespace Verif
variable {p : Params} {U : Prop}

/-! ## The M2 stage as a one-entry message slot -/

/-- Transactions that make M2 wait for both ready signals. Proof device; not in the source. -/
def blocking : Trans → Bool
  | .invalid | .cacheInit | .invStart | .invWrite | .cleanHit | .flushStart | .flushWait
  | .flushWrite => false
  | _ => true

theorem cs2_ostall (t2 : Trans) (mr rr e h f : Bool) :
    (cs2 t2 mr rr e h f).ostall = (blocking t2 && !(mr && rr)) := by
  cases t2 <;> cases mr <;> cases rr <;> cases e <;> cases h <;> cases f <;> rfl

theorem cs2_of_not_ostall (t2 : Trans) (mr rr e h f : Bool)
    (hs : (cs2 t2 mr rr e h f).ostall = false) :
    cs2 t2 mr rr e h f = cs2 t2 true true e h f := by
  cases t2 <;> cases mr <;> cases rr <;> simp_all [cs2]

/-- Contents of the M2 stage. Proof device; not in the source. -/
structure M2 (p : Params) where
  t2 : Trans
  evict : Bool
  hit : Bool
  fl : Bool
  req : PMsg p
  wmask : Dty p
  line : Line p

/-- The message the slot will emit (none or one). Proof device; not in the source. -/
def M2.msgs (m : M2 p) : List (Msg p) :=
  let c := cs2 m.t2 true true m.evict m.hit m.fl
  let amo := (m.t2 == .amoReq || m.t2 == .replayAmo) && !m.evict
  let d := if c.rdSel then m.req.data else m.line
  let ol := offLenSel p amo m.req.len m.req.addr.off
  (if c.mreqEn then
    [.mem (MReq.canon ⟨memreqType c.mty m.req.ty, m.req.opq, ⟨m.req.addr.tag, m.req.addr.idx, ol.1⟩,
      ol.2, m.wmask, d⟩)] else []) ++
  (if c.respEn then
    [.resp ⟨m.req.ty, m.req.opq, (BitVec.ofBool m.hit).setWidth 2, m.req.len,
      dataSelect p c.dszEn amo m.req.len m.req.addr.off d⟩] else [])

/-- Messages on the output ports in a cycle. Proof device; not in the source. -/
def Out.msgs (o : Out p) : List (Msg p) :=
  (if o.mreqEn then [.mem o.mreq.canon] else []) ++ (if o.respEn then [.resp o.resp] else [])

/-- Types of the memory requests in a message list. Proof device; not in the source. -/
def memTypes (l : List (Msg p)) : List MType :=
  l.filterMap fun
    | .mem m => some m.ty
    | .resp _ => none

@[simp] theorem memTypes_nil : memTypes ([] : List (Msg p)) = [] := rfl
@[simp] theorem memTypes_append (a b : List (Msg p)) :
    memTypes (a ++ b) = memTypes a ++ memTypes b := by simp [memTypes]
@[simp] theorem memTypes_cons_resp (r : CResp p) (l : List (Msg p)) :
    memTypes (.resp r :: l) = memTypes l := by simp [memTypes]
@[simp] theorem memTypes_cons_mem (m : MReq p) (l : List (Msg p)) :
    memTypes (.mem m :: l) = m.ty :: memTypes l := by simp [memTypes]

/-- Contents of the slot. Proof device; not in the source. -/
def St.slot (s : St p) : M2 p := ⟨s.t2, s.evict2, s.hit2, s.flushSent2, s.req2, s.wmask2, s.effData⟩

/-- The data array after this cycle (independent of the inputs). Proof device; not in the source. -/
def St.dataNext (s : St p) : Sram (BitVec p.cntBits) p.lineBits :=
  s.data.step s.cs1.val s.cs1.wr (indexer p s.addr1.idx s.wayOff) s.req1.data
    (writeBitEn p s.cs1.wben s.dtyMask1 s.req1.addr.off s.req1.len)

/-- What the slot receives from M1 if M2 advances. Proof device; not in the source. -/
def St.adv (s : St p) : M2 p :=
  ⟨s.t1, s.status1.evict, s.status1.hit, s.flushSent1, { s.req1 with addr := s.addr1 }, s.wmask1,
    s.dataNext.dout⟩

theorem out_msgs_stall (s : St p) (i : In p) (h : (s.cs2 i).ostall = true) :
    (s.out i).msgs = [] := by
  have : (s.cs2 i).mreqEn = false ∧ (s.cs2 i).respEn = false := by
    revert h
    simp only [St.cs2]
    generalize i.mreqRdy = a; generalize i.respRdy = b
    cases s.t2 <;> cases a <;> cases b <;> cases s.evict2 <;> cases s.hit2 <;>
      cases s.flushSent2 <;> decide
  simp [Out.msgs, St.out, this]

theorem out_msgs_adv (s : St p) (i : In p) (h : (s.cs2 i).ostall = false) :
    (s.out i).msgs = s.slot.msgs := by
  have h2 := cs2_of_not_ostall _ _ _ _ _ _ h
  simp only [Out.msgs, St.out, M2.msgs, St.slot, St.memreq, St.cacheresp, St.cs2, h2, St.isAmo2,
    St.rdData2]
  rfl

theorem next_slot_stall (s : St p) (i : In p) (h : (s.cs2 i).ostall = true)
    (hci : s.t1 ≠ .cacheInit) : (s.next i).slot = s.slot := by
  have hci' : (s.t1 == Trans.cacheInit) = false := by simpa using hci
  simp only [St.slot, St.next, h, hci', Bool.not_true, Bool.false_and, Bool.false_or,
    Bool.false_eq_true, if_false, St.effData, stallOut, stallNext]

theorem next_slot_adv (s : St p) (i : In p) (h : (s.cs2 i).ostall = false) :
    (s.next i).slot.msgs = s.adv.msgs := by
  by_cases hci : s.t1 = .cacheInit
  · have h1 : (s.next i).slot.t2 = .cacheInit := by simp [St.slot, St.next, hci]
    have h2 : s.adv.t2 = .cacheInit := hci
    simp [M2.msgs, h1, h2, cs2]
  · have hci' : (s.t1 == Trans.cacheInit) = false := by simpa using hci
    have : (s.next i).slot = s.adv := by
      simp only [St.slot, St.adv, St.next, h, hci', bne, Bool.not_false, Bool.true_and,
        Bool.or_false, if_true, St.effData, stallOut, stallNext, St.dataNext]
    rw [this]

theorem next_data (s : St p) (i : In p) : (s.next i).data = s.dataNext := rfl

/-! ## M1 is stable while M2 stalls -/

/-- Two states with the same M1 stage. Proof device; not in the source. -/
structure M1Eq (s s' : St p) : Prop where
  t1 : s'.t1 = s.t1
  wayPtr1 : s'.wayPtr1 = s.wayPtr1
  updWay1 : s'.updWay1 = s.updWay1
  evict2 : s'.evict2 = s.evict2
  req1 : s'.req1 = s.req1
  flushIdx1 : s'.flushIdx1 = s.flushIdx1
  dtyMask1 : s'.dtyMask1 = s.dtyMask1
  rep : s'.rep = s.rep
  effTag : s'.effTag = s.effTag
  hitInfo : s'.hitInfo = s.hitInfo

namespace M1Eq
variable {s s' : St p} (h : M1Eq s s')
include h

theorem tagEn : s'.tagEn = s.tagEn := by simp only [St.tagEn, h.evict2, h.t1]
theorem cmp : s'.cmp = s.cmp := by simp only [St.cmp, h.tagEn, h.t1, h.req1, h.effTag]
theorem tagEntry (w : Way) : s'.tagEntry w = s.tagEntry w := by
  simp only [St.tagEntry, h.tagEn, h.effTag]
theorem lineDty (w : Way) : s'.lineDty w = s.lineDty w := by
  simp only [St.lineDty, h.tagEn, h.effTag]
theorem wordDty (w : Way) : s'.wordDty w = s.wordDty w := by
  simp only [St.wordDty, h.effTag, h.req1]
theorem repRd : s'.repRd = s.repRd := by simp only [St.repRd, h.rep, h.req1]
theorem status1 : s'.status1 = s.status1 := by
  simp only [St.status1, h.t1, h.cmp, h.wordDty, h.lineDty, h.repRd]
theorem flushSent1 : s'.flushSent1 = s.flushSent1 := by
  simp only [St.flushSent1, h.t1, h.lineDty, h.updWay1]
theorem noFlush1 : s'.noFlush1 = s.noFlush1 := by
  simp only [St.noFlush1, h.t1, h.lineDty, h.updWay1]
theorem wayOff : s'.wayOff = s.wayOff := by
  simp only [St.wayOff, h.t1, h.wayPtr1, h.status1, h.cmp, h.repRd, h.hitInfo, h.updWay1]
theorem cs1 : s'.cs1 = s.cs1 := by simp only [St.cs1, h.t1, h.status1, h.flushSent1]
theorem wmask1 : s'.wmask1 = s.wmask1 := by simp only [St.wmask1, h.tagEntry, h.wayOff]
theorem addr1 : s'.addr1 = s.addr1 := by
  simp only [St.addr1, h.cs1, h.effTag, h.wayOff, St.flushIdxMux, h.t1, h.flushIdx1, h.req1]
theorem mshrIn : s'.mshrIn = s.mshrIn := by
  simp only [St.mshrIn, h.req1, h.wayOff, h.hitInfo, h.status1, h.wmask1]
theorem hitInfoIn : s'.hitInfoIn = s.hitInfoIn := by simp only [St.hitInfoIn, h.cmp]

end M1Eq

theorem next_effTag_stall (s : St p) (i : In p) (h : (s.cs2 i).ostall = true) :
    (s.next i).effTag = s.effTag := by
  funext w
  simp only [St.effTag, St.next, h, stallOut, stallNext, Bool.not_true, Bool.false_eq_true, if_false]

theorem next_hitInfo_stall (s : St p) (i : In p) (h : (s.cs2 i).ostall = true) :
    (s.next i).hitInfo = s.hitInfo := by
  have h1 : (s.next i).hitStallEn = false := by simp [St.hitStallEn, St.next, h]
  have h2 : (s.next i).hitStall = s.hitInfo := rfl
  simp only [St.hitInfo, h1, stallOut, Bool.false_eq_true, if_false]
  exact h2

theorem trans0_cacheInit (s : St p) (i : In p) : s.trans0 i = .cacheInit ↔ s.fsm = .init := by
  constructor
  · intro h
    by_cases hf : s.fsm = .init
    · exact hf
    · exfalso
      revert h
      simp only [St.trans0, hf, if_false]
      repeat' split
      all_goals simp
  · intro h; simp [St.trans0, h]

/-- While M2 stalls, M1 keeps its contents and the M0 registers hold. -/
theorem next_M1Eq (s : St p) (i : In p) (h : (s.cs2 i).ostall = true)
    (hci : s.t1 ≠ .cacheInit) (hf : s.fsm ≠ .init) : M1Eq s (s.next i) := by
  have hci' : (s.t1 == Trans.cacheInit) = false := by simpa using hci
  have ht : (s.trans0 i == Trans.cacheInit) = false := by
    have := mt (trans0_cacheInit s i).1 hf; simpa using this
  have hst : s.stall i = true := by simp [St.stall, h]
  refine ⟨?_, ?_, ?_, ?_, ?_, ?_, ?_, ?_, next_effTag_stall s i h, next_hitInfo_stall s i h⟩
  all_goals simp [St.next, h, hci', ht, hst]
  funext j
  simp [replBitsNext]

/-- Registers of the M0 stage and the MSHR hold on any stall. -/
theorem next_hold (s : St p) (i : In p) (h : s.stall i = true) :
    (s.next i).fsm = s.fsm ∧ (s.next i).cnt = s.cnt ∧ (s.next i).mrespEn0 = s.mrespEn0 ∧
    (s.next i).mresp0 = s.mresp0 ∧ (s.next i).mshr = s.mshr ∧ (s.next i).mshrNum = s.mshrNum := by
  simp [St.next, h, St.allocEn, counterNext, mshrNumNext]

theorem Sram.step_idem {ι : Type} [DecidableEq ι] {n : Nat} (s : Sram ι n)
    (val wr : Bool) (idx : ι) (d m : BitVec n) :
    (s.step val wr idx d m).step val wr idx d m = s.step val wr idx d m := by
  simp only [Sram.step, Sram.mk.injEq]
  constructor
  · funext j
    by_cases h : (val && wr && decide (j = idx)) = true
    · simp only [h, if_true]; exact merge_idem _ _ _
    · simp only [h, Bool.false_eq_true, if_false]
  · cases val <;> cases wr <;> simp

theorem M1Eq.dataNext_stall {s : St p} {i : In p} (h : M1Eq s (s.next i)) :
    (s.next i).dataNext = s.dataNext := by
  have : (s.next i).dataNext = (s.dataNext).step s.cs1.val s.cs1.wr
      (indexer p s.addr1.idx s.wayOff) s.req1.data
      (writeBitEn p s.cs1.wben s.dtyMask1 s.req1.addr.off s.req1.len) := by
    simp only [St.dataNext, next_data, h.cs1, h.addr1, h.wayOff, h.req1, h.dtyMask1]
  rw [this]
  exact Sram.step_idem _ _ _ _ _ _

theorem M1Eq.adv_stall {s : St p} {i : In p} (h : M1Eq s (s.next i)) : (s.next i).adv = s.adv := by
  simp only [St.adv, h.t1, h.status1, h.flushSent1, h.req1, h.addr1, h.wmask1, h.dataNext_stall]

/-! ## Comparators -/

theorem foldl_congr_mem {α β : Type} (f g : β → α → β) (l : List α) (b : β)
    (h : ∀ b, ∀ a ∈ l, f b a = g b a) : l.foldl f b = l.foldl g b := by
  induction l generalizing b with
  | nil => rfl
  | cons a l ih =>
    simp only [List.foldl_cons]
    rw [h b a (by simp)]
    exact ih _ (fun b a ha => h b a (by simp [ha]))

theorem comparing_congr (en isInit : Bool) (tag : Tag p) (e e' : Way → Entry p)
    (h : ∀ w ∈ p.ways, e w = e' w) : comparing p en isInit tag e = comparing p en isInit tag e' := by
  simp only [comparing]
  split
  · apply foldl_congr_mem
    intro b a ha
    simp only [cmpStep, h a ha]
  · rfl

theorem comparing_way_mem (en isInit : Bool) (tag : Tag p) (e : Way → Entry p) :
    (comparing p en isInit tag e).way ∈ p.ways := by
  have key : ∀ (l : List Way) (c : Cmp), c.way ∈ p.ways → (∀ w ∈ l, w ∈ p.ways) →
      (l.foldl (cmpStep en tag e) c).way ∈ p.ways := by
    intro l
    induction l with
    | nil => intro c hc _; exact hc
    | cons a l ih =>
      intro c hc hl
      simp only [List.foldl_cons]
      apply ih
      · have ha := hl a (by simp)
        simp only [cmpStep]
        repeat' split
        all_goals first | exact ha | exact hc
      · intro w hw; exact hl w (by simp [hw])
  simp only [comparing]
  split
  · exact key _ _ mem_ways_false (fun _ h => h)
  · exact mem_ways_false

end Verif
