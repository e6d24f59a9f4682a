import Verif.SpecData
import Verif.SramAny

/-!
# C70: data values have no influence on timing, addresses and hits
-/

namespace Verif
variable {p : Params}

/-- The state without data. Proof device; not in the source. -/
def St.blank (s : St p) : St p :=
  { s with
    mresp0 := s.mresp0.blank
    req1 := { s.req1 with data := 0 }
    mshr := { s.mshr with data := 0 }
    req2 := { s.req2 with data := 0 }
    data := ⟨fun _ => 0, 0⟩
    dataStall := 0 }

theorem out_blank (s : St p) (i : In p) : (s.out i).blank = (s.blank.out i.blank).blank := rfl

theorem blank_trans0 (s : St p) (i : In p) : s.blank.trans0 i.blank = s.trans0 i := by
  have h : (s.blank.req0 i.blank).ty = (s.req0 i).ty := by
    show (if s.fsm == .replay || s.mrespEn0 then s.blank.mshr.toReq else i.blank.req).ty =
      (if s.fsm == .replay || s.mrespEn0 then s.mshr.toReq else i.req).ty
    split <;> rfl
  unfold St.trans0
  rw [h]
  rfl

theorem blank_fsmNext (s : St p) (i : In p) : s.blank.fsmNext i.blank = s.fsmNext i := by
  have h : (s.blank.req0 i.blank).ty = (s.req0 i).ty := by
    show (if s.fsm == .replay || s.mrespEn0 then s.blank.mshr.toReq else i.blank.req).ty =
      (if s.fsm == .replay || s.mrespEn0 then s.mshr.toReq else i.req).ty
    split <;> rfl
  unfold St.fsmNext
  rw [h]
  rfl

theorem blank_pmsg0 (s : St p) (i : In p) (t : Trans) :
    ({ s.blank.pmsg0 i.blank t with data := 0 } : PMsg p) = { s.pmsg0 i t with data := 0 } := by
  have h : (s.blank.req0 i.blank).blank = (s.req0 i).blank := by
    show (if s.fsm == .replay || s.mrespEn0 then s.blank.mshr.toReq else i.blank.req).blank =
      (if s.fsm == .replay || s.mrespEn0 then s.mshr.toReq else i.req).blank
    split <;> rfl
  have h1 : (s.blank.req0 i.blank).ty = (s.req0 i).ty := congrArg (·.ty) h
  have h2 : (s.blank.req0 i.blank).opq = (s.req0 i).opq := congrArg (·.opq) h
  have h3 : (s.blank.req0 i.blank).addr = (s.req0 i).addr := congrArg (·.addr) h
  have h4 : (s.blank.req0 i.blank).len = (s.req0 i).len := congrArg (·.len) h
  unfold St.pmsg0
  dsimp only
  rw [h1, h2, h3, h4]
  rfl

theorem blank_tagIdx0 (s : St p) (i : In p) (t : Trans) : s.blank.tagIdx0 i.blank t = s.tagIdx0 i t := by
  have h : (s.blank.pmsg0 i.blank t).addr = (s.pmsg0 i t).addr := by
    have e := congrArg (fun m : PMsg p => m.addr) (blank_pmsg0 s i t)
    exact e
  unfold St.tagIdx0
  rw [h]
  rfl

theorem blank_tagWdata0 (s : St p) (i : In p) (t : Trans) : s.blank.tagWdata0 i.blank t = s.tagWdata0 i t := by
  have h : (s.blank.pmsg0 i.blank t).addr = (s.pmsg0 i t).addr := by
    have e := congrArg (fun m : PMsg p => m.addr) (blank_pmsg0 s i t)
    exact e
  have h' : (s.blank.pmsg0 i.blank t).len = (s.pmsg0 i t).len := by
    have e := congrArg (fun m : PMsg p => m.len) (blank_pmsg0 s i t)
    exact e
  unfold St.tagWdata0
  dsimp only
  rw [h, h']
  rfl

theorem eq_blank {u x : St p} (h1 : u.mrespEn0 = x.mrespEn0) (h2 : u.fsm = x.fsm) (h3 : u.cnt = x.cnt) (h4 : u.t1 = x.t1)
    (h5 : u.wayPtr1 = x.wayPtr1) (h6 : u.updWay1 = x.updWay1) (h7 : u.wasStalled = x.wasStalled) (h8 : u.t2 = x.t2)
    (h9 : u.evict2 = x.evict2) (h10 : u.hit2 = x.hit2) (h11 : u.flushSent2 = x.flushSent2)
    (h12 : u.mresp0.blank = x.mresp0.blank) (h13 : ({ u.req1 with data := 0 } : PMsg p) = { x.req1 with data := 0 })
    (h14 : u.flushIdx1 = x.flushIdx1) (h15 : u.dtyMask1 = x.dtyMask1) (h16 : u.rep = x.rep)
    (h17 : u.tagRam = x.tagRam) (h17b : u.tagDout = x.tagDout) (h17c : u.tagStall = x.tagStall)
    (h18 : u.mshrNum = x.mshrNum) (h19 : ({ u.mshr with data := 0 } : MshrMsg p) = { x.mshr with data := 0 })
    (h19b : u.hitStall = x.hitStall) (h20 : ({ u.req2 with data := 0 } : PMsg p) = { x.req2 with data := 0 })
    (h21 : u.wmask2 = x.wmask2) : u.blank = x.blank := by
  unfold St.blank
  rw [h1, h2, h3, h4, h5, h6, h7, h8, h9, h10, h11, h12, h13, h14, h15, h16, h17, h17b, h17c, h18, h19, h19b, h20, h21]

theorem next_blank (s : St p) (i : In p) : (s.blank.next i.blank).blank = (s.next i).blank := by
  have ht := blank_trans0 s i
  have hf := blank_fsmNext s i
  refine eq_blank ?_ ?_ ?_ ?_ ?_ ?_ ?_ ?_ ?_ ?_ ?_ ?_ ?_ ?_ ?_ ?_ ?_ ?_ ?_ ?_ ?_ ?_ ?_ ?_
  all_goals (try (simp only [St.next, ht, hf]; rfl))
  case refine_12 =>
    show (if !s.stall i then i.blank.mresp else s.blank.mresp0).blank = (if !s.stall i then i.mresp else s.mresp0).blank
    split <;> rfl
  case refine_13 =>
    show ({ (if !s.stall i && !s.status1.evict && (s.blank.trans0 i.blank != .cacheInit) then s.blank.pmsg0 i.blank (s.blank.trans0 i.blank)
      else s.blank.req1 : PMsg p) with data := 0 } : PMsg p) =
      { (if !s.stall i && !s.status1.evict && (s.trans0 i != .cacheInit) then s.pmsg0 i (s.trans0 i) else s.req1 : PMsg p) with data := 0 }
    rw [ht]
    split
    · exact blank_pmsg0 s i _
    · rfl
  case refine_17 =>
    funext w j
    show (if s.tagVal0 (s.blank.trans0 i.blank) w && (cs0 (s.blank.trans0 i.blank)).wr &&
        decide (j = s.blank.tagIdx0 i.blank (s.blank.trans0 i.blank)) then
        tagMerge (cs0 (s.blank.trans0 i.blank)).wben (s.tagRam w j) (s.blank.tagWdata0 i.blank (s.blank.trans0 i.blank)) else s.tagRam w j) =
      if s.tagVal0 (s.trans0 i) w && (cs0 (s.trans0 i)).wr && decide (j = s.tagIdx0 i (s.trans0 i)) then
        tagMerge (cs0 (s.trans0 i)).wben (s.tagRam w j) (s.tagWdata0 i (s.trans0 i)) else s.tagRam w j
    rw [ht, blank_tagIdx0, blank_tagWdata0]
  case refine_18 =>
    funext w
    show (if s.tagVal0 (s.blank.trans0 i.blank) w && !(cs0 (s.blank.trans0 i.blank)).wr then
        s.tagRam w (s.blank.tagIdx0 i.blank (s.blank.trans0 i.blank)) else s.tagDout w) =
      if s.tagVal0 (s.trans0 i) w && !(cs0 (s.trans0 i)).wr then s.tagRam w (s.tagIdx0 i (s.trans0 i)) else s.tagDout w
    rw [ht, blank_tagIdx0]
  case refine_21 =>
    show ({ (if s.allocEn i then s.blank.mshrIn else s.blank.mshr : MshrMsg p) with data := 0 } : MshrMsg p) =
      { (if s.allocEn i then s.mshrIn else s.mshr : MshrMsg p) with data := 0 }
    split <;> rfl
  case refine_23 =>
    show ({ (if !(s.cs2 i).ostall && (s.t1 != .cacheInit) then { s.blank.req1 with addr := s.addr1 } else s.blank.req2 : PMsg p) with data := 0 } : PMsg p) =
      { (if !(s.cs2 i).ostall && (s.t1 != .cacheInit) then { s.req1 with addr := s.addr1 } else s.req2 : PMsg p) with data := 0 }
    split <;> rfl

theorem step_blank (s : St p) (i : In p) : (s.blank.step i.blank).blank = (s.step i).blank := by
  have h := next_blank s i
  unfold St.step
  cases hr : i.reset
  · have : i.blank.reset = false := hr
    rw [this]; exact h
  · have : i.blank.reset = true := hr
    rw [this]
    show (s.blank.next i.blank).rst.blank = (s.next i).rst.blank
    have e : ∀ u : St p, u.rst.blank = u.blank.rst.blank := fun _ => rfl
    rw [e, h, ← e]

/-- The outputs of caches that differ in data only. -/
theorem outs_blank : ∀ (l l' : List (In p)) (s s' : St p), s.blank = s'.blank → l.map In.blank = l'.map In.blank →
    (s.outs l).map Out.blank = (s'.outs l').map Out.blank
  | [], [], _, _, _, _ => rfl
  | [], _ :: _, _, _, _, h => by simp at h
  | _ :: _, [], _, _, _, h => by simp at h
  | i :: l, i' :: l', s, s', hs, h => by
    rw [List.map_cons, List.map_cons, List.cons.injEq] at h
    show (s.out i).blank :: ((s.step i).outs l).map Out.blank = (s'.out i').blank :: ((s'.step i').outs l').map Out.blank
    rw [out_blank s i, out_blank s' i', hs, h.1,
      outs_blank l l' (s.step i) (s'.step i') (by rw [← step_blank s i, ← step_blank s' i', hs, h.1]) h.2]

/-- **C70** Data has no influence on anything else.  If two input sequences differ only in the data of
requests and of memory responses, then the outputs of the cache, cycle by cycle, differ only in
the data of responses and memory requests: ready signals, hits and misses, types, addresses and
write masks are the same.  From every state, with and without resets. -/
theorem C70_same_timing (s : St p) {l l' : List (In p)} (h : l.map In.blank = l'.map In.blank) :
    (s.outs l).map Out.blank = (s.outs l').map Out.blank :=
  outs_blank l l' s s rfl h

end Verif
