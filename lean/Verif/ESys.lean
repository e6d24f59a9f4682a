import Verif.Sys
import Verif.Phases

/-!
# The event-level system and its refinement by the RTL system

`ESys` replaces every cache by the event-level machine and a queue of messages
it still has to emit.  `refine` shows that every execution of the RTL system is
an execution of `ESys` with the same events (memory messages in canonical form).
-/

namespace Verif
variable {p : Params} {ι : Type} [DecidableEq ι]

/-- Event-level machine, a proof device; not in the source. -/
structure ESys (ι : Type) (p : Params) where
  L : ι → L1 p
  /-- messages cache `k` still has to emit -/
  E : ι → List (Msg p)
  reqQ : ι → List (MReq p)
  respQ : ι → List (MResp p)
  mem : ByteMem

/-- Canonical form of a memory response: no opaque. Event-level machine, a proof device; not in the source. -/
def MResp.strip (r : MResp p) : MResp p := { r with opq := 0 }

/-- Canonical form of an event. Event-level machine, a proof device; not in the source. -/
def Ev.canon : Ev ι p → Ev ι p
  | .acc k q => .acc k q
  | .mreq k m => .mreq k m.canon
  | .resp k r => .resp k r
  | .exec k m r => .exec k m.canon r.strip

/-- Delivery of a memory response. Event-level machine, a proof device; not in the source. -/
def L1.deliver (L : L1 p) (r : MResp p) : L1 p × List (Msg p) :=
  if r.ty != MT.WRITE then L.answer r.data else (L, [])

/-- Event-level machine, a proof device; not in the source. -/
inductive EStep : ESys ι p → List (Ev ι p) → ESys ι p → Prop
  | acc (T : ESys ι p) (k : ι) (q : CReq p) (hc : (T.L k).cur = .idle) (hE : memTypes (T.E k) = [])
      (hr : T.reqQ k = []) (hs : T.respQ k = []) (hq : q.ty ≠ MT.INIT) :
      EStep T [.acc k q] { T with
        L := upd T.L k ((T.L k).accept q).1
        E := upd T.E k (T.E k ++ ((T.L k).accept q).2) }
  | deliver (T : ESys ι p) (k : ι) (r : MResp p) (l : List (MResp p)) (h : T.respQ k = r :: l) :
      EStep T [] { T with
        L := upd T.L k ((T.L k).deliver r).1
        E := upd T.E k (T.E k ++ ((T.L k).deliver r).2)
        respQ := upd T.respQ k l }
  | emitMem (T : ESys ι p) (k : ι) (m : MReq p) (E' : List (Msg p)) (h : T.E k = .mem m :: E') :
      EStep T [.mreq k m] { T with
        E := upd T.E k E'
        reqQ := upd T.reqQ k (T.reqQ k ++ [m]) }
  | emitResp (T : ESys ι p) (k : ι) (r : CResp p) (E' : List (Msg p)) (h : T.E k = .resp r :: E')
      (hr : T.reqQ k = []) (hs : T.respQ k = []) :
      EStep T [.resp k r] { T with E := upd T.E k E' }
  | exec (T : ESys ι p) (k : ι) (m : MReq p) (ms : List (MReq p)) (h : T.reqQ k = m :: ms) :
      EStep T [.exec k m (memExec T.mem m).2.strip] { T with
        reqQ := upd T.reqQ k ms
        respQ := upd T.respQ k (T.respQ k ++ [(memExec T.mem m).2.strip])
        mem := (memExec T.mem m).1 }

/-- Event-level machine, a proof device; not in the source. -/
inductive ERun : ESys ι p → List (Ev ι p) → ESys ι p → Prop
  | refl (T : ESys ι p) : ERun T [] T
  | snoc {T T' T'' : ESys ι p} {tr ev : List (Ev ι p)} (h : ERun T tr T') (hs : EStep T' ev T'') :
      ERun T (tr ++ ev) T''

/-- Event-level machine, a proof device; not in the source. -/
def ESys.init (ι : Type) (p : Params) (M : ByteMem) : ESys ι p :=
  ⟨fun _ => L1.init p, fun _ => [], fun _ => [], fun _ => [], M⟩

/-- Types of the requests outstanding on a port. Event-level machine, a proof device; not in the source. -/
def outTys (resp : List (MResp p)) (req : List (MReq p)) : List MType :=
  resp.map (·.ty) ++ req.map (·.ty)

/-- Event-level machine, a proof device; not in the source. -/
structure Rel (S : Sys ι p) (T : ESys ι p) : Prop where
  cache : ∀ k, RI (S.cache k) (T.L k) (T.E k) (outTys (S.respQ k) (S.reqQ k))
  reqQ : ∀ k, T.reqQ k = (S.reqQ k).map MReq.canon
  respQ : ∀ k, T.respQ k = (S.respQ k).map MResp.strip
  mem : T.mem = S.mem

theorem memExec_strip (M : ByteMem) (m : MReq p) :
    (memExec M m.canon).2.strip = (memExec M m).2.strip := by
  obtain ⟨_, h2, h3⟩ := memExec_canon M m
  simp only [MResp.strip, h2, h3]

theorem upd_app {α : Type} (f : ι → α) (k k' : ι) (a : α) :
    upd f k a k' = if k' = k then a else f k' := rfl

theorem upd_eq_self {α : Type} (f : ι → α) (k : ι) : upd f k (f k) = f := by
  funext k'; simp only [upd]; split
  · rename_i h; rw [h]
  · rfl

theorem upd_upd {α : Type} (f : ι → α) (k : ι) (a b : α) : upd (upd f k a) k b = upd f k b := by
  funext k'; simp only [upd]; split <;> rfl

theorem outTys_canon (resp : List (MResp p)) (req : List (MReq p)) :
    outTys (resp.map MResp.strip) (req.map MReq.canon) = outTys resp req := by
  simp only [outTys, List.map_map]
  congr 1
  apply List.map_congr_left
  intro m _
  exact m.canon_ty

theorem outTys_nil {resp : List (MResp p)} {req : List (MReq p)} (h : outTys resp req = []) :
    resp = [] ∧ req = [] := by
  simp only [outTys, List.append_eq_nil_iff, List.map_eq_nil_iff] at h
  exact h

theorem ERun.trans {T T' T'' : ESys ι p} {a b : List (Ev ι p)} (h : ERun T a T') (h' : ERun T' b T'') :
    ERun T (a ++ b) T'' := by
  induction h' with
  | refl => simpa using h
  | snoc _ hs ih => rw [← List.append_assoc]; exact .snoc ih hs

theorem ERun.one {T T' : ESys ι p} {a : List (Ev ι p)} (h : EStep T a T') : ERun T a T' := by
  have := ERun.snoc (.refl T) h; simpa using this

/-- Input events of a clock edge. Event-level machine, a proof device; not in the source. -/
def inEvs (k : ι) (i : In p) : List (Ev ι p) := if i.reqEn then [.acc k i.req] else []

/-- First half of a clock edge: request or memory response. -/
theorem clock_in {S : Sys ι p} {T : ESys ι p} {k : ι} {i : In p} (hr : Rel S T)
    (hc : S.CanClock k i) :
    ERun T (inEvs k i) { T with
      L := upd T.L k ((T.L k).cycle i).1
      E := upd T.E k (T.E k ++ ((T.L k).cycle i).2)
      respQ := upd T.respQ k (if i.mrespEn then (T.respQ k).tail else T.respQ k) } := by
  have hRI := hr.cache k
  cases hre : i.reqEn
  · simp only [inEvs, hre]
    cases hm : i.mrespEn
    · simp only [L1.cycle, hre, hm, Bool.false_and, Bool.false_eq_true, if_false, List.append_nil,
        upd_eq_self]
      exact .refl T
    · obtain ⟨l, hl⟩ := hc.mem hm
      have h := EStep.deliver T k i.mresp.strip (l.map MResp.strip) (by rw [hr.respQ, hl]; rfl)
      have h2 : (T.respQ k).tail = l.map MResp.strip := by rw [hr.respQ, hl]; rfl
      have h3 : (T.L k).cycle i = (T.L k).deliver i.mresp.strip := by
        simp [L1.cycle, hre, hm, L1.deliver, MResp.strip]
      simp only [Bool.false_eq_true, if_false, if_true]
      rw [h2, h3]
      exact .one h
  · obtain ⟨hrdy, hty⟩ := hc.req hre
    obtain ⟨h1, h2, h3⟩ := hRI.ready hrdy
    obtain ⟨h4, h5⟩ := outTys_nil h3
    have hm : i.mrespEn = false := by
      cases hm : i.mrespEn
      · rfl
      · obtain ⟨l, hl⟩ := hc.mem hm; rw [h4] at hl; cases hl
    have h := EStep.acc T k i.req h1 h2 (by rw [hr.reqQ, h5]; rfl) (by rw [hr.respQ, h4]; rfl) hty
    simp only [inEvs, hre, L1.cycle, hm, if_true, Bool.false_eq_true, if_false, upd_eq_self]
    exact .one h

/-- Output events of a clock edge in canonical form. -/
theorem refine_clock (wf : p.WF) {S : Sys ι p} {T : ESys ι p} {k : ι} {i : In p} (hr : Rel S T)
    (hc : S.CanClock k i) :
    ∃ T', ERun T ((S.clockEvs k i).map Ev.canon) T' ∧ Rel (S.clock k i) T' := by
  have hRI := hr.cache k
  have hleg : Legal (S.cache k) (outTys (S.respQ k) (S.reqQ k)) i := by
    refine ⟨hc.noReset, fun h => ⟨(hc.req h).1, fun _ => (hc.req h).2⟩, fun hm => ?_⟩
    obtain ⟨l, hl⟩ := hc.mem hm
    exact ⟨outTys l (S.reqQ k), by rw [hl]; rfl⟩
  obtain ⟨E', hE, hRI'⟩ := simI wf hleg hRI
  rw [cyc_cycle hleg] at hE hRI'
  have hin := clock_in hr hc
  have hstep : (S.cache k).step i = (S.cache k).next i := by simp [St.step, hc.noReset]
  have hot : outTail (outTys (S.respQ k) (S.reqQ k)) i =
      outTys (if i.mrespEn then (S.respQ k).tail else S.respQ k) (S.reqQ k) := by
    simp only [outTail]
    cases hm : i.mrespEn
    · rfl
    · obtain ⟨l, hl⟩ := hc.mem hm
      rw [hl]; rfl
  have hev : (S.clockEvs k i).map Ev.canon = inEvs k i ++
      ((if ((S.cache k).out i).mreqEn then [.mreq k ((S.cache k).out i).mreq.canon] else []) ++
      (if ((S.cache k).out i).respEn then [.resp k ((S.cache k).out i).resp] else [])) := by
    simp only [Sys.clockEvs, inEvs, List.map_append, List.append_assoc]
    congr 1
    · split <;> rfl
    · congr 1 <;> split <;> rfl
  have hrq : (if i.mrespEn then (T.respQ k).tail else T.respQ k) =
      (if i.mrespEn then (S.respQ k).tail else S.respQ k).map MResp.strip := by
    rw [hr.respQ]; split
    · rw [List.map_tail]
    · rfl
  rw [hrq] at hin
  -- relation after the whole edge
  have hrel : ∀ T' : ESys ι p, T'.L = upd T.L k ((T.L k).cycle i).1 → T'.E = upd T.E k E' →
      T'.respQ = upd T.respQ k ((if i.mrespEn then (S.respQ k).tail else S.respQ k).map MResp.strip) →
      T'.reqQ = upd T.reqQ k (T.reqQ k ++
        if ((S.cache k).out i).mreqEn then [((S.cache k).out i).mreq.canon] else []) →
      T'.mem = T.mem → Rel (S.clock k i) T' := by
    intro T' h1 h2 h3 h4 h5
    refine ⟨?_, ?_, ?_, ?_⟩
    · intro k'
      simp only [h1, h2, Sys.clock, upd_app]
      split
      · rw [hstep]
        rw [hot] at hRI'
        have : outTys (if i.mrespEn then (S.respQ k).tail else S.respQ k) (S.reqQ k) ++
            memTypes ((S.cache k).out i).msgs =
            outTys (if i.mrespEn then (S.respQ k).tail else S.respQ k) (S.reqQ k ++
              if ((S.cache k).out i).mreqEn then [((S.cache k).out i).mreq] else []) := by
          simp only [outTys, List.map_append, List.append_assoc, Out.msgs, memTypes_append]
          congr 2
          cases ((S.cache k).out i).mreqEn <;> cases ((S.cache k).out i).respEn <;>
            simp [MReq.canon_ty]
        rw [← this]; exact hRI'
      · exact hr.cache k'
    · intro k'
      simp only [h4, Sys.clock, upd_app]
      split
      · rw [hr.reqQ, List.map_append]
        congr 1
        split <;> rfl
      · exact hr.reqQ k'
    · intro k'
      simp only [h3, Sys.clock, upd_app]
      split
      · rfl
      · exact hr.respQ k'
    · rw [h5, hr.mem]; rfl
  rw [hev]
  -- output half
  have hout := slot_le_one (S.cache k).slot
  have hmem : ∀ m, m ∈ ((S.cache k).out i).msgs → m ∈ (S.cache k).slot.msgs :=
    fun m h => out_msgs_sub _ _ h
  simp only [Out.msgs] at hE
  cases h1 : ((S.cache k).out i).mreqEn <;> cases h2 : ((S.cache k).out i).respEn
  · -- nothing emitted
    simp only [h1, h2] at hE ⊢
    simp only [Bool.false_eq_true, if_false, if_true, List.append_nil, List.nil_append]
    refine ⟨_, hin, hrel _ rfl ?_ rfl ?_ rfl⟩
    · simp at hE; simp [hE]
    · simp [h1, upd_eq_self]
  · -- response
    simp only [h1, h2] at hE ⊢
    have hq : outTys (S.respQ k) (S.reqQ k) = [] :=
      hRI.resp_quiet (i := i) (r := ((S.cache k).out i).resp) (by simp [Out.msgs, h2])
    obtain ⟨hq1, hq2⟩ := outTys_nil hq
    have he := EStep.emitResp { T with
        L := upd T.L k ((T.L k).cycle i).1
        E := upd T.E k (T.E k ++ ((T.L k).cycle i).2)
        respQ := upd T.respQ k ((if i.mrespEn then (S.respQ k).tail else S.respQ k).map MResp.strip) }
      k ((S.cache k).out i).resp E' (by simpa using hE) (by simp [hr.reqQ, hq2])
      (by simp [hq1])
    have := hin.trans (.one he)
    simp only [Bool.false_eq_true, if_false, if_true, List.append_nil, List.nil_append]
    refine ⟨_, this, hrel _ rfl ?_ rfl ?_ rfl⟩
    · simp [upd_upd]
    · simp [h1, upd_eq_self]
  · simp only [h1, h2] at hE ⊢
    have he := EStep.emitMem { T with
        L := upd T.L k ((T.L k).cycle i).1
        E := upd T.E k (T.E k ++ ((T.L k).cycle i).2)
        respQ := upd T.respQ k ((if i.mrespEn then (S.respQ k).tail else S.respQ k).map MResp.strip) }
      k ((S.cache k).out i).mreq.canon E' (by simpa using hE)
    have := hin.trans (.one he)
    simp only [Bool.false_eq_true, if_false, if_true, List.append_nil, List.nil_append]
    refine ⟨_, this, hrel _ rfl ?_ rfl ?_ rfl⟩
    · simp [upd_upd]
    · simp [h1]
  · exfalso
    have g1 := hmem (.mem ((S.cache k).out i).mreq.canon) (by simp [Out.msgs, h1])
    have g2 := hmem (.resp ((S.cache k).out i).resp) (by simp [Out.msgs, h2])
    rcases hout with h | ⟨_, h⟩ | ⟨_, h⟩ <;> rw [h] at g1 g2 <;> simp at g1 g2

theorem refine_exec {S : Sys ι p} {T : ESys ι p} {k : ι} {m : MReq p} {ms : List (MReq p)}
    (hr : Rel S T) (h : S.reqQ k = m :: ms) :
    ∃ T', ERun T [Ev.canon (.exec k m (memExec S.mem m).2)] T' ∧ Rel (S.exec k m) T' := by
  have he := EStep.exec T k m.canon (ms.map MReq.canon) (by rw [hr.reqQ, h]; rfl)
  rw [hr.mem, memExec_strip, (memExec_canon S.mem m).1] at he
  refine ⟨_, .one he, ?_, ?_, ?_, rfl⟩
  · intro k'
    have := hr.cache k'
    simp only [Sys.exec, upd_app]
    split
    · rename_i hk; subst hk
      have e : outTys (S.respQ k' ++ [(memExec S.mem m).2]) (S.reqQ k').tail =
          outTys (S.respQ k') (S.reqQ k') := by
        simp [outTys, h]
      rw [e]; exact this
    · exact this
  · intro k'
    simp only [Sys.exec, upd_app]; split
    · rw [h]; rfl
    · exact hr.reqQ k'
  · intro k'
    simp only [Sys.exec, upd_app]; split
    · rw [List.map_append, hr.respQ]; rfl
    · exact hr.respQ k'

/-- **Refinement.**  Every execution of the RTL system is one of the
event-level system. -/
theorem refine (wf : p.WF) {S S' : Sys ι p} {tr : List (Ev ι p)} (h0 : Start S) (h : Run S tr S') :
    ∃ T, ERun (ESys.init ι p S.mem) (tr.map Ev.canon) T ∧ Rel S' T := by
  induction h with
  | refl =>
    refine ⟨_, .refl _, ?_, ?_, ?_, rfl⟩
    · intro k
      obtain ⟨s, i, hi, hc⟩ := h0.reset k
      rw [hc, h0.reqQ k, h0.respQ k]
      exact RIU.start s i hi
    · intro k; rw [h0.reqQ k]; rfl
    · intro k; rw [h0.respQ k]; rfl
  | snoc h hs ih =>
    obtain ⟨T, h1, h2⟩ := ih
    cases hs with
    | clock k i hc =>
      obtain ⟨T', h3, h4⟩ := refine_clock wf h2 hc
      exact ⟨T', by rw [List.map_append]; exact h1.trans h3, h4⟩
    | exec k m ms hm =>
      obtain ⟨T', h3, h4⟩ := refine_exec h2 hm
      exact ⟨T', by rw [List.map_append]; exact h1.trans h3, h4⟩

end Verif
