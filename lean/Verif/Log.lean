import Verif.ESys

/-!
# The message log of a single cache is a function of the accepted requests

`L1.op` performs a request on the event-level machine and memory in one go.
`log_inv`: in every execution of the single-cache system the messages emitted
so far, followed by those still to be emitted, are exactly the messages of the
accepted requests performed one after the other with `L1.op`.
-/

namespace Verif
variable {p : Params} {ι : Type} [DecidableEq ι]

/-! ## Types of outstanding requests -/

/-- The non-WRITE request a pending operation waits for. Proof device; not in the source. -/
def Cur.mtys : Cur p → List MType
  | .idle => []
  | c => [c.mty]

/-- Outstanding requests: acknowledged writes, then what the cache waits for. Proof device; not in the source. -/
def PendTys (c : Cur p) (tys : List MType) : Prop :=
  ∃ l, tys = l ++ c.mtys ∧ ∀ t ∈ l, t = MT.WRITE

theorem memTypes_flush (L : L1 p) (n : Nat) : ∀ t ∈ memTypes (L.flushMsgs n), t = MT.WRITE := by
  induction n with
  | zero => simp [L1.flushMsgs]
  | succ n ih =>
    simp only [L1.flushMsgs, L1.wb, memTypes_append, List.mem_append]
    rintro t (h | h)
    · split at h <;> simp at h; exact h
    · exact ih t h

theorem accept_pend (L : L1 p) (q : CReq p) (hc : L.cur = .idle) :
    PendTys (L.accept q).1.cur (memTypes (L.accept q).2) := by
  have nilcase : ∀ l : List MType, (∀ t ∈ l, t = MT.WRITE) → PendTys (.idle : Cur p) l :=
    fun l h => ⟨l, by simp [Cur.mtys], h⟩
  simp only [L1.accept]
  split
  · cases hh : (L.lookup q.addr).hit
    · cases hi : (L.lookup q.addr).inval
      · rw [rw_miss hh hi]
        refine ⟨memTypes (if (L.ent (L.rep q.addr.idx) q.addr.idx).dty != 0 then
          [L.wb (L.rep q.addr.idx) q.addr.idx] else []), by simp [Cur.mtys, Cur.mty, MReq.rd], ?_⟩
        intro t ht
        split at ht <;> simp [L1.wb] at ht; exact ht
      · rw [rw_inval hh hi]; exact ⟨[], rfl, by simp⟩
    · rw [rw_hit hh]; dsimp only; rw [hc]; exact nilcase _ (by simp)
  split
  · refine ⟨memTypes (if ((L.ent (L.lookup q.addr).way q.addr.idx).dty != 0) &&
        ((L.lookup q.addr).hit || (L.lookup q.addr).inval) then
        [L.wb (L.lookup q.addr).way q.addr.idx] else []), by simp [L1.amo, Cur.mtys, Cur.mty, MReq.amo], ?_⟩
    intro t ht
    split at ht <;> simp [L1.wb] at ht; exact ht
  split
  · dsimp only; rw [hc]; exact nilcase _ (by simp)
  split
  · dsimp only; rw [hc]; apply nilcase; simp only [memTypes_append, memTypes_cons_resp, memTypes_nil,
      List.append_nil]; exact memTypes_flush _ _
  · rw [hc]; exact nilcase _ (by simp)

theorem Cur.mty_ne {L : L1 p} (hok : L.Wk) (hc : L.cur ≠ .idle) : L.cur.mty ≠ MT.WRITE := by
  cases h : L.cur with
  | idle => exact absurd h hc
  | fill q w d => simp [Cur.mty]
  | amo q hh w =>
    obtain ⟨_, h2⟩ := ok_amo hok h
    intro h3; simp only [Cur.mty] at h3; rw [h3] at h2; cases h2

theorem answer_idle (L : L1 p) (l : Line p) : (L.answer l).1.cur = .idle := by
  simp only [L1.answer]
  split
  · assumption
  · split <;> rfl
  · rfl

theorem answer_of_idle {L : L1 p} (h : L.cur = .idle) (l : Line p) : L.answer l = (L, []) := by
  simp [L1.answer, h]

theorem answer_noMem (L : L1 p) (l : Line p) : memMsgs (L.answer l).2 = [] := by
  simp only [L1.answer]
  split
  · rfl
  · split <;> rfl
  · rfl

theorem memTypes_eq (l : List (Msg p)) : memTypes l = (memMsgs l).map (·.ty) := by
  simp only [memTypes, memMsgs, List.map_filterMap]
  congr 1
  funext m; cases m <;> rfl

theorem memRun_ty (M : ByteMem) (l : List (MReq p)) : (memRun M l).2.map (·.ty) = l.map (·.ty) := by
  induction l generalizing M with
  | nil => rfl
  | cons m ms ih => simp [memRun, ih]

theorem PendTys.deliver_W {c : Cur p} {tys : List MType} (hc : c ≠ .idle → c.mty ≠ MT.WRITE)
    (h : PendTys c (MT.WRITE :: tys)) : PendTys c tys := by
  obtain ⟨l, h1, h2⟩ := h
  cases l with
  | nil =>
    exfalso
    cases c with
    | idle => simp [Cur.mtys] at h1
    | fill q w d => simp [Cur.mtys, Cur.mty] at h1
    | amo q a w =>
      simp only [Cur.mtys, List.nil_append, List.cons.injEq] at h1
      exact hc (by simp) h1.1.symm
  | cons t l =>
    simp only [List.cons_append, List.cons.injEq] at h1
    exact ⟨l, h1.2, fun t ht => h2 t (List.mem_cons_of_mem _ ht)⟩

theorem PendTys.deliver_ans {c : Cur p} {t : MType} {tys : List MType} (ht : t ≠ MT.WRITE)
    (h : PendTys c (t :: tys)) : c ≠ .idle ∧ tys = [] ∧ t = c.mty := by
  obtain ⟨l, h1, h2⟩ := h
  cases l with
  | nil =>
    cases c with
    | idle => simp [Cur.mtys] at h1
    | fill q w d => simp only [Cur.mtys, List.nil_append, List.cons.injEq] at h1; exact ⟨by simp, h1.2, h1.1⟩
    | amo q a w => simp only [Cur.mtys, List.nil_append, List.cons.injEq] at h1; exact ⟨by simp, h1.2, h1.1⟩
  | cons t' l =>
    simp only [List.cons_append, List.cons.injEq] at h1
    exact absurd (h1.1.trans (h2 t' (by simp))) ht

/-- Invariant of every cache of the event-level system. Proof device; not in the source. -/
structure EInv (T : ESys ι p) (k : ι) : Prop where
  ok : (T.L k).Ok
  pend : PendTys (T.L k).cur (outTys (T.respQ k) (T.reqQ k) ++ memTypes (T.E k))

theorem init_ok : (L1.init p).Ok :=
  ⟨fun _ => mem_ways_false, trivial, fun _ _ _ _ _ h => by rcases h with h | h <;> simp [L1.init, Entry.zero] at h,
    trivial⟩

theorem EInv.init (M : ByteMem) (k : ι) : EInv (ESys.init ι p M) k :=
  ⟨init_ok, [], rfl, by simp⟩

theorem EInv.step {T T' : ESys ι p} {ev : List (Ev ι p)} (h : ∀ k, EInv T k) (hs : EStep T ev T') :
    ∀ k, EInv T' k := by
  intro k'
  have hk := h k'
  cases hs with
  | acc k q hc hE hr hs hq =>
    by_cases hk' : k' = k
    · subst hk'
      refine ⟨by simpa using hk.ok.accept q, ?_⟩
      simp only [upd_same, hr, hs, memTypes_append, hE, outTys, List.map_nil, List.nil_append]
      exact accept_pend _ _ hc
    · exact ⟨by simpa [upd_other _ hk'] using hk.ok, by simpa [upd_other _ hk'] using hk.pend⟩
  | deliver k r l hl =>
    by_cases hk' : k' = k
    · subst hk'
      have hp := hk.pend
      rw [hl] at hp
      by_cases hr : r.ty = MT.WRITE
      · have hd : (T.L k').deliver r = (T.L k', []) := by simp [L1.deliver, hr]
        refine ⟨by simpa [hd] using hk.ok, ?_⟩
        simp only [upd_same, hd, List.append_nil]
        simp only [outTys, List.map_cons, List.cons_append, hr] at hp
        exact hp.deliver_W (fun hne => Cur.mty_ne hk.ok.wk hne)
      · have hd : (T.L k').deliver r = (T.L k').answer r.data := by simp [L1.deliver, hr]
        refine ⟨by simpa [hd] using hk.ok.answer _, ?_⟩
        simp only [outTys, List.map_cons, List.cons_append] at hp
        obtain ⟨_, h2, _⟩ := hp.deliver_ans hr
        simp only [upd_same, hd, answer_idle, memTypes_append, ← List.append_assoc]
        have e : outTys l (T.reqQ k') ++ memTypes (T.E k') = [] := h2
        rw [e, memTypes_eq, answer_noMem]
        exact ⟨[], rfl, by simp⟩
    · exact ⟨by simpa [upd_other _ hk'] using hk.ok, by simpa [upd_other _ hk'] using hk.pend⟩
  | emitMem k m E' hE =>
    by_cases hk' : k' = k
    · subst hk'
      refine ⟨hk.ok, ?_⟩
      have hp := hk.pend
      rw [hE] at hp
      simp only [upd_same, outTys, List.map_append, List.map_cons, List.map_nil, List.append_assoc]
      simpa [outTys] using hp
    · exact ⟨hk.ok, by simpa [upd_other _ hk'] using hk.pend⟩
  | emitResp k r E' hE =>
    by_cases hk' : k' = k
    · subst hk'
      refine ⟨hk.ok, ?_⟩
      have hp := hk.pend
      rw [hE] at hp
      simpa using hp
    · exact ⟨hk.ok, by simpa [upd_other _ hk'] using hk.pend⟩
  | exec k m ms hm =>
    by_cases hk' : k' = k
    · subst hk'
      refine ⟨hk.ok, ?_⟩
      have hp := hk.pend
      rw [hm] at hp
      simpa [outTys, MResp.strip] using hp
    · exact ⟨hk.ok, by simpa [upd_other _ hk'] using hk.pend⟩

theorem EInv.run {M : ByteMem} {T : ESys ι p} {tr : List (Ev ι p)}
    (h : ERun (ESys.init ι p M) tr T) : ∀ k, EInv T k := by
  generalize hT : ESys.init ι p M = T0 at h
  induction h with
  | refl => subst hT; exact EInv.init M
  | snoc _ hs ih => exact EInv.step ih hs

/-! ## Atomic operations -/

/-- Data of the last response. Proof device; not in the source. -/
def lastData (l : List (MResp p)) : Line p := (l.getLast?.map (·.data)).getD 0

/-- A request performed in one go: all its messages in order, memory after all
of them. Proof device; not in the source. -/
def L1.op (A : L1 p) (M : ByteMem) (q : CReq p) : L1 p × ByteMem × List (Msg p) :=
  let a := A.accept q
  let r := memRun M (memMsgs a.2)
  let b := a.1.answer (lastData r.2)
  (b.1, r.1, a.2 ++ b.2)

/-- Requests performed one after the other. Proof device; not in the source. -/
def L1.ops (A : L1 p) (M : ByteMem) : List (CReq p) → L1 p × ByteMem × List (Msg p)
  | [] => (A, M, [])
  | q :: qs =>
    let x := A.op M q
    let y := x.1.ops x.2.1 qs
    (y.1, y.2.1, x.2.2 ++ y.2.2)

theorem ops_append (A : L1 p) (M : ByteMem) (a b : List (CReq p)) :
    A.ops M (a ++ b) =
      let x := A.ops M a
      let y := x.1.ops x.2.1 b
      (y.1, y.2.1, x.2.2 ++ y.2.2) := by
  induction a generalizing A M with
  | nil => simp [L1.ops]
  | cons q qs ih => simp [L1.ops, ih]

theorem ops_one (A : L1 p) (M : ByteMem) (q : CReq p) : A.ops M [q] = A.op M q := by
  simp [L1.ops]

theorem ops_snoc (A : L1 p) (M : ByteMem) (a : List (CReq p)) (q : CReq p) :
    A.ops M (a ++ [q]) =
      (((A.ops M a).1.op (A.ops M a).2.1 q).1, ((A.ops M a).1.op (A.ops M a).2.1 q).2.1,
        (A.ops M a).2.2 ++ ((A.ops M a).1.op (A.ops M a).2.1 q).2.2) := by
  rw [ops_append]; simp [ops_one]

/-! ## Emitted messages -/

/-- Messages emitted by cache `k`, in order. Proof device; not in the source. -/
def emitted (k : ι) (tr : List (Ev ι p)) : List (Msg p) :=
  tr.filterMap fun
    | .mreq k' m => if k' = k then some (.mem m) else none
    | .resp k' r => if k' = k then some (.resp r) else none
    | _ => none

@[simp] theorem emitted_append (k : ι) (a b : List (Ev ι p)) :
    emitted k (a ++ b) = emitted k a ++ emitted k b := by simp [emitted]
@[simp] theorem accepted_append (k : ι) (a b : List (Ev ι p)) :
    accepted k (a ++ b) = accepted k a ++ accepted k b := by simp [accepted]
@[simp] theorem responses_append (k : ι) (a b : List (Ev ι p)) :
    responses k (a ++ b) = responses k a ++ responses k b := by simp [responses]
@[simp] theorem sent_append (k : ι) (a b : List (Ev ι p)) :
    sent k (a ++ b) = sent k a ++ sent k b := by simp [sent]

theorem respMsgs_emitted (k : ι) (tr : List (Ev ι p)) : respMsgs (emitted k tr) = responses k tr := by
  simp only [respMsgs, emitted, responses, List.filterMap_filterMap]
  congr 1; funext e
  cases e <;> simp <;> split <;> rfl

theorem memMsgs_emitted (k : ι) (tr : List (Ev ι p)) : memMsgs (emitted k tr) = sent k tr := by
  simp only [memMsgs, emitted, sent, List.filterMap_filterMap]
  congr 1; funext e
  cases e <;> simp <;> split <;> rfl

theorem accepted_canon (k : ι) (tr : List (Ev ι p)) : accepted k (tr.map Ev.canon) = accepted k tr := by
  simp only [accepted, List.filterMap_map]; congr 1; funext e; cases e <;> rfl
theorem responses_canon (k : ι) (tr : List (Ev ι p)) : responses k (tr.map Ev.canon) = responses k tr := by
  simp only [responses, List.filterMap_map]; congr 1; funext e; cases e <;> rfl
theorem sent_canon (k : ι) (tr : List (Ev ι p)) : sent k (tr.map Ev.canon) = (sent k tr).map MReq.canon := by
  simp only [sent, List.filterMap_map, List.map_filterMap]; congr 1; funext e
  cases e <;> simp [Ev.canon]

theorem lastData_append_ne {a b : List (MResp p)} (h : b ≠ []) : lastData (a ++ b) = lastData b := by
  simp only [lastData]
  rw [List.getLast?_append]
  cases hb : b.getLast? with
  | none => exact absurd (List.getLast?_eq_none_iff.1 hb) h
  | some x => simp

theorem lastData_strip (a b : List (MResp p)) (r : MResp p) :
    lastData (a ++ [r.strip] ++ b) = lastData (a ++ r :: b) := by
  by_cases hb : b = []
  · subst hb
    rw [List.append_nil, lastData_append_ne (by simp), lastData_append_ne (by simp)]
    rfl
  · rw [lastData_append_ne hb]
    rw [show a ++ r :: b = (a ++ [r]) ++ b by simp, lastData_append_ne hb]

/-- Responses that are still to be delivered, in order. Proof device; not in the source. -/
def ESys.pend (T : ESys ι p) (k : ι) : List (MResp p) :=
  T.respQ k ++ (memRun T.mem (T.reqQ k ++ memMsgs (T.E k))).2

/-- Proof device; not in the source. -/
structure LogInv (M0 : ByteMem) (T : ESys Unit p) (tr : List (Ev Unit p)) : Prop where
  ops : (L1.init p).ops M0 (accepted () tr) =
    (((T.L ()).answer (lastData (T.pend ()))).1,
     (memRun T.mem (T.reqQ () ++ memMsgs (T.E ()))).1,
     emitted () tr ++ T.E () ++ ((T.L ()).answer (lastData (T.pend ()))).2)
  mem : (memRun M0 (memMsgs (emitted () tr))).1 = (memRun T.mem (T.reqQ ())).1

theorem answer_congr {L : L1 p} {a b : Line p} (h : L.cur ≠ .idle → a = b) : L.answer a = L.answer b := by
  by_cases hc : L.cur = .idle
  · rw [answer_of_idle hc, answer_of_idle hc]
  · rw [h hc]

theorem LogInv.step {M0 : ByteMem} {T T' : ESys Unit p} {tr ev : List (Ev Unit p)}
    (he : EInv T ()) (h : LogInv M0 T tr) (hs : EStep T ev T') : LogInv M0 T' (tr ++ ev) := by
  have hops := h.ops
  have hmem := h.mem
  cases hs with
  | acc k q hc hE hr hs hq =>
    cases k
    have hmE : memMsgs (T.E ()) = [] := by
      rw [memTypes_eq] at hE; simpa using hE
    rw [answer_of_idle hc, hr, hmE] at hops
    simp only [List.append_nil, memRun] at hops
    refine ⟨?_, ?_⟩
    · rw [accepted_append]
      have e1 : accepted () [(.acc () q : Ev Unit p)] = [q] := rfl
      have e2 : emitted () [(.acc () q : Ev Unit p)] = [] := rfl
      rw [e1, ops_snoc, hops]
      simp only [L1.op, ESys.pend, upd_same, hr, hs, hmE, memMsgs_append, List.nil_append,
        emitted_append, e2, List.append_nil, List.append_assoc]
    · have e2 : emitted () [(.acc () q : Ev Unit p)] = [] := rfl
      simpa [e2] using hmem
  | deliver k r l hl =>
    cases k
    have hp := he.pend
    rw [hl] at hp
    refine ⟨?_, by simpa using hmem⟩
    rw [List.append_nil, hops]
    by_cases hr : r.ty = MT.WRITE
    · have hd : (T.L ()).deliver r = (T.L (), []) := by simp [L1.deliver, hr]
      have : (T.L ()).answer (lastData (T.pend ())) = (T.L ()).answer
          (lastData (l ++ (memRun T.mem (T.reqQ () ++ memMsgs (T.E ()))).2)) := by
        apply answer_congr
        intro hne
        rw [ESys.pend, hl, List.cons_append, ← List.singleton_append, lastData_append_ne]
        intro h0
        simp only [outTys, List.map_cons, List.cons_append, hr] at hp
        have hp := hp.deliver_W (fun hne => Cur.mty_ne he.ok.wk hne)
        have e0 : List.map (·.ty) l ++ List.map (·.ty) (T.reqQ ()) ++ memTypes (T.E ()) = [] := by
          have := congrArg (List.map (·.ty)) h0
          rw [List.map_append, memRun_ty, List.map_append, ← memTypes_eq] at this
          simpa using this
        rw [e0] at hp
        obtain ⟨l', h1, _⟩ := hp
        have : (T.L ()).cur.mtys = [] := by
          have := h1.symm; simp at this; exact this.2
        revert this hne
        cases (T.L ()).cur <;> simp [Cur.mtys]
      simp only [ESys.pend, upd_same, hd, List.append_nil]
      rw [ESys.pend] at this
      rw [this]
    · have hd : (T.L ()).deliver r = (T.L ()).answer r.data := by simp [L1.deliver, hr]
      simp only [outTys, List.map_cons, List.cons_append] at hp
      obtain ⟨_, h2, _⟩ := hp.deliver_ans hr
      simp only [List.append_eq_nil_iff, List.map_eq_nil_iff] at h2
      obtain ⟨⟨h3, h4⟩, h5⟩ := h2
      have h5 : memMsgs (T.E ()) = [] := by rw [memTypes_eq] at h5; simpa using h5
      have e : lastData (T.pend ()) = r.data := by
        simp [ESys.pend, hl, h3, h4, h5, memRun, lastData]
      rw [e]
      simp only [ESys.pend, upd_same, hd, h4, memMsgs_append, answer_noMem, List.append_nil]
      rw [answer_of_idle (answer_idle _ _)]
      simp
  | emitMem k m E' hE =>
    cases k
    have e1 : accepted () [(.mreq () m : Ev Unit p)] = [] := rfl
    have e2 : emitted () [(.mreq () m : Ev Unit p)] = [.mem m] := rfl
    rw [hE] at hops
    refine ⟨?_, ?_⟩
    · rw [accepted_append, e1, List.append_nil, hops]
      simp only [ESys.pend, upd_same, hE, emitted_append, e2, memMsgs_mem, List.append_assoc,
        List.cons_append, List.nil_append]
    · simp only [emitted_append, e2, memMsgs_append, memRun_append, upd_same, hmem, memMsgs_mem, memMsgs_nil]
  | emitResp k r E' hE =>
    cases k
    have e1 : accepted () [(.resp () r : Ev Unit p)] = [] := rfl
    have e2 : emitted () [(.resp () r : Ev Unit p)] = [.resp r] := rfl
    rw [hE] at hops
    refine ⟨?_, ?_⟩
    · rw [accepted_append, e1, List.append_nil, hops]
      simp only [ESys.pend, upd_same, hE, emitted_append, e2, memMsgs_resp, List.append_assoc,
        List.cons_append, List.nil_append]
    · simpa [emitted_append, e2] using hmem
  | exec k m ms hm =>
    cases k
    have e1 : ∀ r, accepted () [(.exec () m r : Ev Unit p)] = [] := fun _ => rfl
    have e2 : ∀ r, emitted () [(.exec () m r : Ev Unit p)] = [] := fun _ => rfl
    rw [ESys.pend, hm] at hops
    simp only [List.cons_append, memRun] at hops
    refine ⟨?_, ?_⟩
    · rw [accepted_append, e1, List.append_nil, hops]
      simp only [ESys.pend, upd_same, emitted_append, e2, List.append_nil]
      rw [lastData_strip]
    · simp only [emitted_append, e2, List.append_nil, upd_same, hmem, hm, memRun]

theorem LogInv.run {M : ByteMem} {T : ESys Unit p} {tr : List (Ev Unit p)}
    (h : ERun (ESys.init Unit p M) tr T) : LogInv M T tr := by
  generalize hT : ESys.init Unit p M = T0 at h
  induction h with
  | refl =>
    subst hT
    exact ⟨rfl, rfl⟩
  | snoc h hs ih =>
    subst hT
    exact ih.step (EInv.run h ()) hs

/-- **Log theorem.** -/
theorem log_inv (wf : p.WF) {S S' : Sys Unit p} {tr : List (Ev Unit p)} (h0 : Start S)
    (h : Run S tr S') : ∃ T, Rel S' T ∧ EInv T () ∧ LogInv S.mem T (tr.map Ev.canon) := by
  obtain ⟨T, h1, h2⟩ := refine wf h0 h
  exact ⟨T, h2, EInv.run h1 (), LogInv.run h1⟩

end Verif
