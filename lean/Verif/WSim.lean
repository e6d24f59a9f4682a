import Verif.WArr

/-!
# One cache refines one cache of the memory model

Proof device for C64: `WInv` relates the event-level machine and its port to a cache of
the model, and every step of the event-level system is a path of the model.
-/

set_option linter.unusedSectionVars false

namespace Verif
variable {p : Params}
open WM (Copy)

/-- Several steps of a model cache. Proof device; not in the source. -/
inductive WM.Loc.Path : WM.Loc → ByteMem → List WM.LEv → WM.Loc → ByteMem → Prop
  | refl (a : WM.Loc) (M : ByteMem) : Path a M [] a M
  | snoc {a a' a'' : WM.Loc} {M M' M'' : ByteMem} {e e' : List WM.LEv} (h : Path a M e a' M') (hs : WM.Loc.Step a' M' e' a'' M'') :
      Path a M (e ++ e') a'' M''

theorem WM.Loc.Path.one {a a' : WM.Loc} {M M' : ByteMem} {e : List WM.LEv} (h : WM.Loc.Step a M e a' M') :
    WM.Loc.Path a M e a' M' := by
  have := WM.Loc.Path.snoc (.refl a M) h; simpa using this

theorem WM.Loc.Path.trans {a a' a'' : WM.Loc} {M M' M'' : ByteMem} {e e' : List WM.LEv} (h : WM.Loc.Path a M e a' M')
    (h' : WM.Loc.Path a' M' e' a'' M'') : WM.Loc.Path a M (e ++ e') a'' M'' := by
  induction h' with
  | refl => simpa using h
  | snoc _ hs ih => rw [← List.append_assoc]; exact .snoc (ih h) hs

/-- A further silent step. -/
theorem WM.Loc.Path.tau {a a' a'' : WM.Loc} {M M' M'' : ByteMem} {e : List WM.LEv} (h : WM.Loc.Path a M e a' M')
    (hs : WM.Loc.Step a' M' [] a'' M'') : WM.Loc.Path a M e a'' M'' := by
  have := WM.Loc.Path.snoc h hs; simpa using this

/-- Arrays while the operation of an AMO is pending. Proof device; not in the source. -/
def amoEnt (L : L1 p) (q : CReq p) (h : Bool) (w : Way) : Way → Idx p → Entry p :=
  if h then setAt L.ent w q.addr.idx ⟨false, 0, q.addr.tag⟩ else L.ent

/-- Where a cache is in its request, with the arrays it will have and the write-backs
that memory has not executed. Proof device; not in the source. -/
inductive Phase (L : L1 p) (E : List (Msg p)) (pd : List (MReq p)) (rq : List (MResp p)) (a : WM.Loc) :
    (Way → Idx p → Entry p) → (Way → Idx p → Line p) → List (Wb p) → Prop
  | idle (hc : L.cur = .idle) (hpd : pd = []) (hp : a.pend = none) (hd : a.done = (respMsgs E).map CResp.resp) :
      Phase L E pd rq a L.ent L.dat []
  | flush (q : CReq p) (E0 : List (Msg p)) (ws : List (Wb p)) (hc : L.cur = .idle)
      (hE : E = E0 ++ [.resp (mkResp q false 0)]) (hpd : pd = ws.map Wb.msg) (hne : ws ≠ []) (hty : q.ty = MT.FLUSH)
      (hz : ∀ w j, (L.ent w j).dty = 0) (hp : a.pend = some q.req) (hd : a.done = (respMsgs E0).map CResp.resp) :
      Phase L E pd rq a L.ent L.dat ws
  | fill (q : CReq p) (w : Way) (d : Dty p) (ws : List (Wb p)) (hc : L.cur = .fill q w d)
      (hpd : pd = ws.map Wb.msg ++ [.rd q.addr.la]) (hv : q.Valid) (hp : a.pend = some q.req)
      (hd : a.done = (respMsgs E).map CResp.resp) :
      Phase L E pd rq a (setAt L.ent w q.addr.idx ⟨false, d, q.addr.tag⟩) L.dat ws
  | filled (q : CReq p) (w : Way) (d : Dty p) (r : MResp p) (hc : L.cur = .fill q w d) (hpd : pd = [])
      (hr : rq.getLast? = some r) (ht : r.ty ≠ MT.WRITE) (hv : q.Valid) (hp : a.pend = some q.req)
      (hd : a.done = (respMsgs E).map CResp.resp) :
      Phase L E pd rq a (setAt L.ent w q.addr.idx ⟨true, d, q.addr.tag⟩)
        (setAt L.dat w q.addr.idx (merge (~~~ expand p d) (L.dat w q.addr.idx) r.data)) []
  | amo (q : CReq p) (h : Bool) (w : Way) (ws : List (Wb p)) (hc : L.cur = .amo q h w)
      (hpd : pd = ws.map Wb.msg ++ [.amo q]) (hv : q.Valid) (hp : a.pend = some q.req)
      (hd : a.done = (respMsgs E).map CResp.resp)
      (hn : ∀ w' ∈ p.ways, (amoEnt L q h w w' q.addr.idx).Present → (amoEnt L q h w w' q.addr.idx).tag ≠ q.addr.tag) :
      Phase L E pd rq a (amoEnt L q h w) L.dat ws
  | amod (q : CReq p) (h : Bool) (w : Way) (r : MResp p) (hc : L.cur = .amo q h w) (hpd : pd = [])
      (hr : rq.getLast? = some r) (ht : r.ty ≠ MT.WRITE) (hp : a.pend = none)
      (hd : a.done = (respMsgs E).map CResp.resp ++ [(mkResp q false ((r.data.setWidth 32).setWidth _)).resp]) :
      Phase L E pd rq a (amoEnt L q h w) L.dat []

/-- The event-level machine with its port and a model cache. Proof device; not in the source. -/
def WInv (L : L1 p) (E : List (Msg p)) (reqQ : List (MReq p)) (rq : List (MResp p)) (a : WM.Loc) : Prop :=
  ∃ ent dat ws, Phase L E (reqQ ++ memMsgs E) rq a ent dat ws ∧ WArr ent dat ws a.copy a.val

theorem resp_reply (q : CReq p) (hit : Bool) (d : Data p) {n : Nat} (h : d.toNat = n) :
    (mkResp q hit d).resp = ⟨q.req.ty, q.req.opq, q.req.len, n⟩ := by
  subst h; rfl

/-! ## Acceptance -/

theorem mark_self (wf : p.WF) {q : CReq p} (hv : q.Valid) (ty : q.ty = MT.WRITE) (e : Entry p)
    (h : wordDirty p e q.addr.off q.len = true) : markDirty p e.dty q.addr.off q.len = e.dty := by
  apply BitVec.eq_of_getLsbD_eq
  intro b hb
  have h1 := mark_iff wf hv ty e.dty (b := b) hb
  have h2 : (markDirty p e.dty q.addr.off q.len).getLsbD b = true ↔ e.dty.getLsbD b = true := by
    rw [h1]
    constructor
    · rintro (hx | hx)
      · exact hx
      · obtain ⟨b', hb', hn, _, h4⟩ := store_marks wf hv ty ((covers_writes ty _).1 hx)
        obtain ⟨_, rfl⟩ := wn_inj (la := q.addr.la) (la' := q.addr.la) hb' hb hn
        exact h4 e h
    · exact .inl
  cases hx : (markDirty p e.dty q.addr.off q.len).getLsbD b <;> cases hy : e.dty.getLsbD b <;> simp_all

theorem setAt_eq_self {α : Type} (f : Way → Idx p → α) {w : Way} {j : Idx p} {a : α} (h : f w j = a) :
    setAt f w j a = f := by
  funext w' j'
  simp only [setAt]; split
  · rename_i hx; obtain ⟨rfl, rfl⟩ := hx; exact h.symm
  · rfl

theorem wbOf_msgs (L : L1 p) (w : Way) (j : Idx p) :
    memMsgs (if (L.ent w j).dty != 0 then [L.wb w j] else []) = (wbOf (L.ent w j) j (L.dat w j)).map Wb.msg := by
  simp only [wbOf]; split <;> simp [L1.wb, Wb.msg]

theorem wbOf_resps (L : L1 p) (w : Way) (j : Idx p) (c : Bool) :
    respMsgs (if c then [L.wb w j] else []) = [] := by
  cases c <;> simp [L1.wb]

theorem acc_rw (wf : p.WF) {L : L1 p} {E : List (Msg p)} {a : WM.Loc} {q : CReq p} (hok : L.Ok) (hc : L.cur = .idle)
    (hE : memMsgs E = []) (hv : q.Valid) (hrw : q.ty = MT.READ ∨ q.ty = MT.WRITE)
    (hp : a.pend = some q.req) (hd : a.done = (respMsgs E).map CResp.resp) (hA : WArr L.ent L.dat [] a.copy a.val)
    (M : ByteMem) :
    ∃ a', WM.Loc.Path a M [] a' M ∧ WInv (L.rw q).1 (E ++ (L.rw q).2) [] [] a' := by
  have hwm := L.lookup_way_mem q.addr
  cases lookup_cases (Ok.uniqAt hok q.addr.idx) with
  | hit h hi hval htag =>
    rw [rw_hit h]
    by_cases hW : q.ty = MT.WRITE
    · refine ⟨_, .one (.write a M q.req hp hW (fun W hc => hA.covered wf hv hrw hwm hval htag hc)), ?_⟩
      have hs := hA.store wf hv hW hwm hval htag
      refine ⟨_, _, [], .idle (by simpa using hc) (by simp [hE]) rfl ?_, ?_⟩
      · simp only [WM.Loc.reply, hd, respMsgs_append, List.map_append]
        simp only [hW, if_true, respMsgs_resp, respMsgs_nil, List.map_cons, List.map_nil]
        rw [resp_reply q true 0 (n := 0) (by simp)]
      · simp only [WM.Loc.reply, hW, if_true, hi, true_and]
        have he : (if wordDirty p (L.ent (L.lookup q.addr).way q.addr.idx) q.addr.off q.len = false then
            setAt L.ent (L.lookup q.addr).way q.addr.idx ⟨(L.ent (L.lookup q.addr).way q.addr.idx).val,
              markDirty p (L.ent (L.lookup q.addr).way q.addr.idx).dty q.addr.off q.len, q.addr.tag⟩ else L.ent) =
            setAt L.ent (L.lookup q.addr).way q.addr.idx ⟨true,
              markDirty p (L.ent (L.lookup q.addr).way q.addr.idx).dty q.addr.off q.len, q.addr.tag⟩ := by
          rw [hval]
          split
          · rfl
          · rename_i hx
            rw [mark_self wf hv hW _ (by simpa using hx)]
            rw [setAt_eq_self]
            cases hz : L.ent (L.lookup q.addr).way q.addr.idx
            rw [hz] at hval htag
            simp only [Entry.mk.injEq]
            exact ⟨hval, trivial, htag⟩
        rw [he]
        exact hs
    · have hR : q.ty = MT.READ := hrw.resolve_right hW
      refine ⟨_, .one (.read a M q.req hp hR (fun W hc => hA.covered wf hv hrw hwm hval htag hc)), ?_⟩
      have hr := hA.read wf hv hR hwm hval htag
      simp only [hW, if_false, false_and]
      refine ⟨_, _, [], .idle (by simpa using hc) (by simp [hE]) rfl ?_, hA⟩
      simp only [WM.Loc.reply, hd, respMsgs_append, List.map_append]
      simp only [respMsgs_resp, respMsgs_nil, List.map_cons, List.map_nil]
      rw [resp_reply q true _ hr]
  | inval h hi hval hdn htag =>
    rw [rw_inval h hi]
    refine ⟨a, .refl a M, _, _, [], .fill q (L.lookup q.addr).way (L.ent (L.lookup q.addr).way q.addr.idx).dty [] rfl
      (by simp [hE]) hv hp (by simp [hd]), ?_⟩
    dsimp only
    rw [setAt_eq_self]
    · exact hA
    · cases hz : L.ent (L.lookup q.addr).way q.addr.idx
      rw [hz] at hval htag
      simp only [Entry.mk.injEq]
      exact ⟨hval, trivial, htag⟩
  | miss h hi hn =>
    rw [rw_miss h hi]
    have hINV : q.req.ty ≠ MT.INV := by rcases hrw with hx | hx <;> (show q.ty ≠ _; rw [hx]; decide)
    refine ⟨_, .one (.drop a M q.req (cleanOf (L.ent (L.rep q.addr.idx) q.addr.idx) q.addr.idx) hp hINV
      (fun W hW => hA.cleanOf (hok.rep _) _ hW)), ?_⟩
    refine ⟨_, _, _, .fill q (L.rep q.addr.idx) 0 (wbOf (L.ent (L.rep q.addr.idx) q.addr.idx) q.addr.idx
      (L.dat (L.rep q.addr.idx) q.addr.idx)) rfl ?_ hv hp ?_, hA.evict (hok.rep _) _ _⟩
    · simp [hE, ← wbOf_msgs]
    · simp only [respMsgs_append, wbOf_resps, hd, respMsgs_mem, respMsgs_nil, List.append_nil]

theorem acc_amo (_wf : p.WF) {L : L1 p} {E : List (Msg p)} {a : WM.Loc} {q : CReq p} (hok : L.Ok) (_hc : L.cur = .idle)
    (hE : memMsgs E = []) (hv : q.Valid) (hamo : MT.isAmo q.ty = true)
    (hp : a.pend = some q.req) (hd : a.done = (respMsgs E).map CResp.resp) (hA : WArr L.ent L.dat [] a.copy a.val)
    (M : ByteMem) :
    ∃ a', WM.Loc.Path a M [] a' M ∧ WInv (L.amo q).1 (E ++ (L.amo q).2) [] [] a' := by
  have hwm := L.lookup_way_mem q.addr
  have hINV : q.req.ty ≠ MT.INV := by
    intro hx; rw [show q.req.ty = q.ty from rfl] at hx; rw [hx] at hamo; cases hamo
  have hhit : ((L.lookup q.addr).hit || (L.lookup q.addr).inval) = true →
      (L.ent (L.lookup q.addr).way q.addr.idx).tag = q.addr.tag ∧ (L.ent (L.lookup q.addr).way q.addr.idx).Present := by
    intro hx
    cases lookup_cases (Ok.uniqAt hok q.addr.idx) with
    | hit h hi hval htag => exact ⟨htag, .inl hval⟩
    | inval h hi hval hdn htag => exact ⟨htag, .inr hdn⟩
    | miss h hi hn => rw [h, hi] at hx; cases hx
  cases hh : (L.lookup q.addr).hit || (L.lookup q.addr).inval
  · refine ⟨a, .refl a M, _, _, [], .amo q false (L.lookup q.addr).way [] ?_ ?_ hv hp ?_ ?_, ?_⟩
    · simp only [L1.amo, hh]
    · simp [L1.amo, hh, hE]
    · simp [L1.amo, hh, hd]
    · simp only [amoEnt, L1.amo, Bool.false_eq_true, if_false]
      cases lookup_cases (Ok.uniqAt hok q.addr.idx) with
      | hit h hi hval htag => rw [h] at hh; simp at hh
      | inval h hi hval hdn htag => rw [hi] at hh; simp at hh
      | miss h hi hn => exact hn
    · simp only [amoEnt, L1.amo, Bool.false_eq_true, if_false]
      exact hA
  · obtain ⟨htag, hpres⟩ := hhit hh
    refine ⟨_, .one (.drop a M q.req (cleanOf (L.ent (L.lookup q.addr).way q.addr.idx) q.addr.idx) hp hINV
      (fun W hW => hA.cleanOf hwm _ hW)), ?_⟩
    refine ⟨_, _, _, .amo q true (L.lookup q.addr).way (wbOf (L.ent (L.lookup q.addr).way q.addr.idx) q.addr.idx
      (L.dat (L.lookup q.addr).way q.addr.idx)) ?_ ?_ hv hp ?_ ?_, ?_⟩
    · simp only [L1.amo, hh]
    · simp [L1.amo, hh, hE, ← wbOf_msgs]
    · simp only [L1.amo, respMsgs_append, wbOf_resps, hd, respMsgs_mem, respMsgs_nil, List.append_nil]
    · simp only [amoEnt, L1.amo, if_true]
      intro w' hw' hpr
      by_cases hx : w' = (L.lookup q.addr).way
      · subst hx
        rw [setAt_same] at hpr
        rcases hpr with hpr | hpr
        · cases hpr
        · exact absurd rfl hpr
      · rw [setAt_ne _ _ (fun hy => hx hy.1)] at hpr ⊢
        intro ht
        exact hx (hok.uniq w' hw' _ hwm q.addr.idx hpr hpres (by rw [ht, htag]))
    · simp only [amoEnt, L1.amo, if_true]
      exact hA.evict hwm _ _

theorem acc_sim (wf : p.WF) {L : L1 p} {E : List (Msg p)} {a : WM.Loc} {q : CReq p} (hok : L.Ok) (hc : L.cur = .idle)
    (hE : memMsgs E = []) (hv : q.Valid) (h : WInv L E [] [] a) (M : ByteMem) :
    ∃ a', WM.Loc.Path a M [.acc q.req] a' M ∧ WInv (L.accept q).1 (E ++ (L.accept q).2) [] [] a' := by
  obtain ⟨ent, dat, ws, hph, hA⟩ := h
  rw [hE] at hph
  have hpre : a.pend = none ∧ a.done = (respMsgs E).map CResp.resp ∧ WArr L.ent L.dat [] a.copy a.val := by
    cases hph with
    | idle h1 h2 h3 h4 => exact ⟨h3, h4, hA⟩
    | flush q' E0 ws h1 h2 h3 h4 =>
      exfalso; cases ws with
      | nil => exact h4 rfl
      | cons m ws => simp at h3
    | fill q' w d ws h1 => rw [hc] at h1; cases h1
    | filled q' w d r h1 => rw [hc] at h1; cases h1
    | amo q' x w ws h1 => rw [hc] at h1; cases h1
    | amod q' x w r h1 => rw [hc] at h1; cases h1
  obtain ⟨hp, hd, hA⟩ := hpre
  have hacc := WM.Loc.Step.accept a M q.req hp
  suffices hs : ∃ a', WM.Loc.Path { a with pend := some q.req } M [] a' M ∧
      WInv (L.accept q).1 (E ++ (L.accept q).2) [] [] a' by
    obtain ⟨a', h1, h2⟩ := hs
    refine ⟨a', ?_, h2⟩
    have := (WM.Loc.Path.one hacc).trans h1
    simpa using this
  simp only [L1.accept]
  split
  · rename_i hrw
    exact acc_rw (a := { a with pend := some q.req }) wf hok hc hE hv hrw rfl hd hA M
  rename_i hnrw
  split
  · rename_i hamo
    exact acc_amo (a := { a with pend := some q.req }) wf hok hc hE hv hamo rfl hd hA M
  rename_i hnamo
  split
  · rename_i hinv
    refine ⟨_, .one (.inv { a with pend := some q.req } M q.req rfl hinv), _, _, [], .idle hc (by simp [hE]) rfl ?_, hA.inv⟩
    simp only [WM.Loc.reply, hd, respMsgs_append, List.map_append]
    simp only [respMsgs_resp, respMsgs_nil, List.map_cons, List.map_nil]
    rw [resp_reply q false 0 (n := 0) (by simp)]
  rename_i hninv
  have hfl : q.ty = MT.FLUSH := by
    cases hv with
    | read ty => exact absurd (.inl ty) hnrw
    | write ty => exact absurd (.inr ty) hnrw
    | dword ty => exact absurd (.inr ty) hnrw
    | amo ty => exact absurd (amo_ty ty).2.2.1 hnamo
    | inv ty => exact absurd ty hninv
    | flush ty => exact ty
  rw [if_pos hfl]
  have hF := hA.flush
  have hresp : ∀ n, respMsgs (L.flushMsgs n) = [] := by
    intro n; induction n with
    | zero => rfl
    | succ n ih => simp only [L1.flushMsgs, respMsgs_append, ih, wbOf_resps, List.append_nil]
  have hnd : ∀ W, ¬ ArrDirty (fun w j => { L.ent w j with dty := 0 }) W := by
    rintro W ⟨w, hw, j, b, hb, hd, hn⟩
    simp at hd
  by_cases hw : flushWs L.ent L.dat (2 ^ p.cntBits) = []
  · rw [hw] at hF
    refine ⟨_, .one (.flush { a with pend := some q.req } M q.req rfl hfl ?_), _, _, [], .idle hc ?_ rfl ?_, hF⟩
    · intro W hx
      rcases (hF.dirty W).1 hx with hy | hy
      · exact not_carried W hy
      · exact hnd W hy
    · simp [hE, flushWs_msgs, hw]
    · simp only [WM.Loc.reply, hd, respMsgs_append, List.map_append, hresp]
      simp only [respMsgs_resp, respMsgs_nil, List.map_cons, List.map_nil, List.nil_append]
      rw [resp_reply q false 0 (n := 0) (by simp)]
  · refine ⟨_, .refl _ M, _, _, _, .flush q (E ++ L.flushMsgs (2 ^ p.cntBits)) _ hc ?_ ?_ hw hfl (fun _ _ => rfl) rfl ?_, hF⟩
    · simp
    · simp [hE, flushWs_msgs]
    · simp [hresp, hd]

/-! ## Memory executes a request -/

/-- A write-back in the model. -/
theorem wb_path {ent : Way → Idx p → Entry p} {dat : Way → Idx p → Line p} {ws : List (Wb p)} {m : Wb p} {a : WM.Loc}
    {q : WM.Req} (hA : WArr ent dat (m :: ws) a.copy a.val) (hp : a.pend = some q) (hq : q.ty ≠ MT.INV) (M : ByteMem) :
    ∃ a', WM.Loc.Path a M [] a' (memExec M m.msg).1 ∧ a'.pend = a.pend ∧ a'.done = a.done ∧
      WArr ent dat ws a'.copy a'.val := by
  have h1 := WM.Loc.Step.save a M q (inMask m.la m.mask) hp hq (fun W hW => hA.head_dirty hW)
  rw [← exec_wb hA M] at h1
  have h2 := WM.Loc.Step.drop { a with copy := fun W => if inMask m.la m.mask W then .clean else a.copy W }
    (memExec M m.msg).1 q (fun W => inMask m.la m.mask W && !holds ent m.la) hp hq (by
      intro W hW
      simp only [Bool.and_eq_true] at hW
      simp [hW.1])
  exact ⟨_, (WM.Loc.Path.one h1).tau h2, rfl, rfl, hA.saved⟩

theorem exec_sim (wf : p.WF) {L : L1 p} {E : List (Msg p)} {m : MReq p} {ms : List (MReq p)} {rq : List (MResp p)} {a : WM.Loc}
    (hok : L.Ok) (h : WInv L E (m :: ms) rq a) (M : ByteMem) :
    ∃ a', WM.Loc.Path a M [] a' (memExec M m).1 ∧ WInv L E ms (rq ++ [(memExec M m).2.strip]) a' := by
  obtain ⟨ent, dat, ws, hph, hA⟩ := h
  rw [List.cons_append] at hph
  cases hph with
  | idle _ h2 => cases h2
  | filled q w d r _ h2 => cases h2
  | amod q x w r _ h2 => cases h2
  | flush q E0 ws hc hE hpd hne hty hz hp hd =>
    cases ws with
    | nil => exact absurd rfl hne
    | cons m0 ws =>
      simp only [List.map_cons, List.cons.injEq] at hpd
      obtain ⟨rfl, hpd⟩ := hpd
      have hINV : q.req.ty ≠ MT.INV := by show q.ty ≠ _; rw [hty]; decide
      obtain ⟨a', h1, h2, h3, h4⟩ := wb_path hA hp hINV M
      cases ws with
      | cons m1 ws =>
        exact ⟨a', h1, _, _, _, .flush q E0 (m1 :: ws) hc hE hpd (by simp) hty hz (by rw [h2, hp]) (by rw [h3, hd]), h4⟩
      | nil =>
        refine ⟨_, h1.tau (.flush a' _ q.req (by rw [h2, hp]) hty ?_), _, _, [], .idle hc (by simpa using hpd) rfl ?_, h4⟩
        · intro W hx
          rcases (h4.dirty W).1 hx with hy | ⟨w, hw, j, b, hb, hy, _⟩
          · exact not_carried W hy
          · rw [hz] at hy; simp at hy
        · simp only [WM.Loc.reply, h3, hd, hE, respMsgs_append, List.map_append]
          simp only [respMsgs_resp, respMsgs_nil, List.map_cons, List.map_nil]
          rw [resp_reply q false 0 (n := 0) (by simp)]
  | fill q w d ws hc hpd hv hp hd =>
    obtain ⟨hw, hrw⟩ := ok_fill hok.wk hc
    have hINV : q.req.ty ≠ MT.INV := by rcases hrw with hx | hx <;> (show q.ty ≠ _; rw [hx]; decide)
    cases ws with
    | cons m0 ws =>
      simp only [List.map_cons, List.cons_append, List.cons.injEq] at hpd
      obtain ⟨rfl, hpd⟩ := hpd
      obtain ⟨a', h1, h2, h3, h4⟩ := wb_path hA hp hINV M
      exact ⟨a', h1, _, _, _, .fill q w d ws hc hpd hv (by rw [h2, hp]) (by rw [h3, hd]), h4⟩
    | nil =>
      simp only [List.map_nil, List.nil_append, List.cons.injEq] at hpd
      obtain ⟨rfl, hpd⟩ := hpd
      have ho : ∀ w' ∈ p.ways, w' ≠ w → (setAt L.ent w q.addr.idx ⟨false, d, q.addr.tag⟩ w' q.addr.idx).Present →
          (setAt L.ent w q.addr.idx ⟨false, d, q.addr.tag⟩ w' q.addr.idx).tag ≠ q.addr.tag := by
        intro w' hw' hne hpr
        rw [setAt_ne _ _ (fun hx => hne hx.1)] at hpr ⊢
        have := hok.pend
        rw [hc] at this
        exact this w' hw' hne hpr
      have he := setAt_same L.ent w q.addr.idx (⟨false, d, q.addr.tag⟩ : Entry p)
      have hs := WM.Loc.Step.fetch a M q.req (inMask q.addr.la (~~~ d)) hp hrw (fun W hW => hA.absent he ho hW)
      have hf := hA.fetch hw he ho M
      rw [setAt_setAt] at hf
      rw [exec_rd]
      refine ⟨_, .one hs, _, _, [], .filled q w d ⟨MT.READ, 0, view M q.addr.la⟩ hc hpd ?_ (show MT.READ ≠ MT.WRITE by decide) hv hp hd, hf⟩
      simp [MResp.strip]
  | amo q x w ws hc hpd hv hp hd hn =>
    obtain ⟨hw, hamo⟩ := ok_amo hok.wk hc
    have hINV : q.req.ty ≠ MT.INV := by
      intro hx; rw [show q.req.ty = q.ty from rfl] at hx; rw [hx] at hamo; cases hamo
    cases ws with
    | cons m0 ws =>
      simp only [List.map_cons, List.cons_append, List.cons.injEq] at hpd
      obtain ⟨rfl, hpd⟩ := hpd
      obtain ⟨a', h1, h2, h3, h4⟩ := wb_path hA hp hINV M
      exact ⟨a', h1, _, _, _, .amo q x w ws hc hpd hv (by rw [h2, hp]) (by rw [h3, hd]) hn, h4⟩
    | nil =>
      simp only [List.map_nil, List.nil_append, List.cons.injEq] at hpd
      obtain ⟨rfl, hpd⟩ := hpd
      have hR : q.ty ≠ MT.READ := by intro hx; rw [hx] at hamo; cases hamo
      have hWr : q.ty ≠ MT.WRITE := by intro hx; rw [hx] at hamo; cases hamo
      have hcopy : a.copy (q.req.addr / 4) = .none := by
        apply Decidable.byContradiction
        intro hx
        rcases hA.has _ hx with hy | ⟨w', hw', j', b, hb, hh, hnum⟩
        · exact not_carried _ hy
        · have hflat : q.req.addr / 4 = wn q.addr.la (q.addr.off.toNat / 4) := by
            rw [show q.req.addr = q.addr.la.num * 2 ^ p.offBits + q.addr.off.toNat from rfl, offBits_pow, wn,
              ← Nat.mul_assoc, Nat.mul_comm _ 4, Nat.mul_assoc]
            omega
          rw [hflat] at hnum
          have hlt : q.addr.off.toNat / 4 < p.nWords := by
            have := q.addr.off.isLt
            rw [offBits_pow] at this
            simp only [Params.nWords]; omega
          obtain ⟨e1, _⟩ := wn_inj hb hlt hnum
          have ej : j' = q.addr.idx := congrArg LAddr.idx e1
          have et : (amoEnt L q x w w' j').tag = q.addr.tag := congrArg LAddr.tag e1
          subst ej
          exact hn w' hw' hh.present et
      have hs := WM.Loc.Step.amo a M q.req hp hamo hcopy
      have hmem : (memExec M (.amo q)).1 = writeLE M q.req.addr 4 (amoFun q.req.ty (BitVec.ofNat 32 (readLE M q.req.addr 4))
          (BitVec.ofNat 32 q.req.data)).toNat := by
        simp only [memExec, MReq.amo, hR, hWr, if_false]
        have e1 : (q.data.setWidth p.lineBits).setWidth 32 = BitVec.ofNat 32 q.req.data := by
          rw [BitVec.setWidth_setWidth_of_le]
          · apply BitVec.eq_of_toNat_eq; simp [CReq.req]
          · simp only [Params.lineBits, Params.nWords]
            have := Nat.two_pow_pos p.nwBits; omega
        rw [e1]; rfl
      refine ⟨a.reply q.req (readLE M q.req.addr 4), ?_, _, _, [], .amod q x w (memExec M (.amo q)).2.strip hc hpd (by simp) ?_ rfl ?_, hA⟩
      · rw [hmem]; exact .one hs
      · simp only [memExec, MReq.amo, hR, hWr, if_false, MResp.strip]; simpa using hWr
      · simp only [WM.Loc.reply, hd]
        rw [resp_reply q false _ (n := readLE M q.req.addr 4)]
        simp only [memExec, MReq.amo, hR, hWr, if_false, MResp.strip]
        have hlt := readLE_lt M q.req.addr 4
        have h32 : 32 ≤ p.lineBits := by
          simp only [Params.lineBits, Params.nWords]
          have := Nat.two_pow_pos p.nwBits; omega
        have hdb : 32 ≤ p.dataBits := by
          have := Nat.pow_le_pow_right (n := 2) (by omega) wf.len.1
          simp only [Params.dataBits]; omega
        rw [BitVec.setWidth_setWidth_of_le _ h32, BitVec.setWidth_eq, BitVec.toNat_setWidth, BitVec.toNat_ofNat,
          Nat.mod_eq_of_lt (a := readLE M q.addr.flat 4) (by exact hlt)]
        apply Nat.mod_eq_of_lt
        exact Nat.lt_of_lt_of_le hlt (Nat.pow_le_pow_right (by omega) hdb)

/-! ## Delivery of a memory response, emission of a message -/

theorem deliver_sim (wf : p.WF) {L : L1 p} {E : List (Msg p)} {reqQ : List (MReq p)} {r : MResp p} {l : List (MResp p)}
    {a : WM.Loc} (hok : L.Ok) (hpend : PendTys L.cur (outTys (r :: l) reqQ ++ memTypes E))
    (h : WInv L E reqQ (r :: l) a) (M : ByteMem) :
    ∃ a', WM.Loc.Path a M [] a' M ∧ WInv (L.deliver r).1 (E ++ (L.deliver r).2) reqQ l a' := by
  obtain ⟨ent, dat, ws, hph, hA⟩ := h
  by_cases hr : r.ty = MT.WRITE
  · have hd : L.deliver r = (L, []) := by simp [L1.deliver, hr]
    rw [hd]
    have hlast : ∀ r0 : MResp p, (r :: l).getLast? = some r0 → r0.ty ≠ MT.WRITE → l.getLast? = some r0 := by
      intro r0 h1 h2
      cases l with
      | nil => simp at h1; subst h1; exact absurd hr h2
      | cons r1 l => simpa using h1
    refine ⟨a, .refl a M, ent, dat, ws, ?_, hA⟩
    rw [List.append_nil]
    cases hph with
    | idle h1 h2 h3 h4 => exact .idle h1 h2 h3 h4
    | flush q E0 ws h1 h2 h3 h4 h5 h6 h7 h8 => exact .flush q E0 ws h1 h2 h3 h4 h5 h6 h7 h8
    | fill q w d ws h1 h2 h3 h4 h5 => exact .fill q w d ws h1 h2 h3 h4 h5
    | filled q w d r0 h1 h2 h3 h4 h5 h6 h7 => exact .filled q w d r0 h1 h2 (hlast r0 h3 h4) h4 h5 h6 h7
    | amo q x w ws h1 h2 h3 h4 h5 h6 => exact .amo q x w ws h1 h2 h3 h4 h5 h6
    | amod q x w r0 h1 h2 h3 h4 h5 h6 => exact .amod q x w r0 h1 h2 (hlast r0 h3 h4) h4 h5 h6
  · have hd : L.deliver r = L.answer r.data := by simp [L1.deliver, hr]
    rw [hd]
    simp only [outTys, List.map_cons, List.cons_append] at hpend
    obtain ⟨hcur, hrest, _⟩ := hpend.deliver_ans hr
    simp only [List.append_eq_nil_iff, List.map_eq_nil_iff] at hrest
    obtain ⟨⟨hl, hq⟩, hE⟩ := hrest
    have hE : memMsgs E = [] := by rw [memTypes_eq] at hE; simpa using hE
    subst hl hq
    rw [hE] at hph
    cases hph with
    | idle h1 => exact absurd h1 hcur
    | flush q E0 ws h1 => exact absurd h1 hcur
    | fill q w d ws h1 h2 => simp at h2
    | amo q x w ws h1 h2 => simp at h2
    | filled q w d r0 hc h2 h3 h4 hv hp hdn =>
      simp only [List.getLast?_singleton, Option.some.injEq] at h3
      subst h3
      obtain ⟨hw, hrw⟩ := ok_fill hok.wk hc
      have hval : (setAt L.ent w q.addr.idx ⟨true, d, q.addr.tag⟩ w q.addr.idx).val = true := by rw [setAt_same]
      have htag : (setAt L.ent w q.addr.idx ⟨true, d, q.addr.tag⟩ w q.addr.idx).tag = q.addr.tag := by rw [setAt_same]
      by_cases hW : q.ty = MT.WRITE
      · refine ⟨_, .one (.write a M q.req hp hW (fun W hc => hA.covered wf hv hrw hw hval htag hc)), ?_⟩
        have hs := hA.store wf hv hW hw hval htag
        rw [setAt_same, setAt_same, setAt_setAt, setAt_setAt] at hs
        simp only [L1.answer, hc, hW, if_true]
        refine ⟨_, _, [], .idle rfl (by simp [hE]) rfl ?_, hs⟩
        simp only [WM.Loc.reply, hdn, respMsgs_append, List.map_append, respMsgs_resp, respMsgs_nil, List.map_cons, List.map_nil]
        rw [resp_reply q false 0 (n := 0) (by simp)]
      · have hR : q.ty = MT.READ := hrw.resolve_right hW
        refine ⟨_, .one (.read a M q.req hp hR (fun W hc => hA.covered wf hv hrw hw hval htag hc)), ?_⟩
        have hrd := hA.read wf hv hR hw hval htag
        rw [setAt_same] at hrd
        simp only [L1.answer, hc, hW, if_false]
        refine ⟨_, _, [], .idle rfl (by simp [hE]) rfl ?_, hA⟩
        simp only [WM.Loc.reply, hdn, respMsgs_append, List.map_append, respMsgs_resp, respMsgs_nil, List.map_cons, List.map_nil]
        rw [resp_reply q false _ hrd]
    | amod q x w r0 hc h2 h3 h4 hp hdn =>
      simp only [List.getLast?_singleton, Option.some.injEq] at h3
      subst h3
      refine ⟨a, .refl a M, amoEnt L q x w, L.dat, [], ?_, hA⟩
      simp only [L1.answer, hc]
      refine .idle rfl (by simp [hE]) hp ?_
      simp only [hdn, respMsgs_append, List.map_append, respMsgs_resp, respMsgs_nil, List.map_cons, List.map_nil]

theorem emitMem_sim {L : L1 p} {E : List (Msg p)} {m : MReq p} {reqQ : List (MReq p)} {rq : List (MResp p)}
    {a : WM.Loc} (h : WInv L (.mem m :: E) reqQ rq a) : WInv L E (reqQ ++ [m]) rq a := by
  obtain ⟨ent, dat, ws, hph, hA⟩ := h
  refine ⟨ent, dat, ws, ?_, hA⟩
  have e : reqQ ++ [m] ++ memMsgs E = reqQ ++ memMsgs (.mem m :: E) := by simp
  rw [e]
  cases hph with
  | idle h1 h2 h3 h4 => exact .idle h1 h2 h3 h4
  | flush q E0 ws h1 h2 h3 h4 h5 h6 h7 h8 =>
    cases E0 with
    | nil => simp at h2
    | cons x E0 =>
      simp only [List.cons_append, List.cons.injEq] at h2
      obtain ⟨rfl, h2⟩ := h2
      exact .flush q E0 ws h1 h2 h3 h4 h5 h6 h7 (by simpa using h8)
  | fill q w d ws h1 h2 h3 h4 h5 => exact .fill q w d ws h1 h2 h3 h4 h5
  | filled q w d r0 h1 h2 h3 h4 h5 h6 h7 => exact .filled q w d r0 h1 h2 h3 h4 h5 h6 h7
  | amo q x w ws h1 h2 h3 h4 h5 h6 => exact .amo q x w ws h1 h2 h3 h4 h5 h6
  | amod q x w r0 h1 h2 h3 h4 h5 h6 => exact .amod q x w r0 h1 h2 h3 h4 h5 h6

theorem emitResp_sim {L : L1 p} {E : List (Msg p)} {r : CResp p} {a : WM.Loc} (h : WInv L (.resp r :: E) [] [] a)
    (M : ByteMem) : ∃ a', WM.Loc.Path a M [.resp r.resp] a' M ∧ WInv L E [] [] a' := by
  obtain ⟨ent, dat, ws, hph, hA⟩ := h
  rw [List.nil_append, memMsgs_resp] at hph
  cases hph with
  | idle h1 h2 h3 h4 =>
    exact ⟨_, .one (.deliver a M r.resp ((respMsgs E).map CResp.resp) (by rw [h4]; simp)), _, _, _, .idle h1 h2 h3 rfl, hA⟩
  | flush q E0 ws h1 h2 h3 h4 h5 h6 h7 h8 =>
    cases E0 with
    | nil =>
      simp only [List.nil_append, List.cons.injEq] at h2
      rw [h2.2] at h3
      exact absurd (by simpa using h3.symm) h4
    | cons x E0 =>
      simp only [List.cons_append, List.cons.injEq] at h2
      obtain ⟨rfl, h2⟩ := h2
      exact ⟨_, .one (.deliver a M r.resp ((respMsgs E0).map CResp.resp) (by rw [h8]; simp)), _, _, _,
        .flush q E0 ws h1 h2 h3 h4 h5 h6 h7 rfl, hA⟩
  | fill q w d ws h1 h2 h3 h4 h5 =>
    exact ⟨_, .one (.deliver a M r.resp ((respMsgs E).map CResp.resp) (by rw [h5]; simp)), _, _, _,
      .fill q w d ws h1 h2 h3 h4 rfl, hA⟩
  | filled q w d r0 h1 h2 h3 => simp at h3
  | amo q x w ws h1 h2 h3 h4 h5 h6 =>
    exact ⟨_, .one (.deliver a M r.resp ((respMsgs E).map CResp.resp) (by rw [h5]; simp)), _, _, _,
      .amo q x w ws h1 h2 h3 h4 rfl h6, hA⟩
  | amod q x w r0 h1 h2 h3 => simp at h3

/-! ## One step, one run of the one-cache system -/

/-- The event-level one-cache system and a model cache. Proof device; not in the source. -/
def EWInv (T : ESys Unit p) (a : WM.Loc) : Prop := WInv (T.L ()) (T.E ()) (T.reqQ ()) (T.respQ ()) a

/-- The processor-side events of a one-cache system. Proof device; not in the source. -/
def locals (ev : List (Ev Unit p)) : List WM.LEv := ev.filterMap Ev.local

theorem locals_append (a b : List (Ev Unit p)) : locals (a ++ b) = locals a ++ locals b := by
  simp [locals]

theorem estep_sim (wf : p.WF) {T T' : ESys Unit p} {ev : List (Ev Unit p)} {a : WM.Loc} (hst : EStep T ev T')
    (he : EInv T ()) (hv : ∀ u q, Ev.acc u q ∈ ev → q.Valid) (h : EWInv T a) :
    ∃ a', WM.Loc.Path a T.mem (locals ev) a' T'.mem ∧ EWInv T' a' := by
  cases hst with
  | acc k q hc hE hr hs hq =>
    have hE' : memMsgs (T.E ()) = [] := by rw [memTypes_eq] at hE; simpa using hE
    simp only [EWInv] at h ⊢
    rw [show T.reqQ () = [] from hr, show T.respQ () = [] from hs] at h
    obtain ⟨a', h1, h2⟩ := acc_sim wf (q := q) he.ok hc hE' (hv k q (by simp)) h T.mem
    refine ⟨a', h1, ?_⟩
    rw [show T.reqQ () = [] from hr, show T.respQ () = [] from hs]
    exact h2
  | deliver k r l hl =>
    have hp := he.pend
    simp only [EWInv] at h
    rw [show T.respQ () = r :: l from hl] at h hp
    obtain ⟨a', h1, h2⟩ := deliver_sim wf he.ok hp h T.mem
    exact ⟨a', h1, h2⟩
  | emitMem k m E' hE =>
    simp only [EWInv] at h
    rw [show T.E () = .mem m :: E' from hE] at h
    exact ⟨a, .refl _ _, emitMem_sim h⟩
  | emitResp k r E' hE hr hs =>
    simp only [EWInv] at h
    rw [show T.E () = .resp r :: E' from hE, show T.reqQ () = [] from hr, show T.respQ () = [] from hs] at h
    obtain ⟨a', h1, h2⟩ := emitResp_sim h T.mem
    refine ⟨a', h1, ?_⟩
    simp only [EWInv]
    rw [show T.reqQ () = [] from hr, show T.respQ () = [] from hs]
    exact h2
  | exec k m ms hm =>
    simp only [EWInv] at h
    rw [show T.reqQ () = m :: ms from hm] at h
    obtain ⟨a', h1, h2⟩ := exec_sim wf he.ok h T.mem
    exact ⟨a', h1, h2⟩

theorem erun_sim (wf : p.WF) {T T' : ESys Unit p} {ev : List (Ev Unit p)} {a : WM.Loc} (hst : ERun T ev T')
    (he : EInv T ()) (hv : ∀ u q, Ev.acc u q ∈ ev → q.Valid) (h : EWInv T a) :
    ∃ a', WM.Loc.Path a T.mem (locals ev) a' T'.mem ∧ EWInv T' a' ∧ EInv T' () := by
  induction hst with
  | refl => exact ⟨a, .refl _ _, h, he⟩
  | snoc hr hs ih =>
    obtain ⟨a1, h1, h2, h3⟩ := ih (fun u q hq => hv u q (by simp [hq]))
    obtain ⟨a2, h4, h5⟩ := estep_sim wf hs h3 (fun u q hq => hv u q (by simp [hq])) h2
    refine ⟨a2, by rw [locals_append]; exact h1.trans h4, h5, ?_⟩
    exact EInv.step (fun _ => h3) hs ()

/-- A node of the heterogeneous system and a model cache. Proof device; not in the source. -/
def NodeSim (n : Node p) (a : WM.Loc) : Prop :=
  ∀ M, ∃ T : ESys Unit p, Rel (n.on M) T ∧ EInv T () ∧ EWInv T a

theorem NodeSim.of {S : Sys Unit p} {T : ESys Unit p} {a : WM.Loc} (h1 : Rel S T) (h2 : EInv T ()) (h3 : EWInv T a) :
    NodeSim S.node a := by
  intro M
  exact ⟨{ T with mem := M }, ⟨fun k => h1.cache k, fun k => h1.reqQ k, fun k => h1.respQ k, rfl⟩, ⟨h2.ok, h2.pend⟩, h3⟩

theorem locals_canon (ev : List (Ev Unit p)) : locals (ev.map Ev.canon) = locals ev := by
  simp only [locals, List.filterMap_map]
  congr 1
  funext e; cases e <;> rfl

theorem node_step (wf : p.WF) {n : Node p} {M : ByteMem} {a : WM.Loc} {ev : List (Ev Unit p)} {S : Sys Unit p}
    (h : NodeSim n a) (hs : Step (n.on M) ev S) (hv : ∀ u q, Ev.acc u q ∈ ev → q.Valid) :
    ∃ a', WM.Loc.Path a M (locals ev) a' S.mem ∧ NodeSim S.node a' := by
  obtain ⟨T, h1, h2, h3⟩ := h M
  have hT : T.mem = M := h1.mem
  have key : ∃ T', ERun T (ev.map Ev.canon) T' ∧ Rel S T' := by
    generalize hn : n.on M = S0 at hs h1
    cases hs with
    | clock k i hc => exact refine_clock wf h1 hc
    | exec k m ms hm => exact refine_exec h1 hm
  obtain ⟨T', h4, h5⟩ := key
  have hv' : ∀ u q, Ev.acc u q ∈ ev.map Ev.canon → q.Valid := by
    intro u q hq
    obtain ⟨e, he, hx⟩ := List.mem_map.1 hq
    cases e with
    | acc u' q' => simp only [Ev.canon, Ev.acc.injEq] at hx; obtain ⟨_, rfl⟩ := hx; exact hv u' _ he
    | mreq => cases hx
    | resp => cases hx
    | exec => cases hx
  obtain ⟨a', h6, h7, h8⟩ := erun_sim wf h4 h2 hv' h3
  rw [locals_canon, hT, h5.mem] at h6
  exact ⟨a', h6, .of h5 h8 h7⟩

theorem node_start {n : Node p} {M : ByteMem} (h : Start (n.on M)) :
    NodeSim n ⟨fun _ => .none, fun _ => 0, none, []⟩ := by
  have hr : Rel (n.on M) (ESys.init Unit p M) := by
    refine ⟨?_, ?_, ?_, rfl⟩
    · intro k
      obtain ⟨s, i, hi, hc⟩ := h.reset k
      rw [hc, h.reqQ k, h.respQ k]
      exact RIU.start s i hi
    · intro k; rw [h.reqQ k]; rfl
    · intro k; rw [h.respQ k]; rfl
  have := NodeSim.of (a := ⟨fun _ => .none, fun _ => 0, none, []⟩) hr (EInv.init M ()) (by
    exact ⟨_, _, [], .idle rfl rfl rfl rfl, WArr.init _⟩)
  exact this

end Verif
