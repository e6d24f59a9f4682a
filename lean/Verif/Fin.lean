import Verif.Word

/-!
# Completion of the pending operation of one cache

`ESys.fin T k tr` is the state, memory and message log cache `k` reaches if its
own pending messages are executed next.
-/

set_option linter.unusedSectionVars false

namespace Verif
variable {p : Params} {ι : Type} [DecidableEq ι]

/-- Proof device; not in the source. -/
def ESys.fin (T : ESys ι p) (k : ι) (tr : List (Ev ι p)) : L1 p × ByteMem × List (Msg p) :=
  (((T.L k).answer (lastData (T.pend k))).1,
   (memRun T.mem (T.reqQ k ++ memMsgs (T.E k))).1,
   emitted k tr ++ T.E k ++ ((T.L k).answer (lastData (T.pend k))).2)

/-- Proof device; not in the source. -/
inductive FinStep (T T' : ESys ι p) (ev : List (Ev ι p)) (k : ι) (tr : List (Ev ι p)) : Prop
  /-- `k` accepts a request -/
  | acc (q : CReq p) (hev : ev = [.acc k q]) (hq : q.ty ≠ MT.INIT) (hc : (T.L k).cur = .idle)
      (hr : T.reqQ k = []) (hE : memMsgs (T.E k) = [])
      (h0 : T.fin k tr = (T.L k, T.mem, emitted k tr ++ T.E k))
      (h : T'.fin k (tr ++ ev) = (((T.L k).op T.mem q).1, ((T.L k).op T.mem q).2.1,
        emitted k tr ++ T.E k ++ ((T.L k).op T.mem q).2.2))
  /-- nothing changes for `k` -/
  | same (h : T'.fin k (tr ++ ev) = T.fin k tr) (ha : accepted k ev = [])
  /-- memory executes a request of another cache -/
  | other (k' : ι) (m : MReq p) (ms : List (MReq p)) (hk : k' ≠ k) (hm : T.reqQ k' = m :: ms)
      (hev : ev = [.exec k' m (memExec T.mem m).2.strip]) (hL : T'.L k = T.L k) (hE : T'.E k = T.E k)
      (hq : T'.reqQ k = T.reqQ k) (hs : T'.respQ k = T.respQ k) (hmem : T'.mem = (memExec T.mem m).1)

theorem fin_congr {T T' : ESys ι p} {k : ι} {tr ev : List (Ev ι p)} (hL : T'.L k = T.L k) (hE : T'.E k = T.E k)
    (hq : T'.reqQ k = T.reqQ k) (hs : T'.respQ k = T.respQ k) (hm : T'.mem = T.mem) (he : emitted k ev = []) :
    T'.fin k (tr ++ ev) = T.fin k tr := by
  simp only [ESys.fin, ESys.pend, hL, hE, hq, hs, hm, emitted_append, he, List.append_nil]

theorem fin_step {T T' : ESys ι p} {ev : List (Ev ι p)} {k : ι} {tr : List (Ev ι p)} (he : EInv T k)
    (hst : EStep T ev T') : FinStep T T' ev k tr := by
  cases hst with
  | acc k' q hc hE hr hs hq =>
    by_cases hk : k = k'
    · subst hk
      have hmE : memMsgs (T.E k) = [] := by rw [memTypes_eq] at hE; simpa using hE
      have e2 : emitted k [(.acc k q : Ev ι p)] = [] := rfl
      refine .acc q rfl hq hc hr hmE ?_ ?_
      · simp only [ESys.fin, answer_of_idle hc, hr, hmE, List.append_nil, memRun]
      · simp only [ESys.fin, L1.op, ESys.pend, upd_same, hr, hs, hmE, memMsgs_append, List.nil_append,
          emitted_append, e2, List.append_nil, List.append_assoc]
    · have hk' : ¬ k' = k := fun h => hk h.symm
      refine .same (fin_congr (by simp [upd_other _ hk]) (by simp [upd_other _ hk]) rfl rfl rfl ?_) ?_
      · simp [emitted]
      · simp [accepted, hk']
  | deliver k' r l hl =>
    by_cases hk : k = k'
    · subst hk
      refine .same ?_ rfl
      have hp := he.pend
      rw [hl] at hp
      by_cases hr : r.ty = MT.WRITE
      · have hd : (T.L k).deliver r = (T.L k, []) := by simp [L1.deliver, hr]
        have : (T.L k).answer (lastData (T.pend k)) = (T.L k).answer
            (lastData (l ++ (memRun T.mem (T.reqQ k ++ memMsgs (T.E k))).2)) := by
          apply answer_congr
          intro hne
          rw [ESys.pend, hl, List.cons_append, ← List.singleton_append, lastData_append_ne]
          intro h0
          simp only [outTys, List.map_cons, List.cons_append, hr] at hp
          have hp := hp.deliver_W (fun hne => Cur.mty_ne he.ok.wk hne)
          have e0 : List.map (·.ty) l ++ List.map (·.ty) (T.reqQ k) ++ memTypes (T.E k) = [] := by
            have := congrArg (List.map (·.ty)) h0
            rw [List.map_append, memRun_ty, List.map_append, ← memTypes_eq] at this
            simpa using this
          rw [e0] at hp
          obtain ⟨l', h1, _⟩ := hp
          have : (T.L k).cur.mtys = [] := by
            have := h1.symm; simp at this; exact this.2
          revert this hne
          cases (T.L k).cur <;> simp [Cur.mtys]
        simp only [ESys.fin, this, List.append_nil]
        simp only [ESys.pend, upd_same, hd, List.append_nil]
      · have hd : (T.L k).deliver r = (T.L k).answer r.data := by simp [L1.deliver, hr]
        simp only [outTys, List.map_cons, List.cons_append] at hp
        obtain ⟨_, h2, _⟩ := hp.deliver_ans hr
        simp only [List.append_eq_nil_iff, List.map_eq_nil_iff] at h2
        obtain ⟨⟨h3, h4⟩, h5⟩ := h2
        have h5 : memMsgs (T.E k) = [] := by rw [memTypes_eq] at h5; simpa using h5
        have e : lastData (T.pend k) = r.data := by
          simp [ESys.pend, hl, h3, h4, h5, memRun, lastData]
        simp only [ESys.fin, e]
        simp only [ESys.pend, upd_same, hd, h4, memMsgs_append, answer_noMem, List.append_nil]
        rw [answer_of_idle (answer_idle _ _)]
        simp
    · exact .same (fin_congr (by simp [upd_other _ hk]) (by simp [upd_other _ hk]) rfl
        (by simp [upd_other _ hk]) rfl rfl) rfl
  | emitMem k' m E' hE =>
    by_cases hk : k = k'
    · subst hk
      have e2 : emitted k [(.mreq k m : Ev ι p)] = [.mem m] := by simp [emitted]
      refine .same ?_ (by simp [accepted])
      simp only [ESys.fin, ESys.pend, upd_same, hE, emitted_append, e2, memMsgs_mem, List.append_assoc,
        List.cons_append, List.nil_append]
    · have hk' : ¬ k' = k := fun h => hk h.symm
      exact .same (fin_congr rfl (by simp [upd_other _ hk]) (by simp [upd_other _ hk]) rfl rfl
        (by simp [emitted, hk'])) (by simp [accepted])
  | emitResp k' r E' hE hr hs =>
    by_cases hk : k = k'
    · subst hk
      have e2 : emitted k [(.resp k r : Ev ι p)] = [.resp r] := by simp [emitted]
      refine .same ?_ (by simp [accepted])
      simp only [ESys.fin, ESys.pend, upd_same, hE, emitted_append, e2, memMsgs_resp, List.append_assoc,
        List.cons_append, List.nil_append]
    · have hk' : ¬ k' = k := fun h => hk h.symm
      exact .same (fin_congr rfl (by simp [upd_other _ hk]) rfl rfl rfl (by simp [emitted, hk'])) (by simp [accepted])
  | exec k' m ms hm =>
    by_cases hk : k = k'
    · subst hk
      have e2 : ∀ r, emitted k [(.exec k m r : Ev ι p)] = [] := fun _ => rfl
      refine .same ?_ rfl
      simp only [ESys.fin, ESys.pend, upd_same, emitted_append, e2, List.append_nil, hm, List.cons_append, memRun]
      rw [lastData_strip]
    · have hk' : ¬ k' = k := fun h => hk h.symm
      exact .other k' m ms hk' hm rfl rfl rfl (by simp [upd_other _ hk]) (by simp [upd_other _ hk]) rfl

/-! ## Pending memory requests of one cache -/

/-- The request a cache waits for is the last of its pending ones. Proof device; not in the source. -/
def PendLast (c : Cur p) (l : List (MReq p)) : Prop :=
  match c with
  | .idle => True
  | .fill q _ _ => l = [] ∨ l.getLast? = some (.rd q.addr.la)
  | .amo q _ _ => l = [] ∨ l.getLast? = some (.amo q)

/-- Proof device; not in the source. -/
structure PendInv (T : ESys ι p) (k : ι) : Prop where
  last : PendLast (T.L k).cur (T.reqQ k ++ memMsgs (T.E k))
  wal : ∀ m ∈ T.reqQ k ++ memMsgs (T.E k), m.Wal

theorem wr_wal (a : LAddr p) (d : Dty p) (l : Line p) : (MReq.wr a d l).Wal := fun _ h => absurd rfl h
theorem rd_wal (a : LAddr p) : (MReq.rd a).Wal := fun h => absurd rfl h

theorem flush_wal (L : L1 p) (n : Nat) : ∀ m ∈ memMsgs (L.flushMsgs n), m.Wal := by
  induction n with
  | zero => simp [L1.flushMsgs]
  | succ n ih =>
    simp only [L1.flushMsgs, L1.wb, memMsgs_append, List.mem_append]
    rintro m (hm | hm)
    · split at hm
      · simp only [memMsgs_mem, memMsgs_nil, List.mem_singleton] at hm
        subst hm; exact wr_wal _ _ _
      · simp at hm
    · exact ih m hm

theorem accept_pendLast {L : L1 p} (hc : L.cur = .idle) {q : CReq p} (hv : q.Valid) :
    PendLast (L.accept q).1.cur (memMsgs (L.accept q).2) ∧ ∀ m ∈ memMsgs (L.accept q).2, m.Wal := by
  have hwb : ∀ (c : Bool) w, ∀ m ∈ memMsgs (if c then [L.wb w q.addr.idx] else []), m.Wal := by
    intro c w m hm
    cases c
    · simp at hm
    · simp only [if_true, L1.wb, memMsgs_mem, memMsgs_nil, List.mem_singleton] at hm
      subst hm; exact wr_wal _ _ _
  simp only [L1.accept]
  split
  · cases hh : (L.lookup q.addr).hit
    · cases hi : (L.lookup q.addr).inval
      · rw [rw_miss hh hi]
        refine ⟨.inr (by simp), ?_⟩
        intro m hm
        simp only [memMsgs_append, List.mem_append, memMsgs_mem, memMsgs_nil, List.mem_singleton] at hm
        rcases hm with hm | hm
        · exact hwb _ _ m hm
        · subst hm; exact rd_wal _
      · rw [rw_inval hh hi]
        refine ⟨.inr (by simp), ?_⟩
        intro m hm
        simp only [memMsgs_mem, memMsgs_nil, List.mem_singleton] at hm
        subst hm; exact rd_wal _
    · rw [rw_hit hh]
      refine ⟨?_, by simp⟩
      dsimp only; rw [hc]; trivial
  split
  · rename_i h1 ha
    simp only [L1.amo]
    refine ⟨.inr (by simp), ?_⟩
    intro m hm
    simp only [memMsgs_append, List.mem_append, memMsgs_mem, memMsgs_nil, List.mem_singleton] at hm
    rcases hm with hm | hm
    · exact hwb _ _ m hm
    · subst hm
      intro _ _
      show 4 ∣ q.addr.flat
      cases hv with
      | read ty => exact absurd (.inl ty) h1
      | write ty => exact absurd (.inr ty) h1
      | dword ty => exact absurd (.inr ty) h1
      | amo ty _ al => exact al
      | inv ty => rw [ty] at ha; cases ha
      | flush ty => rw [ty] at ha; cases ha
  split
  · refine ⟨?_, by simp⟩
    dsimp only; rw [hc]; trivial
  split
  · refine ⟨by dsimp only; rw [hc]; trivial, ?_⟩
    simp only [memMsgs_append, memMsgs_resp, memMsgs_nil, List.append_nil]
    exact flush_wal _ _
  · exact ⟨by rw [hc]; trivial, by simp⟩

theorem PendLast.tail {c : Cur p} {m : MReq p} {l : List (MReq p)} (h : PendLast c (m :: l)) : PendLast c l := by
  cases l with
  | nil => cases c <;> simp [PendLast]
  | cons x l =>
    cases c <;> simp only [PendLast] at h ⊢ <;> simpa [List.getLast?_cons_cons] using h

theorem pend_inv {M : ByteMem} {T : ESys ι p} {tr : List (Ev ι p)} (h : ERun (ESys.init ι p M) tr T)
    (k : ι) (hv : ∀ q ∈ accepted k tr, q.Valid) : PendInv T k := by
  generalize hT : ESys.init ι p M = T0 at h
  induction h with
  | refl => subst hT; exact ⟨trivial, by simp [ESys.init]⟩
  | @snoc T1 T2 tr1 ev h hs ih =>
    subst hT
    have ih := ih (fun q hq => hv q (by simp [hq]))
    cases hs with
    | acc k' q hc hE hr hs hq =>
      by_cases hk : k = k'
      · subst hk
        have hvq := hv q (by simp [accepted])
        have hmE : memMsgs (T1.E k) = [] := by rw [memTypes_eq] at hE; simpa using hE
        obtain ⟨h1, h2⟩ := accept_pendLast hc hvq
        exact ⟨by simpa [hr, hmE] using h1, by simpa [hr, hmE] using h2⟩
      · exact ⟨by simpa [upd_other _ hk] using ih.last, by simpa [upd_other _ hk] using ih.wal⟩
    | deliver k' r l hl =>
      by_cases hk : k = k'
      · subst hk
        by_cases hr : r.ty = MT.WRITE
        · have hd : (T1.L k).deliver r = (T1.L k, []) := by simp [L1.deliver, hr]
          exact ⟨by simpa [hd] using ih.last, by simpa [hd] using ih.wal⟩
        · have hd : (T1.L k).deliver r = (T1.L k).answer r.data := by simp [L1.deliver, hr]
          refine ⟨?_, by simpa [hd, answer_noMem] using ih.wal⟩
          simp only [upd_same, hd, answer_idle]; trivial
      · exact ⟨by simpa [upd_other _ hk] using ih.last, by simpa [upd_other _ hk] using ih.wal⟩
    | emitMem k' m E' hE =>
      by_cases hk : k = k'
      · subst hk
        have h1 := ih.last
        have h2 := ih.wal
        rw [hE, memMsgs_mem] at h1 h2
        exact ⟨by simpa using h1, by simpa using h2⟩
      · exact ⟨by simpa [upd_other _ hk] using ih.last, by simpa [upd_other _ hk] using ih.wal⟩
    | emitResp k' r E' hE hr hs =>
      by_cases hk : k = k'
      · subst hk
        have h1 := ih.last
        have h2 := ih.wal
        rw [hE, memMsgs_resp] at h1 h2
        exact ⟨by simpa using h1, by simpa using h2⟩
      · exact ⟨by simpa [upd_other _ hk] using ih.last, by simpa [upd_other _ hk] using ih.wal⟩
    | exec k' m ms hm =>
      by_cases hk : k = k'
      · subst hk
        have h1 := ih.last
        have h2 := ih.wal
        rw [hm, List.cons_append] at h1 h2
        refine ⟨by simpa using h1.tail, ?_⟩
        intro m' hm'
        simp only [upd_same] at hm'
        exact h2 m' (List.mem_cons_of_mem _ hm')
      · exact ⟨by simpa [upd_other _ hk] using ih.last, by simpa [upd_other _ hk] using ih.wal⟩

/-! ## Completion after memory changed outside word `W` -/

theorem Agree.trans {P : Bits p} {q : CReq p} {a b c : Data p} (h : Agree P q a b) (h' : Agree P q b c) :
    Agree P q a c :=
  ⟨fun ty i hi hP => (h.1 ty i hi hP).trans (h'.1 ty i hi hP),
   fun ty hP => (h.2.1 ty hP).trans (h'.2.1 ty hP),
   fun t1 t2 => (h.2.2 t1 t2).trans (h'.2.2 t1 t2)⟩

/-- What the pending operation receives, up to word `W`. Proof device; not in the source. -/
def CurAgree (W : Nat) (c : Cur p) (d d' : Line p) : Prop :=
  match c with
  | .idle => True
  | .fill q _ _ => ∀ i, i < p.lineBits → wordBits p W q.addr.la i → d.getLsbD i = d'.getLsbD i
  | .amo q _ _ => wordBits p W q.addr.la (8 * q.addr.off.toNat) → d = d'

theorem lastData_agree {W : Nat} {M M' : ByteMem} (h : AgreeW W M M') {l : List (MReq p)} {c : Cur p}
    (hc : ∀ q hh w, c = .amo q hh w → MT.isAmo q.ty = true)
    (rs : List (MResp p)) (hp : PendLast c l) (hw : ∀ m ∈ l, m.Wal) :
    CurAgree W c (lastData (rs ++ (memRun M l).2)) (lastData (rs ++ (memRun M' l).2)) := by
  have key : ∀ m, l.getLast? = some m → ∃ N N', AgreeW W N N' ∧
      lastData (rs ++ (memRun M l).2) = (memExec N m).2.data ∧
      lastData (rs ++ (memRun M' l).2) = (memExec N' m).2.data ∧ m.Wal := by
    intro m hm
    have : l = l.dropLast ++ [m] := by
      have hne : l ≠ [] := by rintro rfl; simp at hm
      have h2 := List.dropLast_concat_getLast hne
      rw [List.getLast?_eq_some_getLast hne, Option.some.injEq] at hm
      rw [hm] at h2; exact h2.symm
    have hwd : ∀ m ∈ l.dropLast, m.Wal := fun m hm => hw m ((List.dropLast_sublist l).mem hm)
    refine ⟨_, _, memRun_agree h hwd, ?_, ?_, hw m (by rw [this]; simp)⟩
    · rw [this, memRun_append]
      simp only [memRun, List.dropLast_append_cons, ← List.append_assoc]
      rw [lastData_append_ne (by simp)]; simp [lastData]
    · rw [this, memRun_append]
      simp only [memRun, List.dropLast_append_cons, ← List.append_assoc]
      rw [lastData_append_ne (by simp)]; simp [lastData]
  cases c with
  | idle => trivial
  | fill q w d =>
    rcases hp with hp | hp
    · subst hp; intro i _ _; rfl
    · obtain ⟨N, N', hN, e1, e2, _⟩ := key _ hp
      rw [e1, e2, exec_rd, exec_rd]
      intro i hi hP
      exact hN.view _ i hi hP
  | amo q hh w =>
    rcases hp with hp | hp
    · subst hp; intro _; rfl
    · obtain ⟨N, N', hN, e1, e2, hal⟩ := key _ hp
      intro hP
      rw [e1, e2]
      have ha := hc q hh w rfl
      have t1 : q.ty ≠ MT.READ := by intro h; rw [h] at ha; cases ha
      have t2 : q.ty ≠ MT.WRITE := by intro h; rw [h] at ha; cases ha
      have hal : 4 ∣ q.addr.flat := hal t1 t2
      simp only [memExec, MReq.amo, t1, t2, if_false]
      rw [readLE_word hN (a := q.addr.flat) ?_ hal]
      simp only [wordBits] at hP
      rw [flat_eq]
      have : 8 * q.addr.off.toNat / 8 = q.addr.off.toNat := by omega
      rwa [this] at hP

theorem readLine_agree (wf : p.WF) {q : CReq p} (hv : q.Valid) (ty : q.ty = MT.READ) {P : Bits p} {l l' : Line p}
    (h : ∀ i, i < p.lineBits → P q.addr.la i → l.getLsbD i = l'.getLsbD i) :
    Agree P q (readLine q l) (readLine q l') := by
  obtain ⟨k, hk, al⟩ := valid_read hv ty
  have hkl : k ≤ p.lenBits := by rcases bytes_cases hk with ⟨_, h1⟩ | ⟨_, h1⟩ <;> omega
  have hko : k ≤ p.offBits := Nat.le_trans hkl wf.fits
  have al' := dvd_off hko al
  have hf := fits_line hko al'
  refine ⟨fun _ i hi hP => ?_, fun hx => by simp [ty] at hx, fun hx => absurd ty hx⟩
  rw [hk] at hP
  rw [readLine_pow wf hk al' _ _ hi, readLine_pow wf hk al' _ _ hi]
  by_cases hk : i < 8 * 2 ^ k
  · simp only [hk, decide_true, Bool.true_and]
    exact h _ (by rw [lineBits_eq]; omega) (hP hk)
  · simp only [hk, decide_false, Bool.false_and]

/-- Answers that agree on `W` lead to responses that agree on `W`. -/
theorem answer_agree (wf : p.WF) {W : Nat} {L : L1 p} (hok : L.Ok) {d d' : Line p} (h : CurAgree W L.cur d d')
    (hv : ∀ q, ((∃ w e, L.cur = .fill q w e) ∨ ∃ a w, L.cur = .amo q a w) → q.Valid) :
    (L.answer d).2 = (L.answer d').2 ∨
    ∃ q x x', ((∃ w e, L.cur = .fill q w e) ∨ ∃ a w, L.cur = .amo q a w) ∧
      (L.answer d).2 = [.resp (mkResp q false x)] ∧ (L.answer d').2 = [.resp (mkResp q false x')] ∧
      Agree (wordBits p W) q x x' := by
  cases hc : L.cur with
  | idle => left; rw [answer_of_idle hc, answer_of_idle hc]
  | fill q w e =>
    rw [hc] at h
    by_cases ty : q.ty = MT.WRITE
    · left; simp only [L1.answer, hc, ty, if_true]
    · right
      have hok' := hok.cur
      rw [hc] at hok'
      have ty' : q.ty = MT.READ := hok'.2.resolve_right ty
      refine ⟨q, _, _, .inl ⟨w, e, rfl⟩, by simp only [L1.answer, hc, ty, if_false]; rfl,
        by simp only [L1.answer, hc, ty, if_false]; rfl, ?_⟩
      apply readLine_agree wf (hv q (.inl ⟨w, e, hc⟩)) ty'
      intro i hi hP
      simp only [getLsbD_merge]
      split
      · exact h i hi hP
      · rfl
  | amo q hh w =>
    rw [hc] at h
    right
    obtain ⟨_, ha⟩ := ok_amo hok.wk hc
    refine ⟨q, _, _, .inr ⟨hh, w, rfl⟩, by simp only [L1.answer, hc]; rfl, by simp only [L1.answer, hc]; rfl, ?_⟩
    refine ⟨fun ty => ?_, fun _ hP => ?_, fun _ hx => ?_⟩
    · rw [ty] at ha; cases ha
    · rw [h hP]
    · rw [ha] at hx; cases hx

/-- … and to data that agree on `W`. -/
theorem answer_coh (wf : p.WF) {W : Nat} {L : L1 p} {d d' : Line p} (h : CurAgree W L.cur d d')
    (hv : ∀ q, ((∃ w e, L.cur = .fill q w e) ∨ ∃ a w, L.cur = .amo q a w) → q.Valid)
    {V V' SV : LAddr p → Line p}
    (hV : ∀ la i, i < p.lineBits → wordBits p W la i → (V' la).getLsbD i = (V la).getLsbD i)
    (hc : Coh (wordBits p W) (L.answer d).1 V SV) : Coh (wordBits p W) (L.answer d').1 V' SV := by
  refine hc.congr_bits (by rw [answer_ent, answer_ent]) ?_ hV (fun _ _ _ _ => rfl)
  intro w hw j i hi hP _
  cases hcu : L.cur with
  | idle => rw [answer_of_idle hcu, answer_of_idle hcu]
  | amo q hh w' => simp only [L1.answer, hcu]
  | fill q w' e =>
    rw [hcu] at h
    have hmerge : ∀ i, i < p.lineBits → wordBits p W q.addr.la i →
        (merge (~~~ expand p e) (L.dat w' q.addr.idx) d').getLsbD i =
        (merge (~~~ expand p e) (L.dat w' q.addr.idx) d).getLsbD i := by
      intro i hi hP
      simp only [getLsbD_merge]
      split
      · exact (h i hi hP).symm
      · rfl
    by_cases ty : q.ty = MT.WRITE
    · simp only [L1.answer, hcu, ty, if_true] at hP ⊢
      by_cases hx : w = w' ∧ j = q.addr.idx
      · obtain ⟨rfl, rfl⟩ := hx
        rw [setAt_same, setAt_same]
        obtain ⟨n, hst, _⟩ := valid_write wf (hv q (.inl ⟨w, e, hcu⟩)) ty (fun _ => 0)
        rw [setAt_same] at hP
        rw [hst.line, hst.line, getLsbD_putBytes _ _ _ _ _ hi, getLsbD_putBytes _ _ _ _ _ hi]
        split
        · rfl
        · exact hmerge i hi hP
      · rw [setAt_ne _ _ hx, setAt_ne _ _ hx]
    · simp only [L1.answer, hcu, ty, if_false] at hP ⊢
      by_cases hx : w = w' ∧ j = q.addr.idx
      · obtain ⟨rfl, rfl⟩ := hx
        rw [setAt_same, setAt_same]
        rw [setAt_same] at hP
        exact hmerge i hi hP
      · rw [setAt_ne _ _ hx, setAt_ne _ _ hx]

end Verif
