import Verif.Drf3

/-!
# Software coherence, liberal discipline: the main invariant
-/

set_option linter.unusedSectionVars false

namespace Verif
variable {p : Params} {ι : Type} [DecidableEq ι]

/-- If some bit of `W` lies in the address space the whole word does. -/
theorem ViewW.agree {W : Nat} {M M' : ByteMem} (h : ViewW p W M M') {la : LAddr p} {i : Nat}
    (hi : i < p.lineBits) (hP : wordBits p W la i) : AgreeW W M M' := by
  intro x hx
  refine AgreeW.of_view h x ?_ hx
  have hla : la.num < 2 ^ (p.tagBits + p.idxBits) := by
    have h1 := la.tag.isLt
    have h2 := la.idx.isLt
    simp only [LAddr.num]
    rw [Nat.pow_add]
    have := Nat.mul_le_mul_right (2 ^ p.idxBits) (Nat.succ_le_of_lt h1)
    rw [Nat.succ_mul] at this
    omega
  rw [wordBits_eq] at hP
  have hb : i / 32 < 2 ^ p.nwBits := by
    rw [lineBits_eq, offBits_pow] at hi; omega
  have h3 : W < 2 ^ (p.tagBits + p.idxBits) * 2 ^ p.nwBits := by
    have := Nat.mul_le_mul_right (2 ^ p.nwBits) (Nat.succ_le_of_lt hla)
    rw [Nat.succ_mul] at this
    omega
  have h4 : 2 ^ p.addrBits = 4 * (2 ^ (p.tagBits + p.idxBits) * 2 ^ p.nwBits) := by
    have : p.addrBits = p.tagBits + p.idxBits + p.offBits := by simp only [Params.addrBits]; omega
    rw [this, Nat.pow_add, offBits_pow, ← Nat.mul_assoc, Nat.mul_comm _ 4, Nat.mul_assoc]
  omega

/-- A cache that has nothing of the line is coherent if memory is right. -/
theorem coh_of_gone {W : Nat} {L : L1 p} (hok : L.Ok) (hg : Gone W L.ent) (hd : NotDirty W L.ent) {V SV : LAddr p → Line p}
    (hm : ∀ la i, i < p.lineBits → wordBits p W la i → (V la).getLsbD i = (SV la).getLsbD i) :
    Coh (wordBits p W) L V SV := by
  have hbw : ∀ i, i < p.lineBits → i / 32 < p.nWords := by
    intro i hi
    have := lineBits_eq (p := p); have := offBits_pow (p := p); simp only [Params.nWords]; omega
  refine ⟨?_, fun la i hi hP _ => hm la i hi hP, fun w hw w' hw' j => hok.uniq w hw w' hw' j⟩
  intro w hw j i hi hP hp
  exfalso
  rw [wordBits_eq] at hP
  rcases hp with hp | hp
  · rw [hg w hw j (word_num (hbw i hi) hP)] at hp; cases hp
  · rw [hd w hw j (i / 32) (hbw i hi) hP] at hp; cases hp

theorem op_ent (L : L1 p) (M : ByteMem) (q : CReq p) : (L.op M q).1.ent = (L.accept q).1.post := by
  simp only [L1.op, answer_ent]

/-- A request that is not a store to `W` performed by a cache that is clean on `W`. -/
theorem op_clean_mem (wf : p.WF) {W : Nat} {L : L1 p} (hok : L.Ok) (hc : L.cur = .idle) (hd : NotDirty W L.ent)
    {M S : ByteMem} (hm : ViewW p W M S) {q : CReq p} (hv : q.Valid) (hq : ¬ q.writesWord W) :
    ViewW p W (L.op M q).2.1 (flatStep S q).1 := by
  have h1 := (hd.accept wf hok hc hv hq).2
  have h2 : AgreeW W (L.op M q).2.1 M := by
    simp only [L1.op]; exact memRun_untouched M h1
  exact h2.viewW.trans (hm.trans (flatStep_untouched hq).symm.viewW)

theorem valid_amo {q : CReq p} (hv : q.Valid) (ha : MT.isAmo q.ty = true) :
    (3 ≤ q.ty.toNat ∧ q.ty.toNat ≤ 11) ∧ 4 ∣ q.addr.flat := by
  cases hv with
  | read ty' => rw [ty'] at ha; cases ha
  | write ty' => rw [ty'] at ha; cases ha
  | dword ty' => rw [ty'] at ha; cases ha
  | amo ty _ al => exact ⟨ty, al⟩
  | inv ty' => rw [ty'] at ha; cases ha
  | flush ty' => rw [ty'] at ha; cases ha

theorem amo_writes {q : CReq p} (ha : MT.isAmo q.ty = true) (al : 4 ∣ q.addr.flat) {W : Nat} :
    q.writesWord W ↔ q.addr.flat / 4 = W := by
  constructor
  · rintro ⟨x, hx, ⟨h, _⟩ | ⟨_, h1, h2⟩⟩
    · rw [h] at ha; cases ha
    · omega
  · intro h
    exact ⟨q.addr.flat, h, .inr ⟨ha, Nat.le_refl _, by omega⟩⟩

/-- An atomic operation performed by a cache that is clean on its word: memory and
response are right although the cache may have held a stale copy. -/
theorem op_clean_amo (wf : p.WF) {W : Nat} {L : L1 p} (hok : L.Ok) (hc : L.cur = .idle) (hd : NotDirty W L.ent)
    {M S : ByteMem} (hm : ViewW p W M S) {q : CReq p} (hv : q.Valid) (ha : MT.isAmo q.ty = true) :
    ViewW p W (L.op M q).2.1 (flatStep S q).1 ∧
    ∃ d, respMsgs (L.op M q).2.2 = [mkResp q false d] ∧ Agree (wordBits p W) q d (flatStep S q).2 := by
  obtain ⟨ty, al⟩ := valid_amo hv ha
  obtain ⟨t1, t2, _, _, _⟩ := amo_ty ty
  have hacc : L.accept q = L.amo q := by simp [L1.accept, t1, t2, ha]
  have hdb : 32 ≤ p.dataBits := by
    obtain ⟨hl, _⟩ := wf.len
    have : 2 ^ 2 ≤ 2 ^ p.lenBits := Nat.pow_le_pow_right (by decide) hl
    simp only [Params.dataBits]; omega
  have hlb := dataBits_le_lineBits wf
  -- memory after the write-back
  have hpre : ∃ M', AgreeW W M' M ∧ (memRun M (memMsgs (L.amo q).2)).1 = (memExec M' (.amo q)).1 ∧
      lastData (memRun M (memMsgs (L.amo q).2)).2 = (memExec M' (.amo q)).2.data := by
    have h1 := (hd.accept' wf hok hc hv (fun h => absurd h t2)).2
    rw [hacc] at h1
    refine ⟨(memRun M (memMsgs (if ((L.ent (L.lookup q.addr).way q.addr.idx).dty != 0) &&
        ((L.lookup q.addr).hit || (L.lookup q.addr).inval) then [L.wb (L.lookup q.addr).way q.addr.idx] else []))).1,
      memRun_untouched M ?_, ?_, ?_⟩
    · intro m hm
      refine h1 m (by simp only [L1.amo, memMsgs_append, List.mem_append]; exact .inl hm) (.inl ?_)
      split at hm
      · simp only [L1.wb, memMsgs_mem, memMsgs_nil, List.mem_singleton] at hm
        subst hm; rfl
      · simp at hm
    · simp only [L1.amo, memMsgs_append, memMsgs_mem, memMsgs_nil, memRun_append, memRun]
    · simp only [L1.amo, memMsgs_append, memMsgs_mem, memMsgs_nil, memRun_append, memRun]
      rw [lastData_append_ne (by simp)]; rfl
  obtain ⟨M', hM', hM, hD⟩ := hpre
  have hdat : ((q.data.setWidth p.lineBits).setWidth 32 : BitVec 32) = q.data.setWidth 32 := by
    apply BitVec.eq_of_getLsbD_eq
    intro i hi
    simp only [BitVec.getLsbD_setWidth, hi, decide_true, Bool.true_and]
    simp [show i < p.lineBits by omega]
  have hmem : (memExec M' (.amo q)).1 = (flatStep M' q).1 := by
    simp only [memExec, MReq.amo, t1, t2, if_false, flatStep, ha, if_true, hdat]
  constructor
  · intro la i hi hP
    have hag := hM'.trans (hm.agree hi hP)
    have : AgreeW W (flatStep M' q).1 (flatStep S q).1 := by
      by_cases hw : q.writesWord W
      · rw [amo_writes ha al] at hw
        intro x hx
        simp only [flatStep, t1, t2, if_false, ha, if_true, writeLE]
        rw [readLE_word hag hw al]
        split
        · rfl
        · exact hag x hx
      · exact (flatStep_untouched hw).trans (hag.trans (flatStep_untouched hw).symm)
    refine AgreeW.view ?_ la i hi hP
    simp only [L1.op, hacc]
    rw [hM, hmem]; exact this
  · simp only [L1.op, hacc]
    rw [hD]
    simp only [memExec, MReq.amo, t1, t2, if_false, flatStep, ha, if_true]
    simp only [L1.amo, L1.answer, respMsgs_append, respMsgs_mem, respMsgs_nil, respMsgs_resp]
    have h1 : respMsgs (if (((L.ent (L.lookup q.addr).way q.addr.idx).dty != 0) &&
        ((L.lookup q.addr).hit || (L.lookup q.addr).inval)) = true then
        [L.wb (L.lookup q.addr).way q.addr.idx] else []) = [] := by
      split <;> simp [L1.wb]
    rw [h1]
    have h2 : (((BitVec.ofNat 32 (readLE M' q.addr.flat 4)).setWidth p.lineBits).setWidth 32 : BitVec 32) =
        BitVec.ofNat 32 (readLE M' q.addr.flat 4) := by
      apply BitVec.eq_of_getLsbD_eq
      intro i hi
      simp only [BitVec.getLsbD_setWidth, hi, decide_true, Bool.true_and]
      simp [show i < p.lineBits by omega]
    refine ⟨(BitVec.ofNat 32 (readLE M' q.addr.flat 4)).setWidth _, by simp [h2], ?_, ?_, ?_⟩
    · intro hx; exact absurd hx t1
    · intro _ hP
      have hko : 2 ≤ p.offBits := by simp only [Params.offBits]; omega
      have hfit : q.addr.off.toNat + 4 ≤ 2 ^ p.offBits := fits_line hko (dvd_off hko al)
      have hag := hM'.trans (hm.agree (by rw [lineBits_eq]; omega) hP)
      have hw : q.addr.flat / 4 = W := by
        simp only [wordBits] at hP
        rw [flat_eq]
        have : 8 * q.addr.off.toNat / 8 = q.addr.off.toNat := by omega
        rwa [this] at hP
      rw [readLE_word hag hw al]
    · intro _ hx; rw [ha] at hx; cases hx

/-- A request that drops the line, or an INV, performed by a cache that is clean on
`W` while memory is right. -/
theorem op_clean_drop (wf : p.WF) {W : Nat} {L : L1 p} (hok : L.Ok) (hc : L.cur = .idle) (hd : NotDirty W L.ent)
    {M S : ByteMem} (hm : ViewW p W M S) {q : CReq p} (hv : q.Valid) (hq : q.ty = MT.INV ∨ q.drops W) :
    Coh (wordBits p W) (L.op M q).1 (view (L.op M q).2.1) (view (flatStep S q).1) := by
  have hgd : Gone W (L.op M q).1.ent ∧ NotDirty W (L.op M q).1.ent := by
    rw [op_ent]
    rcases hq with hq | hq
    · refine ⟨.of_inv W hc hq, (hd.accept wf hok hc hv ?_).1⟩
      rintro ⟨x, _, h | h⟩
      · rw [hq] at h; exact absurd h.1 (by decide)
      · rw [hq] at h; exact absurd h.1 (by decide)
    · have := LineOut.of_drops W hok hc hq
      exact ⟨this.gone, this.notDirty⟩
  refine coh_of_gone (ok_op hok M q) hgd.1 hgd.2 ?_
  by_cases hw : q.writesWord W
  · have ha : MT.isAmo q.ty = true := by
      rcases hq with hq | hq
      · obtain ⟨x, _, h | h⟩ := hw
        · rw [hq] at h; exact absurd h.1 (by decide)
        · exact h.1
      · rcases hq with ⟨h, _⟩ | ⟨_, _, h, _⟩
        · exact h
        · exact absurd (writes_onLine wf hv hw) h
    exact (op_clean_amo wf hok hc hd hm hv ha).1
  · exact op_clean_mem wf hok hc hd hm hv hw

/-- Proof device; not in the source. -/
structure Shared2 (M0 : ByteMem) (W : Nat) (T : ESys ι p) (tr : List (Ev ι p)) : Prop where
  up : ∀ k, UpToDate2 k W tr →
    Coh (wordBits p W) (T.fin k tr).1 (view (T.fin k tr).2.1) (view (latest M0 tr))
  mem : (∀ k, Published2 k W tr) → ViewW p W T.mem (latest M0 tr)

theorem exec_untouched2 (wf : p.WF) {M : ByteMem} {T : ESys ι p} {tr : List (Ev ι p)}
    (h : ERun (ESys.init ι p M) tr T) {k : ι} (hv : ∀ q ∈ accepted k tr, q.Valid) {W : Nat}
    (hp : Published2 k W tr) {m : MReq p} {ms : List (MReq p)} (hm : T.reqQ k = m :: ms) : ¬ m.touches W :=
  (quiet_published2 wf h hv hp).all m (by rw [hm]; simp)

theorem resp_le_acc {M : ByteMem} {T : ESys ι p} {tr : List (Ev ι p)}
    (h : ERun (ESys.init ι p M) tr T) (k : ι) : (responses k tr).length ≤ (accepted k tr).length := by
  have := owed h k; omega

theorem shared2 (wf : p.WF) {M0 : ByteMem} {T : ESys ι p} {tr : List (Ev ι p)}
    (h : ERun (ESys.init ι p M0) tr T) (hv : ∀ k, ∀ q ∈ accepted k tr, q.Valid) (W : Nat)
    (hs : WritesSynced2 W tr) : Shared2 M0 W T tr := by
  generalize hT : ESys.init ι p M0 = T0 at h
  induction h with
  | refl =>
    subst hT
    refine ⟨fun k _ => ?_, fun _ _ _ _ _ => rfl⟩
    have e : (ESys.init ι p M0).fin k [] = (L1.init p, M0, []) := by
      simp only [ESys.fin, ESys.init, memMsgs_nil, List.append_nil, memRun, answer_of_idle (show (L1.init p).cur = .idle from rfl)]
      simp [emitted]
    rw [e]
    exact coh_init M0
  | @snoc T1 T2 tr1 ev h hst ih =>
    subst hT
    have hv1 : ∀ k, ∀ q ∈ accepted k tr1, q.Valid := fun k q hq => hv k q (by simp [hq])
    have ih := ih hv1 hs.prefix
    -- a cache that was up to date before and no other cache stores now
    have main : ∀ k, UpToDate2 k W tr1 → (∀ k' q, k' ≠ k → .acc k' q ∈ ev → ¬ q.writesWord W) →
        Coh (wordBits p W) (T2.fin k (tr1 ++ ev)).1 (view (T2.fin k (tr1 ++ ev)).2.1)
          (view (latest M0 (tr1 ++ ev))) := by
      intro k hu hno
      have hok := (EInv.run h k).ok
      have hc := ih.up k hu
      have hlat : accepted k ev = [] → ViewW p W (latest M0 (tr1 ++ ev)) (latest M0 tr1) := by
        intro ha
        rw [latest_append]
        rcases estep_evs hst with rfl | ⟨e, rfl⟩
        · intro _ _ _ _; rfl
        · refine (latest_quiet _ ?_).viewW
          rintro k' q rfl
          refine hno k' q ?_ (by simp)
          rintro rfl
          simp [accepted] at ha
      rcases fin_step (tr := tr1) (EInv.run h k) hst with ⟨q, hev, hq, hcu, hr, hE, h0, h1⟩ | ⟨hsame, ha⟩ |
        ⟨k', m, ms, hk', hm, hev, hL, hE, hq, hsq, hmem⟩
      · rw [h0] at hc
        rw [h1]
        subst hev
        have := op_spec wf (wordBits_words W) hc hok hcu (hv k q (by simp [accepted]))
        rw [latest_append, latest_acc]
        exact this.1
      · rw [hsame]
        exact hc.congr_bits rfl (fun _ _ _ _ _ _ _ => rfl) (fun _ _ _ _ => rfl) (hlat ha)
      · have hnt := exec_untouched2 wf h (hv1 k') (hu.published hk') hm
        obtain ⟨g1, g2⟩ := fin_other h (hv1 k) hnt hE hq hsq hmem
        have hl : latest M0 (tr1 ++ ev) = latest M0 tr1 := by
          rw [latest_append]; subst hev; rfl
        rw [hl]
        simp only [ESys.fin] at hc ⊢
        rw [hL]
        exact answer_coh wf g1 (cur_valid h k (hv1 k)) (fun la i hi hP => (g2 la i hi hP).symm) hc
    have hmem : (∀ k, Published2 k W (tr1 ++ ev)) → ViewW p W T2.mem (latest M0 (tr1 ++ ev)) := by
      intro hpub
      have hnow : ∀ k q, .acc k q ∈ ev → ¬ q.writesWord W := by
        intro k q hq
        rcases estep_evs hst with rfl | ⟨e, rfl⟩
        · simp at hq
        · have := List.mem_singleton.1 hq
          subst this
          exact (hpub k).last (resp_le_acc h k)
      have hlat : AgreeW W (latest M0 (tr1 ++ ev)) (latest M0 tr1) := by
        rw [latest_append]
        rcases estep_evs hst with rfl | ⟨e, rfl⟩
        · exact .refl _ _
        · exact latest_quiet _ (fun k q he => hnow k q (by simp [he]))
      by_cases hall : ∀ k, Published2 k W tr1
      · refine ViewW.trans ?_ ((ih.mem hall).trans hlat.symm.viewW)
        cases hst with
        | acc k' q hc hE hr hs hq => exact fun _ _ _ _ => rfl
        | deliver k' r l hl => exact fun _ _ _ _ => rfl
        | emitMem k' m E' hE => exact fun _ _ _ _ => rfl
        | emitResp k' r E' hE hr hs => exact fun _ _ _ _ => rfl
        | exec k' m ms hm =>
          exact (memExec_untouched _ (exec_untouched2 wf h (hv1 k') (hall k') hm)).viewW
      · obtain ⟨k, hk⟩ := Classical.not_forall.1 hall
        have hc := main k (unpublished_upToDate2 wf hs.prefix hv1 hk) (fun k' q _ he => hnow k' q he)
        have hq := quiet_published2 wf (h.snoc hst) (hv k) (hpub k)
        have hm := (memRun_untouched T2.mem hq.all).viewW (p := p)
        refine hm.symm.trans ?_
        intro la b hb hP
        refine hc.memc la b hb hP ?_
        intro w hw ht
        have hnd := hq.post
        simp only [ESys.fin, answer_ent] at ht ⊢
        refine hnd w hw la.idx (b / 32) (by have := lineBits_eq (p := p); have := offBits_pow (p := p); simp only [Params.nWords]; omega) ?_
        rw [wordBits_eq] at hP
        have : (⟨((T2.L k).post w la.idx).tag, la.idx⟩ : LAddr p) = la := by rw [ht]
        rw [this]; exact hP
    refine ⟨?_, hmem⟩
    intro k hk
    have hok := (EInv.run h k).ok
    have hothers : ∀ k' q, k' ≠ k → .acc k' q ∈ ev → ¬ q.writesWord W := by
      intro k' q hk' he
      rcases estep_evs hst with rfl | ⟨e, rfl⟩
      · simp at he
      · have := List.mem_singleton.1 he
        subst this
        exact (hk.published hk').last (resp_le_acc h k')
    by_cases hu : UpToDate2 k W tr1
    · exact main k hu hothers
    · -- it is up to date because it has no copy now
      have hkp : Published2 k W tr1 :=
        Classical.byContradiction fun hn => hu (unpublished_upToDate2 wf hs.prefix hv1 hn)
      rcases estep_evs hst with rfl | ⟨e, rfl⟩
      · rw [List.append_nil] at hk; exact absurd hk hu
      have hnc : NoCopy k W (tr1 ++ [e]) := hk.snoc.resolve_left hu
      rcases fin_step (tr := tr1) (EInv.run h k) hst with ⟨q, hev, hqi, hcu, hr, hE, h0, h1⟩ | ⟨hsame, ha⟩ |
          ⟨k', m, ms, hk', hm, hev, hL, hE, hq, hsq, hmm⟩
      · -- `k` accepts a request
        simp only [List.cons.injEq, and_true] at hev
        subst hev
        have hpub1 : ∀ k', Published2 k' W tr1 := by
          intro k'
          by_cases hkk : k' = k
          · rw [hkk]; exact hkp
          · exact (hk.published hkk).snoc (by simp) (resp_le_acc h k')
        have hmv := ih.mem hpub1
        have hnd := (quiet_published2 wf h (hv1 k) hkp).post
        rw [post_idle hcu] at hnd
        have hq : q.ty = MT.INV ∨ q.drops W := by
          rcases hnc.snoc with ⟨hnc1, _⟩ | ⟨i, hi, hi2⟩
          · exact absurd (UpToDate2.of_nocopy hnc1 (fun k' _ => hpub1 k')) hu
          · simp only [Ev.acc.injEq, true_and] at hi
            rw [hi]; exact hi2
        rw [h1, latest_append, latest_acc]
        exact op_clean_drop wf hok hcu hnd hmv (hv k q (by simp [accepted])) hq
      · -- nothing changes for `k`: a response of another cache publishes
        have hpub2 : ∀ k', Published2 k' W (tr1 ++ [e]) := by
          intro k'
          by_cases hkk : k' = k
          · rw [hkk]
            exact hkp.mono (by intro q hq; rw [ha] at hq; simp at hq)
          · exact hk.published hkk
        have hmv := hmem hpub2
        have hq2 := quiet_published2 wf (h.snoc hst) (hv k) (hpub2 k)
        have hg2 := nocopy_gone (h.snoc hst) k W hnc
        refine coh_of_gone ((EInv.run (h.snoc hst) k).ok.answer _) ?_ ?_ ?_
        · simp only [ESys.fin, answer_ent]; exact hg2
        · simp only [ESys.fin, answer_ent]; exact hq2.post
        · exact ((memRun_untouched T2.mem hq2.all).viewW (p := p)).trans hmv
      · -- memory executes a request of another cache: nothing is published now
        exfalso
        simp only [List.cons.injEq, and_true] at hev
        subst hev
        refine hu (UpToDate2.of_nocopy ?_ ?_)
        · rcases hnc.snoc with ⟨hnc1, _⟩ | ⟨i, hi, _⟩
          · exact hnc1
          · cases hi
        · intro k'' hkk
          exact (hk.published hkk).snoc (by simp) (resp_le_acc h k'')

/-! ## Responses -/

theorem shared_resp2 (wf : p.WF) {M0 : ByteMem} {T : ESys ι p} {tr : List (Ev ι p)}
    (h : ERun (ESys.init ι p M0) tr T) (hv : ∀ k, ∀ q ∈ accepted k tr, q.Valid) (W : Nat)
    (hs : WritesSynced2 W tr) :
    ∀ k a q b, tr = a ++ .acc k q :: b → Ready2 k W a q → (MT.isAmo q.ty = true → q.onLine W) → NoRace k W a q b →
      ∃ r, (respMsgs (T.fin k tr).2.2)[(accepted k a).length]? = some r ∧
        Agree (wordBits p W) q r.data (flatStep (latest M0 a) q).2 := by
  generalize hT : ESys.init ι p M0 = T0 at h
  induction h with
  | refl => intro k a q b hx; simp at hx
  | @snoc T1 T2 tr1 ev h hst ih =>
    subst hT
    have hv1 : ∀ k, ∀ q ∈ accepted k tr1, q.Valid := fun k q hq => hv k q (by simp [hq])
    have ih := ih hv1 hs.prefix
    intro k a q b hsp hup hon hnr
    have hok := (EInv.run h k).ok
    have how := owed h k
    -- the request was accepted before
    have main : ∀ b', tr1 = a ++ .acc k q :: b' → NoRace k W a q b' →
        ∃ r, (respMsgs (T2.fin k (tr1 ++ ev)).2.2)[(accepted k a).length]? = some r ∧
          Agree (wordBits p W) q r.data (flatStep (latest M0 a) q).2 := by
      intro b' hb' hnr'
      obtain ⟨r, hr, hag⟩ := ih k a q b' hb' hup hon hnr'
      rcases fin_step (tr := tr1) (EInv.run h k) hst with ⟨q', hev, hq', hcu, hrq, hE, h0, h1⟩ | ⟨hsame, ha⟩ |
          ⟨k', m, ms, hk', hm, hev, hL, hE, hq, hsq, hmem⟩
      · refine ⟨r, ?_, hag⟩
        rw [h0] at hr
        rw [h1]
        dsimp only at hr ⊢
        rw [respMsgs_append]
        have := (List.getElem?_eq_some_iff.1 hr).1
        rw [List.getElem?_append_left this]; exact hr
      · rw [hsame]; exact ⟨r, hr, hag⟩
      · have hrs : responses k ev = [] := by subst hev; rfl
        rw [fin_resps] at hr
        rw [fin_resps, responses_append, hrs, List.append_nil, hL, hE]
        by_cases hn : (accepted k a).length < (responses k tr1 ++ respMsgs (T1.E k)).length
        · rw [List.getElem?_append_left hn] at hr ⊢
          exact ⟨r, hr, hag⟩
        · have hn' := hn
          rw [List.length_append, ← nResp_eq] at hn
          -- the request is still pending
          have hu1 : UpToDate2 k W tr1 := by
            have e1 : tr1 = (a ++ [.acc k q]) ++ b' := by rw [hb']; simp
            rw [e1]
            refine (hup.upToDate hon).mono ?_
            intro k'' q'' hk'' hmem' hw
            obtain ⟨b1, b2, hb⟩ := List.append_of_mem hmem'
            have h1 := hnr' k'' hk'' b1 q'' b2 hb hw
            have h2 : responses k tr1 = responses k (a ++ .acc k q :: b1) ++ responses k (.acc k'' q'' :: b2) := by
              rw [hb', hb, ← responses_append]; simp
            have := congrArg List.length h2
            rw [List.length_append] at this
            omega
          have hnt := exec_untouched2 wf h (hv1 k') (hu1.published hk') hm
          obtain ⟨g1, _⟩ := fin_other h (hv1 k) hnt hE hq hsq hmem
          rw [List.getElem?_append_right (Nat.le_of_not_lt hn')] at hr ⊢
          rcases answer_agree wf hok g1 (cur_valid h k (hv1 k)) with g | ⟨q2, x, x', g2, g3, g4, g5⟩
          · rw [← g]; exact ⟨r, hr, hag⟩
          · rw [g3] at hr
            rw [g4]
            have hi := (List.getElem?_eq_some_iff.1 hr).1
            simp only [respMsgs_resp, respMsgs_nil, List.length_singleton, Nat.lt_one_iff] at hi
            rw [hi] at hr ⊢
            simp only [respMsgs_resp, respMsgs_nil, List.getElem?_cons_zero, Option.some.injEq] at hr ⊢
            refine ⟨_, rfl, ?_⟩
            have hq2 : q2 = q := by
              have hne : (T1.L k).cur ≠ .idle := by
                rcases g2 with ⟨w, e, g2⟩ | ⟨a, w, g2⟩ <;> rw [g2] <;> simp
              obtain ⟨q3, h1, h2⟩ := cur_last h k hne
              have e1 : q3 = q2 := by
                rcases g2 with ⟨w, e, hq⟩ | ⟨a, w, hq⟩ <;> rcases h2 with ⟨w', e', h2⟩ | ⟨a', w', h2⟩ <;>
                  · rw [hq] at h2; cases h2; try rfl
              have hp : (T1.L k).cur.pend ≤ 1 := by cases (T1.L k).cur <;> simp [Cur.pend]
              have e2 : accepted k tr1 = accepted k a ++ q :: accepted k b' := by
                rw [hb', accepted_append]; simp [accepted]
              have e3 := congrArg List.length e2
              rw [List.length_append, List.length_cons] at e3
              have e4 : accepted k b' = [] := List.length_eq_zero_iff.1 (by omega)
              rw [e2, e4, List.getLast?_append] at h1
              simp at h1
              rw [← e1, ← h1]
            subst hq2
            have hrd : r.data = x := by rw [← hr]; rfl
            rw [hrd] at hag
            have : (mkResp q2 false x').data = x' := rfl
            rw [this]
            exact g5.symm.trans hag
    rcases estep_evs hst with rfl | ⟨e, rfl⟩
    · rw [List.append_nil] at hsp
      exact main b hsp hnr
    · rcases snoc_split hsp with ⟨b', rfl, hb'⟩ | ⟨rfl, he, hx⟩
      · refine main b' hb' ?_
        intro k' hk' b1 q' b2 hb hw
        exact hnr k' hk' b1 q' (b2 ++ [e]) (by rw [hb]; simp) hw
      · subst he hx
        have hsh := shared2 wf h hv1 W hs.prefix
        have hvq := hv k q (by simp [accepted])
        rcases fin_step (tr := tr1) (EInv.run h k) hst with ⟨q', hev, hq', hcu, hrq, hE, h0, h1⟩ | ⟨hsame, ha⟩ |
          ⟨k', m, ms, hk', hm, hev, hL, hE, hq, hsq, hmem⟩
        · simp only [List.cons.injEq, Ev.acc.injEq, true_and, and_true] at hev
          subst hev
          have key : ∃ t d, respMsgs ((T1.L k).op T1.mem q).2.2 = [mkResp q t d] ∧
              Agree (wordBits p W) q d (flatStep (latest M0 tr1) q).2 := by
            by_cases hu : UpToDate2 k W tr1
            · have hc := hsh.up k hu
              rw [h0] at hc
              obtain ⟨_, _, d, g1, g2⟩ := op_spec wf (wordBits_words W) hc hok hcu hvq
              exact ⟨_, d, g1, g2⟩
            · obtain ⟨ham, hpo⟩ := hup.resolve_left hu
              have hkp : Published2 k W tr1 :=
                Classical.byContradiction fun hn => hu (unpublished_upToDate2 wf hs.prefix hv1 hn)
              have hmv := hsh.mem (fun k' => by
                by_cases hkk : k' = k
                · rw [hkk]; exact hkp
                · exact hpo k' hkk)
              have hnd := (quiet_published2 wf h (hv1 k) hkp).post
              rw [post_idle hcu] at hnd
              obtain ⟨_, d, g1, g2⟩ := op_clean_amo wf hok hcu hnd hmv hvq ham
              exact ⟨_, d, g1, g2⟩
          obtain ⟨t, d, g1, g2⟩ := key
          refine ⟨mkResp q t d, ?_, g2⟩
          rw [h1]
          dsimp only
          rw [respMsgs_append, respMsgs_append, respMsgs_emitted, g1]
          have hp : (Cur.idle : Cur p).pend = 0 := rfl
          have : (accepted k tr1).length = (responses k tr1 ++ respMsgs (T1.E k)).length := by
            rw [List.length_append, ← nResp_eq, how, hcu, hp]; omega
          rw [this, List.getElem?_append_right (Nat.le_refl _)]
          simp
        · simp [accepted] at ha
        · simp at hev

end Verif
