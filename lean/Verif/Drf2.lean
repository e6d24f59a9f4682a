import Verif.Drf
import Verif.Trace

/-!
# Software coherence: the main invariant
-/

set_option linter.unusedSectionVars false

namespace Verif
variable {p : Params} {ι : Type} [DecidableEq ι]

/-- Two memories agree on the bytes of word `W` that lie in the address space. Proof device; not in the source. -/
def ViewW (p : Params) (W : Nat) (M M' : ByteMem) : Prop :=
  ∀ (la : LAddr p) i, i < p.lineBits → wordBits p W la i → (view M la).getLsbD i = (view M' la).getLsbD i

theorem AgreeW.viewW {W : Nat} {M M' : ByteMem} (h : AgreeW W M M') : ViewW p W M M' := fun la i hi hP => h.view la i hi hP
theorem ViewW.symm {W : Nat} {M M' : ByteMem} (h : ViewW p W M M') : ViewW p W M' M :=
  fun la i hi hP => (h la i hi hP).symm
theorem ViewW.trans {W : Nat} {M M' M'' : ByteMem} (h : ViewW p W M M') (h' : ViewW p W M' M'') : ViewW p W M M'' :=
  fun la i hi hP => (h la i hi hP).trans (h' la i hi hP)

/-- An event that is not a store to `W` does not change the latest value. -/
theorem latest_quiet (M : ByteMem) {W : Nat} {e : Ev ι p} (h : ∀ k q, e = .acc k q → ¬ q.writesWord W) :
    AgreeW W (latest M [e]) M := by
  cases e with
  | acc k q => rw [latest_acc]; exact flatStep_untouched (h k q rfl)
  | mreq k m => exact .refl _ _
  | resp k r => exact .refl _ _
  | exec k m r => exact .refl _ _

/-- Proof device; not in the source. -/
structure Shared (M0 : ByteMem) (W : Nat) (T : ESys ι p) (tr : List (Ev ι p)) : Prop where
  up : ∀ k, UpToDate k W tr →
    Coh (wordBits p W) (T.fin k tr).1 (view (T.fin k tr).2.1) (view (latest M0 tr))
  mem : (∀ k, Published k W tr) → ViewW p W T.mem (latest M0 tr)

/-- The request the cache is working on was accepted. -/
theorem cur_valid {M : ByteMem} {T : ESys ι p} {tr : List (Ev ι p)} (h : ERun (ESys.init ι p M) tr T) (k : ι)
    (hv : ∀ q ∈ accepted k tr, q.Valid) :
    ∀ q, ((∃ w e, (T.L k).cur = .fill q w e) ∨ ∃ a w, (T.L k).cur = .amo q a w) → q.Valid := by
  intro q hq
  have hne : (T.L k).cur ≠ .idle := by
    rcases hq with ⟨w, e, hq⟩ | ⟨a, w, hq⟩ <;> rw [hq] <;> simp
  obtain ⟨q', h1, h2⟩ := cur_last h k hne
  have : q' = q := by
    rcases hq with ⟨w, e, hq⟩ | ⟨a, w, hq⟩ <;> rcases h2 with ⟨w', e', h2⟩ | ⟨a', w', h2⟩ <;>
      · rw [hq] at h2; cases h2; try rfl
  subst this
  exact hv _ (List.mem_of_getLast? h1)

/-- A memory request of a cache whose stores to `W` are published does not touch `W`. -/
theorem exec_untouched (wf : p.WF) {M : ByteMem} {T : ESys ι p} {tr : List (Ev ι p)}
    (h : ERun (ESys.init ι p M) tr T) {k : ι} (hv : ∀ q ∈ accepted k tr, q.Valid) {W : Nat}
    (hp : Published k W tr) {m : MReq p} {ms : List (MReq p)} (hm : T.reqQ k = m :: ms) : ¬ m.touches W :=
  (quiet_published wf h hv hp).all m (by rw [hm]; simp)

/-- Executing a memory request of another cache that does not touch `W`. -/
theorem fin_other {M : ByteMem} {T T' : ESys ι p} {tr : List (Ev ι p)}
    (h : ERun (ESys.init ι p M) tr T) {k : ι} (hv : ∀ q ∈ accepted k tr, q.Valid) {W : Nat} {m : MReq p}
    (hm : ¬ m.touches W) (hE : T'.E k = T.E k) (hq : T'.reqQ k = T.reqQ k)
    (hs : T'.respQ k = T.respQ k) (hmem : T'.mem = (memExec T.mem m).1) :
    CurAgree W (T.L k).cur (lastData (T.pend k)) (lastData (T'.pend k)) ∧
    ViewW p W (memRun T.mem (T.reqQ k ++ memMsgs (T.E k))).1 (memRun T'.mem (T'.reqQ k ++ memMsgs (T'.E k))).1 := by
  have hpi := pend_inv h k hv
  have hag : AgreeW W T.mem T'.mem := by rw [hmem]; exact (memExec_untouched _ hm).symm
  have hok := (EInv.run h k).ok
  constructor
  · simp only [ESys.pend, hE, hq, hs]
    exact lastData_agree hag (fun q hh w hc => (ok_amo hok.wk hc).2) _ hpi.last hpi.wal
  · rw [hq, hE]; exact (memRun_agree hag hpi.wal).viewW

theorem shared (wf : p.WF) {M0 : ByteMem} {T : ESys ι p} {tr : List (Ev ι p)}
    (h : ERun (ESys.init ι p M0) tr T) (hv : ∀ k, ∀ q ∈ accepted k tr, q.Valid) (W : Nat)
    (hs : WritesSynced W tr) : Shared M0 W T tr := by
  generalize hT : ESys.init ι p M0 = T0 at h
  induction h with
  | refl =>
    subst hT
    refine ⟨fun k _ => ?_, fun _ _ _ _ _ => rfl⟩
    have e : (ESys.init ι p M0).fin k [] = (L1.init p, M0, []) := by
      simp only [ESys.fin, ESys.init, memMsgs_nil, List.append_nil, memRun, answer_of_idle (show (L1.init p).cur = .idle from rfl)]
      simp [emitted]
    rw [e]
    exact coh_init M0
  | @snoc T1 T2 tr1 ev h hst ih =>
    subst hT
    have hv1 : ∀ k, ∀ q ∈ accepted k tr1, q.Valid := fun k q hq => hv k q (by simp [hq])
    have ih := ih hv1 hs.prefix
    have hup : ∀ k, UpToDate k W (tr1 ++ ev) →
        Coh (wordBits p W) (T2.fin k (tr1 ++ ev)).1 (view (T2.fin k (tr1 ++ ev)).2.1) (view (latest M0 (tr1 ++ ev))) := by
      intro k hk
      have hok := (EInv.run h k).ok
      -- the cache was up to date before
      have main : UpToDate k W tr1 → (∀ k' q, k' ≠ k → .acc k' q ∈ ev → ¬ q.writesWord W) →
          Coh (wordBits p W) (T2.fin k (tr1 ++ ev)).1 (view (T2.fin k (tr1 ++ ev)).2.1)
            (view (latest M0 (tr1 ++ ev))) := by
        intro hu hno
        have hc := ih.up k hu
        have hlat : accepted k ev = [] → ViewW p W (latest M0 (tr1 ++ ev)) (latest M0 tr1) := by
          intro ha
          rw [latest_append]
          rcases estep_evs hst with rfl | ⟨e, rfl⟩
          · intro _ _ _ _; rfl
          · refine (latest_quiet _ ?_).viewW
            rintro k' q rfl
            refine hno k' q ?_ (by simp)
            rintro rfl
            simp [accepted] at ha
        rcases fin_step (tr := tr1) (EInv.run h k) hst with ⟨q, hev, hq, hcu, hr, hE, h0, h1⟩ | ⟨hsame, ha⟩ |
          ⟨k', m, ms, hk', hm, hev, hL, hE, hq, hsq, hmem⟩
        · rw [h0] at hc
          rw [h1]
          subst hev
          have := op_spec wf (wordBits_words W) hc hok hcu (hv k q (by simp [accepted]))
          rw [latest_append, latest_acc]
          exact this.1
        · rw [hsame]
          exact hc.congr_bits rfl (fun _ _ _ _ _ _ _ => rfl) (fun _ _ _ _ => rfl) (hlat ha)
        · have hnt := exec_untouched wf h (hv1 k') (hu.published hk') hm
          obtain ⟨g1, g2⟩ := fin_other h (hv1 k) hnt hE hq hsq hmem
          have hl : latest M0 (tr1 ++ ev) = latest M0 tr1 := by
            rw [latest_append]; subst hev; rfl
          rw [hl]
          simp only [ESys.fin] at hc ⊢
          rw [hL]
          exact answer_coh wf g1 (cur_valid h k (hv1 k)) (fun la i hi hP => (g2 la i hi hP).symm) hc
      rcases estep_evs hst with rfl | ⟨e, rfl⟩
      · rw [List.append_nil] at hk
        exact main hk (by simp)
      · obtain ⟨g1, g2⟩ := hk.snoc
        rcases g2 with g2 | ⟨i, rfl, hi, hpub⟩
        · exact main g2 (fun k' q hk' he => g1 k' q hk' (List.mem_singleton.1 he).symm)
        · by_cases hu : UpToDate k W tr1
          · exact main hu (fun k' q hk' he => g1 k' q hk' (List.mem_singleton.1 he).symm)
          · have hall : ∀ k', Published k' W tr1 := by
              intro k'
              by_cases hkk : k' = k
              · subst hkk
                exact Classical.byContradiction fun hn => hu (unpublished_upToDate hs.prefix hn)
              · exact hpub k' hkk
            have hmv := ih.mem hall
            have hq := quiet_published wf h (hv1 k) (hall k)
            rcases fin_step (tr := tr1) (EInv.run h k) hst with ⟨q, hev, hqi, hcu, hr, hE, h0, h1⟩ | ⟨hsame, ha⟩ |
              ⟨k', m, ms, hk', hm, hev, hL, hE, hq, hsq, hmem⟩
            · simp only [List.cons.injEq, Ev.acc.injEq, true_and, and_true] at hev
              subst hev
              have hnd := hq.post
              rw [post_idle hcu] at hnd
              have hacc : (T1.L k).accept i = ({ T1.L k with ent := fun w j => { (T1.L k).ent w j with val := false } },
                  [.resp (mkResp i false 0)]) := by
                simp [L1.accept, hi]
              have hlat : latest M0 (tr1 ++ [.acc k i]) = latest M0 tr1 := by
                rw [latest_append, latest_acc]; simp [flatStep, hi]
              rw [h1, hlat]
              simp only [L1.op, hacc, memMsgs_resp, memMsgs_nil, memRun]
              rw [answer_of_idle (by exact hcu)]
              refine ⟨?_, ?_, ?_⟩
              · intro w hw j b hb hP hp
                exfalso
                simp only [Bool.false_eq_true, false_or] at hp
                rw [hnd w hw j (b / 32) (by have := lineBits_eq (p := p); have := offBits_pow (p := p); simp only [Params.nWords]; omega)
                  (by rw [wordBits_eq] at hP; exact hP)] at hp
                cases hp
              · intro la b hb hP _
                exact hmv la b hb hP
              · intro w hw w' hw' j h1 h2 h3
                refine hok.uniq w hw w' hw' j ?_ ?_ h3
                · rcases h1 with h1 | h1
                  · cases h1
                  · exact .inr h1
                · rcases h2 with h2 | h2
                  · cases h2
                  · exact .inr h2
            · simp [accepted] at ha
            · simp at hev
    refine ⟨hup, ?_⟩
    intro hpub
    have hnow : ∀ k q, .acc k q ∈ ev → ¬ q.writesWord W := by
      intro k q hq
      rcases estep_evs hst with rfl | ⟨e, rfl⟩
      · simp at hq
      · exact (hpub k).snoc q (List.mem_singleton.1 hq).symm
    have hlat : AgreeW W (latest M0 (tr1 ++ ev)) (latest M0 tr1) := by
      rw [latest_append]
      rcases estep_evs hst with rfl | ⟨e, rfl⟩
      · exact .refl _ _
      · exact latest_quiet _ (fun k q he => hnow k q (by simp [he]))
    by_cases hall : ∀ k, Published k W tr1
    · refine ViewW.trans ?_ ((ih.mem hall).trans hlat.symm.viewW)
      cases hst with
      | acc k' q hc hE hr hs hq => exact fun _ _ _ _ => rfl
      | deliver k' r l hl => exact fun _ _ _ _ => rfl
      | emitMem k' m E' hE => exact fun _ _ _ _ => rfl
      | emitResp k' r E' hE hr hs => exact fun _ _ _ _ => rfl
      | exec k' m ms hm =>
        exact (memExec_untouched _ (exec_untouched wf h (hv1 k') (hall k') hm)).viewW
    · obtain ⟨k, hk⟩ := Classical.not_forall.1 hall
      have hu := (unpublished_upToDate hs.prefix hk).mono (ev := ev) (fun k' q _ he => hnow k' q he)
      have hc := hup k hu
      have hq := quiet_published wf (h.snoc hst) (hv k) (hpub k)
      have hm := (memRun_untouched T2.mem hq.all).viewW (p := p)
      refine hm.symm.trans ?_
      intro la b hb hP
      refine hc.memc la b hb hP ?_
      intro w hw ht
      have hnd := hq.post
      simp only [ESys.fin, answer_ent] at ht ⊢
      refine hnd w hw la.idx (b / 32) (by have := lineBits_eq (p := p); have := offBits_pow (p := p); simp only [Params.nWords]; omega) ?_
      rw [wordBits_eq] at hP
      have : (⟨((T2.L k).post w la.idx).tag, la.idx⟩ : LAddr p) = la := by rw [ht]
      rw [this]; exact hP

/-! ## Responses -/

theorem fin_resps (T : ESys ι p) (k : ι) (tr : List (Ev ι p)) :
    respMsgs (T.fin k tr).2.2 = responses k tr ++ respMsgs (T.E k) ++ respMsgs ((T.L k).answer (lastData (T.pend k))).2 := by
  simp only [ESys.fin, respMsgs_append, respMsgs_emitted]

theorem Agree.symm {P : Bits p} {q : CReq p} {a b : Data p} (h : Agree P q a b) : Agree P q b a :=
  ⟨fun ty i hi hP => (h.1 ty i hi hP).symm, fun ty hP => (h.2.1 ty hP).symm, fun t1 t2 => (h.2.2 t1 t2).symm⟩

theorem shared_resp (wf : p.WF) {M0 : ByteMem} {T : ESys ι p} {tr : List (Ev ι p)}
    (h : ERun (ESys.init ι p M0) tr T) (hv : ∀ k, ∀ q ∈ accepted k tr, q.Valid) (W : Nat)
    (hs : WritesSynced W tr) :
    ∀ k a q b, tr = a ++ .acc k q :: b → UpToDate k W a → NoRace k W a q b →
      ∃ r, (respMsgs (T.fin k tr).2.2)[(accepted k a).length]? = some r ∧
        Agree (wordBits p W) q r.data (flatStep (latest M0 a) q).2 := by
  generalize hT : ESys.init ι p M0 = T0 at h
  induction h with
  | refl => intro k a q b hx; simp at hx
  | @snoc T1 T2 tr1 ev h hst ih =>
    subst hT
    have hv1 : ∀ k, ∀ q ∈ accepted k tr1, q.Valid := fun k q hq => hv k q (by simp [hq])
    have ih := ih hv1 hs.prefix
    intro k a q b hsp hup hnr
    have hok := (EInv.run h k).ok
    have how := owed h k
    -- the request was accepted before
    have main : ∀ b', tr1 = a ++ .acc k q :: b' → NoRace k W a q b' →
        ∃ r, (respMsgs (T2.fin k (tr1 ++ ev)).2.2)[(accepted k a).length]? = some r ∧
          Agree (wordBits p W) q r.data (flatStep (latest M0 a) q).2 := by
      intro b' hb' hnr'
      obtain ⟨r, hr, hag⟩ := ih k a q b' hb' hup hnr'
      rcases fin_step (tr := tr1) (EInv.run h k) hst with ⟨q', hev, hq', hcu, hrq, hE, h0, h1⟩ | ⟨hsame, ha⟩ |
          ⟨k', m, ms, hk', hm, hev, hL, hE, hq, hsq, hmem⟩
      · refine ⟨r, ?_, hag⟩
        rw [h0] at hr
        rw [h1]
        dsimp only at hr ⊢
        rw [respMsgs_append]
        have := (List.getElem?_eq_some_iff.1 hr).1
        rw [List.getElem?_append_left this]; exact hr
      · rw [hsame]; exact ⟨r, hr, hag⟩
      · have hrs : responses k ev = [] := by subst hev; rfl
        rw [fin_resps] at hr
        rw [fin_resps, responses_append, hrs, List.append_nil, hL, hE]
        by_cases hn : (accepted k a).length < (responses k tr1 ++ respMsgs (T1.E k)).length
        · rw [List.getElem?_append_left hn] at hr ⊢
          exact ⟨r, hr, hag⟩
        · have hn' := hn
          rw [List.length_append, ← nResp_eq] at hn
          -- the request is still pending
          have hu1 : UpToDate k W tr1 := by
            rw [hb']
            refine hup.mono ?_
            intro k'' q'' hk'' hmem'
            rw [List.mem_cons] at hmem'
            rcases hmem' with hmem' | hmem'
            · simp only [Ev.acc.injEq] at hmem'; exact absurd hmem'.1 hk''
            · intro hw
              obtain ⟨b1, b2, hb⟩ := List.append_of_mem hmem'
              have h1 := hnr' k'' hk'' b1 q'' b2 hb hw
              have h2 : responses k tr1 = responses k (a ++ .acc k q :: b1) ++ responses k (.acc k'' q'' :: b2) := by
                rw [hb', hb, ← responses_append]; simp
              have := congrArg List.length h2
              rw [List.length_append] at this
              omega
          have hnt := exec_untouched wf h (hv1 k') (hu1.published hk') hm
          obtain ⟨g1, _⟩ := fin_other h (hv1 k) hnt hE hq hsq hmem
          rw [List.getElem?_append_right (Nat.le_of_not_lt hn')] at hr ⊢
          rcases answer_agree wf hok g1 (cur_valid h k (hv1 k)) with g | ⟨q2, x, x', g2, g3, g4, g5⟩
          · rw [← g]; exact ⟨r, hr, hag⟩
          · rw [g3] at hr
            rw [g4]
            have hi := (List.getElem?_eq_some_iff.1 hr).1
            simp only [respMsgs_resp, respMsgs_nil, List.length_singleton, Nat.lt_one_iff] at hi
            rw [hi] at hr ⊢
            simp only [respMsgs_resp, respMsgs_nil, List.getElem?_cons_zero, Option.some.injEq] at hr ⊢
            refine ⟨_, rfl, ?_⟩
            have hq2 : q2 = q := by
              have hne : (T1.L k).cur ≠ .idle := by
                rcases g2 with ⟨w, e, g2⟩ | ⟨a, w, g2⟩ <;> rw [g2] <;> simp
              obtain ⟨q3, h1, h2⟩ := cur_last h k hne
              have e1 : q3 = q2 := by
                rcases g2 with ⟨w, e, hq⟩ | ⟨a, w, hq⟩ <;> rcases h2 with ⟨w', e', h2⟩ | ⟨a', w', h2⟩ <;>
                  · rw [hq] at h2; cases h2; try rfl
              have hp : (T1.L k).cur.pend ≤ 1 := by cases (T1.L k).cur <;> simp [Cur.pend]
              have e2 : accepted k tr1 = accepted k a ++ q :: accepted k b' := by
                rw [hb', accepted_append]; simp [accepted]
              have e3 := congrArg List.length e2
              rw [List.length_append, List.length_cons] at e3
              have e4 : accepted k b' = [] := List.length_eq_zero_iff.1 (by omega)
              rw [e2, e4, List.getLast?_append] at h1
              simp at h1
              rw [← e1, ← h1]
            subst hq2
            have hrd : r.data = x := by rw [← hr]; rfl
            rw [hrd] at hag
            have : (mkResp q2 false x').data = x' := rfl
            rw [this]
            exact g5.symm.trans hag
    rcases estep_evs hst with rfl | ⟨e, rfl⟩
    · rw [List.append_nil] at hsp
      exact main b hsp hnr
    · rcases snoc_split hsp with ⟨b', rfl, hb'⟩ | ⟨rfl, he, hx⟩
      · refine main b' hb' ?_
        intro k' hk' b1 q' b2 hb hw
        exact hnr k' hk' b1 q' (b2 ++ [e]) (by rw [hb]; simp) hw
      · subst he hx
        have hc := (shared wf h hv1 W hs.prefix).up k hup
        rcases fin_step (tr := tr1) (EInv.run h k) hst with ⟨q', hev, hq', hcu, hrq, hE, h0, h1⟩ | ⟨hsame, ha⟩ |
          ⟨k', m, ms, hk', hm, hev, hL, hE, hq, hsq, hmem⟩
        · simp only [List.cons.injEq, Ev.acc.injEq, true_and, and_true] at hev
          subst hev
          rw [h0] at hc
          obtain ⟨_, _, d, g1, g2⟩ := op_spec wf (wordBits_words W) hc hok hcu (hv k q (by simp [accepted]))
          refine ⟨mkResp q ((T1.L k).isHit q) d, ?_, g2⟩
          rw [h1]
          dsimp only
          rw [respMsgs_append, respMsgs_append, respMsgs_emitted, g1]
          have hp : (Cur.idle : Cur p).pend = 0 := rfl
          have : (accepted k tr1).length = (responses k tr1 ++ respMsgs (T1.E k)).length := by
            rw [List.length_append, ← nResp_eq, how, hcu, hp]; omega
          rw [this, List.getElem?_append_right (Nat.le_refl _)]
          simp
        · simp [accepted] at ha
        · simp at hev

end Verif
