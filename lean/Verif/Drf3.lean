import Verif.Drop
import Verif.Drf2

/-!
# Software coherence, liberal discipline: synchronisation predicates
-/

set_option linter.unusedSectionVars false

namespace Verif
variable {p : Params} {ι : Type} [DecidableEq ι]

theorem PubDone.mono {k : ι} {W : Nat} {a b : List (Ev ι p)} (h : PubDone k W a b) (c : List (Ev ι p)) :
    PubDone k W a (b ++ c) := by
  obtain ⟨b1, f, b2, rfl, h2, h3⟩ := h
  refine ⟨b1, f, b2 ++ c, by simp, h2, ?_⟩
  rw [← List.append_assoc a, responses_append, List.length_append]; omega

theorem Published2.mono {k : ι} {W : Nat} {a b : List (Ev ι p)} (h : Published2 k W a) (hb : NoW k W b) :
    Published2 k W (a ++ b) := by
  intro a' q b' he hw
  rcases List.append_eq_append_iff.1 he with ⟨e, h1, h2⟩ | ⟨e, h1, h2⟩
  · exact absurd hw (hb q (by rw [h2, accepted_append]; simp [accepted]))
  · cases e with
    | nil =>
      simp only [List.nil_append] at h2
      exact absurd hw (hb q (by rw [← h2]; simp [accepted]))
    | cons x e =>
      simp only [List.cons_append, List.cons.injEq] at h2
      obtain ⟨rfl, rfl⟩ := h2
      have := (h a' q e h1 hw).mono b
      simpa using this

/-! ## Stores of one cache that are in memory -/

/-- All writes of `k` to `W` precede (or are) the `n`-th accepted request, which
publishes them (or there are none and `n = 0`). Proof device; not in the source. -/
def Cl2 (k : ι) (W n : Nat) (tr : List (Ev ι p)) : Prop :=
  (n = 0 ∧ NoW k W tr) ∨
  ∃ a f b, tr = a ++ .acc k f :: b ∧ (f.ty = MT.FLUSH ∨ f.drops W) ∧ n = (accepted k a).length + 1 ∧ NoW k W b

theorem Cl2.snoc {k : ι} {W n : Nat} {tr : List (Ev ι p)} {e : Ev ι p} (h : Cl2 k W n (tr ++ [e])) :
    (Cl2 k W n tr ∧ NoW k W [e]) ∨
    (∃ f, e = .acc k f ∧ (f.ty = MT.FLUSH ∨ f.drops W) ∧ n = (accepted k tr).length + 1) := by
  rcases h with ⟨h1, h2⟩ | ⟨a, f, b, h1, h2, h3, h4⟩
  · rw [NoW.append] at h2; exact .inl ⟨.inl ⟨h1, h2.1⟩, h2.2⟩
  · rcases snoc_split h1 with ⟨b', rfl, rfl⟩ | ⟨rfl, rfl, rfl⟩
    · rw [NoW.append] at h4
      exact .inl ⟨.inr ⟨a, f, b', rfl, h2, h3, h4.1⟩, h4.2⟩
    · exact .inr ⟨f, rfl, h2, h3⟩

theorem Published2.cl {k : ι} {W : Nat} {tr : List (Ev ι p)} (h : Published2 k W tr) :
    ∃ n, Cl2 k W n tr ∧ n ≤ (responses k tr).length := by
  rcases exists_last_write (k := k) (W := W) tr with h1 | ⟨a, q, b, h1, h2, h3⟩
  · exact ⟨0, .inl ⟨rfl, h1⟩, Nat.zero_le _⟩
  · obtain ⟨b1, f, b2, hb, g2, g3⟩ := h a q b h1 h2
    refine ⟨(accepted k (a ++ b1)).length + 1,
      .inr ⟨a ++ b1, f, b2, by rw [h1, hb]; simp, g2, rfl, ?_⟩, ?_⟩
    · cases b1 with
      | nil =>
        simp only [List.nil_append, List.cons.injEq] at hb
        rw [← hb.2]; exact h3
      | cons x b1 =>
        simp only [List.cons_append, List.cons.injEq] at hb
        rw [hb.2, NoW.append] at h3
        intro q' hq'
        refine h3.2 q' ?_
        simp only [accepted, List.filterMap_cons, if_true, List.mem_cons]
        exact .inr hq'
    · rw [h1]; exact g3

theorem quiet_inv2 (wf : p.WF) {M : ByteMem} {T : ESys ι p} {tr : List (Ev ι p)}
    (h : ERun (ESys.init ι p M) tr T) (k : ι) (hv : ∀ q ∈ accepted k tr, q.Valid) (W : Nat) :
    ∀ n, Cl2 k W n tr → QuietW W (n - (responses k tr).length) T k := by
  generalize hT : ESys.init ι p M = T0 at h
  induction h with
  | refl =>
    subst hT
    intro n _
    refine ⟨?_, ?_, by simp [ESys.init]⟩
    · intro w hw j b hb hW
      simp [ESys.init, L1.post, L1.answer, L1.init, Entry.zero]
    · intro E1 E2 he
      simp only [ESys.init, List.nil_eq, List.append_eq_nil_iff] at he
      rw [he.2]; simp
  | @snoc T1 T2 tr1 ev h hs ih =>
    subst hT
    have ih := ih (fun q hq => hv q (by simp [hq]))
    intro n hn
    have hok := (EInv.run h k).ok
    have how := owed h k
    rcases estep_evs hs with rfl | ⟨e, rfl⟩
    · -- delivery
      rw [List.append_nil] at hn ⊢
      have ih := ih n hn
      cases hs with
      | deliver k' r l hl =>
        by_cases hk : k = k'
        · subst hk
          have hmsgs : ∀ m ∈ memMsgs ((T1.L k).deliver r).2, ¬ m.touches W := by
            simp only [L1.deliver]; split
            · rw [answer_noMem]; simp
            · simp
          refine ⟨?_, ?_, ?_⟩
          · simp only [upd_same, L1.deliver]; split
            · rw [post_idle (answer_idle _ _), answer_ent]; exact ih.post
            · exact ih.post
          · simp only [upd_same]; exact quiet_msgs_append ih.msgs hmsgs
          · exact ih.req
        · exact ⟨by simpa [upd_other _ hk] using ih.post, by simpa [upd_other _ hk] using ih.msgs,
            by simpa [upd_other _ hk] using ih.req⟩
    · rcases hn.snoc with ⟨hn, hno⟩ | ⟨f, rfl, ty, hn⟩
      · have ih := ih n hn
        cases hs with
        | acc k' q hc hE hr hs hq =>
          by_cases hk : k = k'
          · subst hk
            have hvq := hv q (by simp [accepted])
            have hnd := ih.post
            rw [post_idle hc] at hnd
            have hac := hnd.accept wf hok hc hvq (hno q (by simp [accepted]))
            have hre : (responses k (tr1 ++ [.acc k q])).length = (responses k tr1).length := by
              simp [responses]
            rw [hre]
            exact ⟨by simpa using hac.1, by simpa using quiet_msgs_append ih.msgs hac.2, by simpa [hr] using ih.req⟩
          · have hre : (responses k (tr1 ++ [.acc k' q])).length = (responses k tr1).length := by
              simp [responses]
            rw [hre]
            exact ⟨by simpa [upd_other _ hk] using ih.post, by simpa [upd_other _ hk] using ih.msgs,
              by simpa [upd_other _ hk] using ih.req⟩
        | emitMem k' m E' hE =>
          have hre : (responses k (tr1 ++ [.mreq k' m])).length = (responses k tr1).length := by simp [responses]
          rw [hre]
          by_cases hk : k = k'
          · subst hk
            refine ⟨ih.post, ?_, ?_⟩
            · intro E1 E2 he hc
              simp only [upd_same] at he
              exact ih.msgs (.mem m :: E1) E2 (by rw [hE, he]; rfl) (by simpa using hc)
            · intro hc m' hm'
              simp only [upd_same, List.mem_append, List.mem_singleton] at hm'
              rcases hm' with hm' | rfl
              · exact ih.req hc m' hm'
              · exact ih.msgs [] (T1.E k) rfl (by omega) _ (by rw [hE]; simp)
          · exact ⟨ih.post, by simpa [upd_other _ hk] using ih.msgs, by simpa [upd_other _ hk] using ih.req⟩
        | emitResp k' r E' hE hr hs =>
          by_cases hk : k = k'
          · subst hk
            have hre : (responses k (tr1 ++ [.resp k r])).length = (responses k tr1).length + 1 := by
              simp [responses]
            rw [hre]
            refine ⟨ih.post, ?_, by simp [hr]⟩
            intro E1 E2 he hc
            simp only [upd_same] at he
            refine ih.msgs (.resp r :: E1) E2 (by rw [hE, he]; rfl) ?_
            rw [nResp_resp]; omega
          · have hk' : ¬ k' = k := fun h => hk h.symm
            have hre : (responses k (tr1 ++ [.resp k' r])).length = (responses k tr1).length := by
              simp [responses, hk']
            rw [hre]
            exact ⟨ih.post, by simpa [upd_other _ hk] using ih.msgs, by simpa using ih.req⟩
        | exec k' m ms hm =>
          have hre : (responses k (tr1 ++ [.exec k' m (memExec T1.mem m).2.strip])).length =
              (responses k tr1).length := by simp [responses]
          rw [hre]
          by_cases hk : k = k'
          · subst hk
            refine ⟨ih.post, ih.msgs, ?_⟩
            intro hc m' hm'
            simp only [upd_same] at hm'
            exact ih.req hc m' (by rw [hm]; exact List.mem_cons_of_mem _ hm')
          · exact ⟨ih.post, ih.msgs, by simpa [upd_other _ hk] using ih.req⟩
      · -- a publishing request is accepted
        cases hs with
        | acc _ q hc hE hr hs hq =>
          have hre : (responses k (tr1 ++ [.acc k f])).length = (responses k tr1).length := by
            simp [responses]
          rw [hre, hn, how, hc]
          have hp : (Cur.idle : Cur p).pend = 0 := rfl
          rw [hp]
          have hvq := hv f (by simp [accepted])
          have hpd : NotDirty W ((T1.L k).accept f).1.post := by
            rcases ty with ty | ty
            · exact NotDirty.of_flush W hc ty
            · exact (LineOut.of_drops W hok hc ty).notDirty
          -- the request ends with its own response, or the response is still owed
          have hm : ∃ X, memMsgs X = memMsgs ((T1.L k).accept f).2 ∧ nResp X = 0 ∧
              (((T1.L k).accept f).2 = X ∨ ∃ r, ((T1.L k).accept f).2 = X ++ [.resp r]) := by
            have hwb0 : ∀ (c : Bool) w, nResp (if c then [(T1.L k).wb w f.addr.idx] else []) = 0 := by
              intro c w; cases c <;> simp [L1.wb]
            rcases ty with ty | ty
            · refine ⟨(T1.L k).flushMsgs (2 ^ p.cntBits), ?_, nResp_flush _ _, .inr ⟨mkResp f false 0, ?_⟩⟩
              · simp [L1.accept, ty]
              · simp [L1.accept, ty]
            · rcases ty with ⟨ha, _⟩ | ⟨_, hrw, _⟩
              · have t1 : ¬ (f.ty = MT.READ ∨ f.ty = MT.WRITE) := by
                  rintro (h | h) <;> · rw [h] at ha; cases ha
                refine ⟨_, rfl, ?_, .inl rfl⟩
                simp only [L1.accept, if_neg t1, ha, if_true, L1.amo, nResp_append, hwb0, nResp_mem, nResp_nil]
              · simp only [L1.accept, if_pos hrw]
                cases hh : ((T1.L k).lookup f.addr).hit
                · cases hi : ((T1.L k).lookup f.addr).inval
                  · rw [rw_miss hh hi]
                    refine ⟨_, rfl, ?_, .inl rfl⟩
                    simp only [nResp_append, hwb0, nResp_mem, nResp_nil]
                  · rw [rw_inval hh hi]
                    refine ⟨_, rfl, ?_, .inl rfl⟩
                    simp only [nResp_mem, nResp_nil]
                · rw [rw_hit hh]
                  exact ⟨[], by simp, rfl, .inr ⟨_, rfl⟩⟩
          obtain ⟨X, hX1, hX2, hX3⟩ := hm
          refine ⟨?_, ?_, ?_⟩
          · simp only [upd_same]; exact hpd
          · intro E1 E2 he hcc
            simp only [upd_same] at he
            rcases hX3 with hX3 | ⟨r, hX3⟩
            · exfalso
              have h1 := congrArg nResp he
              rw [nResp_append, nResp_append, hX3, hX2] at h1
              omega
            · have h1 := congrArg nResp he
              rw [nResp_append, nResp_append, hX3, nResp_append, hX2] at h1
              simp only [nResp_resp, nResp_nil] at h1
              have h2 : nResp E2 = 0 := by omega
              have : E2 = [] := by
                rcases List.eq_nil_or_concat E2 with h0 | ⟨E3, x, rfl⟩
                · exact h0
                · exfalso
                  rw [hX3, ← List.append_assoc, List.concat_eq_append, ← List.append_assoc] at he
                  have := (List.append_inj' he rfl).2
                  simp only [List.cons.injEq, and_true] at this
                  rw [← this] at h2
                  simp at h2
              rw [this]; simp
          · intro h0; omega

theorem quiet_published2 (wf : p.WF) {M : ByteMem} {T : ESys ι p} {tr : List (Ev ι p)}
    (h : ERun (ESys.init ι p M) tr T) {k : ι} (hv : ∀ q ∈ accepted k tr, q.Valid) {W : Nat}
    (hp : Published2 k W tr) : QuietW W 0 T k := by
  obtain ⟨n, h1, h2⟩ := hp.cl
  have := quiet_inv2 wf h k hv W n h1
  rwa [show n - (responses k tr).length = 0 by omega] at this

/-! ## Caches without a copy -/

theorem NoCopy.snoc {k : ι} {W : Nat} {tr : List (Ev ι p)} {e : Ev ι p} (h : NoCopy k W (tr ++ [e])) :
    (NoCopy k W tr ∧ ∀ q, e = .acc k q → q.ty = MT.READ ∨ q.ty = MT.WRITE → ¬ q.onLine W) ∨
    (∃ i, e = .acc k i ∧ (i.ty = MT.INV ∨ i.drops W)) := by
  obtain ⟨t1, t2, he, h1, h2⟩ := h
  rcases List.eq_nil_or_concat t2 with rfl | ⟨t2', x, rfl⟩
  · rw [List.append_nil] at he
    rcases h1 with rfl | ⟨t0, i, rfl, hi⟩
    · simp at he
    · have := List.append_inj' he rfl
      simp only [List.cons.injEq, and_true] at this
      exact .inr ⟨i, this.2, hi⟩
  · left
    rw [List.concat_eq_append, ← List.append_assoc] at he
    obtain ⟨g1, g2⟩ := List.append_inj' he rfl
    simp only [List.cons.injEq, and_true] at g2
    rw [List.concat_eq_append, accepted_append] at h2
    refine ⟨⟨t1, t2', g1, h1, fun q hq => h2 q (List.mem_append_left _ hq)⟩, ?_⟩
    rintro q rfl
    exact h2 q (by rw [← g2]; simp [accepted])

theorem nocopy_gone {M : ByteMem} {T : ESys ι p} {tr : List (Ev ι p)}
    (h : ERun (ESys.init ι p M) tr T) (k : ι) (W : Nat) (hn : NoCopy k W tr) : Gone W (T.L k).post := by
  generalize hT : ESys.init ι p M = T0 at h
  induction h with
  | refl =>
    subst hT
    intro w hw j _
    simp [ESys.init, L1.post, L1.answer, L1.init, Entry.zero]
  | @snoc T1 T2 tr1 ev h hs ih =>
    subst hT
    have hok := (EInv.run h k).ok
    rcases estep_evs hs with rfl | ⟨e, rfl⟩
    · rw [List.append_nil] at hn
      have ih := ih hn
      cases hs with
      | deliver k' r l hl =>
        by_cases hk : k = k'
        · subst hk
          simp only [upd_same, L1.deliver]; split
          · rw [post_idle (answer_idle _ _), answer_ent]; exact ih
          · exact ih
        · simpa [upd_other _ hk] using ih
    · rcases hn.snoc with ⟨hn, hno⟩ | ⟨i, rfl, hi⟩
      · have ih := ih hn
        cases hs with
        | acc k' q hc hE hr hs hq =>
          by_cases hk : k = k'
          · subst hk
            rw [post_idle hc] at ih
            simp only [upd_same]
            exact ih.accept hok hc (hno q rfl)
          · simpa [upd_other _ hk] using ih
        | emitMem k' m E' hE => exact ih
        | emitResp k' r E' hE hr hs => exact ih
        | exec k' m ms hm => exact ih
      · cases hs with
        | acc _ q hc hE hr hs hq =>
          simp only [upd_same]
          rcases hi with hi | hi
          · exact .of_inv W hc hi
          · exact (LineOut.of_drops W hok hc hi).gone

/-! ## Synchronisation -/

theorem UpToDate2.published {k k' : ι} {W : Nat} {tr : List (Ev ι p)} (h : UpToDate2 k W tr) (hk : k' ≠ k) :
    Published2 k' W tr := by
  intro a q b he hw
  obtain ⟨c, d, rfl, hf, _⟩ := h k' hk a q b he hw
  exact hf.mono d

theorem UpToDate2.mono {k : ι} {W : Nat} {tr ev : List (Ev ι p)} (h : UpToDate2 k W tr)
    (he : ∀ k' q, k' ≠ k → .acc k' q ∈ ev → ¬ q.writesWord W) : UpToDate2 k W (tr ++ ev) := by
  intro k' hk a q b hs hw
  rcases List.append_eq_append_iff.1 hs with ⟨e, h1, h2⟩ | ⟨e, h1, h2⟩
  · exfalso
    exact he k' q hk (by rw [h2]; simp) hw
  · cases e with
    | nil =>
      exfalso
      exact he k' q hk (by simp only [List.nil_append] at h2; rw [← h2]; simp) hw
    | cons x e =>
      simp only [List.cons_append, List.cons.injEq] at h2
      obtain ⟨rfl, rfl⟩ := h2
      obtain ⟨c, d, rfl, g2, g3⟩ := h k' hk a q e h1 hw
      exact ⟨c, d ++ ev, by simp, g2, g3⟩

theorem UpToDate2.of_nocopy {k : ι} {W : Nat} {tr : List (Ev ι p)} (hn : NoCopy k W tr)
    (hp : ∀ k', k' ≠ k → Published2 k' W tr) : UpToDate2 k W tr := by
  intro k' hk a q b he hw
  exact ⟨b, [], by simp, hp k' hk a q b he hw, he ▸ hn⟩

/-- After its acceptance a request that was ready leaves the cache up to date. -/
theorem Ready2.upToDate {k : ι} {W : Nat} {tr : List (Ev ι p)} {q : CReq p} (h : Ready2 k W tr q)
    (hl : MT.isAmo q.ty = true → q.onLine W) :
    UpToDate2 k W (tr ++ [.acc k q]) := by
  rcases h with h | ⟨ha, hp⟩
  · refine h.mono ?_
    intro k' q' hk he
    simp only [List.mem_singleton, Ev.acc.injEq] at he
    exact absurd he.1 hk
  · refine .of_nocopy ⟨tr ++ [.acc k q], [], by simp, .inr ⟨tr, q, rfl, .inr (.inl ⟨ha, hl ha⟩)⟩, by simp [accepted]⟩ ?_
    intro k' hk
    refine (hp k' hk).mono ?_
    intro q' hq'
    have : ¬ k = k' := fun h => hk h.symm
    simp [accepted, this] at hq'

/-- The last step, seen backwards. -/
theorem UpToDate2.snoc {k : ι} {W : Nat} {tr : List (Ev ι p)} {e : Ev ι p} (h : UpToDate2 k W (tr ++ [e])) :
    UpToDate2 k W tr ∨ NoCopy k W (tr ++ [e]) := by
  by_cases hn : NoCopy k W (tr ++ [e])
  · exact .inr hn
  · left
    intro k' hk a q b he hw
    obtain ⟨c, d, h1, h2, h3⟩ := h k' hk a q (b ++ [e]) (by rw [he]; simp) hw
    rcases List.eq_nil_or_concat d with rfl | ⟨d', x, rfl⟩
    · exfalso; apply hn
      rw [List.append_nil] at h1
      rw [he]
      rw [← h1] at h3
      simpa using h3
    · rw [List.concat_eq_append, ← List.append_assoc] at h1
      exact ⟨c, d', (List.append_inj' h1 rfl).1, h2, h3⟩

theorem WritesSynced2.prefix {W : Nat} {tr ev : List (Ev ι p)} (h : WritesSynced2 W (tr ++ ev)) :
    WritesSynced2 W tr := by
  intro k a q b he hw
  exact h k a q (b ++ ev) (by rw [he]; simp) hw

/-- A cache with a store that is not published is up to date. -/
theorem unpublished_upToDate2 (wf : p.WF) {W : Nat} {tr : List (Ev ι p)} (hs : WritesSynced2 W tr)
    (hv : ∀ k, ∀ q ∈ accepted k tr, q.Valid) {k : ι}
    (h : ¬ Published2 k W tr) : UpToDate2 k W tr := by
  simp only [Published2, Classical.not_forall] at h
  obtain ⟨a, q, b, he, hw, hnf⟩ := h
  intro k' hk a' q' b' he' hw'
  rcases split_split (he.symm.trans he') with ⟨e, h1, h2⟩ | ⟨e, h1, h2⟩ | ⟨h1, h2, h3⟩
  · -- the other store comes later: then this one was published before it
    exfalso
    have hpub : Published2 k W a' := by
      rcases hs k' a' q' b' he' hw' with g | ⟨_, g⟩
      · exact g.published (Ne.symm hk)
      · exact g k (Ne.symm hk)
    apply hnf
    have := (hpub a q e h1 hw).mono (.acc k' q' :: b')
    rw [h2]; simpa using this
  · have hq : q.Valid := hv k q (by rw [he, accepted_append]; simp [accepted])
    have := (hs k a q b he hw).upToDate (fun _ => writes_onLine wf hq hw)
    obtain ⟨c, d, g1, g2, g3⟩ := this k' hk a' q' (e ++ [.acc k q]) (by rw [h1]; simp) hw'
    refine ⟨c, d ++ b, ?_, g2, g3⟩
    rw [h2, ← List.append_assoc, ← g1]; simp
  · exfalso
    simp only [Ev.acc.injEq] at h2
    exact hk h2.1.symm

theorem PubDone.snoc_acc {k : ι} {W : Nat} {a b : List (Ev ι p)} {e : Ev ι p} (h : PubDone k W a (b ++ [e]))
    (hr : ∀ r, e ≠ .resp k r) (hlt : (responses k (a ++ b)).length ≤ (accepted k (a ++ b)).length) :
    PubDone k W a b := by
  obtain ⟨b1, f, b2, h1, h2, h3⟩ := h
  have hre : responses k (a ++ (b ++ [e])) = responses k (a ++ b) := by
    rw [← List.append_assoc, responses_append]
    cases e with
    | resp k' r =>
      by_cases hk : k' = k
      · subst hk; exact absurd rfl (hr r)
      · simp [responses, hk]
    | acc => simp [responses]
    | mreq => simp [responses]
    | exec => simp [responses]
  rw [hre] at h3
  rcases snoc_split h1 with ⟨b', rfl, rfl⟩ | ⟨rfl, h5, rfl⟩
  · exact ⟨b1, f, b', rfl, h2, h3⟩
  · exfalso; omega

/-- Events other than responses of `k` do not publish stores of `k`. -/
theorem Published2.snoc {k : ι} {W : Nat} {tr : List (Ev ι p)} {e : Ev ι p} (h : Published2 k W (tr ++ [e]))
    (hr : ∀ r, e ≠ .resp k r) (hlt : (responses k tr).length ≤ (accepted k tr).length) : Published2 k W tr := by
  intro a q b he hw
  have := h a q (b ++ [e]) (by rw [he]; simp) hw
  rw [← List.cons_append] at this
  exact this.snoc_acc hr (by rw [← he]; exact hlt)

theorem Published2.last {k : ι} {W : Nat} {tr : List (Ev ι p)} {q : CReq p} (h : Published2 k W (tr ++ [.acc k q]))
    (hlt : (responses k tr).length ≤ (accepted k tr).length) : ¬ q.writesWord W := by
  intro hw
  obtain ⟨b1, f, b2, h1, _, h3⟩ := h tr q [] rfl hw
  have : b1 = [] := by
    cases b1 with
    | nil => rfl
    | cons x b1 => simp at h1
  subst this
  simp [responses] at h3
  simp [responses] at hlt
  omega

end Verif
