import Verif.Fin

/-!
# Software coherence: invariants
-/

set_option linter.unusedSectionVars false

namespace Verif
variable {p : Params} {ι : Type} [DecidableEq ι]

/-! ## Splitting traces -/

theorem snoc_split {α : Type} {l a b : List α} {e x : α} (h : l ++ [e] = a ++ x :: b) :
    (∃ b', b = b' ++ [e] ∧ l = a ++ x :: b') ∨ (b = [] ∧ x = e ∧ l = a) := by
  rcases List.eq_nil_or_concat b with rfl | ⟨b', y, rfl⟩
  · right
    have := List.append_inj' h rfl
    exact ⟨rfl, by simpa using this.2.symm, this.1⟩
  · left
    rw [List.concat_eq_append, ← List.cons_append, ← List.append_assoc] at h
    have := List.append_inj' h rfl
    refine ⟨b', ?_, this.1⟩
    rw [List.concat_eq_append]
    have := this.2; simp at this; rw [this]

/-- Where an element of one splitting lies relative to another splitting. -/
theorem split_split {α : Type} {a b c d : List α} {x y : α} (h : a ++ x :: b = c ++ y :: d) :
    (∃ e, c = a ++ x :: e ∧ b = e ++ y :: d) ∨ (∃ e, a = c ++ y :: e ∧ d = e ++ x :: b) ∨
    (a = c ∧ x = y ∧ b = d) := by
  rcases List.append_eq_append_iff.1 h with ⟨e, h1, h2⟩ | ⟨e, h1, h2⟩
  · cases e with
    | nil =>
      simp only [List.nil_append, List.cons.injEq, List.append_nil] at h1 h2
      exact .inr (.inr ⟨h1.symm, h2.1, h2.2⟩)
    | cons z e =>
      simp only [List.cons_append, List.cons.injEq] at h2
      exact .inl ⟨e, by rw [h1, h2.1], h2.2⟩
  · cases e with
    | nil =>
      simp only [List.nil_append, List.cons.injEq, List.append_nil] at h1 h2
      exact .inr (.inr ⟨h1, h2.1.symm, h2.2.symm⟩)
    | cons z e =>
      simp only [List.cons_append, List.cons.injEq] at h2
      exact .inr (.inl ⟨e, by rw [h1, h2.1], h2.2⟩)

theorem FlushDone.mono {k : ι} {a b : List (Ev ι p)} (h : FlushDone k a b) (c : List (Ev ι p)) :
    FlushDone k a (b ++ c) := by
  obtain ⟨b1, f, b2, rfl, h2, h3⟩ := h
  refine ⟨b1, f, b2 ++ c, by simp, h2, ?_⟩
  rw [← List.append_assoc a, responses_append, List.length_append]; omega

theorem FlushDone.not_nil {k : ι} {a : List (Ev ι p)} : ¬ FlushDone k a [] := by
  rintro ⟨b1, f, b2, h, _⟩; simp at h

/-- Events of a step. -/
theorem estep_evs {T T' : ESys ι p} {ev : List (Ev ι p)} (h : EStep T ev T') : ev = [] ∨ ∃ e, ev = [e] := by
  cases h <;> simp

/-! ## Cleanliness of one cache -/

/-- Cache `k` does not write word `W` in `tr`. Proof device; not in the source. -/
def NoW (k : ι) (W : Nat) (tr : List (Ev ι p)) : Prop := ∀ q ∈ accepted k tr, ¬ q.writesWord W

theorem NoW.append {k : ι} {W : Nat} {a b : List (Ev ι p)} : NoW k W (a ++ b) ↔ NoW k W a ∧ NoW k W b := by
  simp only [NoW, accepted_append, List.mem_append]
  constructor
  · intro h; exact ⟨fun q hq => h q (.inl hq), fun q hq => h q (.inr hq)⟩
  · rintro ⟨h1, h2⟩ q (hq | hq)
    · exact h1 q hq
    · exact h2 q hq

/-- All writes of `k` to `W` precede the `n`-th accepted request, a FLUSH (or
there are none and `n = 0`). Proof device; not in the source. -/
def Cl (k : ι) (W n : Nat) (tr : List (Ev ι p)) : Prop :=
  (n = 0 ∧ NoW k W tr) ∨
  ∃ a f b, tr = a ++ .acc k f :: b ∧ f.ty = MT.FLUSH ∧ n = (accepted k a).length + 1 ∧ NoW k W b

theorem Cl.snoc {k : ι} {W n : Nat} {tr : List (Ev ι p)} {e : Ev ι p} (h : Cl k W n (tr ++ [e])) :
    (Cl k W n tr ∧ NoW k W [e]) ∨
    (∃ f, e = .acc k f ∧ f.ty = MT.FLUSH ∧ n = (accepted k tr).length + 1) := by
  rcases h with ⟨h1, h2⟩ | ⟨a, f, b, h1, h2, h3, h4⟩
  · rw [NoW.append] at h2; exact .inl ⟨.inl ⟨h1, h2.1⟩, h2.2⟩
  · rcases snoc_split h1 with ⟨b', rfl, rfl⟩ | ⟨rfl, rfl, rfl⟩
    · rw [NoW.append] at h4
      exact .inl ⟨.inr ⟨a, f, b', rfl, h2, h3, h4.1⟩, h4.2⟩
    · exact .inr ⟨f, rfl, h2, h3⟩

theorem exists_last_write {k : ι} {W : Nat} (tr : List (Ev ι p)) :
    NoW k W tr ∨ ∃ a q b, tr = a ++ .acc k q :: b ∧ q.writesWord W ∧ NoW k W b := by
  induction tr with
  | nil => left; simp [NoW, accepted]
  | cons e tr ih =>
    rcases ih with ih | ⟨a, q, b, h1, h2, h3⟩
    · cases e with
      | acc k' q =>
        by_cases hk : k' = k
        · subst hk
          by_cases hw : q.writesWord W
          · exact .inr ⟨[], q, tr, rfl, hw, ih⟩
          · left
            intro q' hq'
            simp only [accepted, List.filterMap_cons, if_true, List.mem_cons] at hq'
            rcases hq' with rfl | hq'
            · exact hw
            · exact ih q' hq'
        · left
          intro q' hq'
          simp only [accepted, List.filterMap_cons, hk, if_false] at hq'
          exact ih q' hq'
      | mreq k' m => left; exact ih
      | resp k' r => left; exact ih
      | exec k' m r => left; exact ih
    · exact .inr ⟨e :: a, q, b, by rw [h1]; rfl, h2, h3⟩

theorem Published.cl {k : ι} {W : Nat} {tr : List (Ev ι p)} (h : Published k W tr) :
    ∃ n, Cl k W n tr ∧ n ≤ (responses k tr).length := by
  rcases exists_last_write (k := k) (W := W) tr with h1 | ⟨a, q, b, h1, h2, h3⟩
  · exact ⟨0, .inl ⟨rfl, h1⟩, Nat.zero_le _⟩
  · obtain ⟨b1, f, b2, rfl, g2, g3⟩ := h a q b h1 h2
    refine ⟨(accepted k (a ++ [.acc k q] ++ b1)).length + 1,
      .inr ⟨a ++ [.acc k q] ++ b1, f, b2, by simp [h1], g2, rfl, ?_⟩, ?_⟩
    · rw [NoW.append] at h3
      intro q' hq'
      refine h3.2 q' ?_
      simp only [accepted, List.filterMap_cons, if_true, List.mem_cons]
      exact .inr hq'
    · rw [h1]
      have : a ++ .acc k q :: (b1 ++ .acc k f :: b2) = a ++ [.acc k q] ++ (b1 ++ .acc k f :: b2) := by simp
      rw [this]; exact g3

/-- Messages after the next `c` responses do not touch `W`. Proof device; not in the source. -/
structure QuietW (W c : Nat) (T : ESys ι p) (k : ι) : Prop where
  post : NotDirty W (T.L k).post
  msgs : ∀ E1 E2, T.E k = E1 ++ E2 → c ≤ nResp E1 → ∀ m ∈ memMsgs E2, ¬ m.touches W
  req : c = 0 → ∀ m ∈ T.reqQ k, ¬ m.touches W

theorem quiet_msgs_append {W c : Nat} {E N : List (Msg p)}
    (h : ∀ E1 E2, E = E1 ++ E2 → c ≤ nResp E1 → ∀ m ∈ memMsgs E2, ¬ m.touches W)
    (hN : ∀ m ∈ memMsgs N, ¬ m.touches W) :
    ∀ E1 E2, E ++ N = E1 ++ E2 → c ≤ nResp E1 → ∀ m ∈ memMsgs E2, ¬ m.touches W := by
  intro E1 E2 he hc m hm
  rcases List.append_eq_append_iff.1 he with ⟨e, h1, h2⟩ | ⟨e, h1, h2⟩
  · apply hN; rw [h2]; simp [hm]
  · rw [h2, memMsgs_append, List.mem_append] at hm
    rcases hm with hm | hm
    · exact h E1 e h1 hc m hm
    · exact hN m hm

theorem quiet_inv (wf : p.WF) {M : ByteMem} {T : ESys ι p} {tr : List (Ev ι p)}
    (h : ERun (ESys.init ι p M) tr T) (k : ι) (hv : ∀ q ∈ accepted k tr, q.Valid) (W : Nat) :
    ∀ n, Cl k W n tr → QuietW W (n - (responses k tr).length) T k := by
  generalize hT : ESys.init ι p M = T0 at h
  induction h with
  | refl =>
    subst hT
    intro n _
    refine ⟨?_, ?_, by simp [ESys.init]⟩
    · intro w hw j b hb hW
      simp [ESys.init, L1.post, L1.answer, L1.init, Entry.zero]
    · intro E1 E2 he
      simp only [ESys.init, List.nil_eq, List.append_eq_nil_iff] at he
      rw [he.2]; simp
  | @snoc T1 T2 tr1 ev h hs ih =>
    subst hT
    have ih := ih (fun q hq => hv q (by simp [hq]))
    intro n hn
    have hok := (EInv.run h k).ok
    have how := owed h k
    rcases estep_evs hs with rfl | ⟨e, rfl⟩
    · -- delivery
      rw [List.append_nil] at hn ⊢
      have ih := ih n hn
      cases hs with
      | deliver k' r l hl =>
        by_cases hk : k = k'
        · subst hk
          have hmsgs : ∀ m ∈ memMsgs ((T1.L k).deliver r).2, ¬ m.touches W := by
            simp only [L1.deliver]; split
            · rw [answer_noMem]; simp
            · simp
          refine ⟨?_, ?_, ?_⟩
          · simp only [upd_same, L1.deliver]; split
            · rw [post_idle (answer_idle _ _), answer_ent]; exact ih.post
            · exact ih.post
          · simp only [upd_same]; exact quiet_msgs_append ih.msgs hmsgs
          · exact ih.req
        · exact ⟨by simpa [upd_other _ hk] using ih.post, by simpa [upd_other _ hk] using ih.msgs,
            by simpa [upd_other _ hk] using ih.req⟩
    · rcases hn.snoc with ⟨hn, hno⟩ | ⟨f, rfl, ty, hn⟩
      · have ih := ih n hn
        cases hs with
        | acc k' q hc hE hr hs hq =>
          by_cases hk : k = k'
          · subst hk
            have hvq := hv q (by simp [accepted])
            have hnd := ih.post
            rw [post_idle hc] at hnd
            have hac := hnd.accept wf hok hc hvq (hno q (by simp [accepted]))
            have hre : (responses k (tr1 ++ [.acc k q])).length = (responses k tr1).length := by
              simp [responses]
            rw [hre]
            exact ⟨by simpa using hac.1, by simpa using quiet_msgs_append ih.msgs hac.2, by simpa [hr] using ih.req⟩
          · have hre : (responses k (tr1 ++ [.acc k' q])).length = (responses k tr1).length := by
              simp [responses]
            rw [hre]
            exact ⟨by simpa [upd_other _ hk] using ih.post, by simpa [upd_other _ hk] using ih.msgs,
              by simpa [upd_other _ hk] using ih.req⟩
        | emitMem k' m E' hE =>
          have hre : (responses k (tr1 ++ [.mreq k' m])).length = (responses k tr1).length := by simp [responses]
          rw [hre]
          by_cases hk : k = k'
          · subst hk
            refine ⟨ih.post, ?_, ?_⟩
            · intro E1 E2 he hc
              simp only [upd_same] at he
              exact ih.msgs (.mem m :: E1) E2 (by rw [hE, he]; rfl) (by simpa using hc)
            · intro hc m' hm'
              simp only [upd_same, List.mem_append, List.mem_singleton] at hm'
              rcases hm' with hm' | rfl
              · exact ih.req hc m' hm'
              · exact ih.msgs [] (T1.E k) rfl (by omega) _ (by rw [hE]; simp)
          · exact ⟨ih.post, by simpa [upd_other _ hk] using ih.msgs, by simpa [upd_other _ hk] using ih.req⟩
        | emitResp k' r E' hE hr hs =>
          by_cases hk : k = k'
          · subst hk
            have hre : (responses k (tr1 ++ [.resp k r])).length = (responses k tr1).length + 1 := by
              simp [responses]
            rw [hre]
            refine ⟨ih.post, ?_, by simp [hr]⟩
            intro E1 E2 he hc
            simp only [upd_same] at he
            refine ih.msgs (.resp r :: E1) E2 (by rw [hE, he]; rfl) ?_
            rw [nResp_resp]; omega
          · have hk' : ¬ k' = k := fun h => hk h.symm
            have hre : (responses k (tr1 ++ [.resp k' r])).length = (responses k tr1).length := by
              simp [responses, hk']
            rw [hre]
            exact ⟨ih.post, by simpa [upd_other _ hk] using ih.msgs, by simpa using ih.req⟩
        | exec k' m ms hm =>
          have hre : (responses k (tr1 ++ [.exec k' m (memExec T1.mem m).2.strip])).length =
              (responses k tr1).length := by simp [responses]
          rw [hre]
          by_cases hk : k = k'
          · subst hk
            refine ⟨ih.post, ih.msgs, ?_⟩
            intro hc m' hm'
            simp only [upd_same] at hm'
            exact ih.req hc m' (by rw [hm]; exact List.mem_cons_of_mem _ hm')
          · exact ⟨ih.post, ih.msgs, by simpa [upd_other _ hk] using ih.req⟩
      · -- a FLUSH is accepted
        cases hs with
        | acc _ q hc hE hr hs hq =>
          have hre : (responses k (tr1 ++ [.acc k f])).length = (responses k tr1).length := by
            simp [responses]
          rw [hre, hn, how, hc]
          have hp : (Cur.idle : Cur p).pend = 0 := rfl
          rw [hp]
          have hm : ((T1.L k).accept f).2 =
              (T1.L k).flushMsgs (2 ^ p.cntBits) ++ [.resp (mkResp f false 0)] := by
            simp [L1.accept, ty]
          refine ⟨?_, ?_, ?_⟩
          · simp only [upd_same]; exact NotDirty.of_flush W hc ty
          · intro E1 E2 he hcc
            simp only [upd_same] at he
            have h1 := congrArg nResp he
            rw [nResp_append, nResp_append, hm, nResp_append, nResp_flush] at h1
            simp only [nResp_resp, nResp_nil] at h1
            have h2 : nResp E2 = 0 := by omega
            have : E2 = [] := by
              rcases List.eq_nil_or_concat E2 with h0 | ⟨E3, x, rfl⟩
              · exact h0
              · exfalso
                rw [hm, ← List.append_assoc, List.concat_eq_append, ← List.append_assoc] at he
                have := (List.append_inj' he rfl).2
                simp only [List.cons.injEq, and_true] at this
                rw [← this] at h2
                simp at h2
            rw [this]; simp
          · intro h0; omega

theorem quiet_published (wf : p.WF) {M : ByteMem} {T : ESys ι p} {tr : List (Ev ι p)}
    (h : ERun (ESys.init ι p M) tr T) {k : ι} (hv : ∀ q ∈ accepted k tr, q.Valid) {W : Nat}
    (hp : Published k W tr) : QuietW W 0 T k := by
  obtain ⟨n, h1, h2⟩ := hp.cl
  have := quiet_inv wf h k hv W n h1
  rwa [show n - (responses k tr).length = 0 by omega] at this

theorem QuietW.all {W : Nat} {T : ESys ι p} {k : ι} (h : QuietW W 0 T k) :
    ∀ m ∈ T.reqQ k ++ memMsgs (T.E k), ¬ m.touches W := by
  intro m hm
  rw [List.mem_append] at hm
  rcases hm with hm | hm
  · exact h.req rfl m hm
  · exact h.msgs [] _ rfl (Nat.zero_le _) m hm

/-! ## Synchronisation -/

theorem UpToDate.published {k k' : ι} {W : Nat} {tr : List (Ev ι p)} (h : UpToDate k W tr) (hk : k' ≠ k) :
    Published k' W tr := by
  intro a q b he hw
  obtain ⟨c, i, d, rfl, _, hf⟩ := h k' hk a q b he hw
  exact hf.mono _

theorem UpToDate.mono {k : ι} {W : Nat} {tr ev : List (Ev ι p)} (h : UpToDate k W tr)
    (he : ∀ k' q, k' ≠ k → .acc k' q ∈ ev → ¬ q.writesWord W) : UpToDate k W (tr ++ ev) := by
  intro k' hk a q b hs hw
  rcases List.append_eq_append_iff.1 hs with ⟨e, h1, h2⟩ | ⟨e, h1, h2⟩
  · exfalso
    exact he k' q hk (by rw [h2]; simp) hw
  · cases e with
    | nil =>
      exfalso
      exact he k' q hk (by simp only [List.nil_append] at h2; rw [← h2]; simp) hw
    | cons x e =>
      simp only [List.cons_append, List.cons.injEq] at h2
      obtain ⟨rfl, rfl⟩ := h2
      obtain ⟨c, i, d, rfl, g2, g3⟩ := h k' hk a q e h1 hw
      exact ⟨c, i, d ++ ev, by simp, g2, g3⟩

/-- A step that is not a store of another cache, seen backwards. -/
theorem UpToDate.snoc {k : ι} {W : Nat} {tr : List (Ev ι p)} {e : Ev ι p} (h : UpToDate k W (tr ++ [e])) :
    (∀ k' q, k' ≠ k → e = .acc k' q → ¬ q.writesWord W) ∧
    (UpToDate k W tr ∨ ∃ i, e = .acc k i ∧ i.ty = MT.INV ∧ ∀ k', k' ≠ k → Published k' W tr) := by
  refine ⟨?_, ?_⟩
  · rintro k' q hk rfl hw
    obtain ⟨c, i, d, he, _⟩ := h k' hk tr q [] rfl hw
    simp at he
  · by_cases hi : ∃ i, e = .acc k i ∧ i.ty = MT.INV
    · right
      obtain ⟨i, rfl, hi⟩ := hi
      refine ⟨i, rfl, hi, ?_⟩
      intro k' hk a q b he hw
      obtain ⟨c, i', d, h1, _, h3⟩ := h k' hk a q (b ++ [.acc k i]) (by rw [he]; simp) hw
      rcases snoc_split h1 with ⟨d', _, rfl⟩ | ⟨_, _, rfl⟩
      · exact h3.mono _
      · exact h3
    · left
      intro k' hk a q b he hw
      obtain ⟨c, i', d, h1, h2, h3⟩ := h k' hk a q (b ++ [e]) (by rw [he]; simp) hw
      rcases snoc_split h1 with ⟨d', _, rfl⟩ | ⟨_, h4, rfl⟩
      · exact ⟨c, i', d', rfl, h2, h3⟩
      · exact absurd ⟨i', h4.symm, h2⟩ hi

theorem WritesSynced.prefix {W : Nat} {tr ev : List (Ev ι p)} (h : WritesSynced W (tr ++ ev)) :
    WritesSynced W tr := by
  intro k a q b he hw
  exact h k a q (b ++ ev) (by rw [he]; simp) hw

/-- A cache with a store that is not published is up to date. -/
theorem unpublished_upToDate {W : Nat} {tr : List (Ev ι p)} (hs : WritesSynced W tr) {k : ι}
    (h : ¬ Published k W tr) : UpToDate k W tr := by
  simp only [Published, Classical.not_forall] at h
  obtain ⟨a, q, b, he, hw, hnf⟩ := h
  intro k' hk a' q' b' he' hw'
  rcases split_split (he.symm.trans he') with ⟨e, h1, h2⟩ | ⟨e, h1, h2⟩ | ⟨h1, h2, h3⟩
  · -- the other store comes later: then this one was published before it
    exfalso
    obtain ⟨c, i, d, g1, _, g3⟩ := hs k' a' q' b' he' hw' k (Ne.symm hk) a q e h1 hw
    apply hnf
    rw [h2, g1]
    have := (g3.mono (.acc k' i :: d)).mono (.acc k' q' :: b')
    simpa using this
  · obtain ⟨c, i, d, g1, g2, g3⟩ := hs k a q b he hw k' hk a' q' e h1 hw'
    exact ⟨c, i, d ++ .acc k q :: b, by rw [h2, g1]; simp, g2, g3⟩
  · exfalso
    simp only [Ev.acc.injEq] at h2
    exact hk h2.1.symm

theorem Published.snoc {k : ι} {W : Nat} {tr : List (Ev ι p)} {e : Ev ι p} (h : Published k W (tr ++ [e])) :
    ∀ q, e = .acc k q → ¬ q.writesWord W := by
  rintro q rfl hw
  exact (h tr q [] rfl hw).not_nil

end Verif
