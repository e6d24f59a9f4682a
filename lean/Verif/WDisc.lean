import Verif.WTrace

/-!
# The invariant behind C65

For one word `W`.  `P` is the value of the word after all stores performed so far.  The
discipline admits at most one cache with a dirty copy or an unfinished store.
-/

set_option linter.unusedSectionVars false

namespace Verif.WM
variable {ι : Type} [DecidableEq ι] {W : Nat} {M0 : ByteMem} {tr : List (Ev ι)} {A B : State ι}

/-- The request worked on stores to `W`. Proof device; not in the source. -/
def Loc.PendStore (W : Nat) (a : Loc) : Prop := ∃ q, a.pend = some q ∧ q.stores W
/-- The request worked on acquires `W`. Proof device; not in the source. -/
def Loc.PendAcq (W : Nat) (a : Loc) : Prop := ∃ q, a.pend = some q ∧ q.acquires W
/-- Proof device; not in the source. -/
def Loc.Active (W : Nat) (a : Loc) : Prop := a.PendStore W ∨ a.copy W = .dirty

/-- One cache and its history. Proof device; not in the source. -/
def Hist (W : Nat) (k : ι) (tr : List (Ev ι)) (a : Loc) : Prop :=
  ∃ perf : List Req, accepted k tr = perf ++ a.pend.toList ∧ perf.length = (responses k tr).length + a.done.length ∧
    (a.copy W = .dirty → ∃ (n : Nat) (q : Req), perf[n]? = some q ∧ q.stores W ∧
      ∀ (m : Nat) (f : Req), n ≤ m → perf[m]? = some f → ¬ f.releases W)

/-- A cache with a dirty copy or an unfinished store has an unreleased store. -/
theorem Hist.active {k : ι} {a : Loc} (h : Hist W k tr a) (ha : a.Active W) :
    ∃ c q d, tr = c ++ .acc k q :: d ∧ q.stores W ∧ ¬ Released k W c (.acc k q :: d) := by
  obtain ⟨perf, h1, h2, h3⟩ := h
  rcases ha with ⟨q, hp, hq⟩ | hd
  · rw [hp, Option.toList_some] at h1
    obtain ⟨c, d, h4, h5⟩ := not_released (k := k) (W := W) (tr := tr) (n := perf.length) (q := q) (by rw [h1]; simp)
      (fun m f hm hm' => by omega)
    exact ⟨c, q, d, h4, hq, h5⟩
  · obtain ⟨n, q, h4, h5, h6⟩ := h3 hd
    have hn := (List.getElem?_eq_some_iff.1 h4).1
    obtain ⟨c, d, h7, h8⟩ := not_released (k := k) (W := W) (tr := tr) (n := n) (q := q)
      (by rw [h1, List.getElem?_append_left hn]; exact h4)
      (fun m f hm hm' hf => by
        refine h6 m f hm ?_
        rwa [h1, List.getElem?_append_left (by omega)] at hf)
    exact ⟨c, q, d, h7, h5, h8⟩

theorem Hist.not_released {k k' : ι} {a : Loc} (h : Hist W k tr a) (ha : a.Active W) (hk : k ≠ k') :
    ¬ OthersReleased k' W tr := by
  intro ho
  obtain ⟨c, q, d, h1, h2, h3⟩ := h.active ha
  exact h3 (ho k hk c q d h1 h2)

/-- `P` is the word after the stores performed. Proof device; not in the source. -/
structure Val (W : Nat) (M0 P : ByteMem) (tr : List (Ev ι)) (A : State ι) : Prop where
  pend : ∀ k q, (A.loc k).pend = some q → q.stores W →
    ∃ a b, tr = a ++ .acc k q :: b ∧ accepted k b = [] ∧ AgreeW W P (latest M0 a) ∧
      AgreeW W (latest M0 tr) (flat (latest M0 a) q).1
  idle : (∀ k, ¬ (A.loc k).PendStore W) → AgreeW W P (latest M0 tr)
  mem : (∀ k, (A.loc k).copy W ≠ .dirty) → AgreeW W A.mem P
  dirty : ∀ k, (A.loc k).copy W = .dirty → AgreeW W (A.loc k).val P
  fresh : ∀ k, UpToDate k W tr → ¬ (A.loc k).PendAcq W → (A.loc k).copy W ≠ .none → AgreeW W (A.loc k).val P

/-- Proof device; not in the source. -/
structure DInv (W : Nat) (M0 : ByteMem) (tr : List (Ev ι)) (A : State ι) : Prop where
  hist : ∀ k, Hist W k tr (A.loc k)
  one : ∀ k k', (A.loc k).Active W → (A.loc k').Active W → k = k'
  val : ∃ P, Val W M0 P tr A
  wr : ∀ k q, (A.loc k).pend = some q → q.ty = MT.WRITE → q.covers W → UpToDate k W tr

theorem DInv.quiet (h : DInv W M0 tr A) {k : ι} (ho : OthersReleased k W tr) {k' : ι} (hk : k' ≠ k) :
    ¬ (A.loc k').Active W :=
  fun ha => (h.hist k').not_released ha hk ho

theorem DInv.init (W : Nat) (M0 : ByteMem) : DInv W M0 [] (init ι M0) where
  hist _ := ⟨[], rfl, rfl, fun h => by cases h⟩
  one _ _ h := by
    rcases h with ⟨q, h, _⟩ | h <;> cases h
  val := ⟨M0, fun _ _ h => (by cases h), fun _ => .refl _ _, fun _ => .refl _ _, fun _ h => (by cases h),
    fun _ _ _ h => absurd rfl h⟩
  wr _ q h := by cases h

/-- Accepting a request. -/
theorem DInv.accept (h : DInv W M0 tr A) {k : ι} {q : Req} (hp : (A.loc k).pend = none)
    (hd : Disciplined W (tr ++ [.acc k q])) (hal : AmosAligned (tr ++ [.acc k q]))
    (hB : ∀ k', B.loc k' = if k' = k then { A.loc k with pend := some q } else A.loc k') (hm : B.mem = A.mem) :
    DInv W M0 (tr ++ [.acc k q]) B := by
  have hk0 : B.loc k = { A.loc k with pend := some q } := by rw [hB, if_pos rfl]
  have hk1 : ∀ k', k' ≠ k → B.loc k' = A.loc k' := fun k' hk => by rw [hB, if_neg hk]
  have hrel : q.stores W → OthersReleased k W tr := by
    intro hs
    have := hd k tr q [] rfl
    rcases hs with hs | hs
    · exact (this.1 hs).others
    · exact this.2 hs
  have hal' : MT.isAmo q.ty = true → 4 ∣ q.addr := hal k q (by simp)
  have hcopy : ∀ k', (B.loc k').copy = (A.loc k').copy ∧ (B.loc k').val = (A.loc k').val := by
    intro k'
    rw [hB]; split
    · rename_i hk; subst hk; exact ⟨rfl, rfl⟩
    · exact ⟨rfl, rfl⟩
  have hnp : ¬ (A.loc k).PendStore W := by rintro ⟨q, h, _⟩; rw [hp] at h; cases h
  have hact : ∀ k', (B.loc k').Active W → (A.loc k').Active W ∨ (k' = k ∧ q.stores W) := by
    intro k' ha
    by_cases hk : k' = k
    · subst hk
      rcases ha with ⟨q', h1, h2⟩ | h1
      · rw [hk0] at h1
        simp only [Option.some.injEq] at h1
        subst h1
        exact .inr ⟨rfl, h2⟩
      · rw [hk0] at h1; exact .inl (.inr h1)
    · rw [hk1 k' hk] at ha; exact .inl ha
  have hlat : ¬ q.stores W → AgreeW W (latest M0 (tr ++ [.acc k q])) (latest M0 tr) := by
    intro hs; rw [latest_acc]; exact flat_untouched hal' hs
  refine ⟨?_, ?_, ?_, ?_⟩
  · intro k'
    by_cases hk : k' = k
    · subst hk
      obtain ⟨perf, h1, h2, h3⟩ := h.hist k'
      rw [hk0]
      refine ⟨perf, ?_, ?_, h3⟩
      · rw [hp] at h1; simp [h1]
      · simpa using h2
    · obtain ⟨perf, h1, h2, h3⟩ := h.hist k'
      rw [hk1 k' hk]
      refine ⟨perf, ?_, ?_, h3⟩
      · rw [accepted_append, accepted_acc_other (Ne.symm hk), h1]; simp
      · simpa using h2
  · intro k1 k2 h1 h2
    have key : ∀ k', q.stores W → (B.loc k').Active W → k' = k := by
      intro k' hs ha
      refine Decidable.byContradiction fun hk => ?_
      rw [hk1 k' hk] at ha
      exact h.quiet (hrel hs) hk ha
    rcases hact k1 h1 with a1 | ⟨rfl, hs⟩
    · rcases hact k2 h2 with a2 | ⟨rfl, hs⟩
      · exact h.one _ _ a1 a2
      · exact key _ hs h1
    · exact (key _ hs h2).symm
  · obtain ⟨P, v1, v2, v3, v4, v5⟩ := h.val
    refine ⟨P, ?_, ?_, ?_, ?_, ?_⟩
    · intro k' q' hp' hs'
      by_cases hk : k' = k
      · subst hk
        rw [hk0] at hp'
        simp only [Option.some.injEq] at hp'
        subst hp'
        refine ⟨tr, [], rfl, rfl, v2 ?_, by rw [latest_acc]; exact .refl _ _⟩
        intro k2 h2
        by_cases hk2 : k2 = k'
        · subst hk2; exact hnp h2
        · exact h.quiet (hrel hs') hk2 (.inl h2)
      · rw [hk1 k' hk] at hp'
        have hns : ¬ q.stores W := fun hs => h.quiet (hrel hs) hk (.inl ⟨q', hp', hs'⟩)
        obtain ⟨a, b, h1, h2, h3, h4⟩ := v1 k' q' hp' hs'
        refine ⟨a, b ++ [.acc k q], by rw [h1]; simp, ?_, h3, (hlat hns).trans h4⟩
        rw [accepted_append, h2, accepted_acc_other (Ne.symm hk)]; rfl
    · intro hn
      have hns : ¬ q.stores W := fun hs => hn k ⟨q, by rw [hk0], hs⟩
      refine (v2 ?_).trans (hlat hns).symm
      intro k' h'
      by_cases hk : k' = k
      · subst hk; exact hnp h'
      · exact hn k' (by rw [hk1 k' hk]; exact h')
    · intro hn; rw [hm]; exact v3 fun k' => by rw [← (hcopy k').1]; exact hn k'
    · intro k' hd'
      rw [(hcopy k').1] at hd'; rw [(hcopy k').2]; exact v4 k' hd'
    · intro k' hu ha hc
      rw [(hcopy k').1] at hc; rw [(hcopy k').2]
      by_cases hk : k' = k
      · subst hk
        refine v5 k' (hu.shrink ?_) ?_ hc
        · intro i hi hi'
          cases hi
          exact ha ⟨q, by rw [hk0], hi'⟩
        · rintro ⟨i, h1, _⟩; rw [hp] at h1; cases h1
      · refine v5 k' (hu.shrink ?_) ?_ hc
        · intro i hi; cases hi; exact absurd rfl hk
        · rw [hk1 k' hk] at ha; exact ha
  · intro k' q' hp' hw hc
    by_cases hk : k' = k
    · subst hk
      rw [hk0] at hp'
      simp only [Option.some.injEq] at hp'
      subst hp'
      refine ((hd k' tr q [] rfl).1 ⟨hw, hc⟩).grow ?_
      intro k2 q2 he hk2; cases he; exact absurd rfl hk2
    · rw [hk1 k' hk] at hp'
      refine (h.wr k' q' hp' hw hc).grow ?_
      intro k2 q2 he hk2 hs
      cases he
      exact h.quiet (hrel hs) hk (.inl ⟨q', hp', .inl ⟨hw, hc⟩⟩)

/-- Delivering a response. -/
theorem DInv.deliver (h : DInv W M0 tr A) {k : ι} {r : Resp} {l : List Resp} (hd : (A.loc k).done = r :: l)
    (hB : ∀ k', B.loc k' = if k' = k then { A.loc k with done := l } else A.loc k') (hm : B.mem = A.mem) :
    DInv W M0 (tr ++ [.resp k r]) B := by
  have hk0 : B.loc k = { A.loc k with done := l } := by rw [hB, if_pos rfl]
  have hk1 : ∀ k', k' ≠ k → B.loc k' = A.loc k' := fun k' hk => by rw [hB, if_neg hk]
  have hsame : ∀ k', (B.loc k').copy = (A.loc k').copy ∧ (B.loc k').val = (A.loc k').val ∧
      (B.loc k').pend = (A.loc k').pend := by
    intro k'
    rw [hB]; split
    · rename_i hk; subst hk; exact ⟨rfl, rfl, rfl⟩
    · exact ⟨rfl, rfl, rfl⟩
  have hact : ∀ k', (B.loc k').Active W ↔ (A.loc k').Active W := by
    intro k'
    simp only [Loc.Active, Loc.PendStore, (hsame k').1, (hsame k').2.2]
  have hst : ∀ k', (B.loc k').PendStore W ↔ (A.loc k').PendStore W := by
    intro k'
    simp only [Loc.PendStore, (hsame k').2.2]
  have hac : ∀ k', (B.loc k').PendAcq W ↔ (A.loc k').PendAcq W := by
    intro k'
    simp only [Loc.PendAcq, (hsame k').2.2]
  refine ⟨?_, fun k1 k2 h1 h2 => h.one _ _ ((hact _).1 h1) ((hact _).1 h2), ?_, ?_⟩
  · intro k'
    obtain ⟨perf, h1, h2, h3⟩ := h.hist k'
    refine ⟨perf, ?_, ?_, ?_⟩
    · rw [(hsame k').2.2]; simpa using h1
    · by_cases hk : k' = k
      · subst hk; rw [hk0]; simp only [responses_append, responses_resp, responses_nil, List.length_append,
          List.length_cons, List.length_nil]
        rw [hd, List.length_cons] at h2; omega
      · rw [hk1 k' hk, responses_append, responses_resp_other (Ne.symm hk)]; simpa using h2
    · rw [(hsame k').1]; exact h3
  · obtain ⟨P, v1, v2, v3, v4, v5⟩ := h.val
    refine ⟨P, ?_, ?_, ?_, ?_, ?_⟩
    · intro k' q' hp' hs'
      rw [(hsame k').2.2] at hp'
      obtain ⟨a, b, h1, h2, h3, h4⟩ := v1 k' q' hp' hs'
      refine ⟨a, b ++ [.resp k r], by rw [h1]; simp, ?_, h3, by rw [latest_resp]; exact h4⟩
      rw [accepted_append, h2]; simp
    · intro hn
      rw [latest_resp]; exact v2 fun k' => by rw [← hst]; exact hn k'
    · intro hn; rw [hm]; exact v3 fun k' => by rw [← (hsame k').1]; exact hn k'
    · intro k' hd'
      rw [(hsame k').1] at hd'; rw [(hsame k').2.1]; exact v4 k' hd'
    · intro k' hu ha hc
      rw [(hsame k').1] at hc; rw [(hsame k').2.1]
      exact v5 k' (hu.shrink (by intro i hi; cases hi)) (by rwa [hac] at ha) hc
  · intro k' q' hp' hw hc
    rw [(hsame k').2.2] at hp'
    exact (h.wr k' q' hp' hw hc).grow (by intro k2 q2 he; cases he)

/-- A silent step that moves copies: no request is completed. -/
theorem DInv.move (h : DInv W M0 tr A) {k : ι} {a : Loc}
    (hB : ∀ k', B.loc k' = if k' = k then a else A.loc k')
    (hp : a.pend = (A.loc k).pend) (hd : a.done = (A.loc k).done)
    (hdir : a.copy W = .dirty → (A.loc k).copy W = .dirty)
    (hmem : (∀ k', (B.loc k').copy W ≠ .dirty) → ∀ P, Val W M0 P tr A → AgreeW W B.mem P)
    (hval : ∀ P, Val W M0 P tr A → a.copy W = .dirty → AgreeW W a.val P)
    (hfresh : ∀ P, Val W M0 P tr A → UpToDate k W tr → ¬ (A.loc k).PendAcq W → a.copy W ≠ .none → AgreeW W a.val P) :
    DInv W M0 tr B := by
  have hk0 : B.loc k = a := by rw [hB, if_pos rfl]
  have hk1 : ∀ k', k' ≠ k → B.loc k' = A.loc k' := fun k' hk => by rw [hB, if_neg hk]
  have hpe : ∀ k', (B.loc k').pend = (A.loc k').pend := by
    intro k'
    by_cases hk : k' = k
    · subst hk; rw [hk0, hp]
    · rw [hk1 k' hk]
  have hdi : ∀ k', (B.loc k').copy W = .dirty → (A.loc k').copy W = .dirty := by
    intro k'
    by_cases hk : k' = k
    · subst hk; rw [hk0]; exact hdir
    · rw [hk1 k' hk]; exact id
  have hact : ∀ k', (B.loc k').Active W → (A.loc k').Active W := by
    rintro k' (⟨q, h1, h2⟩ | h1)
    · exact .inl ⟨q, by rw [← hpe]; exact h1, h2⟩
    · exact .inr (hdi k' h1)
  refine ⟨?_, fun k1 k2 h1 h2 => h.one _ _ (hact _ h1) (hact _ h2), ?_, ?_⟩
  · intro k'
    obtain ⟨perf, h1, h2, h3⟩ := h.hist k'
    refine ⟨perf, by rw [hpe]; exact h1, ?_, fun h4 => h3 (hdi k' h4)⟩
    by_cases hk : k' = k
    · subst hk; rw [hk0, hd]; exact h2
    · rw [hk1 k' hk]; exact h2
  · obtain ⟨P, v⟩ := h.val
    refine ⟨P, ?_, ?_, fun hn => hmem hn P v, ?_, ?_⟩
    · intro k' q' hp' hs'
      rw [hpe] at hp'; exact v.pend k' q' hp' hs'
    · intro hn
      exact v.idle fun k' ⟨q, h1, h2⟩ => hn k' ⟨q, by rw [hpe]; exact h1, h2⟩
    · intro k' hd'
      by_cases hk : k' = k
      · subst hk; rw [hk0] at hd' ⊢; exact hval P v hd'
      · rw [hk1 k' hk] at hd' ⊢; exact v.dirty k' hd'
    · intro k' hu ha hc
      have ha' : ¬ (A.loc k').PendAcq W := fun ⟨q, h1, h2⟩ => ha ⟨q, by rw [hpe]; exact h1, h2⟩
      by_cases hk : k' = k
      · subst hk; rw [hk0] at hc ⊢; exact hfresh P v hu ha' hc
      · rw [hk1 k' hk] at hc ⊢; exact v.fresh k' hu ha' hc
  · intro k' q' hp' hw hc
    rw [hpe] at hp'
    exact h.wr k' q' hp' hw hc

/-- A request that does not store to `W` is completed. -/
theorem DInv.other (h : DInv W M0 tr A) {k : ι} {a : Loc} {q : Req} {r : Resp}
    (hB : ∀ k', B.loc k' = if k' = k then a else A.loc k')
    (hpq : (A.loc k).pend = some q) (hns : ¬ q.stores W)
    (hp : a.pend = none) (hd : a.done = (A.loc k).done ++ [r])
    (hdir : a.copy W = .dirty ↔ (A.loc k).copy W = .dirty) (hnone : a.copy W ≠ .none → (A.loc k).copy W ≠ .none)
    (hmem : AgreeW W B.mem A.mem) (hval : AgreeW W a.val (A.loc k).val)
    (hrel : q.releases W → a.copy W ≠ .dirty) (hacq : q.acquires W → a.copy W ≠ .none → a.copy W = .dirty) :
    DInv W M0 tr B := by
  have hk0 : B.loc k = a := by rw [hB, if_pos rfl]
  have hk1 : ∀ k', k' ≠ k → B.loc k' = A.loc k' := fun k' hk => by rw [hB, if_neg hk]
  have hdi : ∀ k', (B.loc k').copy W = .dirty ↔ (A.loc k').copy W = .dirty := by
    intro k'
    by_cases hk : k' = k
    · subst hk; rw [hk0]; exact hdir
    · rw [hk1 k' hk]
  have hpe : ∀ k' q', (B.loc k').pend = some q' → (A.loc k').pend = some q' := by
    intro k' q' h1
    by_cases hk : k' = k
    · subst hk; rw [hk0, hp] at h1; cases h1
    · rwa [hk1 k' hk] at h1
  have hst : ∀ k', (A.loc k').PendStore W → (B.loc k').PendStore W := by
    rintro k' ⟨q', h1, h2⟩
    by_cases hk : k' = k
    · subst hk; rw [hpq] at h1; cases h1; exact absurd h2 hns
    · exact ⟨q', by rw [hk1 k' hk]; exact h1, h2⟩
  have hact : ∀ k', (B.loc k').Active W → (A.loc k').Active W := by
    rintro k' (⟨q, h1, h2⟩ | h1)
    · exact .inl ⟨q, hpe _ _ h1, h2⟩
    · exact .inr ((hdi k').1 h1)
  refine ⟨?_, fun k1 k2 h1 h2 => h.one _ _ (hact _ h1) (hact _ h2), ?_, ?_⟩
  · intro k'
    obtain ⟨perf, h1, h2, h3⟩ := h.hist k'
    by_cases hk : k' = k
    · subst hk
      rw [hk0]
      refine ⟨perf ++ [q], ?_, ?_, ?_⟩
      · rw [h1, hpq, hp]; simp
      · rw [hd]; simp [h2]; omega
      · intro h4
        obtain ⟨n, q', h5, h6, h7⟩ := h3 (hdir.1 h4)
        have hn := (List.getElem?_eq_some_iff.1 h5).1
        refine ⟨n, q', by rw [List.getElem?_append_left hn]; exact h5, h6, ?_⟩
        intro m f hm hf
        by_cases hm' : m < perf.length
        · rw [List.getElem?_append_left hm'] at hf; exact h7 m f hm hf
        · rw [List.getElem?_append_right (by omega)] at hf
          have := (List.getElem?_eq_some_iff.1 hf).1
          simp only [List.length_singleton] at this
          rw [show m - perf.length = 0 by omega] at hf
          simp only [List.getElem?_cons_zero, Option.some.injEq] at hf
          subst hf
          exact fun hr => hrel hr h4
    · rw [hk1 k' hk]; exact ⟨perf, h1, h2, h3⟩
  · obtain ⟨P, v⟩ := h.val
    refine ⟨P, ?_, ?_, ?_, ?_, ?_⟩
    · intro k' q' hp' hs'
      exact v.pend k' q' (hpe _ _ hp') hs'
    · intro hn
      exact v.idle fun k' h' => hn k' (hst k' h')
    · intro hn
      exact hmem.trans (v.mem fun k' h' => hn k' ((hdi k').2 h'))
    · intro k' hd'
      by_cases hk : k' = k
      · subst hk; rw [hk0] at hd' ⊢; exact hval.trans (v.dirty k' (hdir.1 hd'))
      · rw [hk1 k' hk] at hd' ⊢; exact v.dirty k' hd'
    · intro k' hu ha hc
      by_cases hk : k' = k
      · subst hk; rw [hk0] at hc ⊢
        refine hval.trans ?_
        by_cases hq : q.acquires W
        · exact v.dirty k' (hdir.1 (hacq hq hc))
        · refine v.fresh k' hu ?_ (hnone hc)
          rintro ⟨q', h1, h2⟩
          rw [hpq] at h1; cases h1; exact hq h2
      · rw [hk1 k' hk] at hc ha ⊢; exact v.fresh k' hu ha hc
  · intro k' q' hp' hw hc
    exact h.wr k' q' (hpe _ _ hp') hw hc

/-- A store to `W` is performed. -/
theorem DInv.store (h : DInv W M0 tr A) {k : ι} {a : Loc} {q : Req} {r : Resp}
    (hB : ∀ k', B.loc k' = if k' = k then a else A.loc k')
    (hpq : (A.loc k).pend = some q) (hs : q.stores W) (hal : MT.isAmo q.ty = true → 4 ∣ q.addr)
    (hp : a.pend = none) (hd : a.done = (A.loc k).done ++ [r])
    (hw : (q.ty = MT.WRITE ∧ a.copy W = .dirty ∧ (A.loc k).copy W ≠ .none ∧ a.val = (flat (A.loc k).val q).1) ∨
      (MT.isAmo q.ty = true ∧ a.copy W = .none ∧ (A.loc k).copy W = .none ∧ B.mem = (flat A.mem q).1)) :
    DInv W M0 tr B := by
  have hk0 : B.loc k = a := by rw [hB, if_pos rfl]
  have hk1 : ∀ k', k' ≠ k → B.loc k' = A.loc k' := fun k' hk => by rw [hB, if_neg hk]
  have hak : (A.loc k).Active W := .inl ⟨q, hpq, hs⟩
  have hoth : ∀ k', k' ≠ k → ¬ (A.loc k').Active W := fun k' hk ha => hk (h.one _ _ ha hak)
  have hpe : ∀ k' q', (B.loc k').pend = some q' → k' ≠ k ∧ (A.loc k').pend = some q' := by
    intro k' q' h1
    by_cases hk : k' = k
    · subst hk; rw [hk0, hp] at h1; cases h1
    · rw [hk1 k' hk] at h1; exact ⟨hk, h1⟩
  have hact : ∀ k', (B.loc k').Active W → k' = k := by
    intro k' ha
    refine Decidable.byContradiction fun hk => ?_
    rw [hk1 k' hk] at ha
    exact hoth k' hk ha
  refine ⟨?_, fun k1 k2 h1 h2 => (hact _ h1).trans (hact _ h2).symm, ?_, ?_⟩
  · intro k'
    obtain ⟨perf, h1, h2, h3⟩ := h.hist k'
    by_cases hk : k' = k
    · subst hk
      rw [hk0]
      refine ⟨perf ++ [q], ?_, ?_, ?_⟩
      · rw [h1, hpq, hp]; simp
      · rw [hd]; simp [h2]; omega
      · intro h4
        refine ⟨perf.length, q, by simp, hs, ?_⟩
        intro m f hm hf
        have hm' := (List.getElem?_eq_some_iff.1 hf).1
        simp only [List.length_append, List.length_singleton] at hm'
        rw [show m = perf.length by omega] at hf
        simp only [List.getElem?_concat_length, Option.some.injEq] at hf
        subst hf
        rcases hw with ⟨ty, _⟩ | ⟨_, hn, _⟩
        · rintro (hr | ⟨hr, _⟩)
          · rw [ty] at hr; cases hr
          · exact write_not_amo ty hr
        · rw [h4] at hn; cases hn
    · rw [hk1 k' hk]; exact ⟨perf, h1, h2, h3⟩
  · obtain ⟨P, v⟩ := h.val
    obtain ⟨a1, b1, t1, t2, t3, t4⟩ := v.pend k q hpq hs
    have hP : AgreeW W (flat P q).1 (latest M0 tr) := (flat_agree t3 hal hs).trans t4.symm
    -- nobody else is up to date
    have hnu : ∀ k', k' ≠ k → ¬ UpToDate k' W tr := fun k' hk hu =>
      (h.hist k).not_released hak (Ne.symm hk) hu.others
    have hwv : q.ty = MT.WRITE → AgreeW W (A.loc k).val P := by
      intro ty
      rcases hs with ⟨_, hc⟩ | ⟨ha, _⟩
      · refine v.fresh k (h.wr k q hpq ty hc) ?_ ?_
        · rintro ⟨q', h1, h2⟩
          rw [hpq] at h1; cases h1
          rcases h2 with h2 | ⟨h2, _⟩
          · rw [ty] at h2; cases h2
          · exact write_not_amo ty h2
        · rcases hw with ⟨_, _, h1, _⟩ | ⟨ha, _⟩
          · exact h1
          · exact absurd ha (write_not_amo ty)
      · exact absurd ha (write_not_amo ty)
    refine ⟨(flat P q).1, ?_, fun _ => hP, ?_, ?_, ?_⟩
    · intro k' q' hp' hs'
      obtain ⟨hk, h1⟩ := hpe _ _ hp'
      exact absurd (.inl ⟨q', h1, hs'⟩) (hoth k' hk)
    · intro hn
      rcases hw with ⟨_, hd', _⟩ | ⟨ty, hn', hn0, hm⟩
      · exact absurd hd' (by rw [← hk0]; exact hn k)
      · rw [hm]
        refine flat_agree (v.mem ?_) hal hs
        intro k' h'
        by_cases hk : k' = k
        · subst hk; rw [h'] at hn0; cases hn0
        · exact hoth k' hk (.inr h')
    · intro k' hd'
      have hk := hact k' (.inr hd')
      subst hk
      rw [hk0] at hd' ⊢
      rcases hw with ⟨ty, _, _, hv⟩ | ⟨_, hn, _⟩
      · rw [hv]; exact flat_agree (hwv ty) hal hs
      · rw [hd'] at hn; cases hn
    · intro k' hu ha hc
      by_cases hk : k' = k
      · subst hk
        rw [hk0] at hc ⊢
        rcases hw with ⟨ty, _, _, hv⟩ | ⟨_, hn, _⟩
        · rw [hv]; exact flat_agree (hwv ty) hal hs
        · exact absurd hn hc
      · exact absurd hu (hnu k' hk)
  · intro k' q' hp' hw' hc
    obtain ⟨hk, h1⟩ := hpe _ _ hp'
    exact h.wr k' q' h1 hw' hc

end Verif.WM
