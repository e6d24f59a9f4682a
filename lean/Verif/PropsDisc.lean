import Verif.WDisc
import Verif.Det
import Verif.HetLemmas

/-!
# C65: software coherence for caches of any shapes
-/

set_option linter.unusedSectionVars false

namespace Verif.WM
variable {ι : Type} [DecidableEq ι] {W : Nat} {M0 : ByteMem} {tr : List (Ev ι)} {A B : State ι}

theorem pend_accepted {k : ι} {q : Req} (h : DInv W M0 tr A) (hp : (A.loc k).pend = some q) : q ∈ accepted k tr := by
  obtain ⟨perf, h1, _⟩ := h.hist k
  rw [h1, hp]; simp

theorem DInv.step {ev : List (Ev ι)} (h : DInv W M0 tr A) (hs : Step A ev B) (hd : Disciplined W (tr ++ ev))
    (hal : AmosAligned (tr ++ ev)) : DInv W M0 (tr ++ ev) B := by
  cases hs with
  | mk k e a M hl =>
    have hB : ∀ k', (⟨fun k' => if k' = k then a else A.loc k', M⟩ : State ι).loc k' =
      if k' = k then a else A.loc k' := fun _ => rfl
    cases hl with
    | accept q hp => exact h.accept hp hd hal hB rfl
    | deliver r l hdn => exact h.deliver hdn hB rfl
    | fetch q Bw hp hq hBw =>
      simp only [List.map_nil, List.append_nil] at hd hal ⊢
      refine h.move (k := k) hB rfl rfl ?_ ?_ ?_ ?_
      · intro h1
        simp only at h1
        split at h1
        · cases h1
        · exact h1
      · intro hn P v
        refine v.mem fun k' h' => ?_
        refine hn k' ?_
        by_cases hk : k' = k
        · subst hk
          simp only [if_true]
          rw [if_neg]
          · exact h'
          · intro hb; rw [hBw W hb] at h'; cases h'
        · simp only [if_neg hk]; exact h'
      · intro P v h1
        simp only at h1
        split at h1
        · cases h1
        · rename_i hb
          refine AgreeW.trans ?_ (v.dirty k h1)
          intro x hx
          simp only; rw [hx, if_neg hb]
      · intro P v hu ha hc
        by_cases hb : Bw W = true
        · refine AgreeW.trans (M' := A.mem) ?_ (v.mem ?_)
          · intro x hx
            simp only; rw [hx, if_pos hb]
          · intro k' h'
            by_cases hk : k' = k
            · subst hk; rw [hBw W hb] at h'; cases h'
            · exact h.quiet hu.others hk (.inr h')
        · simp only [if_neg hb] at hc
          refine AgreeW.trans ?_ (v.fresh k hu ha hc)
          intro x hx
          simp only; rw [hx, if_neg hb]
    | drop q Bw hp hq hBw =>
      simp only [List.map_nil, List.append_nil] at hd hal ⊢
      refine h.move (k := k) hB rfl rfl ?_ ?_ ?_ ?_
      · intro h1
        simp only at h1
        split at h1
        · cases h1
        · exact h1
      · intro hn P v
        refine v.mem fun k' h' => ?_
        refine hn k' ?_
        by_cases hk : k' = k
        · subst hk
          simp only [if_true]
          rw [if_neg]
          · exact h'
          · intro hb; rw [hBw W hb] at h'; cases h'
        · simp only [if_neg hk]; exact h'
      · intro P v h1
        simp only at h1
        split at h1
        · cases h1
        · exact v.dirty k h1
      · intro P v hu ha hc
        simp only at hc
        split at hc
        · exact absurd rfl hc
        · exact v.fresh k hu ha hc
    | save q Bw hp hq hBw =>
      simp only [List.map_nil, List.append_nil] at hd hal ⊢
      refine h.move (k := k) hB rfl rfl ?_ ?_ ?_ ?_
      · intro h1
        simp only at h1
        split at h1
        · cases h1
        · exact h1
      · intro hn P v
        by_cases hb : Bw W = true
        · refine AgreeW.trans ?_ (v.dirty k (hBw W hb))
          intro x hx
          simp only; rw [hx, if_pos hb]
        · refine AgreeW.trans (M' := A.mem) ?_ (v.mem ?_)
          · intro x hx
            simp only; rw [hx, if_neg hb]
          · intro k' h'
            refine hn k' ?_
            by_cases hk : k' = k
            · subst hk
              simp only [if_true]
              rw [if_neg hb]; exact h'
            · simp only [if_neg hk]; exact h'
      · intro P v h1
        simp only at h1
        split at h1
        · cases h1
        · exact v.dirty k h1
      · intro P v hu ha hc
        by_cases hb : Bw W = true
        · exact v.dirty k (hBw W hb)
        · simp only [if_neg hb] at hc
          exact v.fresh k hu ha hc
    | read q hp hq hc =>
      simp only [List.map_nil, List.append_nil] at hd hal ⊢
      refine h.other (k := k) hB hp ?_ rfl rfl Iff.rfl id (.refl _ _) (.refl _ _) ?_ ?_
      · rintro (⟨h1, _⟩ | ⟨h1, _⟩)
        · rw [hq] at h1; cases h1
        · exact read_not_amo hq h1
      · rintro (h1 | ⟨h1, _⟩)
        · rw [hq] at h1; cases h1
        · exact absurd h1 (read_not_amo hq)
      · rintro (h1 | ⟨h1, _⟩)
        · rw [hq] at h1; cases h1
        · exact absurd h1 (read_not_amo hq)
    | write q hp hq hc =>
      simp only [List.map_nil, List.append_nil] at hd hal ⊢
      by_cases hcW : q.covers W
      · refine h.store (k := k) hB hp (.inl ⟨hq, hcW⟩) (hal k q (pend_accepted h hp)) rfl rfl (.inl ⟨hq, ?_, hc W hcW, ?_⟩)
        · simp only [Loc.reply]; rw [if_pos hcW]
        · rw [flat_write hq]; rfl
      · refine h.other (k := k) hB hp ?_ rfl rfl ?_ ?_ (.refl _ _) ?_ ?_ ?_
        · rintro (⟨_, h1⟩ | ⟨h1, _⟩)
          · exact hcW h1
          · exact write_not_amo hq h1
        · simp only [Loc.reply]; rw [if_neg hcW]
        · simp only [Loc.reply]; rw [if_neg hcW]; exact id
        · exact writeLE_untouched hcW
        · rintro (h1 | ⟨h1, _⟩)
          · rw [hq] at h1; cases h1
          · exact absurd h1 (write_not_amo hq)
        · rintro (h1 | ⟨h1, _⟩)
          · rw [hq] at h1; cases h1
          · exact absurd h1 (write_not_amo hq)
    | amo q hp hq hc =>
      simp only [List.map_nil, List.append_nil] at hd hal ⊢
      have hal' := hal k q (pend_accepted h hp)
      by_cases hW : q.addr / 4 = W
      · subst hW
        refine h.store (k := k) hB hp (.inr ⟨hq, rfl⟩) hal' rfl rfl (.inr ⟨hq, hc, hc, ?_⟩)
        rw [flat_amo hq]
      · refine h.other (k := k) hB hp ?_ rfl rfl Iff.rfl id ?_ (.refl _ _) ?_ ?_
        · rintro (⟨h1, _⟩ | ⟨_, h1⟩)
          · exact amo_not_write hq h1
          · exact hW h1
        · refine writeLE_untouched ?_
          have := hal' hq
          omega
        · rintro (h1 | ⟨_, h1⟩)
          · exact absurd hq (flush_not_amo h1)
          · exact absurd h1 hW
        · rintro (h1 | ⟨_, h1⟩)
          · exact absurd hq (inv_not_amo h1)
          · exact absurd h1 hW
    | inv q hp hq =>
      simp only [List.map_nil, List.append_nil] at hd hal ⊢
      refine h.other (k := k) hB hp ?_ rfl rfl ?_ ?_ (.refl _ _) (.refl _ _) ?_ ?_
      · rintro (⟨h1, _⟩ | ⟨h1, _⟩)
        · rw [hq] at h1; cases h1
        · exact inv_not_amo hq h1
      · simp only [Loc.reply]
        by_cases hcl : (A.loc k).copy W = .clean
        · rw [if_pos hcl, hcl]; simp
        · rw [if_neg hcl]
      · simp only [Loc.reply]
        by_cases hcl : (A.loc k).copy W = .clean
        · rw [if_pos hcl]; simp
        · rw [if_neg hcl]; exact id
      · rintro (h1 | ⟨h1, _⟩)
        · rw [hq] at h1; cases h1
        · exact absurd h1 (inv_not_amo hq)
      · intro _
        simp only [Loc.reply]
        cases hcc : (A.loc k).copy W <;> simp
    | flush q hp hq hc =>
      simp only [List.map_nil, List.append_nil] at hd hal ⊢
      refine h.other (k := k) hB hp ?_ rfl rfl Iff.rfl id (.refl _ _) (.refl _ _) ?_ ?_
      · rintro (⟨h1, _⟩ | ⟨h1, _⟩)
        · rw [hq] at h1; cases h1
        · exact flush_not_amo hq h1
      · exact fun _ => hc W
      · rintro (h1 | ⟨h1, _⟩)
        · rw [hq] at h1; cases h1
        · exact absurd h1 (flush_not_amo hq)

theorem DInv.run (h : Run (WM.init ι M0) tr A) (hd : Disciplined W tr) (hal : AmosAligned tr) : DInv W M0 tr A := by
  generalize hT : WM.init ι M0 = T at h
  induction h with
  | refl => subst hT; exact DInv.init W M0
  | snoc _ hs ih => exact (ih hd.prefix hal.prefix).step hs hd hal

/-! ## Counting -/

/-- Requests performed are those answered and those with a response waiting. Proof device; not in the source. -/
def Count (k : ι) (tr : List (Ev ι)) (a : Loc) : Prop :=
  ∃ perf : List Req, accepted k tr = perf ++ a.pend.toList ∧ perf.length = (responses k tr).length + a.done.length

/-- What a step does to the cache that takes it: no request completed, or the request
worked on completed. Proof device; not in the source. -/
inductive Silent (A : State ι) (k : ι) (a : Loc) : Prop
  | move (hp : a.pend = (A.loc k).pend) (hd : a.done = (A.loc k).done)
  | perform (q : Req) (d : Nat) (hq : (A.loc k).pend = some q) (hp : a.pend = none)
      (hd : a.done = (A.loc k).done ++ [⟨q.ty, q.opq, q.len, d⟩])
      (h : (q.ty = MT.READ ∧ (∀ W, q.covers W → (A.loc k).copy W ≠ .none) ∧ d = readLE (A.loc k).val q.addr q.bytes) ∨
        (MT.isAmo q.ty = true ∧ (A.loc k).copy (q.addr / 4) = .none ∧ d = readLE A.mem q.addr 4) ∨
        (∀ M, (flat M q).2 = d))

/-- The three kinds of steps. -/
theorem step_cases {ev : List (Ev ι)} (hs : Step A ev B) : ∃ k a, (∀ k', B.loc k' = if k' = k then a else A.loc k') ∧
    ((∃ q, ev = [.acc k q] ∧ (A.loc k).pend = none ∧ a = { A.loc k with pend := some q }) ∨
     (∃ r l, ev = [.resp k r] ∧ (A.loc k).done = r :: l ∧ a = { A.loc k with done := l }) ∨
     (ev = [] ∧ Silent A k a)) := by
  cases hs with
  | mk k e a M hl =>
    refine ⟨k, a, fun _ => rfl, ?_⟩
    cases hl with
    | accept q hp => exact .inl ⟨q, rfl, hp, rfl⟩
    | deliver r l hdn => exact .inr (.inl ⟨r, l, rfl, hdn, rfl⟩)
    | fetch q Bw hp hq hBw => exact .inr (.inr ⟨rfl, .move rfl rfl⟩)
    | drop q Bw hp hq hBw => exact .inr (.inr ⟨rfl, .move rfl rfl⟩)
    | save q Bw hp hq hBw => exact .inr (.inr ⟨rfl, .move rfl rfl⟩)
    | read q hp hq hc => exact .inr (.inr ⟨rfl, .perform q _ hp rfl rfl (.inl ⟨hq, hc, rfl⟩)⟩)
    | write q hp hq hc =>
      exact .inr (.inr ⟨rfl, .perform q _ hp rfl rfl (.inr (.inr fun M => by rw [flat_write hq]))⟩)
    | amo q hp hq hc => exact .inr (.inr ⟨rfl, .perform q _ hp rfl rfl (.inr (.inl ⟨hq, hc, rfl⟩))⟩)
    | inv q hp hq =>
      exact .inr (.inr ⟨rfl, .perform q _ hp rfl rfl (.inr (.inr fun M => by
        rw [flat_other (by rw [hq]; decide) (by rw [hq]; decide) (by rw [hq]; decide)]))⟩)
    | flush q hp hq hc =>
      exact .inr (.inr ⟨rfl, .perform q _ hp rfl rfl (.inr (.inr fun M => by
        rw [flat_other (by rw [hq]; decide) (by rw [hq]; decide) (by rw [hq]; decide)]))⟩)

theorem count_run (h : Run (init ι M0) tr A) (k : ι) : Count k tr (A.loc k) := by
  generalize hT : init ι M0 = T at h
  induction h with
  | refl => subst hT; exact ⟨[], rfl, rfl⟩
  | snoc _ hs ih =>
    obtain ⟨perf, h1, h2⟩ := ih
    obtain ⟨k', a, hB, h⟩ := step_cases hs
    by_cases hk : k = k'
    · subst hk
      rw [hB, if_pos rfl]
      rcases h with ⟨q, rfl, hp, rfl⟩ | ⟨r, l, rfl, hd, rfl⟩ | ⟨rfl, h⟩
      · exact ⟨perf, by rw [hp] at h1; simp [h1], by simpa using h2⟩
      · refine ⟨perf, by simpa using h1, ?_⟩
        rw [hd, List.length_cons] at h2
        simp; omega
      · rw [List.append_nil]
        cases h with
        | move hp hd => exact ⟨perf, by rw [hp]; exact h1, by rw [hd]; exact h2⟩
        | perform q d hq hp hd _ =>
          refine ⟨perf ++ [q], ?_, ?_⟩
          · rw [h1, hq, hp]; simp
          · rw [hd]; simp; omega
    · rw [hB, if_neg hk]
      rcases h with ⟨q, rfl, _⟩ | ⟨r, l, rfl, _⟩ | ⟨rfl, _⟩
      · exact ⟨perf, by simp [accepted_acc_other (Ne.symm hk), h1], by simpa using h2⟩
      · exact ⟨perf, by simpa using h1, by simp [responses_resp_other (Ne.symm hk), h2]⟩
      · exact ⟨perf, by simpa using h1, by simpa using h2⟩

/-! ## Data -/

theorem reads_covers {q : Req} {x : Nat} (h1 : q.addr ≤ x) (h2 : x < q.addr + q.bytes) : q.covers (x / 4) := by
  constructor <;> omega

/-- A READ performed after the stores it has to see. -/
theorem read_data {k : ι} {a b : List (Ev ι)} {q : Req} (h : Run (init ι M0) (a ++ .acc k q :: b) A)
    (hal : AmosAligned (a ++ .acc k q :: b)) (ty : q.ty = MT.READ)
    (hw : ∀ W, q.covers W → Disciplined W (a ++ .acc k q :: b) ∧ UpToDate k W a ∧ NoRace k W a q b)
    (hp : (A.loc k).pend = some q) (hb : accepted k b = []) (hc : ∀ W, q.covers W → (A.loc k).copy W ≠ .none) :
    readLE (A.loc k).val q.addr q.bytes = readLE (latest M0 a) q.addr q.bytes := by
  refine readLE_agree fun x h1 h2 => ?_
  have hcx := reads_covers h1 h2
  obtain ⟨hd, hu, hr⟩ := hw _ hcx
  have inv := DInv.run (W := x / 4) h hd hal
  have hns : ∀ W, ¬ q.stores W := by
    rintro W (⟨h1, _⟩ | ⟨h1, _⟩)
    · rw [ty] at h1; cases h1
    · exact read_not_amo ty h1
  -- not answered yet
  have hna : (responses k (a ++ .acc k q :: b)).length ≤ (accepted k a).length := by
    obtain ⟨perf, c1, c2⟩ := count_run h k
    have := congrArg List.length c1
    rw [hp] at this
    simp [hb] at this
    simp at c2 ⊢; omega
  have hst : ∀ k' q' c d, .acc k q :: b = c ++ .acc k' q' :: d → ¬ q'.stores (x / 4) := by
    intro k' q' c d he hs
    cases c with
    | nil => simp at he; obtain ⟨⟨rfl, rfl⟩, _⟩ := he; exact hns _ hs
    | cons e c =>
      simp only [List.cons_append, List.cons.injEq] at he
      obtain ⟨rfl, rfl⟩ := he
      by_cases hk : k' = k
      · subst hk; simp at hb
      · have := hr k' hk c q' d rfl hs
        simp at this hna; omega
  have hu' : UpToDate k (x / 4) (a ++ .acc k q :: b) := hu.grow' fun k' q' c d he _ => hst k' q' c d he
  obtain ⟨P, v⟩ := inv.val
  have v1 := v.fresh k hu' (by
    rintro ⟨q', h1, h2⟩
    rw [hp] at h1; cases h1
    rcases h2 with h2 | ⟨h2, _⟩
    · rw [ty] at h2; cases h2
    · exact read_not_amo ty h2) (hc _ hcx)
  have v2 := v.idle (by
    rintro k' ⟨q', h1, h2⟩
    by_cases hk : k' = k
    · subst hk; rw [hp] at h1; cases h1; exact hns _ h2
    · exact inv.quiet hu'.others hk (.inl ⟨q', h1, h2⟩))
  exact (v1.trans (v2.trans (latest_untouched hal hst))) x rfl

/-- An AMO performed. -/
theorem amo_data {k : ι} {a b : List (Ev ι)} {q : Req} (h : Run (init ι M0) (a ++ .acc k q :: b) A)
    (hal : AmosAligned (a ++ .acc k q :: b)) (ty : MT.isAmo q.ty = true)
    (hd : Disciplined (q.addr / 4) (a ++ .acc k q :: b))
    (hp : (A.loc k).pend = some q) (hb : accepted k b = []) (hc : (A.loc k).copy (q.addr / 4) = .none) :
    readLE A.mem q.addr 4 = readLE (latest M0 a) q.addr 4 := by
  have inv := DInv.run (W := q.addr / 4) h hd hal
  have hs : q.stores (q.addr / 4) := .inr ⟨ty, rfl⟩
  obtain ⟨P, v⟩ := inv.val
  obtain ⟨a', b', h1, h2, h3, _⟩ := v.pend k q hp hs
  have hl : (accepted k a).length = (accepted k a').length := by
    have := congrArg (fun t => (accepted k t).length) h1
    simp [hb, h2] at this; exact this
  obtain ⟨rfl, _, _⟩ := split_unique h1 hl
  refine readLE_word ((v.mem ?_).trans h3) rfl (hal k q (by simp) ty)
  intro k' h'
  by_cases hk : k' = k
  · subst hk; rw [hc] at h'; cases h'
  · exact hk (inv.one k' k (.inr h') (.inl ⟨q, hp, hs⟩))

/-- Data of all responses, delivered or not. -/
theorem reply_run (h : Run (init ι M0) tr A) (hal : AmosAligned tr) {k : ι} {a b : List (Ev ι)} {q : Req}
    (htr : tr = a ++ .acc k q :: b)
    (hw : ∀ W, q.reads W → Disciplined W tr ∧ (q.ty = MT.READ → UpToDate k W a ∧ NoRace k W a q b))
    {r : Resp} (hr : (responses k tr ++ (A.loc k).done)[(accepted k a).length]? = some r) :
    r = ⟨q.ty, q.opq, q.len, (flat (latest M0 a) q).2⟩ := by
  induction h generalizing b with
  | refl => simp at htr
  | @snoc A' A'' tr ev h hs ih =>
    obtain ⟨k', a', hB, hst⟩ := step_cases hs
    -- the conditions for the shorter history
    have hshort : ∀ {e b'}, ev = [e] → b = b' ++ [e] → tr = a ++ .acc k q :: b' →
        ∀ W, q.reads W → Disciplined W tr ∧ (q.ty = MT.READ → UpToDate k W a ∧ NoRace k W a q b') := by
      intro e b' he hb' ht W hW
      obtain ⟨h1, h2⟩ := hw W hW
      refine ⟨h1.prefix, fun ty => ⟨(h2 ty).1, ?_⟩⟩
      intro k2 hk2 c q2 d hc hs2
      exact (h2 ty).2 k2 hk2 c q2 (d ++ [e]) (by rw [hb', hc]; simp) hs2
    obtain ⟨perf, c1, c2⟩ := count_run h k
    rcases hst with ⟨q', rfl, hp, rfl⟩ | ⟨r', l, rfl, hd, rfl⟩ | ⟨rfl, hst⟩
    · -- accept
      have hdn : (A''.loc k).done = (A'.loc k).done := by
        rw [hB]; split
        · rename_i hk; subst hk; rfl
        · rfl
      rcases snoc_split htr with ⟨rfl, he, rfl⟩ | ⟨b', hb', ht⟩
      · cases he
        exfalso
        rw [hp] at c1
        have := congrArg List.length c1
        have hr' := (List.getElem?_eq_some_iff.1 hr).1
        rw [hdn] at hr'
        simp at this hr'
        omega
      · refine ih hal.prefix ht (hshort rfl hb' ht) ?_
        rw [hdn] at hr; simpa using hr
    · -- deliver
      rcases snoc_split htr with ⟨_, he, _⟩ | ⟨b', hb', ht⟩
      · cases he
      · refine ih hal.prefix ht (hshort rfl hb' ht) ?_
        rw [hB] at hr
        by_cases hk : k = k'
        · subst hk
          rw [if_pos rfl] at hr
          rw [hd]; simpa using hr
        · rw [if_neg hk] at hr
          simpa [responses_resp_other (Ne.symm hk)] using hr
    · simp only [List.append_nil] at htr hal hw hr
      have hih := ih hal htr hw
      rw [hB] at hr
      by_cases hk : k = k'
      · subst hk
        rw [if_pos rfl] at hr
        cases hst with
        | move hp hd => rw [hd] at hr; exact hih hr
        | perform q' d hq hp hd hcase =>
          rw [hd, ← List.append_assoc] at hr
          by_cases hn : (accepted k a).length < (responses k tr ++ (A'.loc k).done).length
          · rw [List.getElem?_append_left hn] at hr; exact hih hr
          · rw [List.getElem?_append_right (by omega)] at hr
            have hlt := (List.getElem?_eq_some_iff.1 hr).1
            rw [show (accepted k a).length - (responses k tr ++ (A'.loc k).done).length = 0 by
              simp only [List.length_singleton] at hlt; omega] at hr
            simp only [List.getElem?_cons_zero, Option.some.injEq] at hr
            have hn' : (accepted k a).length = perf.length := by
              simp only [List.length_append, List.length_singleton] at hlt hn; omega
            rw [htr, hq, accepted_append, accepted_acc] at c1
            have c3 := List.append_inj c1 hn'
            simp only [Option.toList_some, List.cons.injEq] at c3
            obtain ⟨_, rfl, hb⟩ := c3
            rw [← hr]
            congr 1
            subst htr
            rcases hcase with ⟨ty, hc, rfl⟩ | ⟨ty, hc, rfl⟩ | hf
            · rw [flat_read ty]
              exact read_data h hal ty (fun W hW => ⟨(hw W (.inl ⟨ty, hW⟩)).1, (hw W (.inl ⟨ty, hW⟩)).2 ty⟩) hq hb hc
            · rw [flat_amo ty]
              exact amo_data h hal ty (hw _ (.inr ⟨ty, rfl⟩)).1 hq hb hc
            · exact (hf _).symm
      · rw [if_neg hk] at hr; exact hih hr

end Verif.WM

namespace Verif
variable {ι : Type} [DecidableEq ι] {p : ι → Params}

theorem visible_acc {tr : List (HEv ι p)} {k : ι} {q : WM.Req} (h : q ∈ WM.accepted k (visible tr)) :
    ∃ q' : CReq (p k), (⟨k, .acc () q'⟩ : HEv ι p) ∈ tr ∧ q = q'.req := by
  simp only [WM.accepted, visible, List.mem_filterMap] at h
  obtain ⟨e, ⟨⟨k', e'⟩, he, h1⟩, h2⟩ := h
  cases e' with
  | acc u q' =>
    simp only [Ev.local, Option.map_some, Option.some.injEq] at h1
    subst h1
    simp only [WM.LEv.at] at h2
    split at h2
    · rename_i hk; subst hk
      simp only [Option.some.injEq] at h2
      exact ⟨q', he, h2.symm⟩
    · cases h2
  | mreq => simp [Ev.local] at h1
  | exec => simp [Ev.local] at h1
  | resp u r =>
    simp only [Ev.local, Option.map_some, Option.some.injEq] at h1
    subst h1
    simp [WM.LEv.at] at h2

theorem visible_aligned {tr : List (HEv ι p)} (hv : HValid tr) : WM.AmosAligned (visible tr) := by
  intro k q hq ha
  obtain ⟨q', h1, rfl⟩ := visible_acc hq
  have h2 := hv k () q' h1
  have ha' : MT.isAmo q'.ty = true := ha
  cases h2 with
  | read ty => exact absurd ha' (WM.read_not_amo ty)
  | write ty => exact absurd ha' (WM.write_not_amo ty)
  | dword ty => exact absurd ha' (WM.write_not_amo ty)
  | amo _ _ al => exact al
  | inv ty => exact absurd ha' (WM.inv_not_amo ty)
  | flush ty => exact absurd ha' (WM.flush_not_amo ty)

/-- **C65, responses.**  Caches of any shapes on one memory.  Software keeps the discipline
for the words that request `q` returns: a WRITE is given to a cache that is up to date, an
AMO when the stores of the other caches are released.  If `q` is an AMO, or a READ given to
a cache that is up to date with no store of another cache before the response, then the
response has the type, opaque and length fields of `q` and the latest data. -/
theorem C65_responses (wf : ∀ k, (p k).WF) {H H' : HSys ι p} {tr : List (HEv ι p)} (h0 : HStart H) (h : HetRun H tr H')
    (hv : HValid tr) {k : ι} {a b : List (WM.Ev ι)} {q : WM.Req} (hq : visible tr = a ++ .acc k q :: b)
    (hd : ∀ W, q.reads W → WM.Disciplined W (visible tr))
    (hr : ∀ W, q.reads W → q.ty = MT.READ → WM.UpToDate k W a ∧ WM.NoRace k W a q b)
    {r : WM.Resp} (hresp : (WM.responses k (visible tr))[(WM.accepted k a).length]? = some r) :
    r = ⟨q.ty, q.opq, q.len, (WM.flat (WM.latest H.mem a) q).2⟩ := by
  obtain ⟨A, h1, _⟩ := C64_memory_model wf h0 h hv
  refine WM.reply_run h1 (visible_aligned hv) hq (fun W hW => ⟨hd W hW, hr W hW⟩) ?_
  rw [List.getElem?_append_left (List.getElem?_eq_some_iff.1 hresp).1]
  exact hresp

/-- **C65, memory.**  When all stores to word `W` are released memory holds the latest
contents of the word. -/
theorem C65_memory (wf : ∀ k, (p k).WF) {H H' : HSys ι p} {tr : List (HEv ι p)} (h0 : HStart H) (h : HetRun H tr H')
    (hv : HValid tr) {W : Nat} (hd : WM.Disciplined W (visible tr))
    (hrel : ∀ k a q b, visible tr = a ++ .acc k q :: b → q.stores W → WM.Released k W a (.acc k q :: b))
    {x : Nat} (hx : x / 4 = W) : H'.mem x = WM.latest H.mem (visible tr) x := by
  obtain ⟨A, h1, h2⟩ := C64_memory_model wf h0 h hv
  have inv := WM.DInv.run h1 hd (visible_aligned hv)
  have hna : ∀ k, ¬ (A.loc k).Active W := by
    intro k ha
    obtain ⟨c, q, d, h3, h4, h5⟩ := (inv.hist k).active ha
    exact h5 (hrel k c q d h3 h4)
  obtain ⟨P, v⟩ := inv.val
  rw [← h2]
  exact ((v.mem fun k h' => hna k (.inr h')).trans (v.idle fun k h' => hna k (.inl h'))) x hx

theorem onlyWriter_disciplined {k : ι} {W : Nat} {tr : List (WM.Ev ι)} (h : WM.OnlyWriter k W tr) :
    WM.Disciplined W tr ∧ ∀ a b, tr = a ++ b → WM.UpToDate k W a := by
  have hno : ∀ k', k' ≠ k → ∀ a q b, tr = a ++ .acc k' q :: b → ¬ q.stores W := by
    intro k' hk a q b he
    exact h k' hk q (by rw [he]; simp)
  have hup : ∀ a b, tr = a ++ b → WM.UpToDate k W a := by
    intro a b he k' hk c q d hc hs
    exact absurd hs (hno k' hk c q (d ++ b) (by rw [he, hc]; simp))
  refine ⟨?_, hup⟩
  intro k' a q b he
  by_cases hk : k' = k
  · subst hk
    exact ⟨fun _ => hup a _ he, fun _ => (hup a _ he).others⟩
  · exact ⟨fun hs => absurd (.inl hs) (hno k' hk a q b he), fun hs => absurd (.inr hs) (hno k' hk a q b he)⟩

/-- **C65, private words.**  Words no other cache stores to need no FLUSH, INV or AMO, even
if other words of the same line are stored to by other caches. -/
theorem C65_private (wf : ∀ k, (p k).WF) {H H' : HSys ι p} {tr : List (HEv ι p)} (h0 : HStart H) (h : HetRun H tr H')
    (hv : HValid tr) {k : ι} {a b : List (WM.Ev ι)} {q : WM.Req} (hq : visible tr = a ++ .acc k q :: b)
    (ho : ∀ W, q.reads W → WM.OnlyWriter k W (visible tr))
    {r : WM.Resp} (hresp : (WM.responses k (visible tr))[(WM.accepted k a).length]? = some r) :
    r = ⟨q.ty, q.opq, q.len, (WM.flat (WM.latest H.mem a) q).2⟩ := by
  refine C65_responses wf h0 h hv hq (fun W hW => (onlyWriter_disciplined (ho W hW)).1) ?_ hresp
  intro W hW _
  refine ⟨(onlyWriter_disciplined (ho W hW)).2 _ _ hq, ?_⟩
  intro k' hk c q' d hc hs
  refine absurd hs (ho W hW k' hk q' ?_)
  rw [hq, hc, WM.accepted_append, WM.accepted_acc_other (Ne.symm hk)]; simp

/-- **C65, untouched memory.**  A word nobody stores to keeps its contents in memory,
whatever the caches do with the line it lies in. -/
theorem C65_untouched (wf : ∀ k, (p k).WF) {H H' : HSys ι p} {tr : List (HEv ι p)} (h0 : HStart H) (h : HetRun H tr H')
    (hv : HValid tr) {W : Nat} (hno : ∀ k, ∀ q ∈ WM.accepted k (visible tr), ¬ q.stores W)
    {x : Nat} (hx : x / 4 = W) : H'.mem x = H.mem x := by
  have hno' : ∀ k a q b, visible tr = a ++ .acc k q :: b → ¬ q.stores W := by
    intro k a q b he
    exact hno k q (by rw [he]; simp)
  rw [C65_memory wf h0 h hv (W := W) ?_ ?_ hx]
  · exact (WM.latest_untouched (a := []) (b := visible tr) (visible_aligned hv)
      (fun k q c d he => hno' k c q d he)) x hx
  · intro k a q b he
    exact ⟨fun hs => absurd (.inl hs) (hno' k a q b he), fun hs => absurd (.inr hs) (hno' k a q b he)⟩
  · intro k a q b he hs
    exact absurd hs (hno' k a q b he)

end Verif
