import Verif.SpecCoh
import Verif.PropsLin
import Verif.PropsShared

/-!
# C78: coherence of one word
-/

set_option linter.unusedSectionVars false

namespace Verif.WM
variable {ι : Type} [DecidableEq ι] {W : Nat} {M0 : ByteMem} {tr : List (Ev ι)} {A B : State ι}

/-! ## Requests with their responses -/

/-- What `accessesOf` does with one pair. Proof device; not in the source. -/
def accOf (W : Nat) (q : Req) (r : Resp) : List (Req × Resp) := if q.touches W then [(q, r)] else []

theorem accessesOf_cons (W : Nat) (q : Req) (qs : List Req) (r : Resp) (rs : List Resp) :
    accessesOf W (q :: qs) (r :: rs) = accOf W q r ++ accessesOf W qs rs := by
  simp only [accessesOf, List.zip_cons_cons, List.filter_cons, accOf, decide_eq_true_eq]
  split <;> simp_all

theorem accessesOf_acc {W : Nat} {qs : List Req} {rs : List Resp} (h : rs.length ≤ qs.length) (l : List Req) :
    accessesOf W (qs ++ l) rs = accessesOf W qs rs := by
  induction qs generalizing rs with
  | nil => cases rs with
    | nil => simp [accessesOf]
    | cons => simp at h
  | cons q qs ih => cases rs with
    | nil => simp [accessesOf]
    | cons r rs => rw [List.cons_append, accessesOf_cons, accessesOf_cons, ih (by simpa using h)]

theorem accessesOf_snoc {W : Nat} {qs : List Req} {rs : List Resp} (h : rs.length = qs.length) (q : Req) (r : Resp) :
    accessesOf W (qs ++ [q]) (rs ++ [r]) = accessesOf W qs rs ++ accOf W q r := by
  induction qs generalizing rs with
  | nil => cases rs with
    | nil => simp only [List.nil_append, accessesOf_cons]; simp [accessesOf]
    | cons => simp at h
  | cons q qs ih => cases rs with
    | nil => simp at h
    | cons r rs => rw [List.cons_append, List.cons_append, accessesOf_cons, accessesOf_cons, ih (by simpa using h)]; simp

theorem accessesOf_prefix (W : Nat) (qs : List Req) (rs l : List Resp) :
    accessesOf W qs rs <+: accessesOf W qs (rs ++ l) := by
  induction qs generalizing rs with
  | nil => simp [accessesOf]
  | cons q qs ih => cases rs with
    | nil => simp [accessesOf]
    | cons r rs =>
      rw [List.cons_append, accessesOf_cons, accessesOf_cons, List.prefix_append_right_inj]
      exact ih rs

theorem accessesOf_asked (W : Nat) (qs : List Req) (rs : List Resp) :
    (accessesOf W qs rs).map (·.1) <+: qs.filter fun q => q.touches W := by
  induction qs generalizing rs with
  | nil => simp [accessesOf]
  | cons q qs ih => cases rs with
    | nil => simp [accessesOf]
    | cons r rs =>
      rw [accessesOf_cons, List.filter_cons, List.map_append]
      by_cases hc : q.touches W
      · simp only [accOf, if_pos hc, List.map_cons, List.map_nil, List.singleton_append, decide_eq_true_eq,
          List.cons_prefix_cons, true_and]
        exact ih rs
      · simp only [accOf, if_neg hc, List.map_nil, List.nil_append, decide_eq_true_eq]
        exact ih rs

theorem ofK_append (k : ι) (a b : List (ι × Req × Resp)) : ofK k (a ++ b) = ofK k a ++ ofK k b := by
  simp [ofK]

theorem ofK_own (k : ι) (l : List (Req × Resp)) : ofK k (l.map fun x => (k, x)) = l := by
  induction l with
  | nil => rfl
  | cons x l ih => simp only [ofK] at ih; simp [ofK, ih]

theorem ofK_other {k k' : ι} (h : k ≠ k') (l : List (Req × Resp)) : ofK k' (l.map fun x => (k, x)) = [] := by
  simp [ofK, h]

/-! ## Sequences of accesses -/

/-- The access is to `W`; an atomic one has the word's address. Proof device; not in the source. -/
def Ok (W : Nat) (q : Req) : Prop := MT.isAmo q.ty = true → q.addr = 4 * W

theorem flat_congr {M M' : ByteMem} {q : Req} (h : AgreeW W M M') (hq : Ok W q) :
    AgreeW W (flat M q).1 (flat M' q).1 := by
  simp only [flat]
  split
  · exact h
  · split
    · exact writeLE_agree h _ _ _
    · split
      · rename_i hamo
        have ha := hq hamo
        rw [readLE_word h (by omega) ⟨W, ha⟩]
        exact writeLE_agree h _ _ _
      · exact h

theorem Sees.congr {M M' : ByteMem} {q : Req} {r : Resp} (h : AgreeW W M M') (hs : Sees W M q r) : Sees W M' q r := by
  obtain ⟨h1, h2, h3, h4, h5⟩ := hs
  refine ⟨h1, h2, h3, fun hq x hx ha hb => ?_, fun hq => ?_⟩
  · rw [h4 hq x hx ha hb, h x hx]
  · rw [h5 hq, readLE_word h (by omega) ⟨W, rfl⟩]

theorem runs_append (M : ByteMem) (a b : List (Req × Resp)) : runs M (a ++ b) = runs (runs M a) b := by
  simp [runs]

theorem runs_congr {M M' : ByteMem} {l : List (Req × Resp)} (h : AgreeW W M M') (hl : ∀ x ∈ l, Ok W x.1) :
    AgreeW W (runs M l) (runs M' l) := by
  induction l generalizing M M' with
  | nil => exact h
  | cons x l ih =>
    exact ih (flat_congr h (hl x (by simp))) fun y hy => hl y (by simp [hy])

theorem Legal.congr {M M' : ByteMem} {l : List (Req × Resp)} (h : AgreeW W M M') (hl : ∀ x ∈ l, Ok W x.1)
    (hg : Legal W M l) : Legal W M' l := by
  induction l generalizing M M' with
  | nil => trivial
  | cons x l ih =>
    exact ⟨hg.1.congr h, ih (flat_congr h (hl x (by simp))) (fun y hy => hl y (by simp [hy])) hg.2⟩

theorem legal_append {M : ByteMem} {a b : List (Req × Resp)} :
    Legal W M (a ++ b) ↔ Legal W M a ∧ Legal W (runs M a) b := by
  induction a generalizing M with
  | nil => simp [Legal, runs]
  | cons x a ih => simp only [List.cons_append, Legal, ih, and_assoc]; rfl

/-! ## The invariant -/

/-- `u` are the accesses of a cache not yet in the common sequence. Proof device; not in the source. -/
def Own (W : Nat) (a : Loc) (u : List (Req × Resp)) : Prop :=
  (a.copy W ≠ .dirty → u = []) ∧ (∀ x ∈ u, Ok W x.1) ∧
  (a.copy W = .dirty → ∀ M, Legal W M u ∧ AgreeW W a.val (runs M u))

/-- A clean copy shows the word at some point of the common sequence, after which the cache
has no access there. Proof device; not in the source. -/
def Point (W : Nat) (M0 : ByteMem) (k : ι) (a : Loc) (s : List (ι × Req × Resp)) : Prop :=
  a.copy W = .clean → ∃ s1 s2, s = s1 ++ s2 ∧ AgreeW W a.val (runs M0 (s1.map (·.2))) ∧ ofK k s2 = []

/-- Proof device; not in the source. -/
structure CI (W : Nat) (M0 : ByteMem) (tr : List (Ev ι)) (A : State ι) (s : List (ι × Req × Resp))
    (u : ι → List (Req × Resp)) (ks : List ι) : Prop where
  legal : Legal W M0 (s.map (·.2))
  ok : ∀ x ∈ s, Ok W x.2.1
  mem : AgreeW W A.mem (runs M0 (s.map (·.2)))
  own : ∀ k, Own W (A.loc k) (u k)
  nodup : ks.Nodup
  fin : ∀ k, u k ≠ [] → k ∈ ks
  point : ∀ k, Point W M0 k (A.loc k) s
  hist : ∀ k, ofK k s ++ u k = accessesOf W (accepted k tr) (responses k tr ++ (A.loc k).done)

variable {s : List (ι × Req × Resp)} {u : ι → List (Req × Resp)} {ks : List ι}

theorem hist_perform (h : CI W M0 tr A s u ks) {k : ι} {a : Loc} {q : Req} {r : Resp}
    (hc : Count k tr (A.loc k)) (hp : (A.loc k).pend = some q) (hdone : a.done = (A.loc k).done ++ [r]) :
    accessesOf W (accepted k tr) (responses k tr ++ a.done) = ofK k s ++ u k ++ accOf W q r := by
  obtain ⟨perf, c1, c2⟩ := hc
  rw [hp, Option.toList_some] at c1
  have hlen : (responses k tr ++ (A.loc k).done).length = perf.length := by rw [List.length_append]; omega
  rw [h.hist k, hdone, ← List.append_assoc, c1, accessesOf_snoc hlen, accessesOf_acc (by omega)]

/-- A step of cache `k` without a new entry in the common sequence. -/
theorem CI.local (h : CI W M0 tr A s u ks) {k : ι} {a : Loc} {u' : List (Req × Resp)}
    (hB : ∀ k', B.loc k' = if k' = k then a else A.loc k') (hm : AgreeW W B.mem A.mem)
    (ho : Own W a u') (hpt : Point W M0 k a s)
    (hh : ofK k s ++ u' = accessesOf W (accepted k tr) (responses k tr ++ a.done)) :
    ∃ ks', CI W M0 tr B s (fun k' => if k' = k then u' else u k') ks' := by
  have main : ∀ ks' : List ι, ks'.Nodup → k ∈ ks' → (∀ x ∈ ks, x ∈ ks') →
      CI W M0 tr B s (fun k' => if k' = k then u' else u k') ks' := by
    intro ks' n1 n2 n3
    refine ⟨h.legal, h.ok, hm.trans h.mem, ?_, n1, ?_, ?_, ?_⟩
    · intro k'; rw [hB]
      split
      · exact ho
      · exact h.own k'
    · intro k'
      split
      · rename_i hk; subst hk; exact fun _ => n2
      · exact fun hu => n3 _ (h.fin k' hu)
    · intro k'; rw [hB]; split
      · rename_i hk; subst hk; exact hpt
      · exact h.point k'
    · intro k'; rw [hB]
      split
      · rename_i hk; subst hk; exact hh
      · exact h.hist k'
  by_cases hk : k ∈ ks
  · exact ⟨ks, main ks h.nodup hk fun _ hx => hx⟩
  · exact ⟨k :: ks, main _ (List.nodup_cons.2 ⟨hk, h.nodup⟩) (by simp) fun _ hx => by simp [hx]⟩

/-- A step of cache `k` that adds `l` at the end of the common sequence. -/
theorem CI.commit (h : CI W M0 tr A s u ks) {k : ι} {a : Loc} {l : List (Req × Resp)}
    (hB : ∀ k', B.loc k' = if k' = k then a else A.loc k')
    (hl : Legal W (runs M0 (s.map (·.2))) l) (hok : ∀ x ∈ l, Ok W x.1)
    (hm : AgreeW W B.mem (runs M0 ((s.map (·.2)) ++ l)))
    (hd : a.copy W ≠ .dirty) (hv : a.copy W = .clean → AgreeW W a.val B.mem)
    (hh : ofK k s ++ l = accessesOf W (accepted k tr) (responses k tr ++ a.done)) :
    CI W M0 tr B (s ++ l.map fun x => (k, x)) (fun k' => if k' = k then [] else u k') ks := by
  have e : (s ++ l.map fun x => (k, x)).map (·.2) = s.map (·.2) ++ l := by
    simp [Function.comp_def]
  refine ⟨?_, ?_, ?_, ?_, h.nodup, ?_, ?_, ?_⟩
  · rw [e, legal_append]; exact ⟨h.legal, hl⟩
  · intro x hx
    simp only [List.mem_append, List.mem_map] at hx
    rcases hx with hx | ⟨y, hy, rfl⟩
    · exact h.ok x hx
    · exact hok y hy
  · rw [e]; exact hm
  · intro k'; rw [hB]
    split
    · exact ⟨fun _ => rfl, by simp, fun h => absurd h hd⟩
    · exact h.own k'
  · intro k'
    split
    · exact fun hu => absurd rfl hu
    · exact h.fin k'
  · intro k'; rw [hB]; split
    · intro hcl
      refine ⟨s ++ l.map fun x => (k, x), [], by simp, ?_, rfl⟩
      rw [e]; exact (hv hcl).trans hm
    · rename_i hk
      intro hcl
      obtain ⟨s1, s2, h1, h2, h3⟩ := h.point k' hcl
      refine ⟨s1, s2 ++ l.map fun x => (k, x), by rw [h1, List.append_assoc], h2, ?_⟩
      rw [ofK_append, h3, ofK_other (Ne.symm hk)]; rfl
  · intro k'; rw [hB]
    split
    · rename_i hk; subst hk
      rw [ofK_append, ofK_own, List.append_nil]; exact hh
    · rename_i hk
      rw [ofK_append, ofK_other (Ne.symm hk), List.append_nil]; exact h.hist k'

/-- The common sequence grows: stores are only added at the end, and so are the accesses of
each cache. Proof device; not in the source. -/
def Grows (W : Nat) (s s' : List (ι × Req × Resp)) : Prop :=
  storesOf W s <+: storesOf W s' ∧ ∀ k, ofK k s <+: ofK k s'

theorem Grows.refl (s : List (ι × Req × Resp)) : Grows W s s := ⟨List.prefix_rfl, fun _ => List.prefix_rfl⟩

theorem Grows.trans {a b c : List (ι × Req × Resp)} (h : Grows W a b) (h' : Grows W b c) : Grows W a c :=
  ⟨h.1.trans h'.1, fun k => (h.2 k).trans (h'.2 k)⟩

theorem Grows.append (s t : List (ι × Req × Resp)) : Grows W s (s ++ t) :=
  ⟨by simp [storesOf], fun k => by rw [ofK_append]; exact List.prefix_append _ _⟩

/-- A read from a clean copy takes its place at the point the copy shows. -/
theorem CI.insert (h : CI W M0 tr A s u ks) {k : ι} {a : Loc} {q : Req} {r : Resp}
    (hB : ∀ k', B.loc k' = if k' = k then a else A.loc k') (hm : B.mem = A.mem)
    (hcl : (A.loc k).copy W = .clean) (hcp : a.copy = (A.loc k).copy) (hval : a.val = (A.loc k).val)
    (hq : q.ty = MT.READ) (hs : Sees W (A.loc k).val q r)
    (hh : ofK k s ++ u k ++ [(q, r)] = accessesOf W (accepted k tr) (responses k tr ++ a.done)) :
    ∃ s', CI W M0 tr B s' u ks ∧ Grows W s s' := by
  obtain ⟨s1, s2, h1, h2, h3⟩ := h.point k hcl
  have hu : u k = [] := (h.own k).1 (by rw [hcl]; simp)
  have hfl : ∀ M, (flat M q).1 = M := by intro M; simp [flat, hq]
  have hok : Ok W q := fun hh => absurd hh (read_not_amo hq)
  have hr : ∀ b : List (ι × Req × Resp), runs M0 ((s1 ++ (k, q, r) :: b).map (·.2)) = runs M0 ((s1 ++ b).map (·.2)) := by
    intro b
    simp only [List.map_append, List.map_cons, runs_append]
    simp only [runs, List.foldl_cons, hfl]
  have hleg := h.legal
  have hmem := h.mem
  have hokk := h.ok
  subst h1
  have hgrow : Grows W (s1 ++ s2) (s1 ++ (k, q, r) :: s2) := by
    constructor
    · have : ¬ q.stores W := by
        rintro (⟨h, _⟩ | ⟨h, _⟩)
        · rw [hq] at h; cases h
        · exact read_not_amo hq h
      simp [storesOf, this]
    · intro k'
      rw [show s1 ++ (k, q, r) :: s2 = s1 ++ [(k, q, r)] ++ s2 by simp, ofK_append, ofK_append, ofK_append]
      by_cases hk : k = k'
      · subst hk
        rw [h3, List.append_nil, List.append_nil]; exact List.prefix_append _ _
      · simp [ofK, hk]
  refine ⟨s1 ++ (k, q, r) :: s2, ⟨?_, ?_, ?_, ?_, h.nodup, h.fin, ?_, ?_⟩, hgrow⟩
  · rw [List.map_append, legal_append] at hleg
    rw [List.map_append, legal_append]
    refine ⟨hleg.1, hs.congr h2, ?_⟩
    simp only [hfl]; exact hleg.2
  · intro x hx
    simp only [List.mem_append, List.mem_cons] at hx
    rcases hx with hx | rfl | hx
    · exact hokk x (by simp [hx])
    · exact hok
    · exact hokk x (by simp [hx])
  · rw [hm, hr]; exact hmem
  · intro k'; rw [hB]; split
    · rename_i hk; subst hk
      exact ⟨fun _ => hu, by simp [hu], fun hd => by rw [hcp, hcl] at hd; cases hd⟩
    · exact h.own k'
  · intro k'; rw [hB]; split
    · rename_i hk; subst hk
      intro _
      refine ⟨s1 ++ [(k', q, r)], s2, by simp, ?_, h3⟩
      have := hr []
      simp only [List.append_nil] at this
      rw [this, hval]; exact h2
    · rename_i hk
      intro hcl'
      obtain ⟨t1, t2, g1, g2, g3⟩ := h.point k' hcl'
      rcases List.append_eq_append_iff.1 g1 with ⟨c, e1, e2⟩ | ⟨c, e1, e2⟩
      · -- the other point is later
        subst e1 e2
        refine ⟨s1 ++ (k, q, r) :: c, t2, by simp, ?_, g3⟩
        rw [hr]; exact g2
      · subst e1 e2
        refine ⟨t1, c ++ (k, q, r) :: s2, by simp, g2, ?_⟩
        rw [ofK_append] at g3 ⊢
        have := List.append_eq_nil_iff.1 g3
        rw [this.1]
        simp only [ofK, List.filterMap_cons, if_neg (Ne.symm hk)]
        exact this.2
  · intro k'; rw [hB]
    have hs1 : ofK k' (s1 ++ (k, q, r) :: s2) = ofK k' s1 ++ ofK k' [(k, q, r)] ++ ofK k' s2 := by
      rw [show s1 ++ (k, q, r) :: s2 = s1 ++ [(k, q, r)] ++ s2 by simp, ofK_append, ofK_append]
    rw [hs1]
    split
    · rename_i hk; subst hk
      rw [← hh, h3, ofK_append, h3, hu]
      simp [ofK]
    · rename_i hk
      rw [← h.hist k', ofK_append]
      simp [ofK, Ne.symm hk]

/-- A response with the right type, opaque and length that returns data read from `v`. -/
theorem sees_read {v : ByteMem} {q : Req} (hq : q.ty = MT.READ) :
    Sees W v q ⟨q.ty, q.opq, q.len, readLE v q.addr q.bytes⟩ := by
  refine ⟨rfl, rfl, rfl, fun _ x _ ha hb => ?_, fun hh => absurd hh (read_not_amo hq)⟩
  rw [readLE_byte _ _ _ _ (by omega)]
  congr 2; omega

theorem sees_write {v : ByteMem} {q : Req} (hq : q.ty = MT.WRITE) (d : Nat) :
    Sees W v q ⟨q.ty, q.opq, q.len, d⟩ := by
  refine ⟨rfl, rfl, rfl, fun hh => ?_, fun hh => absurd hh (write_not_amo hq)⟩
  rw [hq] at hh; cases hh

theorem covers_read {q : Req} (hq : q.ty = MT.READ) : q.touches W ↔ q.covers W := by
  simp only [Req.touches, Req.stores, Req.reads, hq]
  have := read_not_amo hq
  rw [hq] at this
  constructor
  · rintro ((⟨h, _⟩ | ⟨h, _⟩) | (⟨_, h⟩ | ⟨h, _⟩))
    · cases h
    · exact absurd h this
    · exact h
    · exact absurd h this
  · exact fun h => .inr (.inl ⟨trivial, h⟩)

theorem covers_write {q : Req} (hq : q.ty = MT.WRITE) : q.touches W ↔ q.covers W := by
  simp only [Req.touches, Req.stores, Req.reads, hq]
  have := write_not_amo hq
  rw [hq] at this
  constructor
  · rintro ((⟨_, h⟩ | ⟨h, _⟩) | (⟨h, _⟩ | ⟨h, _⟩))
    · exact h
    · exact absurd h this
    · cases h
    · exact absurd h this
  · exact fun h => .inl (.inl ⟨trivial, h⟩)

theorem touches_amo {q : Req} (hq : MT.isAmo q.ty = true) : q.touches W ↔ q.addr / 4 = W := by
  constructor
  · rintro ((⟨h, _⟩ | ⟨_, h⟩) | (⟨h, _⟩ | ⟨_, h⟩))
    · exact absurd hq (write_not_amo h)
    · exact h
    · exact absurd hq (read_not_amo h)
    · exact h
  · exact fun h => .inl (.inr ⟨hq, h⟩)

theorem not_touches {q : Req} (h1 : MT.isAmo q.ty ≠ true) (h2 : q.ty ≠ MT.READ) (h3 : q.ty ≠ MT.WRITE) :
    ¬ q.touches W := by
  rintro ((⟨h, _⟩ | ⟨h, _⟩) | (⟨h, _⟩ | ⟨h, _⟩))
  · exact h3 h
  · exact h1 h
  · exact h2 h
  · exact h1 h

theorem CI.step {ev : List (Ev ι)} (hc : ∀ k, Count k tr (A.loc k)) (h : CI W M0 tr A s u ks) (hs : Step A ev B)
    (hal : AmosAligned (tr ++ ev)) (hw : WholeWrites W (tr ++ ev)) :
    ∃ s' u' ks', CI W M0 (tr ++ ev) B s' u' ks' ∧ Grows W s s' := by
  have hpa : ∀ k q, (A.loc k).pend = some q → q ∈ accepted k tr := by
    intro k q hq
    obtain ⟨perf, c1, _⟩ := hc k
    rw [c1, hq]; simp
  -- steps that leave the history alone
  have quiet : ∀ (k : ι) (a : Loc) (M : ByteMem), AgreeW W M A.mem → Own W a (u k) → Point W M0 k a s →
      a.done = (A.loc k).done →
      ∃ s' u' ks', CI W M0 tr (⟨fun k' => if k' = k then a else A.loc k', M⟩ : State ι) s' u' ks' ∧ Grows W s s' := by
    intro k a M hm ho hpt hd
    obtain ⟨ks', hh⟩ := h.local (B := ⟨fun k' => if k' = k then a else A.loc k', M⟩) (fun _ => rfl) hm ho hpt
      (by rw [hd]; exact h.hist k)
    exact ⟨_, _, ks', hh, .refl _⟩
  -- accesses to other words
  have other : ∀ (k : ι) (a : Loc) (M : ByteMem) (q : Req) (r : Resp), AgreeW W M A.mem → (A.loc k).pend = some q →
      a.done = (A.loc k).done ++ [r] → ¬ q.touches W → Own W a (u k) → Point W M0 k a s →
      ∃ s' u' ks', CI W M0 tr (⟨fun k' => if k' = k then a else A.loc k', M⟩ : State ι) s' u' ks' ∧ Grows W s s' := by
    intro k a M q r hm hp hd hno ho hpt
    obtain ⟨ks', hh⟩ := h.local (B := ⟨fun k' => if k' = k then a else A.loc k', M⟩) (fun _ => rfl) hm ho hpt
      (by rw [hist_perform h (hc k) hp hd]; simp [accOf, hno])
    exact ⟨_, _, ks', hh, .refl _⟩
  cases hs with
  | mk k e a M hl =>
    have hB : ∀ k', (⟨fun k' => if k' = k then a else A.loc k', M⟩ : State ι).loc k' =
      if k' = k then a else A.loc k' := fun _ => rfl
    have hown := h.own k
    have hpoint := h.point k
    cases hl with
    | accept q hp =>
      refine ⟨s, u, ks, ⟨h.legal, h.ok, h.mem, ?_, h.nodup, h.fin, ?_, ?_⟩, .refl _⟩
      · intro k'; rw [hB]; split
        · rename_i hk; subst hk; exact hown
        · exact h.own k'
      · intro k'; rw [hB]; split
        · rename_i hk; subst hk; exact hpoint
        · exact h.point k'
      · intro k'
        rw [h.hist k']
        by_cases hk : k' = k
        · subst hk
          obtain ⟨perf, c1, c2⟩ := hc k'
          have := congrArg List.length c1
          rw [hp] at this
          simp only [if_true, accepted_append, responses_append, List.map_cons, List.map_nil, LEv.at, responses_acc,
            responses_nil, List.append_nil]
          rw [accessesOf_acc]
          simp at this ⊢; omega
        · simp [LEv.at, if_neg hk, accepted_acc_other (Ne.symm hk)]
    | deliver r l hdn =>
      refine ⟨s, u, ks, ⟨h.legal, h.ok, h.mem, ?_, h.nodup, h.fin, ?_, ?_⟩, .refl _⟩
      · intro k'; rw [hB]; split
        · rename_i hk; subst hk; exact hown
        · exact h.own k'
      · intro k'; rw [hB]; split
        · rename_i hk; subst hk; exact hpoint
        · exact h.point k'
      · intro k'
        rw [h.hist k']
        by_cases hk : k' = k
        · subst hk
          simp [LEv.at, hdn]
        · simp [LEv.at, if_neg hk, responses_resp_other (Ne.symm hk)]
    | fetch q Bw hp hq hBw =>
      simp only [List.map_nil, List.append_nil]
      by_cases hb : Bw W = true
      · have hn := hBw W hb
        have hu : u k = [] := hown.1 (by rw [hn]; simp)
        refine quiet k _ _ (.refl _ _) ⟨fun _ => hu, hown.2.1, ?_⟩ ?_ rfl
        · intro hd; simp [hb] at hd
        · intro _
          refine ⟨s, [], by simp, ?_, rfl⟩
          refine AgreeW.trans ?_ h.mem
          intro x hx; simp [hx, hb]
      · refine quiet k _ _ (.refl _ _) ⟨?_, hown.2.1, ?_⟩ ?_ rfl
        · simp only [hb]; exact hown.1
        · simp only [hb]
          intro hd M
          refine ⟨(hown.2.2 hd M).1, AgreeW.trans ?_ (hown.2.2 hd M).2⟩
          intro x hx; simp [hx, hb]
        · intro hcl
          simp only [hb] at hcl
          obtain ⟨s1, s2, g1, g2, g3⟩ := hpoint hcl
          refine ⟨s1, s2, g1, AgreeW.trans ?_ g2, g3⟩
          intro x hx; simp [hx, hb]
    | drop q Bw hp hq hBw =>
      simp only [List.map_nil, List.append_nil]
      refine quiet k _ _ (.refl _ _) ⟨?_, hown.2.1, ?_⟩ ?_ rfl
      · simp only
        split
        · rename_i hb; exact fun _ => hown.1 (by rw [hBw W hb]; simp)
        · exact hown.1
      · simp only
        split
        · simp
        · exact hown.2.2
      · intro hcl
        simp only at hcl
        split at hcl
        · cases hcl
        · exact hpoint hcl
    | save q Bw hp hq hBw =>
      simp only [List.map_nil, List.append_nil]
      by_cases hb : Bw W = true
      · have hd := hBw W hb
        have hx := hown.2.2 hd (runs M0 (s.map (·.2)))
        refine ⟨_, _, ks, h.commit (k := k) (l := u k) hB hx.1 hown.2.1 ?_ ?_ ?_ ?_, .append _ _⟩
        · rw [runs_append]
          refine AgreeW.trans ?_ hx.2
          intro x hx'; simp [hx', hb]
        · simp [hb]
        · intro _ x hx'; simp [hx', hb]
        · exact h.hist k
      · refine quiet k _ _ ?_ ⟨?_, hown.2.1, ?_⟩ ?_ rfl
        · intro x hx; simp [hx, hb]
        · simp only [hb]; exact hown.1
        · simp only [hb]; exact hown.2.2
        · intro hcl; simp only [hb] at hcl; exact hpoint hcl
    | read q hp hq hcv =>
      simp only [List.map_nil, List.append_nil]
      by_cases hW : q.covers W
      · have ht : q.touches W := (covers_read hq).2 hW
        have hh := hist_perform h (hc k) hp (a := (A.loc k).reply q (readLE (A.loc k).val q.addr q.bytes)) rfl
        simp only [accOf, if_pos ht] at hh
        cases hcp : (A.loc k).copy W with
        | none => exact absurd hcp (hcv W hW)
        | clean =>
          obtain ⟨s', h', hg⟩ := h.insert (k := k) hB rfl hcp rfl rfl hq (sees_read hq) hh.symm
          exact ⟨s', u, ks, h', hg⟩
        | dirty =>
          have hfl : ∀ M, (flat M q).1 = M := by intro M; simp [flat, hq]
          refine Exists.elim (h.local (k := k) hB (.refl _ _)
            (u' := u k ++ [(q, ⟨q.ty, q.opq, q.len, readLE (A.loc k).val q.addr q.bytes⟩)]) ?_ ?_
            (by rw [← List.append_assoc]; exact hh.symm)) fun ks' h' => ⟨_, _, ks', h', .refl _⟩
          · refine ⟨fun hd => absurd hcp hd, ?_, fun _ M => ?_⟩
            · intro x hx
              simp only [List.mem_append, List.mem_singleton] at hx
              rcases hx with hx | rfl
              · exact hown.2.1 x hx
              · exact fun hh => absurd hh (read_not_amo hq)
            · obtain ⟨o1, o2⟩ := hown.2.2 hcp M
              refine ⟨legal_append.2 ⟨o1, (sees_read hq).congr o2, trivial⟩, ?_⟩
              rw [runs_append]
              simp only [runs, List.foldl_cons, List.foldl_nil, hfl]
              exact o2
          · intro hcl; simp only [Loc.reply] at hcl; rw [hcp] at hcl; cases hcl
      · exact other k _ _ q _ (.refl _ _) hp rfl (fun ht => hW ((covers_read hq).1 ht)) hown hpoint
    | write q hp hq hcv =>
      simp only [List.map_nil, List.append_nil] at hw ⊢
      by_cases hW : q.covers W
      · have ht : q.touches W := (covers_write hq).2 hW
        have hfull := hw k q (hpa k q hp) hq hW
        have hh := hist_perform h (hc k) hp (a := (({ A.loc k with
          copy := fun W => if q.covers W then .dirty else (A.loc k).copy W
          val := writeLE (A.loc k).val q.addr q.bytes q.data } : Loc).reply q 0)) rfl
        simp only [accOf, if_pos ht] at hh
        refine Exists.elim (h.local (k := k) hB (.refl _ _) (u' := u k ++ [(q, ⟨q.ty, q.opq, q.len, 0⟩)]) ?_ ?_
            (by rw [← List.append_assoc]; exact hh.symm)) fun ks' h' => ⟨_, _, ks', h', .refl _⟩
        · refine ⟨fun hd => ?_, ?_, fun _ M => ?_⟩
          · simp [Loc.reply, hW] at hd
          · intro x hx
            simp only [List.mem_append, List.mem_singleton] at hx
            rcases hx with hx | rfl
            · exact hown.2.1 x hx
            · exact fun hh => absurd hh (write_not_amo hq)
          · have hlegal : Legal W M (u k) := by
              by_cases hd : (A.loc k).copy W = .dirty
              · exact (hown.2.2 hd M).1
              · rw [hown.1 hd]; trivial
            refine ⟨legal_append.2 ⟨hlegal, sees_write hq 0, trivial⟩, ?_⟩
            rw [runs_append]
            simp only [runs, List.foldl_cons, List.foldl_nil, flat_write hq, Loc.reply]
            intro x hx
            simp only [writeLE]
            rw [if_pos (by omega), if_pos (by omega)]
        · intro hcl; simp [Loc.reply, hW] at hcl
      · have hcp : ∀ c, ((if q.covers W then Copy.dirty else (A.loc k).copy W) = c) = ((A.loc k).copy W = c) := by
          intro c; rw [if_neg hW]
        have hun : AgreeW W (writeLE (A.loc k).val q.addr q.bytes q.data) (A.loc k).val := writeLE_untouched hW
        refine other k _ _ q _ (.refl _ _) hp rfl (fun ht => hW ((covers_write hq).1 ht)) ⟨?_, hown.2.1, ?_⟩ ?_
        · simp only [Loc.reply, if_neg hW]; exact hown.1
        · simp only [Loc.reply, if_neg hW]
          exact fun hd M => ⟨(hown.2.2 hd M).1, hun.trans (hown.2.2 hd M).2⟩
        · intro hcl
          simp only [Loc.reply, if_neg hW] at hcl
          obtain ⟨s1, s2, g1, g2, g3⟩ := hpoint hcl
          exact ⟨s1, s2, g1, hun.trans g2, g3⟩
    | amo q hp hq hcv =>
      simp only [List.map_nil, List.append_nil] at hal ⊢
      have hal' := hal k q (hpa k q hp) hq
      by_cases hW : q.addr / 4 = W
      · have ht : q.touches W := (touches_amo hq).2 hW
        have hu : u k = [] := hown.1 (by rw [hW] at hcv; rw [hcv]; simp)
        have ha : q.addr = 4 * W := by omega
        have hok : Ok W q := fun _ => ha
        have hh := hist_perform h (hc k) hp (a := (A.loc k).reply q (readLE A.mem q.addr 4)) rfl
        simp only [accOf, if_pos ht] at hh
        refine ⟨_, _, ks, h.commit (k := k) (l := [(q, ⟨q.ty, q.opq, q.len, readLE A.mem q.addr 4⟩)]) hB ?_ ?_ ?_ ?_ ?_ ?_, .append _ _⟩
        · refine ⟨⟨rfl, rfl, rfl, fun h => absurd hq (read_not_amo h), fun _ => ?_⟩, trivial⟩
          simp only
          rw [ha, readLE_word h.mem (by omega) ⟨W, rfl⟩]
        · simpa using hok
        · rw [runs_append]
          have := flat_congr h.mem hok
          simp only [runs, List.foldl_cons, List.foldl_nil]
          refine AgreeW.trans ?_ this
          rw [flat_amo hq]; exact .refl _ _
        · simp only [Loc.reply]; rw [hW] at hcv; rw [hcv]; simp
        · intro hcl; simp only [Loc.reply] at hcl; rw [hW] at hcv; rw [hcv] at hcl; cases hcl
        · rw [hu, List.append_nil] at hh; exact hh.symm
      · refine other k _ _ q _ ?_ hp rfl (fun ht => hW ((touches_amo hq).1 ht)) hown hpoint
        refine writeLE_untouched ?_
        omega
    | inv q hp hq =>
      simp only [List.map_nil, List.append_nil]
      refine other k _ _ q _ (.refl _ _) hp rfl (not_touches (inv_not_amo hq) ?_ ?_) ⟨?_, hown.2.1, ?_⟩ ?_
      · rw [hq]; decide
      · rw [hq]; decide
      · simp only [Loc.reply]
        split
        · rename_i hcl; exact fun _ => hown.1 (by rw [hcl]; simp)
        · exact hown.1
      · simp only [Loc.reply]
        split
        · simp
        · exact hown.2.2
      · intro hcl
        simp only [Loc.reply] at hcl
        split at hcl
        · cases hcl
        · exact hpoint hcl
    | flush q hp hq hcv =>
      simp only [List.map_nil, List.append_nil]
      refine other k _ _ q _ (.refl _ _) hp rfl (not_touches (flush_not_amo hq) ?_ ?_) hown hpoint
      · rw [hq]; decide
      · rw [hq]; decide

theorem WholeWrites.prefix {a b : List (Ev ι)} (h : WholeWrites W (a ++ b)) : WholeWrites W a :=
  fun k q hq => h k q (by simp [hq])

/-! ## Durability -/

theorem accessesOf_take (W : Nat) (qs : List Req) (rs : List Resp) (n : Nat) :
    accessesOf W (qs.take n) rs <+: accessesOf W qs rs := by
  induction qs generalizing rs n with
  | nil => simp
  | cons q qs ih => cases n with
    | zero => simp [accessesOf]
    | succ n => cases rs with
      | nil => simp [accessesOf]
      | cons r rs =>
        rw [List.take_succ_cons, accessesOf_cons, accessesOf_cons, List.prefix_append_right_inj]
        exact ih rs n

theorem accessesOf_more {W : Nat} {qs : List Req} {rs : List Resp} (h : qs.length ≤ rs.length) (l : List Resp) :
    accessesOf W qs (rs ++ l) = accessesOf W qs rs := by
  induction qs generalizing rs with
  | nil => simp [accessesOf]
  | cons q qs ih => cases rs with
    | nil => simp at h
    | cons r rs => rw [List.cons_append, accessesOf_cons, accessesOf_cons, ih (by simpa using h)]

/-- `Durable`, counting the responses that wait in the cache. Proof device; not in the source. -/
def Dur (W : Nat) (tr : List (Ev ι)) (A : State ι) (s : List (ι × Req × Resp)) : Prop :=
  ∀ k n f, n < (responses k tr ++ (A.loc k).done).length → (accepted k tr)[n]? = some f → f.releases W →
    accessesOf W ((accepted k tr).take (n + 1)) (responses k tr ++ (A.loc k).done) <+: ofK k s

theorem Dur.durable (h : Dur W tr A s) : Durable W tr s := by
  intro k n f h1 h2 h3
  have := h k n f (by rw [List.length_append]; omega) h2 h3
  rw [accessesOf_more (by rw [List.length_take]; omega)] at this
  exact this

/-- The word is not dirty after a request that releases it. -/
theorem release_clean {ev : List (Ev ι)} (hs : Step A ev B) {k : ι} {q : Req} (hp : (A.loc k).pend = some q)
    (hp' : (B.loc k).pend = none) (hq : q.releases W) : (B.loc k).copy W ≠ .dirty := by
  cases hs with
  | mk j e a M hl =>
    dsimp only at hp' ⊢
    by_cases hk : k = j
    · subst hk
      rw [if_pos rfl] at hp' ⊢
      cases hl with
      | accept q hp => cases hp'
      | deliver r l hdn => simp only at hp'; rw [hp] at hp'; cases hp'
      | fetch q Bw hp1 hq1 hBw => simp only at hp'; rw [hp] at hp'; cases hp'
      | drop q Bw hp1 hq1 hBw => simp only at hp'; rw [hp] at hp'; cases hp'
      | save q Bw hp1 hq1 hBw => simp only at hp'; rw [hp] at hp'; cases hp'
      | read q' hp1 hq1 hc =>
        rw [hp] at hp1; cases hp1
        rcases hq with h | ⟨h, _⟩
        · rw [hq1] at h; cases h
        · exact absurd h (read_not_amo hq1)
      | write q' hp1 hq1 hc =>
        rw [hp] at hp1; cases hp1
        rcases hq with h | ⟨h, _⟩
        · rw [hq1] at h; cases h
        · exact absurd h (write_not_amo hq1)
      | amo q' hp1 hq1 hc =>
        rw [hp] at hp1; cases hp1
        rcases hq with h | ⟨_, h⟩
        · exact absurd hq1 (flush_not_amo h)
        · subst h
          simp only [Loc.reply]; rw [hc]; simp
      | inv q' hp1 hq1 =>
        rw [hp] at hp1; cases hp1
        rcases hq with h | ⟨h, _⟩
        · rw [hq1] at h; cases h
        · exact absurd h (inv_not_amo hq1)
      | flush q' hp1 hq1 hc => exact hc W
    · rw [if_neg hk] at hp'
      rw [hp] at hp'; cases hp'

theorem Dur.step {ev : List (Ev ι)} {s' : List (ι × Req × Resp)} {u' : ι → List (Req × Resp)} {ks' : List ι}
    (hc : ∀ k, Count k tr (A.loc k)) (hc' : ∀ k, Count k (tr ++ ev) (B.loc k)) (hs : Step A ev B) (h : Dur W tr A s)
    (h' : CI W M0 (tr ++ ev) B s' u' ks') (hg : Grows W s s') : Dur W (tr ++ ev) B s' := by
  intro k n f hn hf hr
  obtain ⟨perf, c1, c2⟩ := hc k
  obtain ⟨perf', c1', c2'⟩ := hc' k
  -- what is known before the step stays
  have keep : n < (responses k tr ++ (A.loc k).done).length → (∃ l, responses k (tr ++ ev) ++ (B.loc k).done =
      responses k tr ++ (A.loc k).done ++ l) → accessesOf W ((accepted k (tr ++ ev)).take (n + 1))
        (responses k (tr ++ ev) ++ (B.loc k).done) <+: ofK k s' := by
    rintro hn' ⟨l, hl⟩
    have hlt : n + 1 ≤ (accepted k tr).length := by rw [c1, List.length_append]; rw [List.length_append] at hn'; omega
    rw [hl, accepted_append, List.take_append_of_le_length hlt, accessesOf_more (by rw [List.length_take]; omega)]
    refine (h k n f hn' ?_ hr).trans (hg.2 k)
    rw [accepted_append, List.getElem?_append_left (by omega)] at hf
    exact hf
  obtain ⟨j, a, hB, hh⟩ := step_cases hs
  by_cases hk : k = j
  · subst hk
    rw [hB, if_pos rfl] at hn keep ⊢
    rcases hh with ⟨q, rfl, hp, rfl⟩ | ⟨r, l, rfl, hd, rfl⟩ | ⟨rfl, hh⟩
    · exact keep (by simpa using hn) ⟨[], by simp⟩
    · exact keep (by rw [hd]; simpa using hn) ⟨[], by rw [hd]; simp⟩
    · simp only [List.append_nil] at hn keep hf ⊢
      cases hh with
      | move hp hd => rw [hd] at hn keep ⊢; exact keep hn ⟨[], by simp⟩
      | perform q d hq hp hd _ =>
        rw [hd] at hn keep ⊢
        by_cases hn' : n < (responses k tr ++ (A.loc k).done).length
        · exact keep hn' ⟨_, by rw [List.append_assoc]⟩
        · have hnq : n = perf.length := by
            simp only [List.length_append, List.length_cons, List.length_nil] at hn hn'; omega
          rw [hq, Option.toList_some] at c1
          have hfq : f = q := by
            rw [c1, hnq] at hf
            simpa using hf.symm
          subst hfq
          have hcl := release_clean hs hq (by rw [hB, if_pos rfl]; exact hp) hr
          have hu := (h'.own k).1 hcl
          have hist := h'.hist k
          rw [hu, List.append_nil, hB, if_pos rfl, hd, List.append_nil] at hist
          rw [hist]
          exact accessesOf_take _ _ _ _
  · have hB' : (B.loc k).done = (A.loc k).done := by rw [hB, if_neg hk]
    rw [hB'] at hn keep ⊢
    rcases hh with ⟨q, rfl, hp, rfl⟩ | ⟨r, l, rfl, hd, rfl⟩ | ⟨rfl, hh⟩
    · exact keep (by simpa using hn) ⟨[], by simp⟩
    · rw [responses_append, responses_resp_other (Ne.symm hk), responses_nil, List.append_nil] at hn keep ⊢
      exact keep hn ⟨[], by simp⟩
    · rw [List.append_nil] at hn keep ⊢
      exact keep hn ⟨[], by simp⟩

theorem CI.run_from {tr0 : List (Ev ι)} {A0 : State ι} (h0 : Run (WM.init ι M0) tr0 A0) (hi : CI W M0 tr0 A0 s u ks)
    (hd : Dur W tr0 A0 s) (h : Run A0 tr A) (hal : AmosAligned (tr0 ++ tr)) (hw : WholeWrites W (tr0 ++ tr)) :
    ∃ s' u' ks', CI W M0 (tr0 ++ tr) A s' u' ks' ∧ Grows W s s' ∧ Dur W (tr0 ++ tr) A s' := by
  induction h with
  | refl => rw [List.append_nil]; exact ⟨s, u, ks, hi, .refl _, hd⟩
  | @snoc A1 A2 l ev h hs ih =>
    rw [← List.append_assoc] at hal hw ⊢
    obtain ⟨s', u', ks', h1, h2, h3⟩ := ih hal.prefix hw.prefix
    have hr := h0.trans h
    obtain ⟨s'', u'', ks'', h4, h5⟩ := h1.step (fun k => count_run hr k) hs hal hw
    exact ⟨s'', u'', ks'', h4, h2.trans h5,
      h3.step (fun k => count_run hr k) (fun k => count_run (.snoc hr hs) k) hs h4 h5⟩

theorem CI.init (W : Nat) (M0 : ByteMem) : CI W M0 ([] : List (Ev ι)) (WM.init ι M0) [] (fun _ => []) [] :=
  ⟨trivial, by simp, .refl _ _, fun k => ⟨fun _ => rfl, by simp, by simp [WM.init]⟩,
      List.nodup_nil, by simp, fun k hcl => by simp [WM.init] at hcl, fun _ => rfl⟩

theorem Dur.init (W : Nat) (M0 : ByteMem) : Dur W ([] : List (Ev ι)) (WM.init ι M0) [] := by
  intro k n f hn
  simp [responses, WM.init] at hn

theorem CI.run (h : Run (WM.init ι M0) tr A) (hal : AmosAligned tr) (hw : WholeWrites W tr) :
    ∃ s u ks, CI W M0 tr A s u ks ∧ Dur W tr A s := by
  obtain ⟨s, u, ks, h1, _, h2⟩ := CI.run_from (.refl _) (CI.init W M0) (Dur.init W M0) h hal hw
  exact ⟨s, u, ks, h1, h2⟩

/-- The accesses of the dirty caches, cache by cache. Proof device; not in the source. -/
def tails (u : ι → List (Req × Resp)) (ks : List ι) : List (ι × Req × Resp) :=
  ks.flatMap fun k => (u k).map fun x => (k, x)

theorem ofK_tails (u : ι → List (Req × Resp)) {ks : List ι} (hn : ks.Nodup) (k : ι) :
    ofK k (tails u ks) = if k ∈ ks then u k else [] := by
  induction ks with
  | nil => rfl
  | cons j ks ih =>
    obtain ⟨h1, h2⟩ := List.nodup_cons.1 hn
    rw [show tails u (j :: ks) = ((u j).map fun x => (j, x)) ++ tails u ks from rfl, ofK_append, ih h2]
    by_cases hk : k = j
    · subst hk
      rw [ofK_own, if_neg h1, if_pos (by simp), List.append_nil]
    · rw [ofK_other (Ne.symm hk), List.nil_append]
      simp [hk]

theorem CI.tails_legal (h : CI W M0 tr A s u ks) (M : ByteMem) (l : List ι) : Legal W M ((tails u l).map (·.2)) := by
  induction l generalizing M with
  | nil => trivial
  | cons k l ih =>
    rw [show tails u (k :: l) = ((u k).map fun x => (k, x)) ++ tails u l from rfl, List.map_append, legal_append]
    refine ⟨?_, ih _⟩
    have e : ((u k).map fun x => (k, x)).map (·.2) = u k := by simp [Function.comp_def]
    rw [e]
    by_cases hd : (A.loc k).copy W = .dirty
    · exact ((h.own k).2.2 hd M).1
    · rw [(h.own k).1 hd]; trivial

theorem CI.explains (h : CI W M0 tr A s u ks) : Explains W M0 tr (s ++ tails u ks) := by
  refine ⟨?_, fun k => ?_⟩
  · rw [List.map_append, legal_append]
    exact ⟨h.legal, h.tails_legal _ _⟩
  · have e : ofK k (s ++ tails u ks) = ofK k s ++ u k := by
      rw [ofK_append, ofK_tails u h.nodup]
      by_cases hk : k ∈ ks
      · rw [if_pos hk]
      · rw [if_neg hk]
        by_cases hu : u k = []
        · rw [hu]
        · exact absurd (h.fin k hu) hk
    rw [e, h.hist k]
    exact ⟨accessesOf_prefix _ _ _ _, accessesOf_asked _ _ _⟩

end Verif.WM

namespace Verif
variable {ι : Type} [DecidableEq ι] {p : ι → Params}

/-- **C78.**  Caches of any shapes on one memory, and *any* program: no FLUSH, INV or other
discipline is asked for.  If every WRITE to word `W` writes the whole word, the accesses of
all processors to `W` (reads, writes and atomic operations) have one common order that
explains every response: performed one after the other on the initial memory they give the
data returned, and each processor's accesses are in the order it made them.  Memory holds
the word some initial part of this order leaves. -/
theorem C78_coherent (wf : ∀ k, (p k).WF) {H H' : HSys ι p} {tr : List (HEv ι p)} (h0 : HStart H)
    (h : HetRun H tr H') (hv : HValid tr) {W : Nat} (hw : WM.WholeWrites W (visible tr)) :
    ∃ s1 s2 : List (ι × WM.Req × WM.Resp), WM.Explains W H.mem (visible tr) (s1 ++ s2) ∧
      ∀ x, x / 4 = W → H'.mem x = WM.runs H.mem (s1.map (·.2)) x := by
  obtain ⟨A, h1, h2⟩ := C64_memory_model wf h0 h hv
  obtain ⟨s, u, ks, h3, _⟩ := WM.CI.run h1 (visible_aligned hv) hw
  exact ⟨s, _, h3.explains, by rw [← h2]; exact h3.mem⟩

/-- **C80.**  Caches of any shapes on one memory, any program whose WRITEs to word `W` write
the whole word.  Look at memory at two times.  Each time the word is what the initial memory
becomes by a sequence of accesses which some order that explains the history (as in C78)
starts with; so a crash at that time leaves a word that was once the newest.  This sequence
contains everything a cache did on `W` up to its last answered FLUSH (or atomic operation on
`W`).  At the later time the stores of the sequence are those of the earlier time and some
more at the end: memory never goes back. -/
theorem C80_crash_consistent (wf : ∀ k, (p k).WF) {H H₁ H₂ : HSys ι p} {tr₁ tr₂ : List (HEv ι p)} (h0 : HStart H)
    (h₁ : HetRun H tr₁ H₁) (h₂ : HetRun H₁ tr₂ H₂) (hv : HValid (tr₁ ++ tr₂)) {W : Nat}
    (hw : WM.WholeWrites W (visible (tr₁ ++ tr₂))) :
    ∃ s₁ t₁ s₂ t₂ : List (ι × WM.Req × WM.Resp),
      WM.Explains W H.mem (visible tr₁) (s₁ ++ t₁) ∧ (∀ x, x / 4 = W → H₁.mem x = WM.runs H.mem (s₁.map (·.2)) x) ∧
      WM.Durable W (visible tr₁) s₁ ∧
      WM.Explains W H.mem (visible (tr₁ ++ tr₂)) (s₂ ++ t₂) ∧
      (∀ x, x / 4 = W → H₂.mem x = WM.runs H.mem (s₂.map (·.2)) x) ∧
      WM.Durable W (visible (tr₁ ++ tr₂)) s₂ ∧
      WM.storesOf W s₁ <+: WM.storesOf W s₂ := by
  have hv1 : HValid tr₁ := fun k u q hq => hv k u q (by simp [hq])
  have hv2 : HValid tr₂ := fun k u q hq => hv k u q (by simp [hq])
  obtain ⟨A1, r1, m1, n1⟩ := model_run wf h0 h₁ hv1
  obtain ⟨A2, r2, m2, _⟩ := model_run_from wf m1 n1 h₂ hv2
  have hal := visible_aligned hv
  rw [visible_append] at hw hal ⊢
  obtain ⟨s1, u1, ks1, c1, d1⟩ := WM.CI.run r1 hal.prefix hw.prefix
  obtain ⟨s2, u2, ks2, c2, g2, d2⟩ := WM.CI.run_from r1 c1 d1 r2 hal hw
  exact ⟨s1, _, s2, _, c1.explains, by rw [← m1]; exact c1.mem, d1.durable, c2.explains,
    by rw [← m2]; exact c2.mem, d2.durable, g2.1⟩

end Verif
