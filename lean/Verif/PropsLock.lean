import Verif.SpecLock
import Verif.PropsLin

/-!
# C67: a spin lock protects shared words
-/

set_option linter.unusedSectionVars false

namespace Verif.WM
variable {ι : Type} [DecidableEq ι] {L : Nat} {D : Nat → Prop} {M0 : ByteMem} {tr : List (Ev ι)} {k k' : ι}

/-! ## Operations of one cache -/

theorem amosOf_mono (W : Nat) (qs l : List Req) (rs l' : List Resp) :
    amosOf W qs rs <+: amosOf W (qs ++ l) (rs ++ l') := by
  induction qs generalizing rs with
  | nil => simp [amosOf]
  | cons q qs ih => cases rs with
    | nil => simp [amosOf]
    | cons r rs =>
      rw [List.cons_append, List.cons_append, amosOf_cons, amosOf_cons, List.prefix_append_right_inj]
      exact ih rs

theorem answered_mono (k : ι) (W : Nat) (a b : List (Ev ι)) : answeredAmos k W a <+: answeredAmos k W (a ++ b) := by
  simp only [answeredAmos, accepted_append, responses_append]
  exact amosOf_mono _ _ _ _ _

theorem asked_eq (k : ι) (W : Nat) (tr : List (Ev ι)) : askedAmos k W tr = (accepted k tr).filterMap (askOf W) := rfl

theorem asked_append' (k : ι) (W : Nat) (a b : List (Ev ι)) :
    askedAmos k W (a ++ b) = askedAmos k W a ++ askedAmos k W b := by
  simp [asked_eq]

theorem answered_le (k : ι) (W : Nat) (tr : List (Ev ι)) : (answeredAmos k W tr).length ≤ (askedAmos k W tr).length := by
  have := (amosOf_asked W (accepted k tr) (responses k tr)).length_le
  rw [List.length_map] at this
  exact this

/-- The lock is kept until the next atomic operation on it. -/
theorem Holds.keep {a d : List (Ev ι)} (h : Holds k L a) (hd : askedAmos k L d = []) : Holds k L (a ++ d) := by
  obtain ⟨h1, o, h2, h3⟩ := h
  have h4 := answered_mono k L a d
  have h5 := answered_le k L (a ++ d)
  rw [asked_append', hd, List.append_nil] at h5
  have h6 := h4.eq_of_length_le (by omega)
  refine ⟨?_, o, by rw [← h6]; exact h2, h3⟩
  rw [asked_append', hd, List.append_nil, ← h6, h1]

/-- The first atomic operation on the lock. -/
theorem first_ask {b : List (Ev ι)} (h : askedAmos k L b ≠ []) :
    ∃ c f d, b = c ++ .acc k f :: d ∧ askedAmos k L c = [] ∧ MT.isAmo f.ty = true ∧ f.addr / 4 = L := by
  induction b with
  | nil => exact absurd rfl h
  | cons e b ih =>
    by_cases he : askedAmos k L [e] = []
    · rw [show e :: b = [e] ++ b from rfl, asked_append', he, List.nil_append] at h
      obtain ⟨c, f, d, rfl, h2, h3⟩ := ih h
      refine ⟨e :: c, f, d, rfl, ?_, h3⟩
      rw [show e :: c = [e] ++ c from rfl, asked_append', he, h2]; rfl
    · cases e with
      | resp => exact absurd (by simp [asked_eq]) he
      | acc k2 q =>
        by_cases hk : k2 = k
        · subst hk
          by_cases hc : MT.isAmo q.ty = true ∧ q.addr / 4 = L
          · exact ⟨[], q, b, rfl, rfl, hc⟩
          · exact absurd (by simp [asked_eq, askOf, hc]) he
        · exact absurd (by simp [asked_eq, accepted_acc_other hk]) he

/-- A request that is no atomic operation on the lock does not count. -/
theorem asked_other {q : Req} {d : List (Ev ι)} (h : ¬ (MT.isAmo q.ty = true ∧ q.addr / 4 = L)) :
    askedAmos k L (.acc k q :: d) = askedAmos k L d := by
  simp [asked_eq, askOf, h]

/-! ## Sequences of swaps -/

/-- The last operation of `k` found the lock free. Proof device; not in the source. -/
def Got (k : ι) (s : List (ι × AmoOp)) : Prop := ∃ o, (ofCache k s).getLast? = some o ∧ o.arg = 1 ∧ o.old = 0

theorem amoSeq_nil {v v' : BitVec 32} (h : AmoSeq v [] v') : v' = v := by
  generalize hl : ([] : List AmoOp) = l at h
  cases h with
  | nil => rfl
  | cons => cases hl

theorem amoSeq_cons {v v' : BitVec 32} {o : AmoOp} {l : List AmoOp} (h : AmoSeq v (o :: l) v') :
    v = o.old ∧ AmoSeq (amoFun o.ty o.old o.arg) l v' := by
  generalize hl : o :: l = l' at h
  cases h with
  | nil => cases hl
  | cons o' h => cases hl; exact ⟨rfl, h⟩

theorem amoSeq_split {v v' : BitVec 32} {l l' : List AmoOp} (h : AmoSeq v (l ++ l') v') : ∃ w, AmoSeq v l w := by
  induction l generalizing v with
  | nil => exact ⟨v, .nil v⟩
  | cons o l ih =>
    obtain ⟨rfl, h'⟩ := amoSeq_cons h
    obtain ⟨w, hw⟩ := ih h'
    exact ⟨w, .cons o hw⟩

theorem amoSeq_unsnoc {v v' : BitVec 32} {l : List AmoOp} {o : AmoOp} (h : AmoSeq v (l ++ [o]) v') :
    AmoSeq v l o.old ∧ v' = amoFun o.ty o.old o.arg := by
  induction l generalizing v with
  | nil =>
    obtain ⟨rfl, h'⟩ := amoSeq_cons h
    exact ⟨.nil _, amoSeq_nil h'⟩
  | cons o' l ih =>
    obtain ⟨rfl, h'⟩ := amoSeq_cons h
    exact ⟨.cons o' (ih h').1, (ih h').2⟩

theorem ofCache_snoc_same (k : ι) (s : List (ι × AmoOp)) (o : AmoOp) : ofCache k (s ++ [(k, o)]) = ofCache k s ++ [o] := by
  rw [ofCache_append]; simp [ofCache]

theorem ofCache_snoc_other {k k' : ι} (h : k' ≠ k) (s : List (ι × AmoOp)) (o : AmoOp) :
    ofCache k (s ++ [(k', o)]) = ofCache k s := by
  rw [ofCache_append]; simp [ofCache, h]

/-- Swaps in which 0 is only stored after the lock was got. -/
theorem one_holder (s : List (ι × AmoOp)) : ∀ v, AmoSeq 0 (s.map (·.2)) v →
    (∀ x ∈ s, x.2.ty = SWAP ∧ (x.2.arg = 0 ∨ x.2.arg = 1)) →
    (∀ (k : ι) (n : Nat) (o : AmoOp), (ofCache k s)[n]? = some o → o.arg = 0 →
      ∃ (m : Nat) (o' : AmoOp), n = m + 1 ∧ (ofCache k s)[m]? = some o' ∧ o'.arg = 1 ∧ o'.old = 0) →
    (v = 0 ∨ v = 1) ∧ (v = 0 → ∀ k, ¬ Got k s) ∧ (∀ k k', Got k s → Got k' s → k = k') := by
  induction h : s.length generalizing s with
  | zero =>
    intro v hv _ _
    have : s = [] := List.length_eq_zero_iff.1 h
    subst this
    obtain rfl := amoSeq_nil hv
    refine ⟨.inl rfl, ?_, ?_⟩
    · rintro _ k ⟨o, h1, _⟩; simp [ofCache] at h1
    · rintro k _ ⟨o, h1, _⟩; simp [ofCache] at h1
  | succ n ih =>
    intro v hv hty hrel
    rcases List.eq_nil_or_concat s with rfl | ⟨s', x, hs'⟩
    · simp at h
    rw [List.concat_eq_append] at hs'
    subst hs'
    obtain ⟨k0, o0⟩ := x
    rw [List.map_append, List.map_singleton] at hv
    obtain ⟨hv', rfl⟩ := amoSeq_unsnoc hv
    have hrel' : ∀ (k : ι) (n : Nat) (o : AmoOp), (ofCache k s')[n]? = some o → o.arg = 0 →
        ∃ (m : Nat) (o' : AmoOp), n = m + 1 ∧ (ofCache k s')[m]? = some o' ∧ o'.arg = 1 ∧ o'.old = 0 := by
      intro k n o ho ha
      have hn := (List.getElem?_eq_some_iff.1 ho).1
      have hpre : ∀ j, j < (ofCache k s').length → (ofCache k (s' ++ [(k0, o0)]))[j]? = (ofCache k s')[j]? := by
        intro j hj; rw [ofCache_append, List.getElem?_append_left hj]
      obtain ⟨m, o', rfl, h2, h3⟩ := hrel k n o (by rw [hpre n hn]; exact ho) ha
      exact ⟨m, o', rfl, by rw [← hpre m (by omega)]; exact h2, h3⟩
    obtain ⟨i1, i2, i3⟩ := ih s' (by simpa using h) _ hv' (fun x hx => hty x (by simp [hx])) hrel'
    obtain ⟨t1, t2⟩ := hty (k0, o0) (by simp)
    simp only at t1 t2 hv'
    have hswap : amoFun o0.ty o0.old o0.arg = o0.arg := by rw [t1]; rfl
    rw [hswap]
    have gother : ∀ k, k ≠ k0 → (Got k (s' ++ [(k0, o0)]) ↔ Got k s') := by
      intro k hk; simp only [Got, ofCache_snoc_other (Ne.symm hk)]
    have gsame : Got k0 (s' ++ [(k0, o0)]) ↔ (o0.arg = 1 ∧ o0.old = 0) := by
      simp only [Got, ofCache_snoc_same, List.getLast?_concat, Option.some.injEq]
      exact ⟨fun ⟨o, h1, h2⟩ => h1 ▸ h2, fun h => ⟨o0, rfl, h⟩⟩
    rcases t2 with ha | ha
    · -- the lock is given back
      have hgot : Got k0 s' := by
        obtain ⟨m, o', hm, h2, h3⟩ := hrel k0 (ofCache k0 s').length o0 (by rw [ofCache_snoc_same]; simp) ha
        refine ⟨o', ?_, h3⟩
        rw [List.getLast?_eq_getElem?, hm, Nat.add_sub_cancel]
        rw [ofCache_snoc_same, List.getElem?_append_left (by omega)] at h2
        exact h2
      have hnone : ∀ k, ¬ Got k (s' ++ [(k0, o0)]) := by
        intro k hg
        by_cases hk : k = k0
        · subst hk
          rw [gsame] at hg
          rw [ha] at hg
          exact absurd hg.1 (by decide)
        · rw [gother k hk] at hg
          exact hk (i3 k k0 hg hgot)
      exact ⟨.inl ha, fun _ => hnone, fun k k' hg => absurd hg (hnone k)⟩
    · refine ⟨.inr ha, fun h0 => absurd (ha.symm.trans h0) (by decide), ?_⟩
      intro k k' hg hg'
      by_cases hk : k = k0
      · by_cases hk' : k' = k0
        · rw [hk, hk']
        · subst hk
          rw [gsame] at hg
          rw [gother k' hk'] at hg'
          exact absurd hg' (i2 hg.2 k')
      · by_cases hk' : k' = k0
        · subst hk'
          rw [gsame] at hg'
          rw [gother k hk] at hg
          exact absurd hg (i2 hg'.2 k)
        · rw [gother k hk] at hg
          rw [gother k' hk'] at hg'
          exact i3 k k' hg hg'

/-! ## Mutual exclusion -/

theorem asked_split {n : Nat} {x : MType × BitVec 32} (h : (askedAmos k L tr)[n]? = some x) :
    ∃ a q b, tr = a ++ .acc k q :: b ∧ (askedAmos k L a).length = n ∧ MT.isAmo q.ty = true ∧ q.addr / 4 = L ∧
      x = (q.ty, BitVec.ofNat 32 q.data) := by
  induction tr generalizing n with
  | nil => simp [asked_eq] at h
  | cons e tr ih =>
    have go : ∀ m, (askedAmos k L tr)[m]? = some x → (askedAmos k L [e]).length + m = n →
        ∃ a q b, e :: tr = a ++ .acc k q :: b ∧ (askedAmos k L a).length = n ∧ MT.isAmo q.ty = true ∧ q.addr / 4 = L ∧
          x = (q.ty, BitVec.ofNat 32 q.data) := by
      intro m h1 h2
      obtain ⟨a, q, b, rfl, h4, h5⟩ := ih h1
      refine ⟨e :: a, q, b, rfl, ?_, h5⟩
      rw [show e :: a = [e] ++ a from rfl, asked_append', List.length_append, h4, h2]
    rw [show e :: tr = [e] ++ tr from rfl, asked_append'] at h
    by_cases he : askedAmos k L [e] = []
    · rw [he, List.nil_append] at h
      exact go n h (by rw [he]; simp)
    · cases e with
      | resp => exact absurd (by simp [asked_eq]) he
      | acc k2 q =>
        by_cases hk : k2 = k
        · subst hk
          by_cases hc : MT.isAmo q.ty = true ∧ q.addr / 4 = L
          · have h1 : askedAmos k2 L [.acc k2 q] = [(q.ty, BitVec.ofNat 32 q.data)] := by simp [asked_eq, askOf, hc]
            rw [h1] at h
            cases n with
            | zero =>
              simp only [List.singleton_append, List.getElem?_cons_zero, Option.some.injEq] at h
              exact ⟨[], q, tr, rfl, rfl, hc.1, hc.2, h.symm⟩
            | succ m => exact go m (by simpa using h) (by rw [h1]; simp; omega)
          · exact absurd (by simp [asked_eq, askOf, hc]) he
        · exact absurd (by simp [asked_eq, accepted_acc_other hk]) he

theorem holds_got {a : List (Ev ι)} {s : List (ι × AmoOp)} (h : Holds k L a) (h1 : answeredAmos k L a <+: ofCache k s)
    (h2 : (ofCache k s).map (fun o => (o.ty, o.arg)) <+: askedAmos k L a) : Got k s := by
  obtain ⟨h3, o, h4, h5⟩ := h
  have := h2.length_le
  rw [List.length_map] at this
  have he := h1.eq_of_length_le (by omega)
  exact ⟨o, by rw [← he]; exact h4, h5⟩

theorem mutex {s : List (ι × AmoOp)} {v : BitVec 32} (hs : AmoSeq 0 (s.map (·.2)) v) (hl : Linearised L tr s)
    (hp : LockProtocol L D tr) {a b : List (Ev ι)} (hab : tr = a ++ b) (h : Holds k L a) (h' : Holds k' L a) : k = k' := by
  obtain ⟨s1, s2, rfl, h1⟩ := hl a b hab
  rw [List.map_append] at hs
  obtain ⟨w, hw⟩ := amoSeq_split hs
  have hin : ∀ {k n o}, (ofCache k s1)[n]? = some o → ∃ c q d, tr = c ++ .acc k q :: d ∧ (askedAmos k L c).length = n ∧
      MT.isAmo q.ty = true ∧ q.addr / 4 = L ∧ (o.ty, o.arg) = (q.ty, BitVec.ofNat 32 q.data) := by
    intro k n o ho
    have hask : (askedAmos k L a)[n]? = some (o.ty, o.arg) := by
      obtain ⟨t, ht⟩ := (h1 k).2
      have hn := (List.getElem?_eq_some_iff.1 ho).1
      rw [← ht, List.getElem?_append_left (by simpa using hn), List.getElem?_map, ho]; rfl
    obtain ⟨c, q, d, rfl, h2, h3, h4, h5⟩ := asked_split hask
    exact ⟨c, q, d ++ b, by rw [hab]; simp, h2, h3, h4, h5⟩
  refine (one_holder s1 w hw ?_ ?_).2.2 k k' (holds_got h (h1 k).1 (h1 k).2) (holds_got h' (h1 k').1 (h1 k').2)
  · rintro ⟨k2, o⟩ hx
    have ho : o ∈ ofCache k2 s1 := by
      simp only [ofCache, List.mem_filterMap]; exact ⟨_, hx, by simp⟩
    obtain ⟨n, hn⟩ := List.getElem?_of_mem ho
    obtain ⟨c, q, d, h2, _, h3, h4, h5⟩ := hin hn
    simp only [Prod.mk.injEq] at h5
    obtain ⟨h6, h7⟩ := hp.swap k2 c q d h2 h3 h4
    refine ⟨h5.1.trans h6, ?_⟩
    rcases h7 with ⟨_, h7⟩ | ⟨_, h7, _⟩
    · exact .inr (h5.2.trans h7)
    · exact .inl (h5.2.trans h7)
  · intro k2 n o ho ha
    obtain ⟨c, q, d, h2, h3, h4, h5, h6⟩ := hin ho
    simp only [Prod.mk.injEq] at h6
    obtain ⟨_, h7⟩ := hp.swap k2 c q d h2 h4 h5
    rcases h7 with ⟨_, h7⟩ | ⟨⟨g1, o', g2, g3⟩, _, _⟩
    · rw [← h6.2, ha] at h7; exact absurd h7 (by decide)
    · -- the previous operation of the cache
      obtain ⟨t1, t2, ht, h8⟩ := hl c (.acc k2 q :: d) h2
      have hlen := ((h8 k2).2.length_le)
      rw [List.length_map] at hlen
      have he := (h8 k2).1.eq_of_length_le (by omega)
      have hne : (answeredAmos k2 L c).length ≠ 0 := by
        intro h0
        rw [List.length_eq_zero_iff] at h0
        rw [h0] at g2; simp at g2
      refine ⟨n - 1, o', by omega, ?_, g3⟩
      -- both initial parts of the sequence
      have hpre : (ofCache k2 s1)[n - 1]? = (ofCache k2 (s1 ++ s2))[n - 1]? := by
        have hn := (List.getElem?_eq_some_iff.1 ho).1
        rw [ofCache_append, List.getElem?_append_left (by omega)]
      rw [hpre, ht, ofCache_append, ← he, List.getElem?_append_left (by omega)]
      rw [List.getLast?_eq_getElem?] at g2
      rw [show n - 1 = (answeredAmos k2 L c).length - 1 by omega]
      exact g2

/-! ## The discipline of C65 -/

/-- Protected accesses happen while the lock is held. -/
theorem guarded_holds (hp : LockProtocol L D tr) {a b : List (Ev ι)} {q : Req} (h : tr = a ++ .acc k q :: b) {W : Nat}
    (hD : D W) (hq : q.stores W ∨ q.reads W) : Holds k L a := by
  obtain ⟨c, i, d, rfl, hi, hc, hd⟩ := hp.guarded k a q b h W hD hq
  refine hc.keep ?_
  rw [asked_other]
  · exact hd
  · exact fun h' => inv_not_amo hi h'.1

theorem not_lock_op (hp : LockProtocol L D tr) {q : Req} {W : Nat} (hD : D W) (hq : q.stores W ∨ q.reads W) :
    ¬ (MT.isAmo q.ty = true ∧ q.addr / 4 = L) := by
  rintro ⟨h1, rfl⟩
  rcases hq with (⟨h2, _⟩ | ⟨_, h2⟩) | (⟨h2, _⟩ | ⟨_, h2⟩)
  · exact amo_not_write h1 h2
  · subst h2; exact hp.apart hD
  · exact amo_not_read h1 h2
  · subst h2; exact hp.apart hD

/-- Giving back the lock: everything is answered and flushed. -/
theorem released_before (hp : LockProtocol L D tr) {W : Nat} (hD : D W) {a e b : List (Ev ι)} {q : Req}
    (h : tr = (a ++ .acc k q :: e) ++ b) (hq : q.stores W) (hask : askedAmos k L e ≠ []) :
    Released k W a (.acc k q :: e) := by
  obtain ⟨e1, f, e2, rfl, h1, h2, h3⟩ := first_ask hask
  have hh : Holds k L (a ++ .acc k q :: e1) := by
    have h0 := guarded_holds hp (k := k) (a := a) (b := e1 ++ .acc k f :: e2 ++ b) (q := q) (by rw [h]; simp) hD (.inl hq)
    refine h0.keep ?_
    rw [asked_other (not_lock_op hp hD (.inl hq)), h1]
  obtain ⟨_, h4⟩ := hp.swap k (a ++ .acc k q :: e1) f (e2 ++ b) (by rw [h]; simp) h2 h3
  rcases h4 with ⟨h4, _⟩ | ⟨_, _, h5, h6⟩
  · exact absurd hh h4
  · obtain ⟨g, hg, hgt⟩ := h6 W hD a q e1 rfl hq
    obtain ⟨n, hn⟩ := List.getElem?_of_mem hg
    obtain ⟨u, w, rfl, hu⟩ := accepted_split hn
    have : Released k W a (.acc k q :: (u ++ .acc k g :: w)) := by
      refine ⟨.acc k q :: u, g, w, rfl, .inl hgt, ?_⟩
      rw [← h5]; simp
    have := this.mono (.acc k f :: e2)
    simpa using this

/-- The cache that holds the lock, and has invalidated since, is up to date. -/
theorem guarded_upToDate {s : List (ι × AmoOp)} {v : BitVec 32} (hs : AmoSeq 0 (s.map (·.2)) v) (hl : Linearised L tr s)
    (hp : LockProtocol L D tr) {a b : List (Ev ι)} {q : Req} (h : tr = a ++ .acc k q :: b) {W : Nat} (hD : D W)
    (hq : q.stores W ∨ q.reads W) : UpToDate k W a := by
  obtain ⟨c, i, d, rfl, hi, hc, hd⟩ := hp.guarded k a q b h W hD hq
  intro k' hk a' q' b' ha' hq'
  rcases List.append_eq_append_iff.1 ha' with ⟨e, he1, he2⟩ | ⟨e, he1, he2⟩
  · -- the store comes after the INV: both would hold the lock
    cases e with
    | nil =>
      simp only [List.nil_append, List.cons.injEq, Ev.acc.injEq] at he2
      exact absurd he2.1.1.symm hk
    | cons x e =>
      simp only [List.cons_append, List.cons.injEq] at he2
      obtain ⟨rfl, rfl⟩ := he2
      exfalso
      have h1 : Holds k' L a' := guarded_holds hp (a := a') (b := b' ++ .acc k q :: b) (q := q')
        (by rw [h, ha']; simp) hD (.inl hq')
      have h2 : Holds k L a' := by
        rw [he1]
        refine hc.keep ?_
        rw [asked_other (fun h' => inv_not_amo hi h'.1)]
        rw [asked_append', List.append_eq_nil_iff] at hd
        exact hd.1
      exact hk (mutex hs hl hp (a := a') (b := .acc k' q' :: (b' ++ .acc k q :: b)) (by rw [h, ha']; simp) h1 h2)
  · cases e with
    | nil =>
      simp only [List.nil_append, List.cons.injEq, Ev.acc.injEq] at he2
      exact absurd he2.1.1 hk
    | cons x e =>
      simp only [List.cons_append, List.cons.injEq] at he2
      obtain ⟨rfl, rfl⟩ := he2
      refine ⟨e, i, d, rfl, .inl hi, ?_⟩
      refine released_before hp hD (b := .acc k i :: (d ++ .acc k q :: b)) (by rw [h, ha']; simp) hq' ?_
      intro hno
      have h1 : Holds k' L a' := guarded_holds hp (a := a') (b := e ++ .acc k i :: d ++ .acc k q :: b) (q := q')
        (by rw [h, ha']; simp) hD (.inl hq')
      have h2 : Holds k' L c := by
        rw [he1]
        refine h1.keep ?_
        rw [asked_other (not_lock_op hp hD (.inl hq')), hno]
      exact hk (mutex hs hl hp (a := c) (b := .acc k i :: (d ++ .acc k q :: b)) (by rw [h]; simp) h2 hc)

theorem lock_disciplined {s : List (ι × AmoOp)} {v : BitVec 32} (hs : AmoSeq 0 (s.map (·.2)) v) (hl : Linearised L tr s)
    (hp : LockProtocol L D tr) {W : Nat} (hD : D W) : Disciplined W tr := by
  intro k a q b h
  exact ⟨fun hq => guarded_upToDate hs hl hp h hD (.inl (.inl hq)),
    fun hq => (guarded_upToDate hs hl hp h hD (.inl (.inr hq))).others⟩

theorem lock_noRace {s : List (ι × AmoOp)} {v : BitVec 32} (hs : AmoSeq 0 (s.map (·.2)) v) (hl : Linearised L tr s)
    (hp : LockProtocol L D tr) {a b : List (Ev ι)} {q : Req} (h : tr = a ++ .acc k q :: b) {W : Nat} (hD : D W)
    (hq : q.stores W ∨ q.reads W) : NoRace k W a q b := by
  intro k' hk c q' d hc hq'
  have h1 : Holds k L a := guarded_holds hp h hD hq
  have h2 : Holds k' L (a ++ .acc k q :: c) :=
    guarded_holds hp (b := d) (q := q') (by rw [h, hc]; simp) hD (.inl hq')
  by_cases hno : askedAmos k L c = []
  · exfalso
    have h3 : Holds k L (a ++ .acc k q :: c) := by
      refine h1.keep ?_
      rw [asked_other (not_lock_op hp hD hq), hno]
    exact hk (mutex hs hl hp (b := .acc k' q' :: d) (by rw [h, hc]; simp) h2 h3)
  · obtain ⟨e1, f, e2, rfl, g1, g2, g3⟩ := first_ask hno
    have hh : Holds k L (a ++ .acc k q :: e1) := by
      refine h1.keep ?_
      rw [asked_other (not_lock_op hp hD hq), g1]
    obtain ⟨_, h4⟩ := hp.swap k (a ++ .acc k q :: e1) f (e2 ++ .acc k' q' :: d) (by rw [h, hc]; simp) g2 g3
    rcases h4 with ⟨h4, _⟩ | ⟨_, _, h5, _⟩
    · exact absurd hh h4
    · simp at h5 ⊢; omega

end Verif.WM

namespace Verif
variable {ι : Type} [DecidableEq ι] {p : ι → Params}

/-- **C67, mutual exclusion.**  Caches of any shapes.  If software follows the protocol for
the lock `L`, which is free at first, no two processors ever hold it at the same time. -/
theorem C67_mutual_exclusion (wf : ∀ k, (p k).WF) {H H' : HSys ι p} {tr : List (HEv ι p)} (h0 : HStart H)
    (h : HetRun H tr H') (hv : HValid tr) {L : Nat} {D : Nat → Prop} (hfree : memWord H.mem L = 0)
    (hp : WM.LockProtocol L D (visible tr)) {a b : List (WM.Ev ι)} (hab : visible tr = a ++ b) {k k' : ι}
    (hk : WM.Holds k L a) (hk' : WM.Holds k' L a) : k = k' := by
  obtain ⟨s, h1, h2⟩ := C66_amos_linearised wf h0 h hv hp.noWrite
  rw [hfree] at h1
  exact WM.mutex h1 h2 hp hab hk hk'

/-- **C67, protected words.**  A READ of words protected by the lock returns the latest
data: everything accepted before it, by any cache, performed on one flat memory. -/
theorem C67_protected_reads (wf : ∀ k, (p k).WF) {H H' : HSys ι p} {tr : List (HEv ι p)} (h0 : HStart H)
    (h : HetRun H tr H') (hv : HValid tr) {L : Nat} {D : Nat → Prop} (hfree : memWord H.mem L = 0)
    (hp : WM.LockProtocol L D (visible tr)) {k : ι} {a b : List (WM.Ev ι)} {q : WM.Req}
    (hq : visible tr = a ++ .acc k q :: b) (hD : ∀ W, q.reads W → D W) {r : WM.Resp}
    (hresp : (WM.responses k (visible tr))[(WM.accepted k a).length]? = some r) :
    r = ⟨q.ty, q.opq, q.len, (WM.flat (WM.latest H.mem a) q).2⟩ := by
  obtain ⟨s, h1, h2⟩ := C66_amos_linearised wf h0 h hv hp.noWrite
  rw [hfree] at h1
  refine C65_responses wf h0 h hv hq (fun W hW => WM.lock_disciplined h1 h2 hp (hD W hW)) ?_ hresp
  intro W hW _
  exact ⟨WM.guarded_upToDate h1 h2 hp hq (hD W hW) (.inr hW), WM.lock_noRace h1 h2 hp hq (hD W hW) (.inr hW)⟩

end Verif
