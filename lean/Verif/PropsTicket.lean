import Verif.SpecTicket
import Verif.PropsLockLive

/-!
# C93: a ticket lock
-/

set_option linter.unusedSectionVars false

namespace Verif.WM
variable {ι : Type} [DecidableEq ι] {T S : Nat} {tr : List (Ev ι)} {k k' : ι}

/-! ## Tickets are numbered in the order they are drawn -/

theorem positions (s : List (ι × AmoOp)) : ∀ v, AmoSeq 0 (s.map (·.2)) v → (∀ x ∈ s, x.2.ty = ADD ∧ x.2.arg = 1) →
    s.length < 2 ^ 32 → v.toNat = s.length := by
  induction h : s.length generalizing s with
  | zero =>
    intro v hv _ _
    obtain rfl := List.length_eq_zero_iff.1 h
    obtain rfl := amoSeq_nil hv
    rfl
  | succ n ih =>
    intro v hv hty hlt
    rcases List.eq_nil_or_concat s with rfl | ⟨s', x, hs'⟩
    · simp at h
    rw [List.concat_eq_append] at hs'
    subst hs'
    obtain ⟨k, o⟩ := x
    rw [List.map_append, List.map_singleton] at hv
    obtain ⟨hv', rfl⟩ := amoSeq_unsnoc hv
    obtain ⟨t1, t2⟩ := hty (k, o) (by simp)
    simp only at t1 t2
    have hn : s'.length = n := by simpa using h
    have := ih s' hn _ hv' (fun x hx => hty x (by simp [hx])) (by omega)
    rw [t1, show amoFun ADD o.old o.arg = o.old + o.arg from rfl, t2, BitVec.toNat_add, this,
      show (1 : BitVec 32).toNat = 1 from rfl]
    omega

theorem ticket_pos {s : List (ι × AmoOp)} {v : BitVec 32} (hs : AmoSeq 0 (s.map (·.2)) v)
    (hty : ∀ x ∈ s, x.2.ty = ADD ∧ x.2.arg = 1) (hlt : s.length < 2 ^ 32) {u w : List (ι × AmoOp)} {o : AmoOp}
    (h : s = u ++ (k, o) :: w) : o.old.toNat = u.length := by
  subst h
  have hs' : AmoSeq 0 ((u ++ [(k, o)]).map (·.2) ++ w.map (·.2)) v := by simpa using hs
  obtain ⟨v1, hv1⟩ := amoSeq_split hs'
  rw [List.map_append, List.map_singleton] at hv1
  obtain ⟨hv2, _⟩ := amoSeq_unsnoc hv1
  exact positions u _ hv2 (fun x hx => hty x (by simp [hx])) (by simp at hlt; omega)

/-- Different draws give different tickets. -/
theorem tickets_differ {s : List (ι × AmoOp)} {v : BitVec 32} (hs : AmoSeq 0 (s.map (·.2)) v)
    (hty : ∀ x ∈ s, x.2.ty = ADD ∧ x.2.arg = 1) (hlt : s.length < 2 ^ 32) {j j' : Nat} {o o' : AmoOp}
    (h : (ofCache k s)[j]? = some o) (h' : (ofCache k' s)[j']? = some o') (he : o.old = o'.old) : k = k' ∧ j = j' := by
  obtain ⟨u, w, h1, h2⟩ := ofCache_split s h
  obtain ⟨u', w', h1', h2'⟩ := ofCache_split s h'
  have e1 := ticket_pos hs hty hlt h1
  have e2 := ticket_pos hs hty hlt h1'
  have hl : u.length = u'.length := by rw [← e1, ← e2, he]
  obtain ⟨e3, e4⟩ := List.append_inj (h1.symm.trans h1') hl
  obtain ⟨e5, _⟩ := List.cons.inj e4
  obtain ⟨rfl, rfl⟩ := Prod.mk.inj e5
  subst e3
  exact ⟨rfl, h2.symm.trans h2'⟩

/-! ## Tickets are served in order -/

/-- Additions of 1 in a sequence (proof device). -/
def rel (s : List (ι × AmoOp)) : Nat := (s.filter fun x => decide (x.2.arg = 1)).length

theorem rel_snoc (s : List (ι × AmoOp)) (x : ι × AmoOp) : rel (s ++ [x]) = rel s + if x.2.arg = 1 then 1 else 0 := by
  simp only [rel, List.filter_append, List.length_append]
  by_cases h : x.2.arg = 1
  · rw [if_pos h, List.filter_cons_of_pos (by simpa using h)]; rfl
  · rw [if_neg h, List.filter_cons_of_neg (by simpa using h)]; rfl

/-- The word `S`: its value is the number of tickets given back, and these are the first ones. -/
theorem served (tick : ι → Nat → Option (BitVec 32))
    (hdiff : ∀ k j k' j' n, tick k j = some n → tick k' j' = some n → k = k' ∧ j = j')
    (hsmall : ∀ k j n, tick k j = some n → n.toNat + 1 < 2 ^ 32) (s : List (ι × AmoOp)) : ∀ v,
    AmoSeq 0 (s.map (·.2)) v → (∀ x ∈ s, x.2.ty = ADD ∧ (x.2.arg = 0 ∨ x.2.arg = 1)) →
    (∀ (k : ι) (n : Nat) (o : AmoOp), (ofCache k s)[n]? = some o → o.arg = 1 →
      ∃ (m : Nat) (o' : AmoOp), m < n ∧ (ofCache k s)[m]? = some o' ∧
        tick k (((ofCache k s).take n).filter fun o => decide (o.arg = 1)).length = some (o'.old + o'.arg)) →
    v.toNat = rel s ∧ (∀ x ∈ s, (x.2.old + x.2.arg).toNat ≤ rel s) ∧
    (∀ m, m < rel s → ∃ k j n, j < cnt k s ∧ tick k j = some n ∧ n.toNat = m) ∧
    (∀ k j n, j < cnt k s → tick k j = some n → n.toNat < rel s) := by
  induction h : s.length generalizing s with
  | zero =>
    intro v hv _ _
    obtain rfl := List.length_eq_zero_iff.1 h
    obtain rfl := amoSeq_nil hv
    exact ⟨rfl, (fun x hx => by cases hx), (fun m hm => by simp [rel] at hm), (fun k j n hj => by simp [cnt, ofCache] at hj)⟩
  | succ n ih =>
    intro v hv hty hrel
    rcases List.eq_nil_or_concat s with rfl | ⟨s', x, hs'⟩
    · simp at h
    rw [List.concat_eq_append] at hs'
    subst hs'
    obtain ⟨k0, o0⟩ := x
    rw [List.map_append, List.map_singleton] at hv
    obtain ⟨hv', rfl⟩ := amoSeq_unsnoc hv
    have hrel' : ∀ (k : ι) (n : Nat) (o : AmoOp), (ofCache k s')[n]? = some o → o.arg = 1 →
        ∃ (m : Nat) (o' : AmoOp), m < n ∧ (ofCache k s')[m]? = some o' ∧
          tick k (((ofCache k s').take n).filter fun o => decide (o.arg = 1)).length = some (o'.old + o'.arg) := by
      intro k n o ho ha
      have hlt := (List.getElem?_eq_some_iff.1 ho).1
      have hpre : ∀ j, j < (ofCache k s').length → (ofCache k (s' ++ [(k0, o0)]))[j]? = (ofCache k s')[j]? := by
        intro j hj; rw [ofCache_append, List.getElem?_append_left hj]
      have htake : (ofCache k (s' ++ [(k0, o0)])).take n = (ofCache k s').take n := by
        rw [ofCache_append, List.take_append_of_le_length (by omega)]
      obtain ⟨m, o', h1, h2, h3⟩ := hrel k n o (by rw [hpre n hlt]; exact ho) ha
      rw [htake] at h3
      exact ⟨m, o', h1, by rw [← hpre m (by omega)]; exact h2, h3⟩
    obtain ⟨i1, i2, i3, i4⟩ := ih s' (by simpa using h) _ hv' (fun x hx => hty x (by simp [hx])) hrel'
    obtain ⟨t1, t2⟩ := hty (k0, o0) (by simp)
    simp only at t1 t2
    rw [t1, show amoFun ADD o0.old o0.arg = o0.old + o0.arg from rfl, rel_snoc]
    rcases t2 with ha | ha
    · have h01 : ¬ (o0.arg = 1) := by rw [ha]; decide
      have hc : ∀ k, cnt k (s' ++ [(k0, o0)]) = cnt k s' := by
        intro k
        by_cases hk : k = k0
        · subst hk; rw [cnt_snoc_same, if_neg h01]; rfl
        · rw [cnt_snoc_other hk]
      have hval : (o0.old + o0.arg).toNat = rel s' := by
        rw [ha, BitVec.toNat_add, i1, show (0 : BitVec 32).toNat = 0 from rfl]
        have := o0.old.isLt; omega
      simp only [if_neg h01, Nat.add_zero]
      refine ⟨hval, ?_, ?_, ?_⟩
      · intro x hx
        rcases List.mem_append.1 hx with hx | hx
        · exact i2 x hx
        · rw [List.mem_singleton] at hx; subst hx; exact Nat.le_of_eq hval
      · intro m hm; obtain ⟨k, j, n, g1, g2⟩ := i3 m hm; exact ⟨k, j, n, by rw [hc]; exact g1, g2⟩
      · intro k j n hj; rw [hc] at hj; exact i4 k j n hj
    · obtain ⟨m, o', h1, h2, h3⟩ := hrel k0 (ofCache k0 s').length o0 (by rw [ofCache_snoc_same]; simp) ha
      have htake : (ofCache k0 (s' ++ [(k0, o0)])).take (ofCache k0 s').length = ofCache k0 s' := by
        rw [ofCache_snoc_same, List.take_left']; rfl
      rw [htake] at h3
      change tick k0 (cnt k0 s') = _ at h3
      rw [ofCache_snoc_same, List.getElem?_append_left h1] at h2
      generalize htk : o'.old + o'.arg = tk at h3
      have hle : tk.toNat ≤ rel s' := by
        rw [← htk]; exact i2 (k0, o') (mem_ofCache (List.mem_of_getElem? h2))
      have heq : tk.toNat = rel s' := by
        refine Nat.le_antisymm hle (Decidable.byContradiction fun hlt => ?_)
        obtain ⟨k2, j2, n2, g1, g2, g3⟩ := i3 tk.toNat (by omega)
        obtain rfl := BitVec.eq_of_toNat_eq g3
        obtain ⟨rfl, rfl⟩ := hdiff _ _ _ _ _ g2 h3
        exact absurd g1 (Nat.lt_irrefl _)
      have hbd := hsmall _ _ _ h3
      have hval : (o0.old + o0.arg).toNat = rel s' + 1 := by
        rw [ha, BitVec.toNat_add, i1, show (1 : BitVec 32).toNat = 1 from rfl]; omega
      have hc0 : cnt k0 (s' ++ [(k0, o0)]) = cnt k0 s' + 1 := by rw [cnt_snoc_same, if_pos ha]
      simp only [if_pos ha]
      refine ⟨hval, ?_, ?_, ?_⟩
      · intro x hx
        rcases List.mem_append.1 hx with hx | hx
        · have := i2 x hx; omega
        · rw [List.mem_singleton] at hx; subst hx; exact Nat.le_of_eq hval
      · intro m hm
        by_cases hmr : m < rel s'
        · obtain ⟨k, j, n, g1, g2⟩ := i3 m hmr
          exact ⟨k, j, n, Nat.lt_of_lt_of_le g1 (cnt_le_snoc s' _), g2⟩
        · exact ⟨k0, cnt k0 s', tk, by omega, h3, by omega⟩
      · intro k j n hj hn
        by_cases hk : k = k0
        · subst hk
          rw [hc0] at hj
          by_cases hjj : j = cnt k s'
          · subst hjj
            rw [h3] at hn
            obtain rfl := Option.some.inj hn
            omega
          · have := i4 k j n (by omega) hn; omega
        · rw [cnt_snoc_other hk] at hj
          have := i4 k j n hj hn; omega

/-! ## Both words together -/

theorem length_le_of_count {l : List ι} : ∀ {l' : List ι}, (∀ k, l.count k ≤ l'.count k) → l.length ≤ l'.length := by
  induction l with
  | nil => intro l' _; simp
  | cons x l ih =>
    intro l' h
    have hx : x ∈ l' := by
      refine List.count_pos_iff.1 (Nat.lt_of_lt_of_le ?_ (h x))
      rw [List.count_cons_self]; omega
    have := ih (l' := l'.erase x) (fun k => by
      have := h k
      by_cases hk : k = x
      · subst hk
        rw [List.count_cons_self] at this
        rw [List.count_erase_self]; omega
      · rw [List.count_cons_of_ne (Ne.symm hk)] at this
        rw [List.count_erase_of_ne hk]; exact this)
    rw [List.length_erase_of_mem hx] at this
    have := List.length_pos_of_mem hx
    simp only [List.length_cons]; omega

theorem count_drawers (k : ι) (T : Nat) (tr : List (Ev ι)) : (drawers T tr).count k = (askedAmos k T tr).length := by
  induction tr with
  | nil => rfl
  | cons e tr ih =>
    have hd : drawers T (e :: tr) = drawers T [e] ++ drawers T tr := by
      rw [← List.singleton_append, drawers, List.filterMap_append]; rfl
    have ha : askedAmos k T (e :: tr) = askedAmos k T [e] ++ askedAmos k T tr := by
      rw [← List.singleton_append, asked_append']
    rw [hd, ha, List.count_append, List.length_append, ih]
    congr 1
    cases e with
    | resp k2 r => rfl
    | acc k2 q =>
      by_cases hq : MT.isAmo q.ty = true ∧ q.addr / 4 = T
      · by_cases hk : k2 = k
        · subst hk; simp [drawers, askedAmos, accepted, hq]
        · simp [drawers, askedAmos, accepted, hq, hk]
      · by_cases hk : k2 = k
        · subst hk; simp [drawers, askedAmos, accepted, hq]
        · simp [drawers, askedAmos, accepted, hq, hk]

theorem count_ops (k : ι) (s : List (ι × AmoOp)) : (s.map (·.1)).count k = (ofCache k s).length := by
  induction s with
  | nil => rfl
  | cons x s ih =>
    obtain ⟨k2, o⟩ := x
    by_cases hk : k2 = k
    · subst hk; simp [ofCache] at ih ⊢; exact ih
    · simp [ofCache, hk] at ih ⊢; exact ih

/-- An operation that has been performed was asked for. -/
theorem performed {s1 : List (ι × AmoOp)} {a b : List (Ev ι)} {W : Nat} (hab : tr = a ++ b)
    (h1 : ∀ k, (ofCache k s1).map (fun o => (o.ty, o.arg)) <+: askedAmos k W a) {n : Nat} {o : AmoOp}
    (ho : (ofCache k s1)[n]? = some o) : ∃ c q d, tr = c ++ .acc k q :: d ∧ (askedAmos k W c).length = n ∧
      MT.isAmo q.ty = true ∧ q.addr / 4 = W ∧ (o.ty, o.arg) = (q.ty, BitVec.ofNat 32 q.data) ∧ ∃ e, a = c ++ e := by
  have hask : (askedAmos k W a)[n]? = some (o.ty, o.arg) := by
    obtain ⟨t, ht⟩ := h1 k
    have hn := (List.getElem?_eq_some_iff.1 ho).1
    rw [← ht, List.getElem?_append_left (by simpa using hn), List.getElem?_map, ho]; rfl
  obtain ⟨c, q, d, rfl, h2, h3, h4, h5⟩ := asked_split hask
  exact ⟨c, q, d ++ b, by rw [hab]; simp, h2, h3, h4, h5, _, rfl⟩

/-- What is known about the two words after an initial part `u` of the operations on `S` that has been asked for. -/
theorem lock_state {sT u s2 : List (ι × AmoOp)} {vT wS : BitVec 32} (hsT : AmoSeq 0 (sT.map (·.2)) vT)
    (hlT : Linearised T tr sT) (hwS : AmoSeq 0 (u.map (·.2)) wS) (hlS : Linearised S tr (u ++ s2))
    (hp : TicketProtocol T S tr) {a b : List (Ev ι)} (hab : tr = a ++ b)
    (hS : ∀ k, (ofCache k u).map (fun o => (o.ty, o.arg)) <+: askedAmos k S a) :
    (∀ x ∈ u, x.2.ty = ADD) ∧ wS.toNat = rel u ∧ (∀ x ∈ u, (x.2.old + x.2.arg).toNat ≤ rel u) ∧
      (∀ m, m < rel u → ∃ k j, j < cnt k u ∧
        ∀ (k' : ι) (j' : Nat) (n : BitVec 32), (drawn k' T tr)[j']? = some n → n.toNat = m → k' = k ∧ j' = j) ∧
      (∀ (k : ι) (j : Nat) (n : BitVec 32), j < cnt k u → (drawn k T tr)[j]? = some n → n.toNat < rel u) ∧
      ∀ (k : ι) (j : Nat) (k' : ι) (j' : Nat) (n : BitVec 32), (drawn k T tr)[j]? = some n →
        (drawn k' T tr)[j']? = some n → k = k' ∧ j = j' := by
  obtain ⟨t1, t2, rfl, hT⟩ := hlT tr [] (by simp)
  rw [List.map_append] at hsT
  obtain ⟨wT, hwT⟩ := amoSeq_split hsT
  have htyT : ∀ x ∈ t1, x.2.ty = ADD ∧ x.2.arg = 1 := by
    rintro ⟨k, o⟩ hx
    have ho : o ∈ ofCache k t1 := by simp only [ofCache, List.mem_filterMap]; exact ⟨_, hx, by simp⟩
    obtain ⟨n, hn⟩ := List.getElem?_of_mem ho
    obtain ⟨c, q, d, h2, _, h3, h4, h5, _⟩ := performed (a := tr) (b := []) (List.append_nil tr).symm (fun k => (hT k).2) hn
    simp only [Prod.mk.injEq] at h5
    obtain ⟨h6, h7, _⟩ := hp.draw k c q d h2 h3 h4
    exact ⟨h5.1.trans h6, h5.2.trans h7⟩
  have hlen : t1.length < 2 ^ 32 := by
    refine Nat.lt_of_le_of_lt ?_ hp.small
    rw [← List.length_map (f := (·.1)) (as := t1)]
    refine length_le_of_count (fun k => ?_)
    rw [count_ops, count_drawers]
    simpa using (hT k).2.length_le
  have hticks : ∀ {k : ι} {j : Nat} {n : BitVec 32}, (drawn k T tr)[j]? = some n → ((ofCache k t1)[j]?).map (·.old) = some n := by
    intro k j n h
    rw [drawn, List.getElem?_map] at h
    obtain ⟨t, ht⟩ := (hT k).1
    cases h' : (answeredAmos k T tr)[j]? with
    | none => rw [h'] at h; cases h
    | some o =>
      rw [← ht, List.getElem?_append_left (List.getElem?_eq_some_iff.1 h').1]; exact h
  have hdiff : ∀ (k : ι) (j : Nat) (k' : ι) (j' : Nat) (n : BitVec 32), ((ofCache k t1)[j]?).map (·.old) = some n → ((ofCache k' t1)[j']?).map (·.old) = some n →
      k = k' ∧ j = j' := by
    intro k j k' j' n h h'
    rw [Option.map_eq_some_iff] at h h'
    obtain ⟨o, h1, h2⟩ := h
    obtain ⟨o', h1', h2'⟩ := h'
    exact tickets_differ hwT htyT hlen h1 h1' (h2.trans h2'.symm)
  have htyS : ∀ x ∈ u, x.2.ty = ADD ∧ (x.2.arg = 0 ∨ x.2.arg = 1) := by
    rintro ⟨k, o⟩ hx
    have ho : o ∈ ofCache k u := by simp only [ofCache, List.mem_filterMap]; exact ⟨_, hx, by simp⟩
    obtain ⟨n, hn⟩ := List.getElem?_of_mem ho
    obtain ⟨c, q, d, h2, _, h3, h4, h5, _⟩ := performed hab hS hn
    simp only [Prod.mk.injEq] at h5
    obtain ⟨h6, h7⟩ := hp.serve k c q d h2 h3 h4
    refine ⟨h5.1.trans h6, ?_⟩
    rcases h7 with h7 | ⟨h7, _⟩
    · exact .inl (h5.2.trans h7)
    · exact .inr (h5.2.trans h7)
  have hsmall : ∀ (k : ι) (j : Nat) (n : BitVec 32), ((ofCache k t1)[j]?).map (·.old) = some n → n.toNat + 1 < 2 ^ 32 := by
    intro k j n h
    rw [Option.map_eq_some_iff] at h
    obtain ⟨o, h1, rfl⟩ := h
    obtain ⟨u, w, h4, _⟩ := ofCache_split t1 h1
    rw [ticket_pos hwT htyT hlen h4]
    rw [h4] at hlen
    simp at hlen; omega
  have hrel : ∀ (k : ι) (n : Nat) (o : AmoOp), (ofCache k u)[n]? = some o → o.arg = 1 →
      ∃ (m : Nat) (o' : AmoOp), m < n ∧ (ofCache k u)[m]? = some o' ∧
        ((ofCache k t1)[(((ofCache k u).take n).filter fun o => decide (o.arg = 1)).length]?).map (·.old) =
          some (o'.old + o'.arg) := by
    intro k2 n o ho ha
    obtain ⟨c, q, d, h2, h3, h4, h5, h6, e, he⟩ := performed hab hS ho
    simp only [Prod.mk.injEq] at h6
    obtain ⟨_, h7⟩ := hp.serve k2 c q d h2 h4 h5
    have hlt := (List.getElem?_eq_some_iff.1 ho).1
    have hcount : (((ofCache k2 u).take n).filter fun o => decide (o.arg = 1)).length = given k2 S c := by
      obtain ⟨t, ht⟩ := hS k2
      have : askedAmos k2 S c = ((ofCache k2 u).take n).map (fun o => (o.ty, o.arg)) := by
        have e1 : (askedAmos k2 S a).take n = askedAmos k2 S c := by
          rw [he, asked_append', List.take_append_of_le_length (by omega), ← h3, List.take_length]
        rw [← e1, ← ht, List.take_append_of_le_length (by simp; omega), List.map_take]
      simp only [given, arrivals, this, List.filter_map, List.length_map]
      rfl
    rcases h7 with h7 | ⟨_, n0, g1, o', g2, g3⟩
    · rw [← h6.2, ha] at h7; exact absurd h7 (by decide)
    · obtain ⟨u1, u2, hu, h9⟩ := hlS c (.acc k2 q :: d) h2
      obtain ⟨m', hm'⟩ := List.getElem?_of_mem g2
      have hlt' := (List.getElem?_eq_some_iff.1 hm').1
      have hle := answered_le k2 S c
      refine ⟨m', o', by omega, ?_, ?_⟩
      · have hpre : (ofCache k2 u)[m']? = (ofCache k2 (u ++ s2))[m']? := by
          rw [ofCache_append, List.getElem?_append_left (by omega)]
        obtain ⟨t, ht'⟩ := (h9 k2).1
        rw [hpre, hu, ofCache_append, ← ht', List.append_assoc, List.getElem?_append_left hlt', hm']
      · rw [hcount, g3]
        refine hticks ?_
        rw [h2]
        obtain ⟨t, ht⟩ := answered_mono k2 T c (.acc k2 q :: d)
        rw [drawn, ← ht, List.map_append]
        exact (List.getElem?_append_left (List.getElem?_eq_some_iff.1 g1).1).trans g1
  obtain ⟨h0, h2, h3, h4⟩ := served (fun k j => ((ofCache k t1)[j]?).map (·.old)) hdiff hsmall u wS hwS htyS hrel
  refine ⟨fun x hx => (htyS x hx).1, h0, h2, ?_, fun k j n hj hn => h4 k j n hj (hticks hn),
      fun k j k' j' n h h' => hdiff k j k' j' n (hticks h) (hticks h')⟩
  intro m hm
  obtain ⟨k, j, n, g1, g2, g3⟩ := h3 m hm
  refine ⟨k, j, g1, ?_⟩
  intro k' j' n' h' hn'
  obtain rfl : n' = n := BitVec.eq_of_toNat_eq (hn'.trans g3.symm)
  exact hdiff _ _ _ _ _ (hticks h') g2

/-- A ticket drawn is drawn for good. -/
theorem drawn_mono {a b : List (Ev ι)} {j : Nat} {n : BitVec 32} (h : (drawn k T a)[j]? = some n) :
    (drawn k T (a ++ b))[j]? = some n := by
  obtain ⟨t, ht⟩ := answered_mono k T a b
  rw [drawn, ← ht, List.map_append]
  exact (List.getElem?_append_left (List.getElem?_eq_some_iff.1 h).1).trans h

theorem turn_in_order {sT sS : List (ι × AmoOp)} {vT vS : BitVec 32} (hsT : AmoSeq 0 (sT.map (·.2)) vT)
    (hlT : Linearised T tr sT) (hsS : AmoSeq 0 (sS.map (·.2)) vS) (hlS : Linearised S tr sS)
    (hp : TicketProtocol T S tr) {a b : List (Ev ι)} (hab : tr = a ++ b) {n m : BitVec 32} {j : Nat}
    (h : HasTurn k T S n a) (hm : (drawn k' T tr)[j]? = some m) (hlt : m.toNat < n.toNat) : j < given k' S a := by
  obtain ⟨s1, s2, rfl, hS⟩ := hlS a b hab
  rw [List.map_append] at hsS
  obtain ⟨wS, hwS⟩ := amoSeq_split hsS
  obtain ⟨_, _, h1, h2, _⟩ := lock_state hsT hlT hwS hlS hp hab (fun k => (hS k).2)
  obtain ⟨_, o, g1, g2⟩ := h
  have := h1 (k, o) (mem_ofCache ((hS k).1.subset g1))
  simp only [g2] at this
  obtain ⟨k2, j2, g3, g4⟩ := h2 m.toNat (by omega)
  obtain ⟨rfl, rfl⟩ := g4 k' j m hm rfl
  exact Nat.lt_of_lt_of_le g3 (cnt_le_arrivals (hS _).2)

theorem one_turn {sT sS : List (ι × AmoOp)} {vT vS : BitVec 32} (hsT : AmoSeq 0 (sT.map (·.2)) vT)
    (hlT : Linearised T tr sT) (hsS : AmoSeq 0 (sS.map (·.2)) vS) (hlS : Linearised S tr sS)
    (hp : TicketProtocol T S tr) {a b : List (Ev ι)} (hab : tr = a ++ b) {n n' : BitVec 32}
    (h : HasTurn k T S n a) (h' : HasTurn k' T S n' a) : k = k' := by
  have hd : (drawn k T tr)[given k S a]? = some n := by rw [hab]; exact drawn_mono h.1
  have hd' : (drawn k' T tr)[given k' S a]? = some n' := by rw [hab]; exact drawn_mono h'.1
  rcases Nat.lt_trichotomy n.toNat n'.toNat with hlt | heq | hlt
  · exact absurd (turn_in_order hsT hlT hsS hlS hp hab h' hd hlt) (Nat.lt_irrefl _)
  · obtain rfl := BitVec.eq_of_toNat_eq heq
    obtain ⟨s1, s2, rfl, hS⟩ := hlS a b hab
    rw [List.map_append] at hsS
    obtain ⟨wS, hwS⟩ := amoSeq_split hsS
    obtain ⟨_, _, _, _, _, hdf⟩ := lock_state hsT hlT hwS hlS hp hab (fun k => (hS k).2)
    exact (hdf _ _ _ _ _ hd hd').1
  · exact absurd (turn_in_order hsT hlT hsS hlS hp hab h hd' hlt) (Nat.lt_irrefl _)

/-! ## Every ticket has its turn -/

/-- The ticket before a given one has been drawn. -/
theorem ticket_before {sT : List (ι × AmoOp)} {vT : BitVec 32} (hsT : AmoSeq 0 (sT.map (·.2)) vT)
    (hlT : Linearised T tr sT) (hp : TicketProtocol T S tr) {a b : List (Ev ι)} (hab : tr = a ++ b)
    (hans : ∀ k, (askedAmos k T a).length ≤ (answeredAmos k T tr).length) {j m : Nat} {n : BitVec 32}
    (h : (drawn k T a)[j]? = some n) (hn : n.toNat = m + 1) :
    ∃ (k' : ι) (j' : Nat) (n' : BitVec 32), (drawn k' T tr)[j']? = some n' ∧ n'.toNat = m := by
  obtain ⟨r1, r2, hr, hR⟩ := hlT tr [] (by simp)
  obtain ⟨t1, t2, rfl, hT⟩ := hlT a b hab
  have hseq := hsT
  rw [List.map_append] at hseq
  obtain ⟨w1, hw1⟩ := amoSeq_split hseq
  have hlen : t1.length < 2 ^ 32 ∧ ∀ x ∈ t1, x.2.ty = ADD ∧ x.2.arg = 1 := by
    refine ⟨Nat.lt_of_le_of_lt ?_ hp.small, ?_⟩
    · rw [← List.length_map (f := (·.1)) (as := t1)]
      refine length_le_of_count (fun k => ?_)
      rw [count_ops, count_drawers]
      have := (hT k).2.length_le
      rw [List.length_map] at this
      rw [hab, asked_append', List.length_append]; omega
    · rintro ⟨k, o⟩ hx
      have ho : o ∈ ofCache k t1 := by simp only [ofCache, List.mem_filterMap]; exact ⟨_, hx, by simp⟩
      obtain ⟨n, hn⟩ := List.getElem?_of_mem ho
      obtain ⟨c, q, d, h2, _, h3, h4, h5, _⟩ := performed hab (fun k => (hT k).2) hn
      simp only [Prod.mk.injEq] at h5
      obtain ⟨h6, h7, _⟩ := hp.draw k c q d h2 h3 h4
      exact ⟨h5.1.trans h6, h5.2.trans h7⟩
  obtain ⟨hlt, hty⟩ := hlen
  -- the position of the ticket
  rw [drawn, List.getElem?_map, Option.map_eq_some_iff] at h
  obtain ⟨o, h1, rfl⟩ := h
  have h2 : (ofCache k t1)[j]? = some o := by
    obtain ⟨t, ht⟩ := (hT k).1
    rw [← ht, List.getElem?_append_left (List.getElem?_eq_some_iff.1 h1).1]; exact h1
  obtain ⟨u, w, h3, _⟩ := ofCache_split t1 h2
  have h4 := ticket_pos hw1 hty hlt h3
  rcases List.eq_nil_or_concat u with rfl | ⟨u', x, hu⟩
  · simp at h4; omega
  rw [List.concat_eq_append] at hu
  subst hu
  obtain ⟨k', o'⟩ := x
  have h5 : t1 = u' ++ (k', o') :: ((k, o) :: w) := by rw [h3]; simp
  have h6 := ticket_pos hw1 hty hlt h5
  simp only [List.length_append, List.length_singleton] at h4
  refine ⟨k', (ofCache k' u').length, o'.old, ?_, by omega⟩
  have h7 : (ofCache k' t1)[(ofCache k' u').length]? = some o' := by
    rw [h5, show u' ++ (k', o') :: ((k, o) :: w) = u' ++ [(k', o')] ++ ((k, o) :: w) by simp, ofCache_append,
      ofCache_snoc_same]
    simp
  have h8 := (hT k').2.length_le
  rw [List.length_map] at h8
  have h9 := (List.getElem?_eq_some_iff.1 h7).1
  have h10 := hans k'
  obtain ⟨t, ht⟩ := (hR k').1
  have h11 : (ofCache k' (t1 ++ t2))[(ofCache k' u').length]? = some o' := by
    rw [ofCache_append, List.getElem?_append_left h9]; exact h7
  rw [hr, ofCache_append, ← ht, List.append_assoc, List.getElem?_append_left (by omega)] at h11
  rw [drawn, List.getElem?_map, h11]; rfl

/-- Looking at `S` after the ticket before has been given back. -/
theorem turn_comes {sT sS : List (ι × AmoOp)} {vT vS : BitVec 32} (hsT : AmoSeq 0 (sT.map (·.2)) vT)
    (hlT : Linearised T tr sT) (hsS : AmoSeq 0 (sS.map (·.2)) vS) (hlS : Linearised S tr sS)
    (hp : TicketProtocol T S tr) {a b c : List (Ev ι)} (hab : tr = a ++ b ++ c) {j : Nat} {n : BitVec 32}
    (hd : (drawn k T tr)[j]? = some n)
    (hprev : n.toNat = 0 ∨ ∃ (k' : ι) (j' : Nat) (n' : BitVec 32), (drawn k' T tr)[j']? = some n' ∧
      n'.toNat + 1 = n.toNat ∧ j' < ((answeredAmos k' S a).filter fun o => decide (o.arg = 1)).length)
    (h2 : (askedAmos k S a).length < (answeredAmos k S (a ++ b)).length) :
    j < given k S (a ++ b) ∨ ∃ o ∈ answeredAmos k S (a ++ b), o.old + o.arg = n := by
  obtain ⟨r1, r2, hr, hR⟩ := hlS a (b ++ c) (by rw [hab]; simp)
  obtain ⟨p1, p2, hp12, hP⟩ := hlS _ _ hab
  have hlen0 := (hP k).1.length_le
  obtain ⟨o, ho⟩ : ∃ o, (ofCache k p1)[(askedAmos k S a).length]? = some o := ⟨_, List.getElem?_eq_getElem (by omega)⟩
  obtain ⟨u, w, hu, hulen⟩ := ofCache_split p1 ho
  have hsu : sS = (u ++ [(k, o)]) ++ (w ++ p2) := by rw [hp12, hu]; simp
  have hr0 : (ofCache k r1).length ≤ (askedAmos k S a).length := by
    have := (hR k).2.length_le
    rwa [List.length_map] at this
  have hru : r1 <+: u := by
    by_cases hle : r1.length ≤ u.length
    · exact List.prefix_of_prefix_length_le ⟨r2, hr.symm⟩ ⟨[(k, o)] ++ (w ++ p2), by rw [hsu]; simp⟩ hle
    · exfalso
      obtain ⟨t, ht⟩ : (u ++ [(k, o)]) <+: r1 :=
        List.prefix_of_prefix_length_le (l₃ := sS) ⟨w ++ p2, hsu.symm⟩ ⟨r2, hr.symm⟩ (by simp; omega)
      rw [← ht, ofCache_append, ofCache_snoc_same] at hr0
      simp at hr0
      omega
  obtain ⟨t, ht⟩ := hru
  have hs' := hsS
  rw [hsu, List.map_append] at hs'
  obtain ⟨v1, hv1⟩ := amoSeq_split hs'
  have hask : ∀ j, (ofCache j (u ++ [(k, o)])).map (fun o => (o.ty, o.arg)) <+: askedAmos j S (a ++ b) := by
    intro j
    obtain ⟨t1, ht1⟩ := (hP j).2
    refine List.IsPrefix.trans ?_ ⟨t1, ht1⟩
    rw [hu, show u ++ (k, o) :: w = (u ++ [(k, o)]) ++ w by simp, ofCache_append j (u ++ [(k, o)]) w, List.map_append]
    exact List.prefix_append _ _
  obtain ⟨e1, e2, _, e4, e5, _⟩ := lock_state hsT hlT hv1 (hsu ▸ hlS) hp hab hask
  rw [List.map_append, List.map_singleton] at hv1
  obtain ⟨hv2, hval⟩ := amoSeq_unsnoc hv1
  have hty := e1 (k, o) (by simp)
  simp only at hty hval
  rw [hty, show amoFun ADD o.old o.arg = o.old + o.arg from rfl] at hval
  have hge : n.toNat ≤ rel (u ++ [(k, o)]) := by
    rcases hprev with h | ⟨k', j', n', g1, g2, g3⟩
    · omega
    · have := e5 k' j' n' ?_ g1
      · omega
      · refine Nat.lt_of_lt_of_le g3 (Nat.le_trans ?_ (cnt_le_snoc u _))
        obtain ⟨t1, ht1⟩ := (hR k').1
        simp only [cnt, ← ht, ofCache_append, ← ht1, List.filter_append, List.length_append]
        omega
  by_cases heq : n.toNat = rel (u ++ [(k, o)])
  · refine .inr ⟨o, ?_, ?_⟩
    · obtain ⟨t1, ht1⟩ := (hP k).1
      rw [← ht1, List.getElem?_append_left h2] at ho
      exact List.mem_of_getElem? ho
    · refine BitVec.eq_of_toNat_eq ?_
      rw [← hval, e2, heq]
  · obtain ⟨k2, j2, g1, g2⟩ := e4 n.toNat (by omega)
    obtain ⟨rfl, rfl⟩ := g2 k j n hd rfl
    exact .inl (Nat.lt_of_lt_of_le g1 (cnt_le_arrivals (hask _)))

end Verif.WM

namespace Verif
variable {ι : Type} [DecidableEq ι] {p : ι → Params}

/-- **C93, turns are taken in order.**  Caches of any shapes.  When a processor has its turn with ticket `n`, every smaller
ticket that anybody ever draws has been given back. -/
theorem C93_in_order (wf : ∀ k, (p k).WF) {H H' : HSys ι p} {tr : List (HEv ι p)} (h0 : HStart H)
    (h : HetRun H tr H') (hv : HValid tr) {T S : Nat} (hT : memWord H.mem T = 0) (hS : memWord H.mem S = 0)
    (hp : WM.TicketProtocol T S (visible tr)) {a b : List (WM.Ev ι)} (hab : visible tr = a ++ b) {k k' : ι}
    {n m : BitVec 32} {j : Nat} (hk : WM.HasTurn k T S n a) (hm : (WM.drawn k' T (visible tr))[j]? = some m)
    (hlt : m.toNat < n.toNat) : j < WM.given k' S a := by
  obtain ⟨sT, h1, h2⟩ := C66_amos_linearised wf h0 h hv (fun k q hq ht => (hp.noWrite k q hq ht).1)
  obtain ⟨sS, h3, h4⟩ := C66_amos_linearised wf h0 h hv (fun k q hq ht => (hp.noWrite k q hq ht).2)
  rw [hT] at h1
  rw [hS] at h3
  exact WM.turn_in_order h1 h2 h3 h4 hp hab hk hm hlt

/-- **C93, tickets are different.** -/
theorem C93_tickets_differ (wf : ∀ k, (p k).WF) {H H' : HSys ι p} {tr : List (HEv ι p)} (h0 : HStart H)
    (h : HetRun H tr H') (hv : HValid tr) {T S : Nat} (hT : memWord H.mem T = 0) (hS : memWord H.mem S = 0)
    (hp : WM.TicketProtocol T S (visible tr)) {k k' : ι} {n : BitVec 32} {j j' : Nat}
    (hk : (WM.drawn k T (visible tr))[j]? = some n) (hk' : (WM.drawn k' T (visible tr))[j']? = some n) :
    k = k' ∧ j = j' := by
  obtain ⟨sT, h1, h2⟩ := C66_amos_linearised wf h0 h hv (fun k q hq ht => (hp.noWrite k q hq ht).1)
  rw [hT] at h1
  obtain ⟨sS, h3, h4⟩ := C66_amos_linearised wf h0 h hv (fun k q hq ht => (hp.noWrite k q hq ht).2)
  rw [hS] at h3
  obtain ⟨s1, s2, rfl, hs⟩ := h4 (visible tr) [] (by simp)
  rw [List.map_append] at h3
  obtain ⟨wS, hwS⟩ := WM.amoSeq_split h3
  obtain ⟨_, _, _, _, _, hdf⟩ := WM.lock_state h1 h2 hwS h4 hp (List.append_nil _).symm (fun k => (hs k).2)
  exact hdf k j k' j' n hk hk'

/-- **C93, mutual exclusion.**  At most one processor has its turn. -/
theorem C93_mutual_exclusion (wf : ∀ k, (p k).WF) {H H' : HSys ι p} {tr : List (HEv ι p)} (h0 : HStart H)
    (h : HetRun H tr H') (hv : HValid tr) {T S : Nat} (hT : memWord H.mem T = 0) (hS : memWord H.mem S = 0)
    (hp : WM.TicketProtocol T S (visible tr)) {a b : List (WM.Ev ι)} (hab : visible tr = a ++ b) {k k' : ι}
    {n n' : BitVec 32} (hk : WM.HasTurn k T S n a) (hk' : WM.HasTurn k' T S n' a) : k = k' := by
  obtain ⟨sT, h1, h2⟩ := C66_amos_linearised wf h0 h hv (fun k q hq ht => (hp.noWrite k q hq ht).1)
  obtain ⟨sS, h3, h4⟩ := C66_amos_linearised wf h0 h hv (fun k q hq ht => (hp.noWrite k q hq ht).2)
  rw [hT] at h1
  rw [hS] at h3
  exact WM.one_turn h1 h2 h3 h4 hp hab hk hk'

end Verif
