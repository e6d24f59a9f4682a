import Verif.SpecLockLive
import Verif.PropsBarrier

/-!
# C91, C92 on histories: somebody gets the lock, the barrier opens
-/

set_option linter.unusedSectionVars false

namespace Verif.WM
variable {ι : Type} [DecidableEq ι] {L B : Nat} {D : Nat → Prop} {tr : List (Ev ι)} {k k' : ι} {ps : List ι}

/-- In a sequence of swaps that ends with the lock taken, it was taken once and not given back. -/
theorem last_success (s : List (ι × AmoOp)) : ∀ v, AmoSeq 0 (s.map (·.2)) v →
    (∀ x ∈ s, x.2.ty = SWAP ∧ (x.2.arg = 0 ∨ x.2.arg = 1)) → v ≠ 0 →
    ∃ s1 k o s2, s = s1 ++ (k, o) :: s2 ∧ o.arg = 1 ∧ o.old = 0 ∧ ∀ x ∈ s2, x.2.arg = 1 := by
  induction h : s.length generalizing s with
  | zero =>
    intro v hv _ h0
    obtain rfl := List.length_eq_zero_iff.1 h
    exact absurd (amoSeq_nil hv) h0
  | succ n ih =>
    intro v hv hty h0
    rcases List.eq_nil_or_concat s with rfl | ⟨s', x, hs'⟩
    · simp at h
    rw [List.concat_eq_append] at hs'
    subst hs'
    obtain ⟨k, o⟩ := x
    rw [List.map_append, List.map_singleton] at hv
    obtain ⟨hv', rfl⟩ := amoSeq_unsnoc hv
    obtain ⟨t1, t2⟩ := hty (k, o) (by simp)
    simp only at t1 t2
    have harg : amoFun o.ty o.old o.arg = o.arg := by rw [t1]; rfl
    rw [harg] at h0
    have ha : o.arg = 1 := by rcases t2 with h | h; exact absurd h h0; exact h
    by_cases ho : o.old = 0
    · exact ⟨s', k, o, [], rfl, ha, ho, fun x hx => by cases hx⟩
    · obtain ⟨s1, k1, o1, s2, rfl, h1, h2, h3⟩ := ih s' (by simpa using h) _ hv' (fun x hx => hty x (by simp [hx])) ho
      refine ⟨s1, k1, o1, s2 ++ [(k, o)], by simp, h1, h2, fun x hx => ?_⟩
      rcases List.mem_append.1 hx with hx | hx
      · exact h3 x hx
      · rw [List.mem_singleton] at hx; subst hx; exact ha

/-- Operation number `n` of a cache in a sequence. -/
theorem ofCache_split (s : List (ι × AmoOp)) {n : Nat} {o : AmoOp} (h : (ofCache k s)[n]? = some o) :
    ∃ u w, s = u ++ (k, o) :: w ∧ (ofCache k u).length = n := by
  induction s generalizing n with
  | nil => simp [ofCache] at h
  | cons x s ih =>
    obtain ⟨k2, o2⟩ := x
    by_cases hk : k2 = k
    · subst hk
      have e : ofCache k2 ((k2, o2) :: s) = o2 :: ofCache k2 s := by simp [ofCache]
      rw [e] at h
      cases n with
      | zero => simp only [List.getElem?_cons_zero, Option.some.injEq] at h; subst h; exact ⟨[], s, rfl, rfl⟩
      | succ n =>
        obtain ⟨u, w, rfl, h2⟩ := ih (by simpa using h)
        exact ⟨(k2, o2) :: u, w, rfl, by simp [ofCache] at h2 ⊢; exact h2⟩
    · have e : ofCache k ((k2, o2) :: s) = ofCache k s := by simp [ofCache, hk]
      rw [e] at h
      obtain ⟨u, w, rfl, h2⟩ := ih h
      refine ⟨(k2, o2) :: u, w, rfl, ?_⟩
      have e : ofCache k ((k2, o2) :: u) = ofCache k u := by simp [ofCache, hk]
      rw [e, h2]

theorem ofCache_mid (u w : List (ι × AmoOp)) (o : AmoOp) : ofCache k (u ++ (k, o) :: w) = ofCache k u ++ o :: ofCache k w := by
  rw [ofCache_append]; simp [ofCache]

theorem asked_len_mono (k : ι) (L : Nat) (a b : List (Ev ι)) : (askedAmos k L a).length ≤ (askedAmos k L (a ++ b)).length := by
  rw [asked_append', List.length_append]; omega

/-- The shortest initial part with a property. -/
theorem first_cut (P : List (Ev ι) → Prop) (h : P tr) :
    ∃ x y, tr = x ++ y ∧ P x ∧ ∀ x' y', tr = x' ++ y' → P x' → x.length ≤ x'.length := by
  have key : ∀ n x y, x.length = n → tr = x ++ y → P x →
      ∃ x y, tr = x ++ y ∧ P x ∧ ∀ x' y', tr = x' ++ y' → P x' → x.length ≤ x'.length := by
    intro n
    induction n using Nat.strongRecOn with
    | ind n ih =>
      intro x y hn hx hP
      refine Classical.byContradiction fun hno => ?_
      refine hno ⟨x, y, hx, hP, fun x' y' hx' hP' => ?_⟩
      refine Decidable.byContradiction fun hlt => ?_
      exact hno (ih x'.length (by omega) x' y' rfl hx' hP')
  exact key _ tr [] rfl (by simp) h

/-- Initial parts of the same history. -/
theorem cuts {a b x y : List (Ev ι)} (h : a ++ b = x ++ y) : a <+: x ∨ ∃ z, a = x ++ z := by
  by_cases hl : a.length ≤ x.length
  · exact .inl (List.prefix_of_prefix_length_le (List.prefix_append a b) (h ▸ List.prefix_append x y) hl)
  · obtain ⟨z, hz⟩ := List.prefix_of_prefix_length_le (List.prefix_append x y) (h ▸ List.prefix_append a b) (by omega)
    exact .inr ⟨z, hz.symm⟩

theorem cut_after {a b x y : List (Ev ι)} {q : Req} (h : a ++ b = x ++ .acc k q :: y)
    (hn : (askedAmos k L a).length ≤ (askedAmos k L x).length) (h1 : MT.isAmo q.ty = true) (h2 : q.addr / 4 = L) : a <+: x := by
  rcases cuts h with h3 | ⟨z, rfl⟩
  · exact h3
  · cases z with
    | nil => rw [List.append_nil]; exact List.prefix_rfl
    | cons e z =>
      exfalso
      have h4 : e :: (z ++ b) = .acc k q :: y := List.append_cancel_left (as := x) (by simpa using h)
      obtain ⟨rfl, _⟩ := List.cons.inj h4
      rw [asked_append', show Ev.acc k q :: z = [.acc k q] ++ z from rfl, asked_append', List.length_append,
        List.length_append] at hn
      have h6 : (askedAmos k L [.acc k q]).length = 1 := by simp [asked_eq, askOf, h1, h2]
      omega

theorem lock_progress {s : List (ι × AmoOp)} {v : BitVec 32} (hs : AmoSeq 0 (s.map (·.2)) v) (hl : Linearised L tr s)
    (hp : LockProtocol L D tr) (hw : OneByOne L tr) {a b c d : List (Ev ι)} (hab : tr = a ++ b ++ c ++ d)
    (h1 : ∀ k, (askedAmos k L a).length ≤ (answeredAmos k L (a ++ b)).length) {k0 : ι}
    (h2 : (askedAmos k0 L (a ++ b)).length < (answeredAmos k0 L (a ++ b ++ c)).length)
    (h3 : ∀ k, (askedAmos k L (a ++ b ++ c)).length ≤ (answeredAmos k L tr).length) : HeldBetween L a tr := by
  obtain ⟨p1, p2, hp12, hP⟩ := hl _ _ hab
  -- all operations
  have hin : ∀ {k n o}, (ofCache k p1)[n]? = some o → ∃ x q y, tr = x ++ .acc k q :: y ∧ (askedAmos k L x).length = n ∧
      MT.isAmo q.ty = true ∧ q.addr / 4 = L ∧ (o.ty, o.arg) = (q.ty, BitVec.ofNat 32 q.data) := by
    intro k n o ho
    have hask : (askedAmos k L (a ++ b ++ c))[n]? = some (o.ty, o.arg) := by
      obtain ⟨t, ht⟩ := (hP k).2
      have hn := (List.getElem?_eq_some_iff.1 ho).1
      rw [← ht, List.getElem?_append_left (by simpa using hn), List.getElem?_map, ho]; rfl
    obtain ⟨x, q, y, e, g2, g3, g4, g5⟩ := asked_split hask
    exact ⟨x, q, y ++ d, by rw [hab, e]; simp, g2, g3, g4, g5⟩
  have hty : ∀ x ∈ p1, x.2.ty = SWAP ∧ (x.2.arg = 0 ∨ x.2.arg = 1) := by
    rintro ⟨k2, o⟩ hx
    have ho : o ∈ ofCache k2 p1 := by
      simp only [ofCache, List.mem_filterMap]; exact ⟨_, hx, by simp⟩
    obtain ⟨n, hn⟩ := List.getElem?_of_mem ho
    obtain ⟨x, q, y, g2, _, g3, g4, g5⟩ := hin hn
    simp only [Prod.mk.injEq] at g5
    obtain ⟨h6, h7⟩ := hp.swap k2 x q y g2 g3 g4
    refine ⟨g5.1.trans h6, ?_⟩
    rcases h7 with ⟨_, h7⟩ | ⟨_, h7, _⟩
    · exact .inr (g5.2.trans h7)
    · exact .inl (g5.2.trans h7)
  -- the operation of `k0`
  have hlen0 := (hP k0).1.length_le
  obtain ⟨o0, ho0⟩ : ∃ o0, (ofCache k0 p1)[(askedAmos k0 L (a ++ b)).length]? = some o0 :=
    ⟨_, List.getElem?_eq_getElem (by omega)⟩
  obtain ⟨u, w, hu, hulen⟩ := ofCache_split p1 ho0
  obtain ⟨x0, q0, y0, e0, g0, i0, j0, f0⟩ := hin ho0
  simp only [Prod.mk.injEq] at f0
  have hx0 : a <+: x0 := by
    refine cut_after (k := k0) (L := L) (q := q0) (y := y0) (b := b ++ (c ++ d)) (by rw [← e0, hab]; simp) ?_ i0 j0
    rw [g0]; exact asked_len_mono k0 L a b
  refine (hp.swap k0 x0 q0 y0 e0 i0 j0).2.elim ?_ (fun h => ⟨k0, x0, hx0, ⟨_, e0.symm⟩, h.1⟩)
  rintro ⟨_, hsw⟩
  have harg0 : o0.arg = 1 := f0.2.trans hsw
  -- the last success before it
  have hs1 : AmoSeq 0 (((u ++ [(k0, o0)]) ++ (w ++ p2)).map (·.2)) v := by
    rw [hp12, hu] at hs; simpa using hs
  rw [List.map_append] at hs1
  obtain ⟨v1, hv1⟩ := amoSeq_split hs1
  have hty1 : ∀ x ∈ u ++ [(k0, o0)], x.2.ty = SWAP ∧ (x.2.arg = 0 ∨ x.2.arg = 1) := by
    intro x hx
    refine hty x ?_
    rw [hu]
    rcases List.mem_append.1 hx with h | h
    · exact List.mem_append_left _ h
    · rw [List.mem_singleton] at h; subst h; simp
  have hv1' : v1 ≠ 0 := by
    rw [List.map_append, List.map_singleton] at hv1
    obtain ⟨_, rfl⟩ := amoSeq_unsnoc hv1
    have := (hty1 (k0, o0) (by simp)).1
    simp only at this
    rw [this, show amoFun SWAP o0.old o0.arg = o0.arg from rfl, harg0]
    decide
  obtain ⟨s1, k, o, s2, hsp, ha, hold, hlast⟩ := last_success _ v1 hv1 hty1 hv1'
  have hpre : p1 = s1 ++ (k, o) :: (s2 ++ w) := by
    rw [hu]
    have := congrArg (· ++ w) hsp
    simpa using this
  have hidx : (ofCache k p1)[(ofCache k s1).length]? = some o := by
    rw [hpre, ofCache_mid, List.getElem?_append_right (Nat.le_refl _)]; simp
  generalize hn : (ofCache k s1).length = n at hidx
  -- it is answered
  have hansd : n < (answeredAmos k L tr).length := by
    have g1 := (hP k).2.length_le
    rw [List.length_map] at g1
    have g2 := (List.getElem?_eq_some_iff.1 hidx).1
    have := h3 k
    omega
  obtain ⟨x, y, hxy, hx, hmin⟩ := first_cut (tr := tr) (fun z => n < (answeredAmos k L z).length) hansd
  have hget : ∀ z z', tr = z ++ z' → n < (answeredAmos k L z).length → (answeredAmos k L z)[n]? = some o := by
    intro z z' hz hlt
    obtain ⟨t1, t2, ht, hT⟩ := hl z z' hz
    obtain ⟨r, hr⟩ := (hT k).1
    have g1 : (ofCache k (p1 ++ p2))[n]? = some o := by
      rw [ofCache_append, List.getElem?_append_left (List.getElem?_eq_some_iff.1 hidx).1]; exact hidx
    rw [← hp12, ht, ofCache_append, ← hr, List.append_assoc, List.getElem?_append_left hlt] at g1
    exact g1
  have hasked : (askedAmos k L x).length = n + 1 := by
    have g1 := answered_le k L x
    refine Nat.le_antisymm (Decidable.byContradiction fun hgt => ?_) (by omega)
    have g2 : n + 1 < (askedAmos k L x).length := by omega
    obtain ⟨x1, q1, y1, e1, g3, g4, g5, _⟩ := asked_split (List.getElem?_eq_getElem g2)
    have g6 := hw k x1 q1 (y1 ++ y) (by rw [hxy, e1]; simp) g4 g5
    have := hmin x1 (.acc k q1 :: y1 ++ y) (by rw [hxy, e1]; simp) (by omega)
    rw [e1] at this
    simp at this
    omega
  have hh : Holds k L x := by
    have g1 := answered_le k L x
    refine ⟨by omega, o, ?_, ha, hold⟩
    rw [List.getLast?_eq_getElem?, show (answeredAmos k L x).length - 1 = n by omega]
    exact hget x y hxy hx
  rcases cuts (show a ++ (b ++ (c ++ d)) = x ++ y by rw [← hxy, hab]; simp) with h | ⟨z, hz⟩
  · exact ⟨k, x, h, ⟨y, hxy.symm⟩, hh⟩
  by_cases hzn : askedAmos k L z = []
  · exact ⟨k, a, List.prefix_rfl, ⟨b ++ (c ++ d), by rw [hab]; simp⟩, hz ▸ hh.keep hzn⟩
  -- it was given back before the end of `a`
  exfalso
  obtain ⟨c', f, d', rfl, hc', hf1, hf2⟩ := first_ask hzn
  have hk2 := hh.keep hc'
  have hrel : BitVec.ofNat 32 f.data = 0 := by
    rcases (hp.swap k (x ++ c') f (d' ++ (b ++ (c ++ d))) (by rw [hab, hz]; simp) hf1 hf2).2 with ⟨g, _⟩ | ⟨_, g, _⟩
    · exact absurd hk2 g
    · exact g
  have haska : (askedAmos k L a)[n + 1]? = some (f.ty, 0) := by
    rw [hz, asked_append', List.getElem?_append_right (by omega), hasked, Nat.sub_self, asked_append', hc', List.nil_append,
      show Ev.acc k f :: d' = [.acc k f] ++ d' from rfl, asked_append']
    simp [asked_eq, askOf, hf1, hf2, hrel]
  obtain ⟨r1, r2, hr, hR⟩ := hl (a ++ b) (c ++ d) (by rw [hab]; simp)
  have hlen1 : n + 1 < (ofCache k r1).length := by
    have g1 := (List.getElem?_eq_some_iff.1 haska).1
    have g2 := h1 k
    have g3 := (hR k).1.length_le
    omega
  have hr0 : (ofCache k0 r1).length ≤ (askedAmos k0 L (a ++ b)).length := by
    have := (hR k0).2.length_le
    rwa [List.length_map] at this
  have hsu : s = u ++ (k0, o0) :: (w ++ p2) := by rw [hp12, hu]; simp
  have hru : r1 <+: u := by
    by_cases hle : r1.length ≤ u.length
    · exact List.prefix_of_prefix_length_le ⟨r2, hr.symm⟩ ⟨_, hsu.symm⟩ hle
    · exfalso
      obtain ⟨t, ht⟩ : (u ++ [(k0, o0)]) <+: r1 :=
        List.prefix_of_prefix_length_le (l₃ := s) ⟨w ++ p2, by rw [hsu]; simp⟩ ⟨r2, hr.symm⟩ (by simp; omega)
      rw [← ht, ofCache_append, ofCache_snoc_same] at hr0
      simp at hr0
      omega
  obtain ⟨t, ht⟩ := hru
  have hr1 : (ofCache k r1)[n + 1]? = some ((ofCache k r1)[n + 1]) := List.getElem?_eq_getElem hlen1
  generalize (ofCache k r1)[n + 1] = o1 at hr1
  -- its operand, seen from both sides
  have hz1 : o1.arg = 0 := by
    obtain ⟨r, hr'⟩ := (hR k).2
    have g1 : (askedAmos k L (a ++ b))[n + 1]? = some (f.ty, 0) := by
      rw [asked_append', List.getElem?_append_left (List.getElem?_eq_some_iff.1 haska).1]; exact haska
    rw [← hr', List.getElem?_append_left (by simpa using hlen1), List.getElem?_map, hr1] at g1
    simp only [Option.map_some, Option.some.injEq, Prod.mk.injEq] at g1
    exact g1.2
  have hz2 : (ofCache k (s1 ++ (k, o) :: s2))[n + 1]? = some o1 := by
    rw [← hsp, ← ht, List.append_assoc, ofCache_append, List.getElem?_append_left hlen1]; exact hr1
  rw [ofCache_mid, List.getElem?_append_right (by omega), hn, show n + 1 - n = 0 + 1 by omega, List.getElem?_cons_succ] at hz2
  have := hlast _ (mem_ofCache (List.mem_of_getElem? hz2))
  simp only at this
  rw [hz1] at this
  exact absurd this (by decide)

theorem opens {s : List (ι × AmoOp)} {v : BitVec 32} (hs : AmoSeq 0 (s.map (·.2)) v) (hl : Linearised B tr s)
    (hp : BarrierProtocol ps B D tr) {a b c : List (Ev ι)} (hab : tr = a ++ b ++ c) {m : Nat}
    (h1 : ∀ j ∈ ps, m ≤ ((answeredAmos j B a).filter fun o => decide (o.arg = 1)).length)
    (h2 : (askedAmos k B a).length < (answeredAmos k B (a ++ b)).length) : Passed ps.length k B m (a ++ b) := by
  obtain ⟨r1, r2, hr, hR⟩ := hl a (b ++ c) (by rw [hab]; simp)
  obtain ⟨p1, p2, hp12, hP⟩ := hl _ _ hab
  have hlen0 := (hP k).1.length_le
  obtain ⟨o, ho⟩ : ∃ o, (ofCache k p1)[(askedAmos k B a).length]? = some o := ⟨_, List.getElem?_eq_getElem (by omega)⟩
  obtain ⟨u, w, hu, hulen⟩ := ofCache_split p1 ho
  have hsu : s = u ++ ((k, o) :: w ++ p2) := by rw [hp12, hu]; simp
  have hr0 : (ofCache k r1).length ≤ (askedAmos k B a).length := by
    have := (hR k).2.length_le
    rwa [List.length_map] at this
  have hru : r1 <+: u := by
    by_cases hle : r1.length ≤ u.length
    · exact List.prefix_of_prefix_length_le ⟨r2, hr.symm⟩ ⟨_, hsu.symm⟩ hle
    · exfalso
      obtain ⟨t, ht⟩ : (u ++ [(k, o)]) <+: r1 :=
        List.prefix_of_prefix_length_le (l₃ := s) ⟨w ++ p2, by rw [hsu]; simp⟩ ⟨r2, hr.symm⟩ (by simp; omega)
      rw [← ht, ofCache_append, ofCache_snoc_same] at hr0
      simp at hr0
      omega
  obtain ⟨t, ht⟩ := hru
  have hs' : AmoSeq 0 ((u ++ [(k, o)]).map (·.2) ++ (w ++ p2).map (·.2)) v := by
    rw [hsu] at hs; simpa using hs
  obtain ⟨v1, hv1⟩ := amoSeq_split hs'
  rw [List.map_append, List.map_singleton] at hv1
  obtain ⟨hv2, _⟩ := amoSeq_unsnoc hv1
  have hcnt := (counter (hsu ▸ hl) hp hab (fun j => ?_) hv2).1
  · have hsum : m * ps.length ≤ (ps.map fun j => cnt j u).sum := by
      have : ∀ l : List ι, (∀ j ∈ l, m ≤ cnt j u) → m * l.length ≤ (l.map fun j => cnt j u).sum := by
        intro l
        induction l with
        | nil => simp
        | cons x l ih =>
          intro h
          have := ih (fun j hj => h j (by simp [hj]))
          have := h x (by simp)
          simp only [List.map_cons, List.sum_cons, List.length_cons, Nat.mul_add, Nat.mul_one]; omega
      refine this ps (fun j hj => Nat.le_trans (h1 j hj) ?_)
      obtain ⟨t1, ht1⟩ := (hR j).1
      simp only [cnt, ← ht, ofCache_append, ← ht1, List.filter_append, List.length_append]
      omega
    refine .inr ⟨o, ?_, by rw [hcnt]; omega⟩
    obtain ⟨t1, ht1⟩ := (hP k).1
    rw [← ht1, List.getElem?_append_left h2] at ho
    exact List.mem_of_getElem? ho
  · obtain ⟨t1, ht1⟩ := (hP j).2
    refine List.IsPrefix.trans ?_ ⟨t1, ht1⟩
    rw [hu, ofCache_append, List.map_append]
    exact List.prefix_append _ _

end Verif.WM
