import Verif.SpecBarrier
import Verif.PropsLock

/-!
# C90: a barrier separates phases
-/

set_option linter.unusedSectionVars false

namespace Verif.WM
variable {ι : Type} [DecidableEq ι] {B : Nat} {D : Nat → Prop} {M0 : ByteMem} {tr : List (Ev ι)} {k k' : ι}
  {ps : List ι}

/-! ## Sums over the participants -/

theorem sum_lt {ps : List ι} (f : ι → Nat) (m : Nat) (h : ∀ k ∈ ps, f k ≤ m) (hk : k ∈ ps) (hm : f k < m) :
    (ps.map f).sum < m * ps.length := by
  have le : ∀ l : List ι, (∀ k ∈ l, f k ≤ m) → (l.map f).sum ≤ m * l.length := by
    intro l
    induction l with
    | nil => simp
    | cons x l ih =>
      intro h
      have := ih (fun k hk => h k (by simp [hk]))
      have := h x (by simp)
      simp only [List.map_cons, List.sum_cons, List.length_cons, Nat.mul_add, Nat.mul_one]; omega
  induction ps with
  | nil => cases hk
  | cons x ps ih =>
    simp only [List.map_cons, List.sum_cons, List.length_cons, Nat.mul_add, Nat.mul_one]
    rcases List.mem_cons.1 hk with rfl | hk
    · have := le ps (fun k hk => h k (by simp [hk])); omega
    · have := ih (fun k hk => h k (by simp [hk])) hk
      have := h x (by simp); omega

theorem sum_le {ps : List ι} (f g : ι → Nat) (h : ∀ k ∈ ps, f k ≤ g k) : (ps.map f).sum ≤ (ps.map g).sum := by
  induction ps with
  | nil => simp
  | cons x ps ih =>
    have := ih (fun k hk => h k (by simp [hk]))
    have := h x (by simp)
    simp only [List.map_cons, List.sum_cons]; omega

theorem sum_same {ps : List ι} (f g : ι → Nat) (h : ∀ k ∈ ps, f k = g k) : (ps.map f).sum = (ps.map g).sum := by
  rw [List.map_congr_left h]

theorem sum_succ {ps : List ι} (hn : ps.Nodup) (f g : ι → Nat) (hk : k ∈ ps) (h1 : f k = g k + 1)
    (h : ∀ j, j ≠ k → f j = g j) : (ps.map f).sum = (ps.map g).sum + 1 := by
  induction ps with
  | nil => cases hk
  | cons x ps ih =>
    obtain ⟨h2, h3⟩ := List.nodup_cons.1 hn
    simp only [List.map_cons, List.sum_cons]
    by_cases hx : x = k
    · subst hx
      rw [sum_same f g (fun j hj => h j (fun e => h2 (e ▸ hj)))]; omega
    · have := ih h3 (by rcases List.mem_cons.1 hk with e | e; exact absurd e.symm hx; exact e)
      have := h x hx; omega

/-! ## Sequences of additions -/

/-- Additions of 1 by `k` in a sequence (proof device). -/
def cnt (k : ι) (s : List (ι × AmoOp)) : Nat := ((ofCache k s).filter fun o => decide (o.arg = 1)).length

theorem cnt_snoc_other {k0 : ι} (h : k ≠ k0) (s : List (ι × AmoOp)) (o : AmoOp) : cnt k (s ++ [(k0, o)]) = cnt k s := by
  simp only [cnt, ofCache_snoc_other (Ne.symm h)]

theorem cnt_snoc_same (s : List (ι × AmoOp)) (o : AmoOp) :
    cnt k (s ++ [(k, o)]) = cnt k s + if o.arg = 1 then 1 else 0 := by
  simp only [cnt, ofCache_snoc_same, List.filter_append, List.length_append]
  by_cases h : o.arg = 1
  · rw [if_pos h, List.filter_cons_of_pos (by simpa using h)]; rfl
  · rw [if_neg h, List.filter_cons_of_neg (by simpa using h)]; rfl

theorem cnt_le_snoc (s : List (ι × AmoOp)) (x : ι × AmoOp) : cnt k s ≤ cnt k (s ++ [x]) := by
  simp only [cnt, ofCache_append, List.filter_append, List.length_append]; omega

theorem mem_ofCache {s : List (ι × AmoOp)} {o : AmoOp} (h : o ∈ ofCache k s) : (k, o) ∈ s := by
  simp only [ofCache, List.mem_filterMap] at h
  obtain ⟨⟨k2, o2⟩, h1, h2⟩ := h
  by_cases hk : k2 = k
  · subst hk; simp at h2; subst h2; exact h1
  · simp [hk] at h2

/-- No participant is more than one addition ahead of another, and a value of `m * n` means
`m` additions by everybody. -/
theorem levels (hn : ps.Nodup) (s : List (ι × AmoOp)) : ∀ v, AmoSeq 0 (s.map (·.2)) v →
    (∀ x ∈ s, x.2.ty = ADD ∧ (x.2.arg = 0 ∨ (x.2.arg = 1 ∧ x.1 ∈ ps))) →
    (∀ (k : ι) (n : Nat) (o : AmoOp), (ofCache k s)[n]? = some o → o.arg = 1 →
      (((ofCache k s).take n).filter fun o => decide (o.arg = 1)).length = 0 ∨
      ∃ (m : Nat) (o' : AmoOp), m < n ∧ (ofCache k s)[m]? = some o' ∧
        (((ofCache k s).take n).filter fun o => decide (o.arg = 1)).length * ps.length ≤ o'.old.toNat + o'.arg.toNat) →
    (ps.map fun k => cnt k s).sum < 2 ^ 32 →
    v.toNat = (ps.map fun k => cnt k s).sum ∧ (∀ k ∈ ps, ∀ k' ∈ ps, cnt k s ≤ cnt k' s + 1) ∧
    ∀ x ∈ s, ∀ m, m * ps.length ≤ x.2.old.toNat + x.2.arg.toNat → ∀ k ∈ ps, m ≤ cnt k s := by
  induction h : s.length generalizing s with
  | zero =>
    intro v hv _ _ _
    have : s = [] := List.length_eq_zero_iff.1 h
    subst this
    obtain rfl := amoSeq_nil hv
    have h0 : (ps.map fun k => cnt k ([] : List (ι × AmoOp))).sum = 0 := by
      have : ∀ l : List ι, (l.map fun k => cnt k ([] : List (ι × AmoOp))).sum = 0 := by
        intro l
        induction l with
        | nil => rfl
        | cons x l ih => simp only [List.map_cons, List.sum_cons, ih]; rfl
      exact this ps
    refine ⟨by rw [h0]; rfl, fun k _ k' _ => Nat.zero_le _, fun x hx => by cases hx⟩
  | succ n ih =>
    intro v hv hty hpass hsum
    rcases List.eq_nil_or_concat s with rfl | ⟨s', x, hs'⟩
    · simp at h
    rw [List.concat_eq_append] at hs'
    subst hs'
    obtain ⟨k0, o0⟩ := x
    rw [List.map_append, List.map_singleton] at hv
    obtain ⟨hv', rfl⟩ := amoSeq_unsnoc hv
    have hpass' : ∀ (k : ι) (n : Nat) (o : AmoOp), (ofCache k s')[n]? = some o → o.arg = 1 →
        (((ofCache k s').take n).filter fun o => decide (o.arg = 1)).length = 0 ∨
        ∃ (m : Nat) (o' : AmoOp), m < n ∧ (ofCache k s')[m]? = some o' ∧
          (((ofCache k s').take n).filter fun o => decide (o.arg = 1)).length * ps.length ≤
            o'.old.toNat + o'.arg.toNat := by
      intro k n o ho ha
      have hlt := (List.getElem?_eq_some_iff.1 ho).1
      have hpre : ∀ j, j < (ofCache k s').length → (ofCache k (s' ++ [(k0, o0)]))[j]? = (ofCache k s')[j]? := by
        intro j hj; rw [ofCache_append, List.getElem?_append_left hj]
      have htake : (ofCache k (s' ++ [(k0, o0)])).take n = (ofCache k s').take n := by
        rw [ofCache_append, List.take_append_of_le_length (by omega)]
      have := hpass k n o (by rw [hpre n hlt]; exact ho) ha
      rw [htake] at this
      rcases this with h1 | ⟨m, o', h1, h2, h3⟩
      · exact .inl h1
      · exact .inr ⟨m, o', h1, by rw [← hpre m (by omega)]; exact h2, h3⟩
    have hle : (ps.map fun k => cnt k s').sum ≤ (ps.map fun k => cnt k (s' ++ [(k0, o0)])).sum :=
      sum_le _ _ (fun k _ => cnt_le_snoc s' _)
    obtain ⟨i1, i2, i3⟩ := ih s' (by simpa using h) _ hv' (fun x hx => hty x (by simp [hx])) hpass' (by omega)
    obtain ⟨t1, t2⟩ := hty (k0, o0) (by simp)
    simp only at t1 t2
    have hadd : amoFun o0.ty o0.old o0.arg = o0.old + o0.arg := by rw [t1]; rfl
    rw [hadd]
    -- the sum
    have hval : o0.old.toNat + o0.arg.toNat = (ps.map fun k => cnt k (s' ++ [(k0, o0)])).sum := by
      rcases t2 with ha | ⟨ha, hk0⟩
      · rw [i1, ha, show (0 : BitVec 32).toNat = 0 from rfl, Nat.add_zero]
        refine sum_same _ _ (fun k _ => ?_)
        by_cases hk : k = k0
        · subst hk; rw [cnt_snoc_same, ha]; rfl
        · rw [cnt_snoc_other hk]
      · rw [i1, ha, show (1 : BitVec 32).toNat = 1 from rfl]
        exact (sum_succ hn _ _ hk0 (by rw [cnt_snoc_same, ha]; rfl) (fun j hj => cnt_snoc_other hj s' o0)).symm
    have hI : ∀ k ∈ ps, ∀ k' ∈ ps, cnt k (s' ++ [(k0, o0)]) ≤ cnt k' (s' ++ [(k0, o0)]) + 1 := by
      intro k hk k' hk'
      have m' := cnt_le_snoc (k := k') s' (k0, o0)
      by_cases hk0 : k = k0
      · subst hk0
        rcases t2 with ha | ⟨ha, _⟩
        · rw [cnt_snoc_same, ha]
          have := i2 k hk k' hk'
          simp; omega
        · have hlast := hpass k (ofCache k s').length o0 (by rw [ofCache_snoc_same]; simp) ha
          have htake : (ofCache k (s' ++ [(k, o0)])).take (ofCache k s').length = ofCache k s' := by
            rw [ofCache_snoc_same, List.take_left']; rfl
          rw [htake] at hlast
          have hc : cnt k (s' ++ [(k, o0)]) = cnt k s' + 1 := by rw [cnt_snoc_same, ha]; rfl
          rw [hc]
          change cnt k s' = 0 ∨ _ at hlast
          rcases hlast with h1 | ⟨m, o', h1, h2, h3⟩
          · omega
          · rw [ofCache_snoc_same, List.getElem?_append_left h1] at h2
            have := i3 (k, o') (mem_ofCache (List.mem_of_getElem? h2)) (cnt k s') h3 k' hk'
            omega
      · rw [cnt_snoc_other hk0]
        have := i2 k hk k' hk'; omega
    refine ⟨?_, hI, ?_⟩
    · rw [BitVec.toNat_add, hval, Nat.mod_eq_of_lt hsum]
    · intro x hx m hm k hk
      rcases List.mem_append.1 hx with hx | hx
      · exact Nat.le_trans (i3 x hx m hm k hk) (cnt_le_snoc s' _)
      · rw [List.mem_singleton] at hx
        subst hx
        rw [hval] at hm
        refine Decidable.byContradiction fun hlt => ?_
        have := sum_lt (ps := ps) (k := k) (fun k => cnt k (s' ++ [(k0, o0)])) m
          (fun j hj => by have := hI j hj k hk; omega) hk (by omega)
        omega

/-! ## Nobody leaves before everybody has come -/

theorem arrivals_append (k : ι) (B : Nat) (a b : List (Ev ι)) :
    arrivals k B (a ++ b) = arrivals k B a + arrivals k B b := by
  simp [arrivals, asked_append']

theorem cnt_le_arrivals {s : List (ι × AmoOp)} {a : List (Ev ι)}
    (h : (ofCache k s).map (fun o => (o.ty, o.arg)) <+: askedAmos k B a) : cnt k s ≤ arrivals k B a := by
  obtain ⟨t, ht⟩ := h
  simp only [arrivals, ← ht, List.filter_append, List.length_append, List.filter_map, List.length_map, cnt]
  exact Nat.le_add_right _ _

theorem Passed.mono {n m : Nat} {a : List (Ev ι)} (h : Passed n k B m a) (b : List (Ev ι)) : Passed n k B m (a ++ b) := by
  rcases h with h | ⟨o, h1, h2⟩
  · exact .inl h
  · exact .inr ⟨o, (answered_mono k B a b).subset h1, h2⟩

/-- The counter after an initial part `u` of the operations that has been asked for. -/
theorem counter {u s2 : List (ι × AmoOp)}
    (hl : Linearised B tr (u ++ s2)) (hp : BarrierProtocol ps B D tr) {a b : List (Ev ι)} (hab : tr = a ++ b)
    (h1 : ∀ k, (ofCache k u).map (fun o => (o.ty, o.arg)) <+: askedAmos k B a) {w : BitVec 32}
    (hw : AmoSeq 0 (u.map (·.2)) w) :
    w.toNat = (ps.map fun k => cnt k u).sum ∧
    ∀ x ∈ u, ∀ m, m * ps.length ≤ x.2.old.toNat + x.2.arg.toNat → ∀ k ∈ ps, m ≤ cnt k u := by
  have hin : ∀ {k n o}, (ofCache k u)[n]? = some o → ∃ c q d, tr = c ++ .acc k q :: d ∧ (askedAmos k B c).length = n ∧
      MT.isAmo q.ty = true ∧ q.addr / 4 = B ∧ (o.ty, o.arg) = (q.ty, BitVec.ofNat 32 q.data) ∧
      ∃ e, a = c ++ e := by
    intro k n o ho
    have hask : (askedAmos k B a)[n]? = some (o.ty, o.arg) := by
      obtain ⟨t, ht⟩ := h1 k
      have hn := (List.getElem?_eq_some_iff.1 ho).1
      rw [← ht, List.getElem?_append_left (by simpa using hn), List.getElem?_map, ho]; rfl
    obtain ⟨c, q, d, rfl, h2, h3, h4, h5⟩ := asked_split hask
    exact ⟨c, q, d ++ b, by rw [hab]; simp, h2, h3, h4, h5, _, rfl⟩
  refine (fun h => ⟨h.1, h.2.2⟩) (levels hp.nodup u w hw ?_ ?_ ?_)
  · rintro ⟨k2, o⟩ hx
    have ho : o ∈ ofCache k2 u := by
      simp only [ofCache, List.mem_filterMap]; exact ⟨_, hx, by simp⟩
    obtain ⟨n, hn⟩ := List.getElem?_of_mem ho
    obtain ⟨c, q, d, h2, _, h3, h4, h5, _⟩ := hin hn
    simp only [Prod.mk.injEq] at h5
    obtain ⟨h6, h7⟩ := hp.add k2 c q d h2 h3 h4
    refine ⟨h5.1.trans h6, ?_⟩
    rcases h7 with h7 | ⟨h7, h8, _⟩
    · exact .inl (h5.2.trans h7)
    · exact .inr ⟨h5.2.trans h7, h8⟩
  · intro k2 n o ho ha
    obtain ⟨c, q, d, h2, h3, h4, h5, h6, e, he⟩ := hin ho
    simp only [Prod.mk.injEq] at h6
    obtain ⟨_, h7⟩ := hp.add k2 c q d h2 h4 h5
    have hcount : (((ofCache k2 u).take n).filter fun o => decide (o.arg = 1)).length = arrivals k2 B c := by
      obtain ⟨t, ht⟩ := h1 k2
      have hlt := (List.getElem?_eq_some_iff.1 ho).1
      have : askedAmos k2 B c = ((ofCache k2 u).take n).map (fun o => (o.ty, o.arg)) := by
        have e1 : (askedAmos k2 B a).take n = askedAmos k2 B c := by
          rw [he, asked_append', List.take_append_of_le_length (by omega), ← h3, List.take_length]
        rw [← e1, ← ht, List.take_append_of_le_length (by simp; omega), List.map_take]
      simp only [arrivals, this, List.filter_map, List.length_map]
      rfl
    rw [hcount]
    rcases h7 with h7 | ⟨_, _, h8, _⟩
    · rw [← h6.2, ha] at h7; exact absurd h7 (by decide)
    · rcases h8 with h8 | ⟨o', g1, g2⟩
      · exact .inl h8
      · obtain ⟨t1, t2, ht, h9⟩ := hl c (.acc k2 q :: d) h2
        obtain ⟨m', hm'⟩ := List.getElem?_of_mem g1
        have hlt' := (List.getElem?_eq_some_iff.1 hm').1
        have hle := answered_le k2 B c
        refine .inr ⟨m', o', by omega, ?_, g2⟩
        have hlt := (List.getElem?_eq_some_iff.1 ho).1
        have hpre : (ofCache k2 u)[m']? = (ofCache k2 (u ++ s2))[m']? := by
          rw [ofCache_append, List.getElem?_append_left (by omega)]
        obtain ⟨t, ht'⟩ := (h9 k2).1
        rw [hpre, ht, ofCache_append, ← ht', List.append_assoc, List.getElem?_append_left hlt', hm']
  · refine Nat.lt_of_le_of_lt (sum_le _ (fun k => arrivals k B tr) (fun j _ => ?_)) hp.small
    have := cnt_le_arrivals (h1 j)
    rw [hab, arrivals_append]; omega

theorem come {s : List (ι × AmoOp)} {v : BitVec 32} (hs : AmoSeq 0 (s.map (·.2)) v) (hl : Linearised B tr s)
    (hp : BarrierProtocol ps B D tr) {a b : List (Ev ι)} (hab : tr = a ++ b) {m : Nat}
    (h : Passed ps.length k B m a) (hk' : k' ∈ ps) : m ≤ arrivals k' B a := by
  rcases h with rfl | ⟨o, ho, hm⟩
  · exact Nat.zero_le _
  obtain ⟨s1, s2, rfl, h1⟩ := hl a b hab
  have hs' := hs
  rw [List.map_append] at hs'
  obtain ⟨w, hw⟩ := amoSeq_split hs'
  exact Nat.le_trans ((counter hl hp hab (fun k => (h1 k).2) hw).2 (k, o) (mem_ofCache ((h1 k).1.subset ho)) m hm k' hk')
    (cnt_le_arrivals (h1 k').2)

/-! ## The discipline of C65 -/

theorem arrivals_other {q : Req} {d : List (Ev ι)} (h : ¬ (MT.isAmo q.ty = true ∧ q.addr / 4 = B)) (j : ι) :
    arrivals j B (.acc k q :: d) = arrivals j B d := by
  by_cases hj : k = j
  · subst hj; simp only [arrivals, asked_other h]
  · have : askedAmos j B (.acc k q :: d) = askedAmos j B d := by
      simp [asked_eq, accepted_acc_other hj]
    simp only [arrivals, this]

theorem not_counter_op (hp : BarrierProtocol ps B D tr) {q : Req} {W : Nat} (hD : D W) (hq : q.stores W ∨ q.reads W) :
    ¬ (MT.isAmo q.ty = true ∧ q.addr / 4 = B) := by
  rintro ⟨h1, rfl⟩
  rcases hq with (⟨h2, _⟩ | ⟨_, h2⟩) | (⟨h2, _⟩ | ⟨_, h2⟩)
  · exact amo_not_write h1 h2
  · subst h2; exact hp.apart hD
  · exact amo_not_read h1 h2
  · subst h2; exact hp.apart hD

/-- The first arrival. -/
theorem first_arrival {b : List (Ev ι)} (h : arrivals k B b ≠ 0) :
    ∃ c f d, b = c ++ .acc k f :: d ∧ MT.isAmo f.ty = true ∧ f.addr / 4 = B ∧
      BitVec.ofNat 32 f.data = 1 := by
  have : ∃ x ∈ askedAmos k B b, x.2 = 1 := by
    refine Decidable.byContradiction fun hn => h ?_
    simp only [arrivals, List.length_eq_zero_iff, List.filter_eq_nil_iff]
    exact fun x hx h1 => hn ⟨x, hx, by simpa using h1⟩
  obtain ⟨x, hx, h1⟩ := this
  obtain ⟨n, hn⟩ := List.getElem?_of_mem hx
  obtain ⟨c, q, d, h2, _, h3, h4, rfl⟩ := asked_split hn
  exact ⟨c, q, d, h2, h3, h4, h1⟩

/-- A processor that arrives has published its stores. -/
theorem arrival_released (hp : BarrierProtocol ps B D tr) {W : Nat} (hD : D W) {a e b : List (Ev ι)} {q : Req}
    (h : tr = (a ++ .acc k q :: e) ++ b) (hq : q.stores W) (hask : arrivals k B e ≠ 0) :
    Released k W a (.acc k q :: e) := by
  obtain ⟨e1, f, e2, rfl, h2, h3, h4⟩ := first_arrival hask
  obtain ⟨_, h5⟩ := hp.add k (a ++ .acc k q :: e1) f (e2 ++ b) (by rw [h]; simp) h2 h3
  rcases h5 with h5 | ⟨_, _, _, h5, h6⟩
  · rw [h4] at h5; exact absurd h5 (by decide)
  · obtain ⟨g, hg, hgt⟩ := h6 W hD a q e1 rfl hq
    obtain ⟨n, hn⟩ := List.getElem?_of_mem hg
    obtain ⟨u, w, rfl, hu⟩ := accepted_split hn
    have : Released k W a (.acc k q :: (u ++ .acc k g :: w)) := by
      refine ⟨.acc k q :: u, g, w, rfl, .inl hgt, ?_⟩
      rw [← h5]; simp
    have := this.mono (.acc k f :: e2)
    simpa using this

/-- The phase of an access is over for everybody once one processor is in a later one. -/
theorem barrier_upToDate {s : List (ι × AmoOp)} {v : BitVec 32} (hs : AmoSeq 0 (s.map (·.2)) v) (hl : Linearised B tr s)
    (hp : BarrierProtocol ps B D tr) {a b : List (Ev ι)} {q : Req} (h : tr = a ++ .acc k q :: b) {W : Nat} (hD : D W)
    (hq : q.stores W ∨ q.reads W) : UpToDate k W a := by
  intro k' hk a' q' b' ha' hq'
  obtain ⟨hkm, hg⟩ := hp.guarded k a q b h W hD hq
  have htr' : tr = a' ++ .acc k' q' :: (b' ++ .acc k q :: b) := by rw [h, ha']; simp
  obtain ⟨hkm', hg'⟩ := hp.guarded k' a' q' _ htr' W hD (.inl hq')
  have hne := hp.phases k' k hk a' q' _ a q b htr' h W hD hq' (hq.elim .inl .inr)
  have hno := not_counter_op hp hD (.inl hq')
  -- the other processor is not in a later phase
  have hle : arrivals k' B a' ≤ arrivals k B a := by
    rcases hg' with h0 | ⟨c, i, d, he, _, hP⟩
    · omega
    · have h1 := come hs hl hp (a := c) (b := .acc k' i :: d ++ .acc k' q' :: (b' ++ .acc k q :: b))
        (by rw [htr', he]; simp) hP hkm
      have h2 : arrivals k B c ≤ arrivals k B a := by
        rw [ha', he]; simp only [List.append_assoc, arrivals_append]; omega
      omega
  rcases hg with h0 | ⟨c, i, d, he, hi, hP⟩
  · omega
  -- the other processor has arrived since
  have h1 := come hs hl hp (a := c) (b := .acc k i :: d ++ .acc k q :: b) (by rw [h, he]; simp) hP hkm'
  rw [he] at ha'
  rcases List.append_eq_append_iff.1 ha' with ⟨e, he1, he2⟩ | ⟨e, he1, he2⟩
  · exfalso
    have : arrivals k' B c ≤ arrivals k' B a' := by rw [he1, arrivals_append]; omega
    omega
  · cases e with
    | nil =>
      simp only [List.nil_append, List.cons.injEq, Ev.acc.injEq] at he2
      exact absurd he2.1.1 hk
    | cons x e =>
      simp only [List.cons_append, List.cons.injEq] at he2
      obtain ⟨rfl, rfl⟩ := he2
      refine ⟨e, i, d, rfl, .inl hi, ?_⟩
      refine arrival_released hp hD (b := .acc k i :: (d ++ .acc k q :: b)) (by rw [h, he, he1]; simp) hq' ?_
      rw [he1, arrivals_append, arrivals_other hno] at h1
      omega

theorem barrier_disciplined {s : List (ι × AmoOp)} {v : BitVec 32} (hs : AmoSeq 0 (s.map (·.2)) v)
    (hl : Linearised B tr s) (hp : BarrierProtocol ps B D tr) {W : Nat} (hD : D W) : Disciplined W tr := by
  intro k a q b h
  exact ⟨fun hq => barrier_upToDate hs hl hp h hD (.inl (.inl hq)),
    fun hq => (barrier_upToDate hs hl hp h hD (.inl (.inr hq))).others⟩

theorem barrier_noRace {s : List (ι × AmoOp)} {v : BitVec 32} (hs : AmoSeq 0 (s.map (·.2)) v) (hl : Linearised B tr s)
    (hp : BarrierProtocol ps B D tr) {a b : List (Ev ι)} {q : Req} (h : tr = a ++ .acc k q :: b) {W : Nat} (hD : D W)
    (hq : q.stores W ∨ q.reads W) : NoRace k W a q b := by
  intro k' hk c q' d hc hq'
  obtain ⟨hkm, hg⟩ := hp.guarded k a q b h W hD hq
  have htr' : tr = (a ++ .acc k q :: c) ++ .acc k' q' :: d := by rw [h, hc]; simp
  obtain ⟨hkm', hg'⟩ := hp.guarded k' (a ++ .acc k q :: c) q' d htr' W hD (.inl hq')
  have hne := hp.phases k' k hk _ q' _ a q b htr' h W hD hq' (hq.elim .inl .inr)
  have hno := not_counter_op hp hD hq
  -- the other processor is not in an earlier phase
  have hge : arrivals k B a ≤ arrivals k' B (a ++ .acc k q :: c) := by
    rcases hg with h0 | ⟨c', i, d', he, _, hP⟩
    · omega
    · have h1 := come hs hl hp (a := c') (b := .acc k i :: d' ++ .acc k q :: b) (by rw [h, he]; simp) hP hkm'
      have h2 : arrivals k' B c' ≤ arrivals k' B (a ++ .acc k q :: c) := by
        rw [he]; simp only [List.append_assoc, arrivals_append]; omega
      omega
  rcases hg' with h0 | ⟨c', i, d', he, _, hP⟩
  · omega
  have h1 := come hs hl hp (a := c') (b := .acc k' i :: d' ++ .acc k' q' :: d) (by rw [htr', he]; simp) hP hkm
  have h2 : arrivals k B c' ≤ arrivals k B (a ++ .acc k q :: c) := by rw [he, arrivals_append]; omega
  rw [arrivals_append, arrivals_other hno] at h2
  obtain ⟨e1, f, e2, hce, g2, g3, g4⟩ := first_arrival (k := k) (B := B) (b := c) (by omega)
  obtain ⟨_, h4⟩ := hp.add k (a ++ .acc k q :: e1) f (e2 ++ .acc k' q' :: d) (by rw [htr', hce]; simp) g2 g3
  rcases h4 with h4 | ⟨_, _, _, h5, _⟩
  · rw [g4] at h4; exact absurd h4 (by decide)
  · rw [hce]; simp at h5 ⊢; omega

/-- Stores of finished phases are published. -/
theorem finished_released {s : List (ι × AmoOp)} {v : BitVec 32} (hs : AmoSeq 0 (s.map (·.2)) v) (hl : Linearised B tr s)
    (hp : BarrierProtocol ps B D tr) {m : Nat} (h : Passed ps.length k B m tr) {W : Nat} (hD : D W) {a b : List (Ev ι)}
    {q : Req} (hab : tr = a ++ .acc k' q :: b) (hq : q.stores W) (hm : arrivals k' B a < m) :
    Released k' W a (.acc k' q :: b) := by
  obtain ⟨hkm, _⟩ := hp.guarded k' a q b hab W hD (.inl hq)
  have h1 := come hs hl hp (a := tr) (b := []) (by simp) h hkm
  rw [hab, arrivals_append, arrivals_other (not_counter_op hp hD (.inl hq))] at h1
  exact arrival_released hp hD (b := []) (by rw [hab]; simp) hq (by omega)

end Verif.WM

namespace Verif
variable {ι : Type} [DecidableEq ι] {p : ι → Params}

/-- **C90, nobody leaves before everybody has come.**  Caches of any shapes.  A processor that has seen the
counter reach `m` times the number of participants knows that every participant has finished `m` phases. -/
theorem C90_everybody_came (wf : ∀ k, (p k).WF) {H H' : HSys ι p} {tr : List (HEv ι p)} (h0 : HStart H)
    (h : HetRun H tr H') (hv : HValid tr) {ps : List ι} {B : Nat} {D : Nat → Prop} (hfree : memWord H.mem B = 0)
    (hp : WM.BarrierProtocol ps B D (visible tr)) {a b : List (WM.Ev ι)} (hab : visible tr = a ++ b) {k k' : ι} {m : Nat}
    (hk : WM.Passed ps.length k B m a) (hk' : k' ∈ ps) : m ≤ WM.arrivals k' B a := by
  obtain ⟨s, h1, h2⟩ := C66_amos_linearised wf h0 h hv hp.noWrite
  rw [hfree] at h1
  exact WM.come h1 h2 hp hab hk hk'

/-- **C90, shared words.**  A READ (or AMO) of shared words returns the latest data: everything accepted before
it, by any cache, performed on one flat memory. -/
theorem C90_reads (wf : ∀ k, (p k).WF) {H H' : HSys ι p} {tr : List (HEv ι p)} (h0 : HStart H)
    (h : HetRun H tr H') (hv : HValid tr) {ps : List ι} {B : Nat} {D : Nat → Prop} (hfree : memWord H.mem B = 0)
    (hp : WM.BarrierProtocol ps B D (visible tr)) {k : ι} {a b : List (WM.Ev ι)} {q : WM.Req}
    (hq : visible tr = a ++ .acc k q :: b) (hD : ∀ W, q.reads W → D W) {r : WM.Resp}
    (hresp : (WM.responses k (visible tr))[(WM.accepted k a).length]? = some r) :
    r = ⟨q.ty, q.opq, q.len, (WM.flat (WM.latest H.mem a) q).2⟩ := by
  obtain ⟨s, h1, h2⟩ := C66_amos_linearised wf h0 h hv hp.noWrite
  rw [hfree] at h1
  refine C65_responses wf h0 h hv hq (fun W hW => WM.barrier_disciplined h1 h2 hp (hD W hW)) ?_ hresp
  intro W hW _
  exact ⟨WM.barrier_upToDate h1 h2 hp hq (hD W hW) (.inr hW), WM.barrier_noRace h1 h2 hp hq (hD W hW) (.inr hW)⟩

/-- **C90, memory.**  Once some processor has seen the end of phase `m`, memory holds the latest contents of every
shared word that was only stored to before. -/
theorem C90_memory (wf : ∀ k, (p k).WF) {H H' : HSys ι p} {tr : List (HEv ι p)} (h0 : HStart H)
    (h : HetRun H tr H') (hv : HValid tr) {ps : List ι} {B : Nat} {D : Nat → Prop} (hfree : memWord H.mem B = 0)
    (hp : WM.BarrierProtocol ps B D (visible tr)) {k : ι} {m : Nat} (hk : WM.Passed ps.length k B m (visible tr))
    {W : Nat} (hD : D W)
    (hst : ∀ k' a q b, visible tr = a ++ .acc k' q :: b → q.stores W → WM.arrivals k' B a < m)
    {x : Nat} (hx : x / 4 = W) : H'.mem x = WM.latest H.mem (visible tr) x := by
  obtain ⟨s, h1, h2⟩ := C66_amos_linearised wf h0 h hv hp.noWrite
  rw [hfree] at h1
  exact C65_memory wf h0 h hv (WM.barrier_disciplined h1 h2 hp hD)
    (fun k' a q b hab hq => WM.finished_released h1 h2 hp hk hD hab hq (hst k' a q b hab hq)) hx

end Verif
