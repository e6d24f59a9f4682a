import Verif.SpecDet
import Verif.PropsShared2
set_option linter.unusedSectionVars false

/-!
# Synchronised programs: the order of conflicting accesses
-/

namespace Verif
variable {p : Params} {n : Nat}

/-- Number of requests of core `k` before position `x`. Proof device; not in the source. -/
def Prog.idx (g : Prog n p) (k : Fin n) (x : Nat) : Nat := (Prog.of (g.take x) k).length

theorem of_append (a b : Prog n p) (k : Fin n) : Prog.of (a ++ b) k = Prog.of a k ++ Prog.of b k := by
  simp [Prog.of]

theorem idx_mono (g : Prog n p) (k : Fin n) {x y : Nat} (h : x ≤ y) : g.idx k x ≤ g.idx k y := by
  have : g.take y = g.take x ++ (g.drop x).take (y - x) := by
    rw [← List.take_add]; congr 1; omega
  simp only [Prog.idx, this, of_append, List.length_append]; omega

theorem take_succ_get {α : Type} {g : List α} {x : Nat} {e : α} (h : g[x]? = some e) :
    g.take (x + 1) = g.take x ++ [e] := by
  rw [List.take_add_one, h]; rfl

theorem idx_succ {g : Prog n p} {k : Fin n} {x : Nat} {o : BitVec 32} {q : CReq p} (h : g[x]? = some (k, o, q)) :
    g.idx k (x + 1) = g.idx k x + 1 := by
  simp only [Prog.idx, take_succ_get h, of_append, List.length_append]
  simp [Prog.of]

theorem idx_lt {g : Prog n p} {k : Fin n} {x y : Nat} {o : BitVec 32} {q : CReq p} (h : g[x]? = some (k, o, q))
    (hxy : x < y) : g.idx k x < g.idx k y := by
  have := idx_succ h
  have := idx_mono g k (show x + 1 ≤ y from hxy)
  omega

/-- Positions of core `k` are determined by their number. -/
theorem idx_inj {g : Prog n p} {k : Fin n} {x y : Nat} {o o' : BitVec 32} {q q' : CReq p}
    (h : g[x]? = some (k, o, q)) (h' : g[y]? = some (k, o', q')) (he : g.idx k x = g.idx k y) : x = y := by
  rcases Nat.lt_trichotomy x y with hlt | heq | hlt
  · have := idx_lt h hlt; omega
  · exact heq
  · have := idx_lt h' hlt; omega

theorem of_get {g : Prog n p} {k : Fin n} {x : Nat} {o : BitVec 32} {q : CReq p} (h : g[x]? = some (k, o, q)) :
    (Prog.of g k)[g.idx k x]? = some (o, q) := by
  have hs := split_at h
  have e : Prog.of g k = Prog.of (g.take x) k ++ (o, q) :: Prog.of (g.drop (x + 1)) k := by
    conv => lhs; rw [hs]
    rw [of_append]; simp [Prog.of]
  rw [e, Prog.idx]; simp

theorem get_of {g : Prog n p} {k : Fin n} {m : Nat} {o : BitVec 32} {q : CReq p}
    (h : (Prog.of g k)[m]? = some (o, q)) : ∃ x, g[x]? = some (k, o, q) ∧ g.idx k x = m := by
  induction g generalizing m with
  | nil => simp [Prog.of] at h
  | cons e g ih =>
    by_cases hk : e.1 = k
    · have he : Prog.of (e :: g) k = e.2 :: Prog.of g k := by simp [Prog.of, hk]
      rw [he] at h
      cases m with
      | zero =>
        simp only [List.getElem?_cons_zero, Option.some.injEq] at h
        refine ⟨0, ?_, by simp [Prog.idx, Prog.of]⟩
        simp only [List.getElem?_cons_zero, Option.some.injEq]
        rw [← hk, ← h]
      | succ m =>
        simp only [List.getElem?_cons_succ] at h
        obtain ⟨x, h1, h2⟩ := ih h
        refine ⟨x + 1, by simpa using h1, ?_⟩
        simp only [Prog.idx, Prog.of] at h2 ⊢
        simp [hk, h2]
    · have he : Prog.of (e :: g) k = Prog.of g k := by simp [Prog.of, hk]
      rw [he] at h
      obtain ⟨x, h1, h2⟩ := ih h
      refine ⟨x + 1, by simpa using h1, ?_⟩
      simp only [Prog.idx, Prog.of] at h2 ⊢
      simp [hk, h2]

/-! ## An execution of the driver, by positions -/

/-- What C37 says of an execution, by positions of the program. Proof device; not in the source. -/
structure Ordered (g : Prog n p) (tr : List (Ev (Fin n) p)) : Prop where
  acc : ∀ {t1 k q t2}, tr = t1 ++ .acc k q :: t2 → ∃ y o, g[y]? = some (k, o, q) ∧ g.idx k y = (accepted k t1).length ∧
    ∀ {x k' o' q'}, g[x]? = some (k', o', q') → o' < o → g.idx k' x < (responses k' t1).length
  resp : ∀ {t1 t2}, tr = t1 ++ t2 → ∀ k, (responses k t1).length ≤ (accepted k t1).length
  pre : ∀ k, accepted k tr <+: g.reqs k

theorem run_prefix {S S' : Sys (Fin n) p} {tr : List (Ev (Fin n) p)} (wf : p.WF) (h0 : Start S) (h : Run S tr S')
    {t1 t2 : List (Ev (Fin n) p)} (ht : tr = t1 ++ t2) (k : Fin n) :
    (responses k t1).length ≤ (accepted k t1).length := by
  obtain ⟨T, he, _⟩ := refine wf h0 h
  rw [ht, List.map_append] at he
  obtain ⟨T1, h1, _⟩ := he.split _ _ rfl
  have := resp_le_acc h1 k
  rwa [responses_canon, accepted_canon] at this

theorem ordered (wf : p.WF) {g : Prog n p} (hg : g.length < 2 ^ 32) {X X' : MSys n p}
    {tr : List (Ev (Fin n) p)} (h0 : MStart g X) (h : MRun g X tr X') : Ordered g tr := by
  refine ⟨?_, fun ht k => run_prefix wf h0.sys h.open ht k, fun k => C37_program_order wf hg h0 h k⟩
  intro t1 k q t2 ht
  obtain ⟨o, h1, h2⟩ := C37_orders_respected wf hg h0 h ht
  obtain ⟨y, g1, g2⟩ := get_of h1
  exact ⟨y, o, g1, g2, fun hx ho => h2 _ _ _ _ (of_get hx) ho⟩

theorem acc_len_mono (k : Fin n) (a b : List (Ev (Fin n) p)) : (accepted k a).length ≤ (accepted k (a ++ b)).length := by
  rw [accepted_append, List.length_append]; omega

theorem resp_len_mono (k : Fin n) (a b : List (Ev (Fin n) p)) : (responses k a).length ≤ (responses k (a ++ b)).length := by
  rw [responses_append, List.length_append]; omega

/-- The acceptance of request number `m`. -/
theorem find_acc (k : Fin n) {t : List (Ev (Fin n) p)} {m : Nat} (h : m < (accepted k t).length) :
    ∃ u q v, t = u ++ .acc k q :: v ∧ (accepted k u).length = m := by
  induction t using snoc_induct with
  | h0 => simp [accepted] at h
  | h1 t e ih =>
    by_cases hm : m < (accepted k t).length
    · obtain ⟨u, q, v, rfl, h2⟩ := ih hm
      exact ⟨u, q, v ++ [e], by simp, h2⟩
    · rw [accepted_append, List.length_append] at h
      cases e with
      | acc k' q =>
        by_cases hk : k' = k
        · subst hk
          refine ⟨t, q, [], rfl, ?_⟩
          have : accepted k' [Ev.acc k' q] = [q] := by simp [accepted]
          rw [this] at h; simp at h; omega
        · simp [accepted, hk] at h; simp [accepted] at hm; omega
      | mreq => simp [accepted] at h hm; omega
      | resp => simp [accepted] at h hm; omega
      | exec => simp [accepted] at h hm; omega

namespace Ordered
variable {g : Prog n p} {tr : List (Ev (Fin n) p)}

/-- A request at `f` of smaller order than one at `z ≤ y` has been answered when `y` is accepted. -/
theorem answered (H : Ordered g tr) {t1 t2 : List (Ev (Fin n) p)} {k k' : Fin n} {q : CReq p}
    (ht : tr = t1 ++ .acc k q :: t2) {y : Nat} {o : BitVec 32} (hy : g[y]? = some (k, o, q))
    (hi : g.idx k y = (accepted k t1).length)
    {f z : Nat} {of oz : BitVec 32} {qf qz : CReq p} (hz : z ≤ y) (gf : g[f]? = some (k', of, qf))
    (gz : g[z]? = some (k, oz, qz)) (ho : of < oz) :
    ∃ u w, t1 = u ++ w ∧ (accepted k u).length = g.idx k z ∧
      g.idx k' f < (responses k' u).length := by
  rcases Nat.lt_or_ge z y with hlt | hge
  · obtain ⟨u, q2, v, rfl, h2⟩ := find_acc k (t := t1) (m := g.idx k z) (by rw [← hi]; exact idx_lt gz hlt)
    refine ⟨u, .acc k q2 :: v, rfl, h2, ?_⟩
    obtain ⟨z', oz', g1, g2, g3⟩ := H.acc (t1 := u) (k := k) (q := q2) (t2 := v ++ .acc k q :: t2) (by rw [ht]; simp)
    have : z' = z := idx_inj g1 gz (by rw [g2, h2])
    subst this
    rw [gz] at g1; cases g1
    exact g3 gf ho
  · have : z = y := by omega
    subst this
    refine ⟨t1, [], by simp, hi.symm, ?_⟩
    obtain ⟨z', oz', g1, g2, g3⟩ := H.acc ht
    have : z' = z := idx_inj g1 gz (by rw [g2, hi])
    subst this
    rw [gz] at g1; cases g1
    exact g3 gf ho

theorem answered_le (H : Ordered g tr) {t1 t2 : List (Ev (Fin n) p)} {k k' : Fin n} {q : CReq p}
    (ht : tr = t1 ++ .acc k q :: t2) {y : Nat} {o : BitVec 32} (hy : g[y]? = some (k, o, q))
    (hi : g.idx k y = (accepted k t1).length)
    {x f z : Nat} {of oz : BitVec 32} {qf qz : CReq p} (hx : x ≤ f) (hz : z ≤ y) (gf : g[f]? = some (k', of, qf))
    (gz : g[z]? = some (k, oz, qz)) (ho : of < oz) : g.idx k' x < (responses k' t1).length := by
  obtain ⟨u, w, rfl, _, h3⟩ := H.answered ht hy hi hz gf gz ho
  have h4 := idx_mono g k' hx
  have := resp_len_mono k' u w
  omega

theorem acc_take (H : Ordered g tr) {u v : List (Ev (Fin n) p)} (ht : tr = u ++ v) {k : Fin n} {z : Nat}
    (hz : (accepted k u).length = g.idx k z) : accepted k u = Prog.reqs (g.take z) k := by
  have h1 : accepted k u <+: g.reqs k := by
    refine List.IsPrefix.trans ?_ (H.pre k)
    rw [ht, accepted_append]; exact List.prefix_append _ _
  have h2 : Prog.reqs (g.take z) k <+: g.reqs k := by
    have : g.reqs k = Prog.reqs (g.take z) k ++ Prog.reqs (g.drop z) k := by
      conv => lhs; rw [← List.take_append_drop z g]
      simp only [Prog.reqs, of_append, List.map_append]
    rw [this]; exact List.prefix_append _ _
  have h3 : (Prog.reqs (g.take z) k).length = g.idx k z := by simp [Prog.reqs, Prog.idx]
  exact (List.prefix_of_prefix_length_le h1 h2 (by omega)).eq_of_length (by omega)

end Ordered

/-- A list of accepted requests that ends with request number `m` of cache `k`. -/
theorem noCopy_of {k : Fin n} {W : Nat} {t : List (Ev (Fin n) p)} (h : NoCopyL W (accepted k t)) : NoCopy k W t := by
  obtain ⟨l1, l2, h1, h2, h3⟩ := h
  rcases h2 with rfl | ⟨l0, i, rfl, hi⟩
  · exact ⟨[], t, rfl, .inl rfl, by rw [h1]; exact h3⟩
  · obtain ⟨u, q, v, rfl, hu⟩ := find_acc k (t := t) (m := l0.length) (by rw [h1]; simp)
    have e : accepted k (u ++ .acc k q :: v) = accepted k u ++ q :: accepted k v := by
      rw [accepted_append]; simp [accepted]
    rw [e, List.append_assoc, List.singleton_append] at h1
    obtain ⟨e1, e2⟩ := List.append_inj h1 hu
    cases e2
    exact ⟨u ++ [.acc k i], v, by simp, .inr ⟨u, _, rfl, hi⟩, h3⟩

theorem pubDone_of {k : Fin n} {W : Nat} {a c : List (Ev (Fin n) p)} {q : CReq p} {m : Nat}
    (hm : (accepted k a).length ≤ m) (hr : m < (responses k (a ++ .acc k q :: c)).length)
    (hle : (responses k (a ++ .acc k q :: c)).length ≤ (accepted k (a ++ .acc k q :: c)).length)
    (hf : ∀ u f v, a ++ .acc k q :: c = u ++ .acc k f :: v → (accepted k u).length = m →
      f.ty = MT.FLUSH ∨ f.drops W) : PubDone k W a (.acc k q :: c) := by
  obtain ⟨u, f, v, h1, h2⟩ := find_acc k (t := a ++ .acc k q :: c) (m := m) (by omega)
  have h3 := hf u f v h1 h2
  rcases List.append_eq_append_iff.1 h1 with ⟨w, g1, g2⟩ | ⟨w, g1, g2⟩
  · refine ⟨w, f, v, g2, h3, ?_⟩
    rw [← g1, h2]; exact hr
  · cases w with
    | nil =>
      simp only [List.append_nil] at g1
      subst g1
      refine ⟨[], f, v, g2.symm, h3, ?_⟩
      rw [List.append_nil, h2]; exact hr
    | cons e w =>
      exfalso
      rw [List.cons_append, List.cons.injEq] at g2
      have e : accepted k a = accepted k u ++ f :: accepted k w := by
        rw [g1, accepted_append, ← g2.1]; simp [accepted]
      rw [e] at hm; simp at hm; omega

theorem cut_after {k : Fin n} {a b u w : List (Ev (Fin n) p)} {e : Ev (Fin n) p} (h : a ++ e :: b = u ++ w)
    (hl : (accepted k a).length < (accepted k u).length) : ∃ c, u = a ++ e :: c ∧ b = c ++ w := by
  rcases List.append_eq_append_iff.1 h with ⟨c, g1, g2⟩ | ⟨c, g1, g2⟩
  · cases c with
    | nil => simp only [List.append_nil] at g1; subst g1; omega
    | cons e' c =>
      rw [List.cons_append, List.cons.injEq] at g2
      exact ⟨c, by rw [g1, g2.1], g2.2⟩
  · exfalso
    have := acc_len_mono k u c
    rw [← g1] at this; omega

namespace Ordered
variable {g : Prog n p} {tr : List (Ev (Fin n) p)}

/-- The request number `idx f` is the one at position `f`. -/
theorem at_pos (H : Ordered g tr) {u v : List (Ev (Fin n) p)} {k : Fin n} {q : CReq p} (ht : tr = u ++ .acc k q :: v)
    {f : Nat} {of : BitVec 32} {qf : CReq p} (gf : g[f]? = some (k, of, qf)) (hf : (accepted k u).length = g.idx k f) :
    q = qf := by
  obtain ⟨y, o, g1, g2, _⟩ := H.acc ht
  have : y = f := idx_inj g1 gf (by omega)
  subst this
  rw [gf] at g1; cases g1; rfl

/-- A store at an earlier position has been published when a later conflicting access is accepted. -/
theorem store_before (H : Ordered g tr) (hs : g.Synchronised) {a b : List (Ev (Fin n) p)} {k k' : Fin n} {q q' : CReq p}
    (ht : tr = a ++ .acc k q :: b) {x y : Nat} {o o' : BitVec 32} (hy : g[y]? = some (k, o, q))
    (hi : g.idx k y = (accepted k a).length) (hx : g[x]? = some (k', o', q')) (hxy : x < y) (hk : k' ≠ k) {W : Nat}
    (hw : q'.writesWord W) (hq : q.readsWord W ∨ q.writesWord W) :
    ∃ u w f of qf, a = u ++ w ∧ x ≤ f ∧ g[f]? = some (k', of, qf) ∧ (qf.ty = MT.FLUSH ∨ qf.drops W) ∧
      g.idx k' f < (responses k' u).length ∧ (MT.isAmo q.ty = true ∨ NoCopyL W (accepted k u)) := by
  obtain ⟨f, of, qf, z, oz, qz, h1, h2, h3, h4, h5, h6, h7⟩ := hs.store hxy hk hx hy hw hq
  obtain ⟨u, w, rfl, g2, g3⟩ := H.answered ht hy hi h4 h2 h5 h6
  refine ⟨u, w, f, of, qf, rfl, h1, h2, h3, g3, h7.imp id fun h => ?_⟩
  rw [H.acc_take (by rw [ht, List.append_assoc]) g2]; exact h

/-- Conflicting accesses are accepted in program order. -/
theorem conflict (H : Ordered g tr) (hs : g.Synchronised) {a b a' b' : List (Ev (Fin n) p)} {k k' : Fin n}
    {q q' : CReq p} (ht : tr = a ++ .acc k q :: b) (ha : a = a' ++ .acc k' q' :: b') {x y : Nat} {o o' : BitVec 32}
    (hy : g[y]? = some (k, o, q)) (hi : g.idx k y = (accepted k a).length)
    (hx : g[x]? = some (k', o', q')) (hj : g.idx k' x = (accepted k' a').length) (hk : k' ≠ k) {W : Nat}
    (hc : (q'.writesWord W ∧ (q.readsWord W ∨ q.writesWord W)) ∨ (q'.readsWord W ∧ q.writesWord W)) : x < y := by
  apply Nat.lt_of_not_le
  intro hle
  have hne : y ≠ x := by
    rintro rfl
    rw [hx] at hy; cases hy; exact hk rfl
  have hlt : y < x := by omega
  have ht' : tr = a' ++ .acc k' q' :: (b' ++ .acc k q :: b) := by rw [ht, ha]; simp
  have key : g.idx k y < (responses k a').length := by
    have go : ∀ {f of qf z oz qz}, y ≤ f → g[f]? = some (k, of, qf) → z ≤ x → g[z]? = some (k', oz, qz) → of < oz →
        g.idx k y < (responses k a').length := by
      intro f of qf z oz qz h1 h2 h3 h4 h5
      exact H.answered_le ht' hx hj h1 h3 h2 h4 h5
    rcases hc with ⟨h1, h2 | h2⟩ | ⟨h1, h2⟩
    · obtain ⟨f, of, qf, z, oz, qz, c1, c2, c3, c4, c5⟩ := hs.read hlt hk.symm hy hx h2 h1
      exact go c1 c2 c3 c4 c5
    · obtain ⟨f, of, qf, z, oz, qz, c1, c2, _, c3, c4, c5, _⟩ := hs.store hlt hk.symm hy hx h2 (.inr h1)
      exact go c1 c2 c3 c4 c5
    · obtain ⟨f, of, qf, z, oz, qz, c1, c2, _, c3, c4, c5, _⟩ := hs.store hlt hk.symm hy hx h2 (.inl h1)
      exact go c1 c2 c3 c4 c5
  have h1 := H.resp (t1 := a') (t2 := .acc k' q' :: (b' ++ .acc k q :: b)) ht' k
  have h2 := acc_len_mono k a' (.acc k' q' :: b')
  rw [← ha] at h2
  omega

/-- The published store, in terms of the trace. -/
theorem published (H : Ordered g tr) (hs : g.Synchronised) {a b : List (Ev (Fin n) p)} {k : Fin n} {q : CReq p}
    (ht : tr = a ++ .acc k q :: b) {W : Nat} (hq : q.readsWord W ∨ q.writesWord W)
    {k' : Fin n} (hk : k' ≠ k) {a' b' : List (Ev (Fin n) p)} {q' : CReq p} (ha : a = a' ++ .acc k' q' :: b')
    (hw : q'.writesWord W) :
    ∃ c d, b' = c ++ d ∧ PubDone k' W a' (.acc k' q' :: c) ∧
      (MT.isAmo q.ty = true ∨ NoCopy k W (a' ++ .acc k' q' :: c)) := by
  obtain ⟨y, o, hy, hi, _⟩ := H.acc ht
  obtain ⟨x, o', hx, hj, _⟩ := H.acc (t1 := a') (k := k') (q := q') (t2 := b' ++ .acc k q :: b) (by rw [ht, ha]; simp)
  have hxy := H.conflict hs ht ha hy hi hx hj hk (.inl ⟨hw, hq⟩)
  obtain ⟨u, w, f, of, qf, h1, h2, h3, h4, h5, h6⟩ := H.store_before hs ht hy hi hx hxy hk hw hq
  have hm := idx_mono g k' h2
  have hle := H.resp (t1 := u) (t2 := w ++ .acc k q :: b) (by rw [ht, h1]; simp) k'
  obtain ⟨c, e1, e2⟩ := cut_after (k := k') (ha.symm.trans h1) (by omega)
  refine ⟨c, w, e2, ?_, ?_⟩
  · refine pubDone_of (m := g.idx k' f) (by omega) (by rw [← e1]; exact h5) (by rw [← e1]; exact hle) ?_
    intro u' f' v' hu hu'
    have := H.at_pos (q := f') (u := u') (v := v' ++ (w ++ .acc k q :: b)) (by
      rw [ht, h1, e1, hu]; simp) h3 hu'
    rw [this]; exact h4
  · rw [← e1]
    exact h6.imp id noCopy_of

theorem ready (H : Ordered g tr) (hs : g.Synchronised) {a b : List (Ev (Fin n) p)} {k : Fin n} {q : CReq p}
    (ht : tr = a ++ .acc k q :: b) {W : Nat} (hq : q.readsWord W ∨ q.writesWord W) : Ready2 k W a q := by
  by_cases ham : MT.isAmo q.ty = true
  · refine .inr ⟨ham, ?_⟩
    intro k' hk a' q' b' ha hw
    obtain ⟨c, d, rfl, h2, _⟩ := H.published hs ht hq hk ha hw
    exact h2.mono d
  · refine .inl ?_
    intro k' hk a' q' b' ha hw
    obtain ⟨c, d, h1, h2, h3⟩ := H.published hs ht hq hk ha hw
    exact ⟨c, d, h1, h2, h3.resolve_left ham⟩

theorem noRace (H : Ordered g tr) (hs : g.Synchronised) {a b : List (Ev (Fin n) p)} {k : Fin n} {q : CReq p}
    (ht : tr = a ++ .acc k q :: b) {W : Nat} (hq : q.readsWord W) : NoRace k W a q b := by
  intro k' hk b1 q' b2 hb hw
  obtain ⟨y, o, hy, hi, _⟩ := H.acc ht
  have ht' : tr = (a ++ .acc k q :: b1) ++ .acc k' q' :: b2 := by rw [ht, hb]; simp
  obtain ⟨x, o', hx, hj, _⟩ := H.acc ht'
  have hyx := H.conflict hs ht' rfl hx hj hy hi hk.symm (.inr ⟨hq, hw⟩)
  obtain ⟨f, of, qf, z, oz, qz, c1, c2, c3, c4, c5⟩ := hs.read hyx hk.symm hy hx hq hw
  have := H.answered_le ht' hx hj c1 c3 c2 c4 c5
  omega

end Ordered

/-! ## Flat memory, word by word -/

theorem flatStep_agree {W : Nat} {M M' : ByteMem} (h : AgreeW W M M') {q : CReq p} (hv : q.Valid) :
    AgreeW W (flatStep M q).1 (flatStep M' q).1 := by
  intro x hx
  simp only [flatStep]
  split
  · exact h x hx
  · split
    · simp only [writeLE, h x hx]
    · split
      · rename_i ha
        obtain ⟨_, h4⟩ := valid_amo hv ha
        simp only [writeLE]
        split
        · rename_i hr
          rw [readLE_word h (by omega) h4]
        · exact h x hx
      · exact h x hx

theorem readLE_agree {M M' : ByteMem} {a m : Nat} (h : ∀ x, a ≤ x → x < a + m → M x = M' x) :
    readLE M a m = readLE M' a m := by
  induction m generalizing a with
  | zero => rfl
  | succ m ih =>
    simp only [readLE]
    rw [h a (by omega) (by omega), ih (fun x h1 h2 => h x (by omega) (by omega))]

theorem flatStep_resp {M M' : ByteMem} {q : CReq p} (h : ∀ W, q.readsWord W → AgreeW W M M') :
    (flatStep M q).2 = (flatStep M' q).2 := by
  simp only [flatStep]
  split
  · rename_i ty
    rw [readLE_agree (fun x h1 h2 => h (x / 4) ⟨x, rfl, .inl ⟨ty, h1, h2⟩⟩ x rfl)]
  · split
    · rfl
    · split
      · rename_i ha
        rw [readLE_agree (fun x h1 h2 => h (x / 4) ⟨x, rfl, .inr ⟨ha, h1, h2⟩⟩ x rfl)]
      · rfl

/-! ## The order of acceptance and the order of the program agree, word by word -/

theorem seq_succ (M : ByteMem) {g : Prog n p} {x : Nat} {k : Fin n} {o : BitVec 32} {q : CReq p}
    (h : g[x]? = some (k, o, q)) : Prog.seq M (g.take (x + 1)) = (flatStep (Prog.seq M (g.take x)) q).1 := by
  simp only [Prog.seq, take_succ_get h, List.map_append, flatRun_append]
  rfl

/-- Entries that do not store to `W`. -/
theorem seq_skip (M : ByteMem) {g : Prog n p} {W x y : Nat} (hxy : x ≤ y)
    (h : ∀ z k o q, x ≤ z → z < y → g[z]? = some (k, o, q) → ¬ q.writesWord W) :
    AgreeW W (Prog.seq M (g.take y)) (Prog.seq M (g.take x)) := by
  induction y with
  | zero =>
    have : x = 0 := by omega
    subst this; exact .refl _ _
  | succ y ih =>
    rcases Nat.lt_or_ge y x with hlt | hge
    · have : x = y + 1 := by omega
      subst this; exact .refl _ _
    · have ih := ih hge (fun z k o q h1 h2 => h z k o q h1 (by omega))
      cases hg : g[y]? with
      | none =>
        rw [List.take_add_one, hg]
        simpa using ih
      | some e =>
        obtain ⟨k, o, q⟩ := e
        rw [seq_succ M hg]
        exact (flatStep_untouched (h y k o q hge (by omega) hg)).trans ih

/-- Position `x` of the program has been accepted in `t`. Proof device; not in the source. -/
def AccAt (g : Prog n p) (t : List (Ev (Fin n) p)) (x : Nat) : Prop :=
  ∃ k o q, g[x]? = some (k, o, q) ∧ g.idx k x < (accepted k t).length

/-- If the stores to `W` accepted in `t` are those before position `y`, the latest value of the
word is that of the sequential execution up to `y`. -/
theorem latest_seq {g : Prog n p} {tr : List (Ev (Fin n) p)} (H : Ordered g tr) (hs : g.Synchronised)
    (hv : ∀ e ∈ g, e.2.2.Valid) (M : ByteMem) {W : Nat} {t t' : List (Ev (Fin n) p)} (ht : tr = t ++ t') {y : Nat}
    (hy : ∀ x k o q, g[x]? = some (k, o, q) → q.writesWord W → (AccAt g t x ↔ x < y)) :
    AgreeW W (latest M t) (Prog.seq M (g.take y)) := by
  induction t using snoc_induct generalizing t' y with
  | h0 =>
    have h1 := seq_skip M (g := g) (W := W) (x := 0) (y := y) (Nat.zero_le _) (fun z k o q _ hz hg hw => by
      obtain ⟨k', o', q', h1, h2⟩ := (hy z k o q hg hw).2 hz
      simp [accepted] at h2)
    exact h1.symm
  | h1 t e ih =>
    have hskip : (∀ k q, e = .acc k q → ¬ q.writesWord W) → AgreeW W (latest M (t ++ [e])) (Prog.seq M (g.take y)) := by
      intro hno
      rw [latest_append]
      refine (latest_quiet _ hno).trans (ih (by rw [ht, List.append_assoc]) ?_)
      intro x k o q hx hw
      rw [← hy x k o q hx hw]
      constructor
      · rintro ⟨k1, o1, q1, h1, h2⟩
        exact ⟨k1, o1, q1, h1, Nat.lt_of_lt_of_le h2 (acc_len_mono k1 t [e])⟩
      · rintro ⟨k1, o1, q1, h1, h2⟩
        refine ⟨k1, o1, q1, h1, ?_⟩
        rw [hx] at h1; cases h1
        apply Classical.byContradiction
        intro hn
        obtain ⟨u, f, v, g1, g2⟩ := find_acc k h2
        have hf := H.at_pos (q := f) (u := u) (v := v ++ t') (by rw [ht, g1]; simp) hx g2
        subst hf
        rcases List.eq_nil_or_concat v with rfl | ⟨v', e', rfl⟩
        · have := List.append_inj' g1 rfl
          simp only [List.cons.injEq, and_true] at this
          exact hno _ _ this.2 hw
        · have : t ++ [e] = (u ++ .acc k f :: v') ++ [e'] := by rw [g1]; simp
          have := (List.append_inj' this rfl).1
          apply hn
          rw [this, accepted_append, List.length_append, g2]
          simp [accepted]
    by_cases hst : ∃ k q, e = .acc k q ∧ q.writesWord W
    · obtain ⟨k, q, rfl, hw⟩ := hst
      obtain ⟨x, o, hx, hi, _⟩ := H.acc (t1 := t) (k := k) (q := q) (t2 := t') (by rw [ht]; simp)
      have hlen : (accepted k (t ++ [.acc k q])).length = (accepted k t).length + 1 := by
        rw [accepted_append, List.length_append]; simp [accepted]
      have hother : ∀ k', k' ≠ k → accepted k' (t ++ [Ev.acc k q]) = accepted k' t := by
        intro k' hk; rw [accepted_append]; simp [accepted, hk.symm]
      have hxy : x < y := (hy x k o q hx hw).1 ⟨k, o, q, hx, by omega⟩
      -- accepted before: exactly the earlier positions
      have hbef : ∀ x' k' o' q', g[x']? = some (k', o', q') → q'.writesWord W → (AccAt g t x' ↔ x' < x) := by
        intro x' k' o' q' hx' hw'
        constructor
        · rintro ⟨k1, o1, q1, h1, h2⟩
          rw [hx'] at h1; cases h1
          by_cases hk : k' = k
          · subst hk
            apply Nat.lt_of_not_le
            intro hle
            have := idx_mono g k' hle
            omega
          · obtain ⟨u, f, v, g1, g2⟩ := find_acc k' h2
            have hf := H.at_pos (q := f) (u := u) (v := v ++ .acc k q :: t') (by rw [ht, g1]; simp) hx' g2
            subst hf
            exact H.conflict hs (b := t') (by rw [ht]; simp) g1 hx hi hx' g2.symm hk (.inl ⟨hw', .inr hw⟩)
        · intro hlt
          obtain ⟨k1, o1, q1, h1, h2⟩ := (hy x' k' o' q' hx' hw').2 (by omega)
          rw [hx'] at h1; cases h1
          refine ⟨k', o', q', hx', ?_⟩
          by_cases hk : k' = k
          · subst hk
            have := idx_lt hx' hlt
            omega
          · rw [hother k' hk] at h2; exact h2
      have ih := ih (y := x) (t' := .acc k q :: t') (by rw [ht]; simp) hbef
      have hv' : q.Valid := hv _ (List.mem_of_getElem? hx)
      have h1 : AgreeW W (latest M (t ++ [.acc k q])) (Prog.seq M (g.take (x + 1))) := by
        rw [seq_succ M hx, latest_append, latest_acc]
        exact flatStep_agree ih hv'
      refine h1.trans (seq_skip M (by omega) ?_).symm
      intro z k' o' q' hz1 hz2 hg hw'
      obtain ⟨k1, o1, q1, g1, g2⟩ := (hy z k' o' q' hg hw').2 hz2
      rw [hg] at g1; cases g1
      by_cases hk : k' = k
      · subst hk
        have := idx_lt hx (show x < z by omega)
        omega
      · rw [hother k' hk] at g2
        have := (hbef z k' o' q' hg hw').1 ⟨k', o', q', hg, g2⟩
        omega
    · exact hskip (fun k q he hw => hst ⟨k, q, he, hw⟩)

end Verif
