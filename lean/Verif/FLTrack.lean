import Verif.FL

/-!
# Invariants of the hit/miss tracker

`TInv`: in every set the recency list is a permutation of the ways whose valid
ways form a prefix, with pairwise different tags.
-/

namespace Verif
namespace FL

/-- Most recently used list of at most `n` tags after touching `t`. Proof device; not in the source. -/
def touch {α : Type} [DecidableEq α] (n : Nat) (l : List α) (t : α) : List α := (t :: l.erase t).take n

/-- The tags cached in a set, most recently used way first. Proof device; not in the source. -/
def Tracker.dir (s : Tracker) (i : Nat) : List Nat := ((s.lru i).filter (s.valid i)).map (s.line i)

/-- Proof device; not in the source. -/
structure TSet (n : Nat) (lru : List Nat) (valid : Nat → Bool) (line : Nat → Nat) (A B : List Nat) : Prop where
  split : lru = A ++ B
  va : ∀ w ∈ A, valid w = true
  vb : ∀ w ∈ B, valid w = false
  tags : (A.map line).Nodup
  perm : lru.Perm (List.range n)

theorem TSet.dir {n lru valid line A B} (h : TSet n lru valid line A B) :
    (lru.filter valid).map line = A.map line := by
  rw [h.split, List.filter_append, List.filter_eq_self.2 h.va, List.filter_eq_nil_iff.2, List.append_nil]
  intro w hw; simp [h.vb w hw]

theorem TSet.nodup {n lru valid line A B} (h : TSet n lru valid line A B) : (A ++ B).Nodup := by
  rw [← h.split]; exact h.perm.nodup_iff.2 List.nodup_range

theorem TSet.len {n lru valid line A B} (h : TSet n lru valid line A B) : A.length + B.length = n := by
  have := h.perm.length_eq
  rw [h.split] at this; simpa using this

theorem nodup_inj {α β : Type} {f : α → β} : ∀ {l : List α}, (l.map f).Nodup → ∀ a ∈ l, ∀ b ∈ l, f a = f b → a = b
  | [], _ => by simp
  | x :: l, h => by
    simp only [List.map_cons, List.nodup_cons, List.mem_map, not_exists, not_and] at h
    intro a ha b hb he
    rcases List.mem_cons.1 ha with ha' | ha' <;> rcases List.mem_cons.1 hb with hb' | hb'
    · rw [ha', hb']
    · subst ha'; exact (h.1 b hb' he.symm).elim
    · subst hb'; exact (h.1 a ha' he).elim
    · exact nodup_inj h.2 a ha' b hb' he

theorem map_erase_of_inj {α β : Type} [DecidableEq α] [DecidableEq β] {f : α → β} :
    ∀ {l : List α} {a : α}, (∀ b ∈ l, f b = f a → b = a) → (l.erase a).map f = (l.map f).erase (f a)
  | [], _, _ => by simp
  | x :: l, a, h => by
    by_cases hx : x = a
    · subst hx; simp
    · have : f x ≠ f a := fun e => hx (h x (by simp) e)
      rw [List.erase_cons_tail (by simpa using hx), List.map_cons, List.map_cons,
        List.erase_cons_tail (by simpa using this), map_erase_of_inj fun b hb => h b (by simp [hb])]

theorem find_spec {c : Cfg} {s : Tracker} {tag i A B}
    (h : TSet c.nways (s.lru i) (s.valid i) (s.line i) A B) :
    (s.find c tag i = none → tag ∉ A.map (s.line i)) ∧
    (∀ w, s.find c tag i = some w → w ∈ A ∧ s.line i w = tag) := by
  constructor
  · intro hn hm
    simp only [Tracker.find, List.find?_eq_none] at hn
    obtain ⟨w, hw, rfl⟩ := List.mem_map.1 hm
    have : w ∈ List.range c.nways := h.perm.mem_iff.1 (by rw [h.split]; simp [hw])
    have := hn w this
    simp [h.va w hw] at this
  · intro w hw
    have h1 := List.find?_some hw
    have h2 := List.mem_of_find?_eq_some hw
    simp only [Bool.and_eq_true, beq_iff_eq] at h1
    have : w ∈ A ++ B := by rw [← h.split]; exact h.perm.mem_iff.2 h2
    refine ⟨?_, h1.2⟩
    rcases List.mem_append.1 this with h3 | h3
    · exact h3
    · rw [h.vb w h3] at h1; simp at h1

/-- The tracker invariant. Proof device; not in the source. -/
def TInv (c : Cfg) (s : Tracker) : Prop :=
  ∀ i, ∃ A B, TSet c.nways (s.lru i) (s.valid i) (s.line i) A B

theorem TInv.init (c : Cfg) : TInv c (Tracker.init c) := fun _ =>
  ⟨[], List.range c.nways, ⟨rfl, by simp, by simp [Tracker.init], by simp, by simp [Tracker.init]⟩⟩

theorem TInv.invalidate {c s} (h : TInv c s) : TInv c s.invalidate := fun i => by
  obtain ⟨A, B, h⟩ := h i
  exact ⟨[], A ++ B, ⟨h.split, by simp, by simp [Tracker.invalidate], by simp, h.perm⟩⟩

theorem put_same {α : Type} (f : Nat → α) (i v) : put f i v i = v := by simp [put]
theorem put_other {α : Type} (f : Nat → α) {i j : Nat} (v) (h : j ≠ i) : put f i v j = f j := by simp [put, h]

/-- One access: invariant, hit value and new directory of its set. -/
theorem access_set {c : Cfg} (hn : 1 ≤ c.nways) {s : Tracker} (h : TInv c s) (a : Nat) :
    TInv c (s.access c a).1 ∧
    (s.access c a).2 = decide (c.tag a ∈ s.dir (c.idx a)) ∧
    (∀ i, (s.access c a).1.dir i =
      if i = c.idx a then touch c.nways (s.dir i) (c.tag a) else s.dir i) := by
  generalize ht : c.tag a = t
  generalize hi : c.idx a = i
  obtain ⟨A, B, hs⟩ := h i
  have hd : s.dir i = A.map (s.line i) := hs.dir
  have hf := find_spec (tag := t) hs
  have hlen := hs.len
  have hnd := hs.nodup
  have hA : A.Nodup := hnd.sublist (List.sublist_append_left _ _)
  simp only [Tracker.access, Tracker.tagCheck, ht, hi]
  cases hfd : s.find c t i with
  | some w =>
    obtain ⟨hwA, hwt⟩ := hf.2 w hfd
    simp only [if_true]
    have hnew : TSet c.nways (w :: (s.lru i).erase w) (s.valid i) (s.line i) (w :: A.erase w) B := by
      refine ⟨?_, ?_, hs.vb, ?_, ?_⟩
      · rw [hs.split, List.erase_append_left _ hwA]; rfl
      · intro x hx
        rcases List.mem_cons.1 hx with rfl | hx
        · exact hs.va _ hwA
        · exact hs.va _ (List.mem_of_mem_erase hx)
      · exact ((List.perm_cons_erase hwA).map _).nodup_iff.1 hs.tags
      · exact ((List.perm_cons_erase (by rw [hs.split]; simp [hwA])).symm.trans hs.perm)
    refine ⟨?_, ?_, ?_⟩
    · intro j
      by_cases hj : j = i
      · subst hj
        exact ⟨_, _, by simpa [Tracker.lruHit, put_same] using hnew⟩
      · obtain ⟨A', B', h'⟩ := h j
        exact ⟨A', B', by simpa [Tracker.lruHit, put_other _ _ hj] using h'⟩
    · symm; rw [decide_eq_true_iff, hd]; exact List.mem_map.2 ⟨w, hwA, hwt⟩
    · intro j
      by_cases hj : j = i
      · subst hj
        simp only [if_true, Tracker.dir, Tracker.lruHit, put_same]
        rw [hnew.dir, hs.dir, List.map_cons, hwt, touch]
        have he : (A.erase w).map (s.line j) = (A.map (s.line j)).erase t := by
          rw [map_erase_of_inj, hwt]
          intro b hb hbe; exact nodup_inj hs.tags b hb w hwA hbe
        rw [he, List.take_of_length_le]
        have : t ∈ A.map (s.line j) := List.mem_map.2 ⟨w, hwA, hwt⟩
        have hp := List.length_pos_of_mem hwA
        rw [List.length_cons, List.length_erase_of_mem this, List.length_map]
        omega
      · simp only [if_neg hj, Tracker.dir, Tracker.lruHit, put_other _ _ hj]
  | none =>
    have htn := hf.1 hfd
    simp only [Bool.false_eq_true, if_false]
    -- the victim is the last way of the list
    obtain ⟨v, A', B', hlast, hsp, hA', hB', hdir⟩ : ∃ v A' B', (s.lru i).getLastD 0 = v ∧
        (s.lru i) = A' ++ B' ++ [v] ∧ (∀ w ∈ A', w ∈ A) ∧ (∀ w ∈ B', w ∈ B) ∧
        A'.map (s.line i) = (A.map (s.line i)).take (c.nways - 1) ∧ True := by
      rcases List.eq_nil_or_concat B with hB | ⟨B1, v, hB⟩
      · rcases List.eq_nil_or_concat A with hA0 | ⟨A1, v, hA1⟩
        · subst hB hA0; simp at hlen; omega
        · subst hB
          refine ⟨v, A1, [], ?_, ?_, ?_, by simp, ?_, trivial⟩
          · rw [hs.split, hA1]; simp
          · rw [hs.split, hA1]; simp
          · intro w hw; rw [hA1]; simp [hw]
          · rw [hA1] at hlen ⊢
            simp only [List.concat_eq_append, List.length_append, List.length_cons, List.length_nil] at hlen
            rw [List.concat_eq_append, List.map_append, List.take_append_of_le_length (by simp; omega),
              List.take_of_length_le (by simp; omega)]
      · refine ⟨v, A, B1, ?_, ?_, by simp, ?_, ?_, trivial⟩
        · rw [hs.split, hB]; simp
        · rw [hs.split, hB]; simp
        · intro w hw; rw [hB]; simp [hw]
        · rw [List.take_of_length_le]
          rw [hB] at hlen; simp at hlen; simp; omega
    have hperm : (v :: (A' ++ B')).Perm (s.lru i) := by
      rw [hsp]; exact (List.perm_append_comm (l₁ := [v]))
    have hnd' : (v :: (A' ++ B')).Nodup := hperm.nodup_iff.2 (hs.split ▸ hnd)
    have hvn : v ∉ A' ++ B' := (List.nodup_cons.1 hnd').1
    simp only [List.mem_append, not_or] at hvn
    have her : (s.lru i).erase v = A' ++ B' := by
      rw [hsp, List.erase_append_right _ (by simp [hvn.1, hvn.2])]; simp
    have hline : ∀ w ∈ A', put (s.line i) v t w = s.line i w := fun w hw =>
      put_other _ _ (fun e => hvn.1 (e ▸ hw))
    have hmap : A'.map (put (s.line i) v t) = A'.map (s.line i) := List.map_congr_left hline
    have hnew : TSet c.nways (v :: (s.lru i).erase v) (put (s.valid i) v true) (put (s.line i) v t)
        (v :: A') B' := by
      refine ⟨by rw [her]; rfl, ?_, ?_, ?_, ?_⟩
      · intro w hw
        by_cases hwv : w = v
        · subst hwv; exact put_same _ _ _
        · rw [put_other _ _ hwv]
          exact hs.va w (hA' w ((List.mem_cons.1 hw).resolve_left hwv))
      · intro w hw
        have hwv : w ≠ v := fun e => hvn.2 (e ▸ hw)
        rw [put_other _ _ hwv]
        exact hs.vb w (hB' w hw)
      · rw [List.map_cons, put_same, hmap, hdir.1, List.nodup_cons]
        exact ⟨fun h => htn (List.mem_of_mem_take h), hs.tags.sublist (List.take_sublist _ _)⟩
      · rw [her]; exact hperm.trans hs.perm
    refine ⟨?_, ?_, ?_⟩
    · intro j
      by_cases hj : j = i
      · subst hj
        exact ⟨_, _, by simpa [Tracker.refill, Tracker.lruGet, Tracker.lruHit, put_same, hlast, hsp] using hnew⟩
      · obtain ⟨A', B', h'⟩ := h j
        exact ⟨A', B', by simpa [Tracker.refill, Tracker.lruHit, put_other _ _ hj] using h'⟩
    · symm; rw [decide_eq_false_iff_not, hd]; exact htn
    · intro j
      by_cases hj : j = i
      · subst hj
        simp only [if_true, Tracker.dir, Tracker.refill, Tracker.lruGet, Tracker.lruHit, put_same, hlast]
        rw [hnew.dir, hs.dir, List.map_cons, put_same, hmap, hdir.1, touch, List.erase_of_not_mem htn]
        obtain ⟨m, hm⟩ : ∃ m, c.nways = m + 1 := ⟨c.nways - 1, by omega⟩
        rw [hm]; rfl
      · simp only [if_neg hj, Tracker.dir, Tracker.refill, Tracker.lruHit, put_other _ _ hj]

/-- An AMO: invariant and new directory. -/
theorem amo_set {c : Cfg} {s : Tracker} (h : TInv c s) (a : Nat) :
    TInv c (s.amo c a) ∧
    (∀ i, (s.amo c a).dir i = if i = c.idx a then (s.dir i).erase (c.tag a) else s.dir i) := by
  generalize ht : c.tag a = t
  generalize hi : c.idx a = i
  obtain ⟨A, B, hs⟩ := h i
  have hd : s.dir i = A.map (s.line i) := hs.dir
  have hf := find_spec (tag := t) hs
  have hnd := hs.nodup
  have hA : A.Nodup := hnd.sublist (List.sublist_append_left _ _)
  simp only [Tracker.amo, ht, hi]
  cases hfd : s.find c t i with
  | none =>
    refine ⟨h, fun j => ?_⟩
    by_cases hj : j = i
    · subst hj; rw [if_pos rfl, hd, List.erase_of_not_mem (hf.1 hfd)]
    · rw [if_neg hj]
  | some w =>
    obtain ⟨hwA, hwt⟩ := hf.2 w hfd
    simp only []
    have hwB : w ∉ B := fun hb => by
      have := (List.nodup_append.1 hnd).2.2 w hwA w hb; exact this rfl
    have hnew : TSet c.nways ((s.lru i).erase w ++ [w]) (put (s.valid i) w false) (s.line i)
        (A.erase w) (B ++ [w]) := by
      refine ⟨?_, ?_, ?_, ?_, ?_⟩
      · rw [hs.split, List.erase_append_left _ hwA]; simp
      · intro x hx
        have hxw : x ≠ w := fun e => by
          subst e; exact (List.Nodup.not_mem_erase hA) hx
        rw [put_other _ _ hxw]; exact hs.va x (List.mem_of_mem_erase hx)
      · intro x hx
        by_cases hxw : x = w
        · subst hxw; exact put_same _ _ _
        · rw [put_other _ _ hxw]
          rcases List.mem_append.1 hx with hx | hx
          · exact hs.vb x hx
          · simp at hx; exact (hxw hx).elim
      · exact hs.tags.sublist ((List.erase_sublist).map _)
      · have hmem : w ∈ s.lru i := by rw [hs.split]; simp [hwA]
        exact (List.perm_append_comm).trans ((List.perm_cons_erase hmem).symm.trans hs.perm)
    constructor
    · intro j
      by_cases hj : j = i
      · subst hj
        exact ⟨_, _, by simpa [Tracker.lruSet, put_same] using hnew⟩
      · obtain ⟨A', B', h'⟩ := h j
        exact ⟨A', B', by simpa [Tracker.lruSet, put_other _ _ hj] using h'⟩
    · intro j
      by_cases hj : j = i
      · subst hj
        simp only [if_true, Tracker.dir, Tracker.lruSet, put_same]
        rw [hnew.dir, hs.dir, map_erase_of_inj, hwt]
        intro b hb hbe; exact nodup_inj hs.tags b hb w hwA hbe
      · simp only [if_neg hj, Tracker.dir, Tracker.lruSet, put_other _ _ hj]

theorem invalidate_dir (s : Tracker) (i : Nat) : s.invalidate.dir i = [] := by
  simp [Tracker.invalidate, Tracker.dir]

end FL
end Verif
