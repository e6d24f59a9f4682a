import Verif.FLTrack
import Verif.PropsLru

/-!
# The hit/miss tracker of the FL model is a true LRU cache (C31); the RTL test
bits are its predictions (C03); address slicing (C27)
-/

namespace Verif
namespace FL

/-- A call of the tracker: `access_address`, `amo_req` or `invalidate`. Proof device; not in the source. -/
inductive TOp
  | access (a : Nat)
  | amo (a : Nat)
  | inval
deriving DecidableEq

/-- Effect of a call. Proof device; not in the source. -/
def TOp.apply (c : Cfg) (s : Tracker) : TOp → Tracker
  | .access a => (s.access c a).1
  | .amo a => s.amo c a
  | .inval => s.invalidate

/-- The tracker after a sequence of calls. Proof device; not in the source. -/
def after (c : Cfg) (ops : List TOp) : Tracker := ops.foldl (TOp.apply c) (Tracker.init c)

/-- The call accesses the line with this index and tag. -/
def TOp.uses (c : Cfg) (i t : Nat) : TOp → Bool
  | .access a => c.idx a == i && c.tag a == t
  | _ => false

/-- How many calls ago the line was last accessed (0 = by the last call). -/
def lastUse (c : Cfg) (ops : List TOp) (i t : Nat) : Nat := ops.reverse.findIdx (TOp.uses c i t)

theorem after_append (c : Cfg) (xs ys : List TOp) :
    after c (xs ++ ys) = ys.foldl (TOp.apply c) (after c xs) := by
  simp [after, List.foldl_append]

theorem after_snoc (c : Cfg) (xs : List TOp) (x : TOp) :
    after c (xs ++ [x]) = TOp.apply c (after c xs) x := after_append c xs [x]

theorem after_inv {c : Cfg} (hn : 1 ≤ c.nways) : ∀ ops, TInv c (after c ops) := by
  intro ops
  suffices ∀ s, TInv c s → TInv c (ops.foldl (TOp.apply c) s) from this _ (TInv.init c)
  induction ops with
  | nil => exact fun _ h => h
  | cons x ops ih =>
    intro s h
    apply ih
    cases x with
    | access a => exact (access_set hn h a).1
    | amo a => exact (amo_set h a).1
    | inval => exact h.invalidate

/-- Directory of one set after one call. Proof device; not in the source. -/
def dirStep (c : Cfg) (i : Nat) (l : List Nat) : TOp → List Nat
  | .access a => if i = c.idx a then touch c.nways l (c.tag a) else l
  | .amo a => if i = c.idx a then l.erase (c.tag a) else l
  | .inval => []

theorem apply_dir {c : Cfg} (hn : 1 ≤ c.nways) {s : Tracker} (h : TInv c s) (x : TOp) (i : Nat) :
    (TOp.apply c s x).dir i = dirStep c i (s.dir i) x := by
  cases x with
  | access a => exact (access_set hn h a).2.2 i
  | amo a => exact (amo_set h a).2 i
  | inval => exact invalidate_dir s i

theorem after_dir_append {c : Cfg} (hn : 1 ≤ c.nways) (xs ys : List TOp) (i : Nat) :
    (after c (xs ++ ys)).dir i = ys.foldl (dirStep c i) ((after c xs).dir i) := by
  induction ys generalizing xs with
  | nil => simp
  | cons y ys ih =>
    have := ih (xs ++ [y])
    rw [List.append_assoc, List.singleton_append] at this
    rw [this, after_snoc, apply_dir hn (after_inv hn xs), List.foldl_cons]

theorem touch_nodup {n : Nat} {l : List Nat} (t : Nat) (h : l.Nodup) : (touch n l t).Nodup :=
  (List.nodup_cons.2 ⟨h.not_mem_erase, h.erase _⟩).sublist (List.take_sublist _ _)

theorem mem_touch {n : Nat} {l : List Nat} {t x : Nat} (h : x ∈ touch n l t) : x = t ∨ x ∈ l := by
  rcases List.mem_cons.1 (List.mem_of_mem_take h) with h | h
  · exact .inl h
  · exact .inr (List.mem_of_mem_erase h)

/-- Order of the directory: strictly decreasing recency, and each member was used. -/
theorem dir_sorted {c : Cfg} (hn : 1 ≤ c.nways) (i : Nat) (ops : List TOp) :
    ((after c ops).dir i).Nodup ∧
    ((after c ops).dir i).Pairwise (fun t t' => lastUse c ops i t < lastUse c ops i t') ∧
    ∀ t ∈ (after c ops).dir i, lastUse c ops i t < ops.length := by
  generalize hr : ops.reverse = r
  induction r generalizing ops with
  | nil =>
    simp at hr; subst hr
    have : (after c []).dir i = [] := by simp [after, Tracker.init, Tracker.dir]
    simp [this]
  | cons x r ih =>
    have hops : ops = r.reverse ++ [x] := by
      rw [← List.reverse_reverse ops, hr]; simp
    subst hops
    obtain ⟨h1, h2, h3⟩ := ih r.reverse (by simp)
    rw [after_snoc, apply_dir hn (after_inv hn _)]
    generalize (after c r.reverse).dir i = l at h1 h2 h3
    have hl : ∀ t, lastUse c (r.reverse ++ [x]) i t =
        if TOp.uses c i t x then 0 else lastUse c r.reverse i t + 1 := by
      intro t; simp only [lastUse, List.reverse_append, List.reverse_reverse, List.reverse_cons, List.reverse_nil,
        List.nil_append, List.singleton_append, List.findIdx_cons]
      cases TOp.uses c i t x <;> simp
    have keep : ∀ l' : List Nat, l'.Sublist l → (∀ t ∈ l', TOp.uses c i t x = false) →
        l'.Nodup ∧ l'.Pairwise (fun t t' => lastUse c (r.reverse ++ [x]) i t < lastUse c (r.reverse ++ [x]) i t') ∧
        ∀ t ∈ l', lastUse c (r.reverse ++ [x]) i t < (r.reverse ++ [x]).length := by
      intro l' hsub hu
      refine ⟨h1.sublist hsub, ?_, ?_⟩
      · refine (h2.sublist hsub).imp_of_mem ?_
        intro a b ha hb hab
        rw [hl, hl, hu a ha, hu b hb]; simpa using hab
      · intro t ht
        rw [hl, hu t ht]
        have := h3 t (hsub.subset ht)
        simpa using this
    cases x with
    | inval => exact keep [] (List.nil_sublist _) (by simp)
    | amo a =>
      simp only [dirStep]
      split
      · exact keep _ List.erase_sublist (fun _ _ => rfl)
      · exact keep _ (List.Sublist.refl _) (fun _ _ => rfl)
    | access a =>
      simp only [dirStep]
      split
      · rename_i hi
        have hk := keep (l.erase (c.tag a)) List.erase_sublist (by
          intro t ht
          simp only [TOp.uses, Bool.and_eq_false_iff, beq_eq_false_iff_ne]
          right; intro e; subst e; exact h1.not_mem_erase ht)
        have h0 : lastUse c (r.reverse ++ [TOp.access a]) i (c.tag a) = 0 := by
          rw [hl]; simp [TOp.uses, hi]
        have hall : (c.tag a :: l.erase (c.tag a)).Pairwise
            (fun t t' => lastUse c (r.reverse ++ [TOp.access a]) i t < lastUse c (r.reverse ++ [TOp.access a]) i t') := by
          rw [List.pairwise_cons]
          refine ⟨?_, hk.2.1⟩
          intro t ht
          rw [h0, hl]
          have hne : t ≠ c.tag a := fun e => by subst e; exact h1.not_mem_erase ht
          have : TOp.uses c i t (TOp.access a) = false := by
            simp only [TOp.uses, Bool.and_eq_false_iff, beq_eq_false_iff_ne]
            exact .inr (fun e => hne e.symm)
          rw [this]; simp
        refine ⟨touch_nodup _ h1, hall.sublist (List.take_sublist _ _), ?_⟩
        intro t ht
        rcases List.mem_cons.1 (List.mem_of_mem_take ht) with rfl | h
        · rw [h0]; simp
        · exact hk.2.2 t h
      · rename_i hi
        refine keep _ (List.Sublist.refl _) (fun t _ => ?_)
        have : ¬ c.idx a = i := fun e => hi e.symm
        simp [TOp.uses, this]

/-- **C31, recency list.**  After any sequence of accesses, AMOs and
invalidations, for any number of ways: the recency list of every set is a
permutation of the ways, and the victim (its last element) is the least recently
used way: if it holds a line, every other way holds a line, and that line was
accessed more recently. -/
theorem C31_victim_is_lru (c : Cfg) (hn : 1 ≤ c.nways) (ops : List TOp) (i : Nat) :
    ((after c ops).lru i).Perm (List.range c.nways) ∧
    ∀ w, w < c.nways → w ≠ (after c ops).lruGet i → (after c ops).valid i ((after c ops).lruGet i) = true →
      (after c ops).valid i w = true ∧
      lastUse c ops i ((after c ops).line i w) < lastUse c ops i ((after c ops).line i ((after c ops).lruGet i)) := by
  obtain ⟨A, B, hs⟩ := after_inv hn ops i
  refine ⟨hs.perm, ?_⟩
  intro w hw hne hv
  have hdir := (dir_sorted hn i ops).2.1
  rw [show (after c ops).dir i = _ from hs.dir] at hdir
  have hlen := hs.len
  have hmem : w ∈ A ++ B := by rw [← hs.split]; exact hs.perm.mem_iff.2 (by simpa using hw)
  rcases List.eq_nil_or_concat B with hB | ⟨B1, v, hB⟩
  · subst hB
    rcases List.eq_nil_or_concat A with hA0 | ⟨A1, v, hA1⟩
    · subst hA0; simp at hmem
    · have hg : (after c ops).lruGet i = v := by simp [Tracker.lruGet, hs.split, hA1]
      rw [hg] at hne hv ⊢
      rw [hA1, List.concat_eq_append, List.map_append, List.pairwise_append] at hdir
      rw [List.append_nil] at hmem
      refine ⟨hs.va w hmem, ?_⟩
      rw [hA1, List.concat_eq_append] at hmem
      have : w ∈ A1 := by simpa [hne] using hmem
      exact hdir.2.2 _ (List.mem_map_of_mem this) _ (by simp)
  · have hg : (after c ops).lruGet i = v := by simp [Tracker.lruGet, hs.split, hB]
    rw [hg, hs.vb v (by rw [hB]; simp)] at hv
    simp at hv

/-- Three lines of a 2-way set: the victim is the way of the line accessed
second. -/
example : let c : Cfg := ⟨2, 3, 4, 32⟩
    let ops := [TOp.access 0, .access 16, .access 0]
    (after c ops).valid 0 ((after c ops).lruGet 0) = true ∧
    (after c ops).line 0 ((after c ops).lruGet 0) = 1 ∧ lastUse c ops 0 1 = 1 ∧ lastUse c ops 0 0 = 0 := by
  decide

theorem erase_take {l : List Nat} {n : Nat} {x : Nat} :
    (x :: (l.take n).erase x).take n = (x :: l.erase x).take n := by
  cases n with
  | zero => simp
  | succ n =>
    simp only [List.take_succ_cons, List.cons.injEq, true_and]
    induction l generalizing n with
    | nil => simp
    | cons y l ih =>
      rw [List.take_succ_cons]
      by_cases h : y = x
      · subst h; simp [List.take_take]
      · rw [List.erase_cons_tail (by simpa using h), List.erase_cons_tail (by simpa using h)]
        cases n with
        | zero => simp
        | succ n => rw [List.take_succ_cons, List.take_succ_cons, ih n]

/-- Calls that, in set `i`, only access lines other than `t`. -/
def Others (c : Cfg) (i t : Nat) (ops : List TOp) : Prop :=
  ∀ x ∈ ops, match x with
    | .access a => c.idx a = i → c.tag a ≠ t
    | .amo a => c.idx a ≠ i
    | .inval => False

/-- `D` lists, without repetition, the lines of set `i` accessed by the calls. -/
structure Distinct (c : Cfg) (i : Nat) (ops : List TOp) (D : List Nat) : Prop where
  nodup : D.Nodup
  mem : ∀ t, t ∈ D ↔ ∃ a, TOp.access a ∈ ops ∧ c.idx a = i ∧ c.tag a = t

theorem others_fold {c : Cfg} {i t : Nat} : ∀ (ops done : List TOp) (D R : List Nat),
    Others c i t ops → Distinct c i done D → t ∉ D → t ∉ R →
    ∃ D' R', Distinct c i (done ++ ops) D' ∧ t ∉ D' ∧ t ∉ R' ∧
      ops.foldl (dirStep c i) ((D ++ t :: R).take c.nways) = (D' ++ t :: R').take c.nways
  | [], done, D, R, _, hD, h1, h2 => ⟨D, R, by simpa using hD, h1, h2, rfl⟩
  | x :: ops, done, D, R, ho, hD, h1, h2 => by
    have hx := ho x (by simp)
    have ho' : Others c i t ops := fun y hy => ho y (by simp [hy])
    have key : ∃ D1 R1, Distinct c i (done ++ [x]) D1 ∧ t ∉ D1 ∧ t ∉ R1 ∧
        dirStep c i ((D ++ t :: R).take c.nways) x = (D1 ++ t :: R1).take c.nways := by
      cases x with
      | inval => exact hx.elim
      | amo a =>
        refine ⟨D, R, ⟨hD.nodup, fun u => ?_⟩, h1, h2, ?_⟩
        · rw [hD.mem]; simp
        · have hx : c.idx a ≠ i := hx
          simp [dirStep, hx.symm]
      | access a =>
        by_cases hi : c.idx a = i
        · have hne : c.tag a ≠ t := hx hi
          refine ⟨c.tag a :: D.erase (c.tag a), if c.tag a ∈ D then R else R.erase (c.tag a), ⟨?_, ?_⟩, ?_, ?_, ?_⟩
          · exact List.nodup_cons.2 ⟨hD.nodup.not_mem_erase, hD.nodup.erase _⟩
          · intro u
            rw [List.mem_cons, hD.nodup.mem_erase_iff, hD.mem]
            constructor
            · rintro (rfl | ⟨_, b, hb, hb'⟩)
              · exact ⟨a, by simp, hi, rfl⟩
              · exact ⟨b, by simp [hb], hb'⟩
            · rintro ⟨b, hb, hbi, hbt⟩
              by_cases hu : u = c.tag a
              · exact .inl hu
              · rcases List.mem_append.1 hb with hb | hb
                · exact .inr ⟨hu, b, hb, hbi, hbt⟩
                · simp at hb; subst hb; exact (hu hbt.symm).elim
          · intro h
            rcases List.mem_cons.1 h with h | h
            · exact hne h.symm
            · exact h1 (List.mem_of_mem_erase h)
          · split
            · exact h2
            · exact fun h => h2 (List.mem_of_mem_erase h)
          · simp only [dirStep, hi, if_true, touch]
            rw [erase_take]
            congr 1
            by_cases hm : c.tag a ∈ D
            · rw [List.erase_append_left _ hm, if_pos hm]; rfl
            · rw [List.erase_append_right _ hm, if_neg hm, List.erase_of_not_mem hm,
                List.erase_cons_tail (by simpa using hne.symm)]; rfl
        · have : ¬ i = c.idx a := fun e => hi e.symm
          refine ⟨D, R, ⟨hD.nodup, fun u => ?_⟩, h1, h2, by simp [dirStep, this]⟩
          rw [hD.mem]
          constructor
          · rintro ⟨b, hb, hb'⟩; exact ⟨b, by simp [hb], hb'⟩
          · rintro ⟨b, hb, hbi, hbt⟩
            rcases List.mem_append.1 hb with hb | hb
            · exact ⟨b, hb, hbi, hbt⟩
            · simp at hb; subst hb; exact (hi hbi).elim
    obtain ⟨D1, R1, hD1, a1, a2, he⟩ := key
    obtain ⟨D', R', hD', b1, b2, he'⟩ := others_fold ops (done ++ [x]) D1 R1 ho' hD1 a1 a2
    exact ⟨D', R', by simpa using hD', b1, b2, by rw [List.foldl_cons, he, he']⟩

theorem mem_take_split {D R : List Nat} {t n : Nat} (h1 : t ∉ D) :
    t ∈ (D ++ t :: R).take n ↔ D.length < n := by
  rw [List.take_append]
  constructor
  · intro h
    rcases List.mem_append.1 h with h | h
    · exact (h1 (List.mem_of_mem_take h)).elim
    · cases hk : n - D.length with
      | zero => rw [hk] at h; simp at h
      | succ k => omega
  · intro h
    apply List.mem_append_right
    obtain ⟨k, hk⟩ : ∃ k, n - D.length = k + 1 := ⟨n - D.length - 1, by omega⟩
    rw [hk]; simp

/-- **C31, stack distance.**  For any number of ways: an access to a line that
has been accessed before hits exactly if fewer than `nways` distinct other lines
of its set were accessed since, provided that since then there was no INV, no AMO
to the set. -/
theorem C31_hit_iff_stack_distance (c : Cfg) (hn : 1 ≤ c.nways) (pre mid : List TOp) (a b : Nat)
    (hi : c.idx b = c.idx a) (ht : c.tag b = c.tag a) (ho : Others c (c.idx a) (c.tag a) mid)
    (D : List Nat) (hD : Distinct c (c.idx a) mid D) :
    ((after c (pre ++ TOp.access a :: mid)).access c b).2 = decide (D.length < c.nways) := by
  have h2 := after_inv hn (pre ++ TOp.access a :: mid)
  rw [(access_set hn h2 b).2.1, hi, ht]
  have hsp : pre ++ TOp.access a :: mid = (pre ++ [TOp.access a]) ++ mid := by simp
  rw [hsp, after_dir_append hn, after_snoc, apply_dir hn (after_inv hn pre)]
  simp only [dirStep, if_true, touch]
  have hnd := (dir_sorted hn (c.idx a) pre).1
  obtain ⟨D', R', hD', b1, b2, he⟩ := others_fold mid [] []
    (((after c pre).dir (c.idx a)).erase (c.tag a)) ho ⟨List.nodup_nil, by simp⟩ (by simp) hnd.not_mem_erase
  rw [List.nil_append] at he
  rw [he]
  have hperm : D'.Perm D := (List.perm_ext_iff_of_nodup hD'.nodup hD.nodup).2 fun u => by
    rw [hD'.mem, hD.mem]; simp
  rw [← hperm.length_eq]
  congr 1
  exact propext (mem_take_split b1)

/-- **C31, compulsory misses.**  An access misses if its line has not been
accessed since the start, the last INV or the last AMO to the line. -/
theorem C31_compulsory_miss (c : Cfg) (hn : 1 ≤ c.nways) (pre mid : List TOp) (b : Nat)
    (hpre : pre = [] ∨ (∃ l, pre = l ++ [.inval]) ∨
      (∃ l a, pre = l ++ [.amo a] ∧ c.idx a = c.idx b ∧ c.tag a = c.tag b))
    (hmid : ∀ x ∈ mid, TOp.uses c (c.idx b) (c.tag b) x = false) :
    ((after c (pre ++ mid)).access c b).2 = false := by
  rw [(access_set hn (after_inv hn _) b).2.1, decide_eq_false_iff_not, after_dir_append hn]
  have h0 : c.tag b ∉ (after c pre).dir (c.idx b) := by
    rcases hpre with rfl | ⟨l, rfl⟩ | ⟨l, a, rfl, ha, ha'⟩
    · simp [after, Tracker.init, Tracker.dir]
    · rw [after_snoc, apply_dir hn (after_inv hn l)]; simp [dirStep]
    · rw [after_snoc, apply_dir hn (after_inv hn l)]
      simp only [dirStep, ha, ha', if_true]
      exact (dir_sorted hn (c.idx b) l).1.not_mem_erase
  generalize (after c pre).dir (c.idx b) = l at h0
  induction mid generalizing l with
  | nil => exact h0
  | cons x mid ih =>
    rw [List.foldl_cons]
    refine ih (fun y hy => hmid y (by simp [hy])) _ ?_
    have hx := hmid x (by simp)
    cases x with
    | inval => simp [dirStep]
    | amo a =>
      simp only [dirStep]; split
      · exact fun h => h0 (List.mem_of_mem_erase h)
      · exact h0
    | access a =>
      simp only [dirStep]; split
      · rename_i hi
        intro h
        rcases mem_touch h with h | h
        · simp [TOp.uses, ← hi, h] at hx
        · exact h0 h
      · exact h0

/-- 4 ways: the line survives three other lines of its set, not four. -/
example : let c : Cfg := ⟨4, 3, 4, 32⟩
    Others c 0 0 [.access 16, .access 32, .access 8, .access 16, .access 48] ∧
    Distinct c 0 [.access 16, .access 32, .access 8, .access 16, .access 48] [1, 2, 3] ∧
    ((after c [.access 0, .access 16, .access 32, .access 8, .access 16, .access 48]).access c 4).2 = true ∧
    ((after c [.access 0, .access 16, .access 32, .access 64, .access 48]).access c 4).2 = false := by
  refine ⟨?_, ⟨by decide, ?_⟩, by decide, by decide⟩
  · intro x hx
    simp only [List.mem_cons, List.not_mem_nil, or_false] at hx
    rcases hx with rfl | rfl | rfl | rfl | rfl <;> decide
  · intro t
    constructor
    · intro h
      simp only [List.mem_cons, List.not_mem_nil, or_false] at h
      rcases h with rfl | rfl | rfl
      · exact ⟨16, by decide⟩
      · exact ⟨32, by decide⟩
      · exact ⟨48, by decide⟩
    · rintro ⟨a, h, hi, rfl⟩
      simp only [List.mem_cons, List.not_mem_nil, or_false, TOp.access.injEq] at h
      rcases h with rfl | rfl | rfl | rfl | rfl <;> revert hi <;> decide

end FL
end Verif
