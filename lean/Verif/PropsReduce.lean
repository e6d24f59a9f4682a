import Verif.SpecReduce
import Verif.PropsTicket
import Verif.PropsHetNet

/-!
# C96: reductions and work counters
-/

set_option linter.unusedSectionVars false

namespace Verif

/-- Choosing the smaller (by some injective measure) does not depend on the order (proof device). -/
theorem least_comm (f : BitVec 32 → Int) (hf : ∀ x y, f x = f y → x = y) (m a b : BitVec 32) :
    (if f (if f m < f a then m else a) < f b then (if f m < f a then m else a) else b) =
      if f (if f m < f b then m else b) < f a then (if f m < f b then m else b) else a := by
  by_cases h1 : f m < f a <;> by_cases h2 : f m < f b <;> simp only [h1, h2, if_true, if_false]
  · by_cases h3 : f b < f a
    · rw [if_pos h3]
    · exfalso; omega
  · by_cases h3 : f a < f b
    · rw [if_pos h3]
    · exfalso; omega
  · by_cases h3 : f a < f b
    · rw [if_pos h3, if_neg (by omega)]
    · rw [if_neg h3]
      by_cases h4 : f b < f a
      · rw [if_pos h4]
      · rw [if_neg h4]; exact hf b a (by omega)

/-- All operations but SWAP give the same result in any order. -/
theorem amo_comm {t : MType} (h : t.toNat ≠ 6) (m a b : BitVec 32) :
    amoFun t (amoFun t m a) b = amoFun t (amoFun t m b) a := by
  have hi : ∀ x y : BitVec 32, x.toInt = y.toInt → x = y := fun x y h => BitVec.eq_of_toInt_eq h
  have hu : ∀ x y : BitVec 32, (x.toNat : Int) = y.toNat → x = y := fun x y h => BitVec.eq_of_toNat_eq (by omega)
  unfold amoFun
  split
  all_goals (rename_i he; try exact absurd he h)
  all_goals simp only []
  · ac_rfl
  · ac_rfl
  · ac_rfl
  · exact least_comm (fun x => x.toInt) hi m a b
  · have := least_comm (fun x => (x.toNat : Int)) hu m a b
    simp only [Int.ofNat_lt] at this
    exact this
  · have := least_comm (fun x => -x.toInt) (fun x y h => hi x y (by omega)) m a b
    simp only [Int.neg_lt_neg_iff] at this
    exact this
  · have := least_comm (fun x => -(x.toNat : Int)) (fun x y h => hu x y (by omega)) m a b
    simp only [Int.neg_lt_neg_iff, Int.ofNat_lt] at this
    exact this
  · ac_rfl

theorem amoSeq_fold {v w : BitVec 32} {l : List AmoOp} (h : AmoSeq v l w) {t : MType} (ht : ∀ o ∈ l, o.ty = t) :
    w = (l.map (·.arg)).foldl (amoFun t) v := by
  induction h with
  | nil => rfl
  | cons o h ih =>
    rw [List.map_cons, List.foldl_cons, ih fun o' ho => ht o' (by simp [ho]), ht o (by simp)]

namespace WM
variable {ι : Type} [DecidableEq ι] {W : Nat} {tr : List (Ev ι)} {k k' : ι}

/-- Type and operand of the operations on `W` with the cache, in the order they are accepted (proof device). -/
def askedAll (W : Nat) (tr : List (Ev ι)) : List (ι × (MType × BitVec 32)) :=
  tr.filterMap fun
    | .acc k q => if MT.isAmo q.ty = true ∧ q.addr / 4 = W then some (k, (q.ty, BitVec.ofNat 32 q.data)) else none
    | .resp _ _ => none

theorem askedAll_operands : (askedAll W tr).map (·.2.2) = operands W tr := by
  induction tr with
  | nil => rfl
  | cons e tr ih =>
    cases e with
    | resp k r => exact ih
    | acc k q =>
      by_cases h : MT.isAmo q.ty = true ∧ q.addr / 4 = W
      · simp only [askedAll, operands, List.filterMap_cons, if_pos h, List.map_cons] at ih ⊢
        rw [ih]
      · simp only [askedAll, operands, List.filterMap_cons, if_neg h] at ih ⊢
        exact ih

theorem count_askedAll (x : MType × BitVec 32) : (askedAll W tr).count (k, x) = (askedAmos k W tr).count x := by
  induction tr with
  | nil => rfl
  | cons e tr ih =>
    cases e with
    | resp k r => exact ih
    | acc k2 q =>
      by_cases h : MT.isAmo q.ty = true ∧ q.addr / 4 = W
      · by_cases hk : k2 = k
        · subst hk
          simp only [askedAll, askedAmos, accepted, List.filterMap_cons, if_pos h, if_true, List.count_cons] at ih ⊢
          rw [ih]; simp
        · simp only [askedAll, askedAmos, accepted, List.filterMap_cons, if_pos h, if_neg hk] at ih ⊢
          rw [List.count_cons_of_ne (fun e => hk (Prod.mk.inj e).1), ih]
      · by_cases hk : k2 = k
        · subst hk
          simp only [askedAll, askedAmos, accepted, List.filterMap_cons, if_neg h, if_true] at ih ⊢
          exact ih
        · simp only [askedAll, askedAmos, accepted, List.filterMap_cons, if_neg h, if_neg hk] at ih ⊢
          exact ih

theorem count_seq (s : List (ι × AmoOp)) (x : MType × BitVec 32) :
    (s.map fun y => (y.1, (y.2.ty, y.2.arg))).count (k, x) = ((ofCache k s).map fun o => (o.ty, o.arg)).count x := by
  induction s with
  | nil => rfl
  | cons y s ih =>
    obtain ⟨k2, o⟩ := y
    by_cases hk : k2 = k
    · subst hk
      simp only [ofCache, List.filterMap_cons, if_true, List.map_cons, List.count_cons] at ih ⊢
      rw [ih]; simp
    · simp only [ofCache, List.filterMap_cons, if_neg hk, List.map_cons] at ih ⊢
      rw [List.count_cons_of_ne (fun e => hk (Prod.mk.inj e).1), ih]

/-- The operations performed are the operations asked for. -/
theorem perm_asked {s : List (ι × AmoOp)} (h : ∀ k, (ofCache k s).map (fun o => (o.ty, o.arg)) = askedAmos k W tr) :
    (s.map fun y => y.2.arg).Perm (operands W tr) := by
  have : (s.map fun y => (y.1, (y.2.ty, y.2.arg))).Perm (askedAll W tr) := by
    rw [List.perm_iff_count]
    rintro ⟨k, x⟩
    rw [count_seq, h, count_askedAll]
  have := this.map (·.2.2)
  rw [askedAll_operands, List.map_map] at this
  exact this

theorem drawers_length : (drawers W tr).length = (operands W tr).length := by
  induction tr with
  | nil => rfl
  | cons e tr ih =>
    cases e with
    | resp k r => exact ih
    | acc k q =>
      by_cases h : MT.isAmo q.ty = true ∧ q.addr / 4 = W
      · simp only [drawers, operands, List.filterMap_cons, if_pos h, List.length_cons] at ih ⊢
        rw [ih]
      · simp only [drawers, operands, List.filterMap_cons, if_neg h] at ih ⊢
        exact ih

/-- Operations that were asked for on a work counter add 1, and they are not more than the operands. -/
theorem counter_ops {s : List (ι × AmoOp)} (h : ∀ k, (ofCache k s).map (fun o => (o.ty, o.arg)) <+: askedAmos k W tr)
    (hp : WorkCounter W tr) : (∀ x ∈ s, x.2.ty = ADD ∧ x.2.arg = 1) ∧ s.length ≤ (operands W tr).length := by
  refine ⟨?_, ?_⟩
  · rintro ⟨k, o⟩ hx
    have hm : o ∈ ofCache k s := by simp only [ofCache, List.mem_filterMap]; exact ⟨_, hx, by simp⟩
    have : (o.ty, o.arg) ∈ askedAmos k W tr := (h k).subset (List.mem_map_of_mem (f := fun o => (o.ty, o.arg)) hm)
    simp only [askedAmos, List.mem_filterMap] at this
    obtain ⟨q, hq, hq'⟩ := this
    split at hq'
    · rename_i hc
      obtain ⟨h1, h2⟩ := Prod.mk.inj (Option.some.inj hq')
      obtain ⟨h3, h4⟩ := (hp k q hq).2 hc.1 hc.2
      exact ⟨by rw [← h1]; exact BitVec.eq_of_toNat_eq h3, by rw [← h2]; exact h4⟩
    · cases hq'
  · rw [← drawers_length, ← List.length_map (f := (·.1)) (as := s)]
    refine length_le_of_count (fun k => ?_)
    rw [count_ops, count_drawers]
    simpa using (h k).length_le

end WM

variable {ι : Type} [DecidableEq ι] {p : ι → Params}

/-- When all operations are answered, the sequence consists of them. -/
theorem amos_complete (wf : ∀ k, (p k).WF) {H H' : HSys ι p} {tr : List (HEv ι p)} (h0 : HStart H)
    (h : HetRun H tr H') (hv : HValid tr) {W : Nat}
    (hno : ∀ k, ∀ q ∈ WM.accepted k (visible tr), q.ty = MT.WRITE → ¬ q.covers W) (hall : WM.AllAnswered W (visible tr)) :
    ∃ s : List (ι × AmoOp), AmoSeq (memWord H.mem W) (s.map (·.2)) (memWord H'.mem W) ∧
      (∀ k, ofCache k s = WM.answeredAmos k W (visible tr)) ∧
      (∀ k, (ofCache k s).map (fun o => (o.ty, o.arg)) = WM.askedAmos k W (visible tr)) := by
  obtain ⟨A, h1, h2⟩ := C64_memory_model wf h0 h hv
  obtain ⟨s, h3, h4, _⟩ := (WM.LInv.run h1 (visible_aligned hv) hno).seq
  have key : ∀ k, ofCache k s = WM.answeredAmos k W (visible tr) ∧
      (ofCache k s).map (fun o => (o.ty, o.arg)) = WM.askedAmos k W (visible tr) := by
    intro k
    have g1 : WM.answeredAmos k W (visible tr) <+: ofCache k s := by rw [h4]; exact WM.amosOf_prefix _ _ _ _
    have g2 : (ofCache k s).map (fun o => (o.ty, o.arg)) <+: WM.askedAmos k W (visible tr) := by
      rw [h4]; exact WM.amosOf_asked _ _ _
    have l1 := g1.length_le
    have l2 := g2.length_le
    have l3 := hall k
    rw [List.length_map] at l2
    exact ⟨(g1.eq_of_length (by omega)).symm, g2.eq_of_length (by rw [List.length_map]; omega)⟩
  exact ⟨s, by rw [← h2]; exact h3, fun k => (key k).1, fun k => (key k).2⟩

/-- **C96, reductions.**  Caches of any shapes.  All atomic operations on word `W` are of one type other than SWAP, nothing
else stores to it, and all of them are answered.  Then memory holds the result of all of them applied in the order in
which they were accepted, although they may have been performed in another order. -/
theorem C96_reduction (wf : ∀ k, (p k).WF) {H H' : HSys ι p} {tr : List (HEv ι p)} (h0 : HStart H)
    (h : HetRun H tr H') (hv : HValid tr) {W : Nat} {t : MType} (ht : t.toNat ≠ 6) (ho : WM.OnlyOp t W (visible tr))
    (hall : WM.AllAnswered W (visible tr)) :
    memWord H'.mem W = (WM.operands W (visible tr)).foldl (amoFun t) (memWord H.mem W) := by
  obtain ⟨s, h1, _, h3⟩ := amos_complete wf h0 h hv (fun k q hq => (ho k q hq).1) hall
  rw [amoSeq_fold h1 (t := t) ?_]
  · rw [List.map_map]
    exact (WM.perm_asked h3).foldl_eq' (fun x _ y _ z => amo_comm ht z x y) _
  · intro o hm
    rw [List.mem_map] at hm
    obtain ⟨⟨k, o'⟩, hx, rfl⟩ := hm
    have hm : o' ∈ ofCache k s := by simp only [ofCache, List.mem_filterMap]; exact ⟨_, hx, by simp⟩
    have : (o'.ty, o'.arg) ∈ WM.askedAmos k W (visible tr) := by
      rw [← h3 k]; exact List.mem_map_of_mem hm
    simp only [WM.askedAmos, List.mem_filterMap] at this
    obtain ⟨q, hq, hq'⟩ := this
    split at hq'
    · rename_i hc
      have hq' := Option.some.inj hq'
      rw [← (Prod.mk.inj hq').1]
      exact (ho k q hq).2 hc.1 hc.2
    · cases hq'

/-- **C96, work counters: nothing twice.**  Processors take work items by adding 1 to a word that is 0 at first.  Whatever
the caches and the schedule, two operations never return the same number, and every number returned is smaller than the
number of operations. -/
theorem C96_nothing_twice (wf : ∀ k, (p k).WF) {H H' : HSys ι p} {tr : List (HEv ι p)} (h0 : HStart H)
    (h : HetRun H tr H') (hv : HValid tr) {W : Nat} (hW : memWord H.mem W = 0) (hp : WM.WorkCounter W (visible tr))
    (hs : (WM.operands W (visible tr)).length < 2 ^ 32) {k : ι} {j : Nat} {n : BitVec 32}
    (hn : (WM.got k W (visible tr))[j]? = some n) :
    n.toNat < (WM.operands W (visible tr)).length ∧
    ∀ (k' : ι) (j' : Nat), (WM.got k' W (visible tr))[j']? = some n → k = k' ∧ j = j' := by
  obtain ⟨s, h1, h2⟩ := C66_amos_linearised wf h0 h hv (fun k q hq => (hp k q hq).1)
  obtain ⟨t1, t2, rfl, hT⟩ := h2 (visible tr) [] (by simp)
  rw [hW, List.map_append] at h1
  obtain ⟨w, hw⟩ := WM.amoSeq_split h1
  obtain ⟨h3, h4⟩ := WM.counter_ops (fun k => (hT k).2) hp
  have up : ∀ {k : ι} {j : Nat} {n : BitVec 32}, (WM.got k W (visible tr))[j]? = some n →
      ∃ o, (ofCache k t1)[j]? = some o ∧ o.old = n := by
    intro k j n hn
    rw [WM.got, List.getElem?_map, Option.map_eq_some_iff] at hn
    obtain ⟨o, h5, h6⟩ := hn
    obtain ⟨t, ht⟩ := (hT k).1
    exact ⟨o, by rw [← ht, List.getElem?_append_left (List.getElem?_eq_some_iff.1 h5).1]; exact h5, h6⟩
  obtain ⟨o, h5, h6⟩ := up hn
  refine ⟨?_, ?_⟩
  · obtain ⟨u, w', h7, _⟩ := WM.ofCache_split t1 h5
    have := WM.ticket_pos hw h3 (by omega) h7
    rw [h7] at h4
    simp only [List.length_append, List.length_cons] at h4
    rw [← h6, this]; omega
  · intro k' j' hn'
    obtain ⟨o', h5', h6'⟩ := up hn'
    exact WM.tickets_differ hw h3 (by omega) h5 h5' (h6.trans h6'.symm)

/-- **C96, work counters: nothing left out.**  When all the operations are answered, every number below their number was
returned, and memory holds their number. -/
theorem C96_nothing_left_out (wf : ∀ k, (p k).WF) {H H' : HSys ι p} {tr : List (HEv ι p)} (h0 : HStart H)
    (h : HetRun H tr H') (hv : HValid tr) {W : Nat} (hW : memWord H.mem W = 0) (hp : WM.WorkCounter W (visible tr))
    (hs : (WM.operands W (visible tr)).length < 2 ^ 32) (hall : WM.AllAnswered W (visible tr)) :
    (memWord H'.mem W).toNat = (WM.operands W (visible tr)).length ∧
    ∀ m, m < (WM.operands W (visible tr)).length →
      ∃ (k : ι) (j : Nat) (n : BitVec 32), (WM.got k W (visible tr))[j]? = some n ∧ n.toNat = m := by
  obtain ⟨s, h1, h2, h3⟩ := amos_complete wf h0 h hv (fun k q hq => (hp k q hq).1) hall
  rw [hW] at h1
  obtain ⟨h4, h5⟩ := WM.counter_ops (fun k => by rw [h3]; exact List.prefix_refl _) hp
  have hlen : s.length = (WM.operands W (visible tr)).length := by
    rw [← (WM.perm_asked h3).length_eq, List.length_map]
  refine ⟨by rw [WM.positions s _ h1 h4 (by omega), hlen], fun m hm => ?_⟩
  have hm' : m < s.length := by omega
  obtain ⟨u, w, hu, hul⟩ : ∃ u w, s = u ++ s[m] :: w ∧ u.length = m :=
    ⟨s.take m, s.drop (m + 1), by rw [List.getElem_cons_drop, List.take_append_drop], by rw [List.length_take]; omega⟩
  generalize s[m] = x at hu
  obtain ⟨k, o⟩ := x
  refine ⟨k, (ofCache k u).length, o.old, ?_, ?_⟩
  · rw [WM.got, ← h2, hu, show u ++ (k, o) :: w = u ++ [(k, o)] ++ w by simp, ofCache_append, WM.ofCache_snoc_same]
    simp
  · rw [WM.ticket_pos h1 h4 (by omega) hu, hul]

namespace Net

/-- **C96 on the wires, reductions.** -/
theorem C96_reduction_wires (wf : ∀ k, (p k).WF) {N N' : HNSys ι p} {tr : List (HWEv ι p)} (h0 : HNStart N)
    (h : HNRun N tr N') (hv : HWValid tr) {W : Nat} {t : MType} (ht : t.toNat ≠ 6) (ho : WM.OnlyOp t W (wvisible tr))
    (hall : WM.AllAnswered W (wvisible tr)) :
    memWord N'.mem W = (WM.operands W (wvisible tr)).foldl (amoFun t) (memWord N.mem W) := by
  obtain ⟨H, H', h1, h2, h3, h4⟩ := C82_refines wf h0 h
  rw [← visible_dec] at ho hall ⊢
  rw [← h3, ← h4]
  exact C96_reduction wf h1 h2 hv.dec ht ho hall

/-- **C96 on the wires, nothing twice.** -/
theorem C96_nothing_twice_wires (wf : ∀ k, (p k).WF) {N N' : HNSys ι p} {tr : List (HWEv ι p)} (h0 : HNStart N)
    (h : HNRun N tr N') (hv : HWValid tr) {W : Nat} (hW : memWord N.mem W = 0) (hp : WM.WorkCounter W (wvisible tr))
    (hs : (WM.operands W (wvisible tr)).length < 2 ^ 32) {k : ι} {j : Nat} {n : BitVec 32}
    (hn : (WM.got k W (wvisible tr))[j]? = some n) :
    n.toNat < (WM.operands W (wvisible tr)).length ∧
    ∀ (k' : ι) (j' : Nat), (WM.got k' W (wvisible tr))[j']? = some n → k = k' ∧ j = j' := by
  obtain ⟨H, H', h1, h2, h3, h4⟩ := C82_refines wf h0 h
  rw [← visible_dec] at hp hs hn ⊢
  exact C96_nothing_twice wf h1 h2 hv.dec (by rw [h3]; exact hW) hp hs hn

/-- **C96 on the wires, nothing left out.** -/
theorem C96_nothing_left_out_wires (wf : ∀ k, (p k).WF) {N N' : HNSys ι p} {tr : List (HWEv ι p)} (h0 : HNStart N)
    (h : HNRun N tr N') (hv : HWValid tr) {W : Nat} (hW : memWord N.mem W = 0) (hp : WM.WorkCounter W (wvisible tr))
    (hs : (WM.operands W (wvisible tr)).length < 2 ^ 32) (hall : WM.AllAnswered W (wvisible tr)) :
    (memWord N'.mem W).toNat = (WM.operands W (wvisible tr)).length ∧
    ∀ m, m < (WM.operands W (wvisible tr)).length →
      ∃ (k : ι) (j : Nat) (n : BitVec 32), (WM.got k W (wvisible tr))[j]? = some n ∧ n.toNat = m := by
  obtain ⟨H, H', h1, h2, h3, h4⟩ := C82_refines wf h0 h
  rw [← visible_dec] at hp hs hall ⊢
  rw [← h4]
  exact C96_nothing_left_out wf h1 h2 hv.dec (by rw [h3]; exact hW) hp hs hall

end Net

end Verif
