import Verif.PerCache
import Verif.SpecLru

/-!
# The directory of the event-level machine is an LRU directory
-/

namespace Verif
variable {p : Params}

/-- Valid tags of a set, the way that is not the next victim first. Proof device; not in the source. -/
def recF (p : Params) (r : Way) (e : Way → Entry p) : List (Tag p) :=
  (([!r, r].filter (fun w => decide (w ∈ p.ways))).filter (fun w => (e w).val)).map (fun w => (e w).tag)

/-- If the next victim is valid, so is the other way. Proof device; not in the source. -/
def OrdF (p : Params) (r : Way) (e : Way → Entry p) : Prop :=
  p.twoWay = true → (e r).val = true → (e (!r)).val = true

theorem recF_two (h : p.twoWay = true) (r : Way) (e : Way → Entry p) :
    recF p r e = (if (e (!r)).val then [(e (!r)).tag] else []) ++ (if (e r).val then [(e r).tag] else []) := by
  have h1 : (!r) ∈ p.ways := mem_ways.2 fun _ => h
  have h2 : r ∈ p.ways := mem_ways.2 fun _ => h
  simp only [recF, List.filter_cons, h1, h2, decide_true, if_true, List.filter_nil]
  cases (e (!r)).val <;> cases (e r).val <;> rfl

theorem recF_one (h : p.twoWay = false) (e : Way → Entry p) :
    recF p false e = if (e false).val then [(e false).tag] else [] := by
  have h1 : ¬ true ∈ p.ways := by rw [mem_ways_true, h]; simp
  have h2 : false ∈ p.ways := mem_ways_false
  simp only [recF, List.filter_cons, Bool.not_false, h1, h2, decide_true, decide_false, if_true, List.filter_nil,
    Bool.false_eq_true, if_false]
  cases (e false).val <;> rfl

theorem ways_length (p : Params) : p.ways.length = if p.twoWay then 2 else 1 := by
  simp only [Params.ways]; split <;> rfl

/-- Membership in the recency list. -/
theorem mem_recF {r : Way} (hr : r ∈ p.ways) {e : Way → Entry p} {t : Tag p} :
    t ∈ recF p r e ↔ ∃ w ∈ p.ways, (e w).val = true ∧ (e w).tag = t := by
  simp only [recF, List.mem_map, List.mem_filter, List.mem_cons, List.not_mem_nil, or_false, decide_eq_true_eq]
  constructor
  · rintro ⟨w, ⟨⟨_, h1⟩, h2⟩, h3⟩
    exact ⟨w, h1, h2, h3⟩
  · rintro ⟨w, h1, h2, h3⟩
    refine ⟨w, ⟨⟨?_, h1⟩, h2⟩, h3⟩
    cases w <;> cases r <;> simp

/-- A read or write of tag `t` that ends up in way `w`. -/
theorem recF_touch {r w : Way} {e e' : Way → Entry p} {t : Tag p} (hr : r ∈ p.ways) (hw : w ∈ p.ways)
    (hv : (e' w).val = true) (ht : (e' w).tag = t) (ho : ∀ w', w' ≠ w → e' w' = e w')
    (hn : ∀ w' ∈ p.ways, w' ≠ w → (e w').val = true → (e w').tag ≠ t)
    (hc : w = r ∨ (e w).val = false ∨ (e w).tag = t) (hord : OrdF p r e) :
    recF p (if p.twoWay then !w else false) e' = (t :: (recF p r e).erase t).take p.ways.length ∧
      OrdF p (if p.twoWay then !w else false) e' := by
  cases h2 : p.twoWay
  · have ew : w = false := by cases w; rfl; rw [mem_ways_true, h2] at hw; cases hw
    have er : r = false := by cases r; rfl; rw [mem_ways_true, h2] at hr; cases hr
    subst ew er
    refine ⟨?_, fun h => by rw [h2] at h; cases h⟩
    simp only [ways_length, h2, Bool.false_eq_true, if_false]
    rw [recF_one h2, recF_one h2, hv, ht]
    simp
  · simp only [ways_length, h2, if_true]
    have hm : ∀ x : Way, x ∈ p.ways := fun x => mem_ways.2 fun _ => h2
    have hn := hn (!w) (hm _) (by cases w <;> simp)
    have ho := ho (!w) (by cases w <;> simp)
    have hord := hord h2
    constructor
    · rw [recF_two h2, recF_two h2]
      simp only [Bool.not_not, hv, ht, ho, if_true]
      by_cases hwr : w = r
      · subst hwr
        cases h3 : (e (!w)).val
        · cases h4 : (e w).val
          · simp
          · rw [hord h4] at h3; cases h3
        · have hne := hn h3
          cases h4 : (e w).val
          · simp [hne]
          · by_cases h5 : (e w).tag = t <;> simp [hne, h5]
      · have hwr' : w = !r := by cases w <;> cases r <;> simp at hwr ⊢
        subst hwr'
        simp only [Bool.not_not] at *
        rcases hc with hc | hc | hc
        · exact absurd hc hwr
        · cases h4 : (e r).val
          · simp [hc]
          · rw [hord h4] at hc; cases hc
        · cases h3 : (e (!r)).val
          · cases h4 : (e r).val
            · simp
            · rw [hord h4] at h3; cases h3
          · cases h4 : (e r).val <;> simp [hc]
    · intro _ _
      simp only [Bool.not_not]; exact hv

/-- An AMO on tag `t` that frees way `w`. -/
theorem recF_free {r w : Way} {e e' : Way → Entry p} {t : Tag p} (hr : r ∈ p.ways) (hw : w ∈ p.ways)
    (hv : (e' w).val = false) (ho : ∀ w', w' ≠ w → e' w' = e w')
    (hn : ∀ w' ∈ p.ways, w' ≠ w → (e w').val = true → (e w').tag ≠ t)
    (hc : (e w).tag = t) (hord : OrdF p r e) :
    recF p (if p.twoWay then w else false) e' = (recF p r e).erase t ∧
      OrdF p (if p.twoWay then w else false) e' := by
  cases h2 : p.twoWay
  · have ew : w = false := by cases w; rfl; rw [mem_ways_true, h2] at hw; cases hw
    have er : r = false := by cases r; rfl; rw [mem_ways_true, h2] at hr; cases hr
    subst ew er
    refine ⟨?_, fun h => by rw [h2] at h; cases h⟩
    simp only [Bool.false_eq_true, if_false]
    rw [recF_one h2, recF_one h2, hv, hc]
    cases (e false).val <;> simp
  · simp only [if_true]
    have hm : ∀ x : Way, x ∈ p.ways := fun x => mem_ways.2 fun _ => h2
    have hn := hn (!w) (hm _) (by cases w <;> simp)
    have ho := ho (!w) (by cases w <;> simp)
    have hord := hord h2
    constructor
    · rw [recF_two h2, recF_two h2]
      simp only [hv, ho]
      by_cases hwr : w = r
      · subst hwr
        cases h3 : (e (!w)).val
        · cases h4 : (e w).val
          · simp
          · rw [hord h4] at h3; cases h3
        · have hne := hn h3
          cases h4 : (e w).val <;> simp [hne, hc]
      · have hwr' : w = !r := by cases w <;> cases r <;> simp at hwr ⊢
        subst hwr'
        simp only [Bool.not_not] at *
        cases h3 : (e (!r)).val
        · cases h4 : (e r).val
          · simp
          · rw [hord h4] at h3; cases h3
        · cases h4 : (e r).val <;> simp [hc]
    · intro _ h
      rw [hv] at h; cases h

/-- The directory of an event-level state. Proof device; not in the source. -/
def L1.dir (L : L1 p) : Lru p := fun j => recF p (L.rep j) (fun w => L.ent w j)

/-- Proof device; not in the source. -/
structure LruInv (L : L1 p) (s : Lru p) : Prop where
  dir : ∀ j, s j = L.dir j
  ord : ∀ j, OrdF p (L.rep j) (fun w => L.ent w j)

theorem LruInv.init : LruInv (L1.init p) (fun _ => []) := by
  refine ⟨fun j => ?_, fun j _ h => by cases h⟩
  simp only [L1.dir, recF, L1.init, Entry.zero]
  simp

/-- What a set looks like after a change of one entry and its replacement bit. -/
theorem LruInv.change {L L' : L1 p} {s : Lru p} (h : LruInv L s) {j : Idx p} {l : List (Tag p)}
    (hr : ∀ j', j' ≠ j → L'.rep j' = L.rep j') (he : ∀ w j', j' ≠ j → L'.ent w j' = L.ent w j')
    (hj : recF p (L'.rep j) (fun w => L'.ent w j) = l ∧ OrdF p (L'.rep j) (fun w => L'.ent w j)) :
    LruInv L' (fun j' => if j' = j then l else s j') := by
  have key : ∀ j', j' ≠ j → (fun w => L'.ent w j') = fun w => L.ent w j' :=
    fun j' hj' => funext fun w => he w j' hj'
  refine ⟨fun j' => ?_, fun j' => ?_⟩
  · by_cases hj' : j' = j
    · subst hj'; rw [if_pos rfl]; exact hj.1.symm
    · rw [if_neg hj', h.dir j']
      simp only [L1.dir, key j' hj', hr j' hj']
  · by_cases hj' : j' = j
    · subst hj'; exact hj.2
    · rw [key j' hj', hr j' hj']; exact h.ord j'

theorem Ok.uniqAt {L : L1 p} (h : L.Ok) (j : Idx p) : L.UniqAt j :=
  fun w hw w' hw' => h.uniq w hw w' hw' j

theorem setRep_same (f : Idx p → Way) (j : Idx p) (a : Way) : setRep f j a j = a := by simp [setRep]
theorem setRep_ne (f : Idx p → Way) {j j' : Idx p} (a : Way) (h : j' ≠ j) : setRep f j a j' = f j' := by
  simp [setRep, h]

theorem replPolicy_hit (w r : Way) : replPolicy p true true w r = if p.twoWay then !w else false := by
  simp [replPolicy]
theorem replPolicy_miss (w r : Way) : replPolicy p true false w r = if p.twoWay then !r else false := by
  simp [replPolicy]


/-- Response test field of a hit bit. Proof device; not in the source. -/
def testOf (b : Bool) : BitVec 2 := (BitVec.ofBool b).setWidth 2

theorem lru_accept {L : L1 p} {s : Lru p} (h : LruInv L s) (hc : L.cur = .idle) (hok : L.Ok) (q : CReq p)
    (hq : q.ty ≠ MT.INIT) (d : Line p) :
    LruInv ((L.accept q).1.answer d).1 (lruStep p.ways.length s q).1 ∧
    (respMsgs ((L.accept q).2 ++ ((L.accept q).1.answer d).2)).map (·.test) =
      [testOf (lruStep p.ways.length s q).2] := by
  have hlw : (L.lookup q.addr).way ∈ p.ways := L.lookup_way_mem q.addr
  have hr := hok.rep q.addr.idx
  have hord := h.ord q.addr.idx
  have hdir := h.dir q.addr.idx
  simp only [L1.accept, lruStep]
  split
  · -- read or write
    rw [hdir]
    simp only [L1.dir]
    -- entry of the way after the operation
    cases lookup_cases (Ok.uniqAt hok q.addr.idx) with
    | hit hh hi hv ht =>
      rw [rw_hit hh]
      rw [answer_of_idle (by exact hc)]
      have hn : ∀ w' ∈ p.ways, w' ≠ (L.lookup q.addr).way → (L.ent w' q.addr.idx).val = true →
          (L.ent w' q.addr.idx).tag ≠ q.addr.tag := by
        intro w' hw' hne hv' ht'
        exact hne (hok.uniq w' hw' _ hlw _ (.inl hv') (.inl hv) (by rw [ht, ht']))
      refine ⟨h.change (fun j' hj' => setRep_ne _ _ hj') ?_ ?_, ?_⟩
      · intro w j' hj'
        simp only
        split
        · exact setAt_ne _ _ (fun hx => hj' hx.2)
        · rfl
      · simp only [setRep_same, replPolicy_hit]
        refine recF_touch hr hlw ?_ ?_ ?_ hn (.inr (.inr ht)) hord
        · split
          · rw [setAt_same]; exact hv
          · exact hv
        · split
          · rw [setAt_same]
          · exact ht
        · intro w' hw'
          split
          · exact setAt_ne _ _ (fun hx => hw' hx.1)
          · rfl
      · have : q.addr.tag ∈ recF p (L.rep q.addr.idx) (fun w => L.ent w q.addr.idx) :=
          (mem_recF hr).2 ⟨_, hlw, hv, ht⟩
        simp [this, mkResp, testOf]
    | inval hh hi hv hd ht =>
      rw [rw_inval hh hi]
      have hn : ∀ w' ∈ p.ways, w' ≠ (L.lookup q.addr).way → (L.ent w' q.addr.idx).val = true →
          (L.ent w' q.addr.idx).tag ≠ q.addr.tag := by
        intro w' hw' hne hv' ht'
        exact hne (hok.uniq w' hw' _ hlw _ (.inl hv') (.inr hd) (by rw [ht, ht']))
      have hmem : ¬ q.addr.tag ∈ recF p (L.rep q.addr.idx) (fun w => L.ent w q.addr.idx) := by
        intro hm
        obtain ⟨w, hw, h1, h2⟩ := (mem_recF hr).1 hm
        by_cases hwe : w = (L.lookup q.addr).way
        · subst hwe; rw [hv] at h1; cases h1
        · exact hn w hw hwe h1 h2
      refine ⟨h.change (j := q.addr.idx) (fun j' hj' => ?_) ?_ ?_, ?_⟩
      · simp only [L1.answer]; split <;> exact setRep_ne _ _ hj'
      · intro w j' hj'
        simp only [L1.answer]; split <;> exact setAt_ne _ _ (fun hx => hj' hx.2)
      · have e1 : (({ L with
            rep := setRep L.rep q.addr.idx (replPolicy p true true (L.lookup q.addr).way (L.rep q.addr.idx))
            cur := .fill q (L.lookup q.addr).way (L.ent (L.lookup q.addr).way q.addr.idx).dty } : L1 p).answer d).1.rep
              q.addr.idx = if p.twoWay then !(L.lookup q.addr).way else false := by
          simp only [L1.answer]; split <;> simp only [setRep_same, replPolicy_hit]
        rw [e1]
        refine recF_touch hr hlw ?_ ?_ ?_ hn (.inr (.inl hv)) hord
        · simp only [L1.answer]; split <;> simp only [setAt_same]
        · simp only [L1.answer]; split <;> simp only [setAt_same]
        · intro w' hw'
          simp only [L1.answer]; split <;> exact setAt_ne _ _ (fun hx => hw' hx.1)
      · simp only [L1.answer]
        split <;> simp [hmem, mkResp, testOf]
    | miss hh hi hnp =>
      rw [rw_miss hh hi]
      have hn : ∀ w' ∈ p.ways, (L.ent w' q.addr.idx).val = true →
          (L.ent w' q.addr.idx).tag ≠ q.addr.tag := fun w' hw' hv' => hnp w' hw' (.inl hv')
      have hmem : ¬ q.addr.tag ∈ recF p (L.rep q.addr.idx) (fun w => L.ent w q.addr.idx) := by
        intro hm
        obtain ⟨w, hw, h1, h2⟩ := (mem_recF hr).1 hm
        exact hn w hw h1 h2
      refine ⟨h.change (j := q.addr.idx) (fun j' hj' => ?_) ?_ ?_, ?_⟩
      · simp only [L1.answer]; split <;> exact setRep_ne _ _ hj'
      · intro w j' hj'
        simp only [L1.answer]; split <;> exact setAt_ne _ _ (fun hx => hj' hx.2)
      · have e1 : (({ L with
            rep := setRep L.rep q.addr.idx (replPolicy p true false (L.lookup q.addr).way (L.rep q.addr.idx))
            cur := .fill q (L.rep q.addr.idx) 0 } : L1 p).answer d).1.rep
              q.addr.idx = if p.twoWay then !(L.rep q.addr.idx) else false := by
          simp only [L1.answer]; split <;> simp only [setRep_same, replPolicy_miss]
        rw [e1]
        refine recF_touch hr hr ?_ ?_ ?_ (fun w' hw' _ => hn w' hw') (.inl rfl) hord
        · simp only [L1.answer]; split <;> simp only [setAt_same]
        · simp only [L1.answer]; split <;> simp only [setAt_same]
        · intro w' hw'
          simp only [L1.answer]; split <;> exact setAt_ne _ _ (fun hx => hw' hx.1)
      · simp only [L1.answer, L1.wb]
        split <;> split <;> simp [hmem, mkResp, testOf]
  split
  · -- AMO
    rw [hdir]
    simp only [L1.dir]
    refine ⟨?_, ?_⟩
    · simp only [L1.amo, L1.answer]
      refine h.change (j := q.addr.idx) (fun j' hj' => ?_) (fun w j' hj' => ?_) ?_
      · simp only; split
        · exact setRep_ne _ _ hj'
        · rfl
      · simp only; split
        · exact setAt_ne _ _ (fun hx => hj' hx.2)
        · rfl
      · have present : ∀ hx : ((L.lookup q.addr).hit || (L.lookup q.addr).inval) = true,
            (L.ent (L.lookup q.addr).way q.addr.idx).Present ∧ (L.ent (L.lookup q.addr).way q.addr.idx).tag = q.addr.tag := by
          intro hx
          cases lookup_cases (Ok.uniqAt hok q.addr.idx) with
          | hit hh hi hv ht => exact ⟨.inl hv, ht⟩
          | inval hh hi hv hd ht => exact ⟨.inr hd, ht⟩
          | miss hh hi hnp => rw [hh, hi] at hx; cases hx
        cases hx : ((L.lookup q.addr).hit || (L.lookup q.addr).inval)
        · simp only [Bool.false_eq_true, if_false]
          have hmem : ¬ q.addr.tag ∈ recF p (L.rep q.addr.idx) (fun w => L.ent w q.addr.idx) := by
            intro hm
            obtain ⟨w, hw, h1, h2⟩ := (mem_recF hr).1 hm
            cases lookup_cases (Ok.uniqAt hok q.addr.idx) with
            | hit hh hi hv ht => rw [hh] at hx; cases hx
            | inval hh hi hv hd ht => rw [hi] at hx; simp at hx
            | miss hh hi hnp => exact hnp w hw (.inl h1) h2
          exact ⟨(List.erase_of_not_mem hmem).symm, hord⟩
        · simp only [if_true, setRep_same, replPolicy_hit, Bool.not_not]
          obtain ⟨hp, ht⟩ := present hx
          refine recF_free hr hlw (by rw [setAt_same]) (fun w' hw' => setAt_ne _ _ (fun hx => hw' hx.1)) ?_ ht hord
          intro w' hw' hne hv' ht'
          exact hne (hok.uniq w' hw' _ hlw _ (.inl hv') hp (by rw [ht, ht']))
    · simp only [L1.amo, L1.answer, L1.wb]
      split <;> simp [mkResp, testOf]
  split
  · -- INV
    rw [answer_of_idle (by exact hc)]
    refine ⟨⟨fun j => ?_, fun j _ h => by simp at h⟩, by simp [mkResp, testOf]⟩
    simp only [L1.dir, recF]
    simp
  split
  · -- FLUSH
    rw [answer_of_idle (by exact hc)]
    refine ⟨⟨fun j => ?_, fun j => ?_⟩, ?_⟩
    · exact h.dir j
    · exact h.ord j
    · obtain ⟨ms, hms⟩ : ∃ ms : List (MReq p), L.flushMsgs (2 ^ p.cntBits) = ms.map Msg.mem := by
        generalize 2 ^ p.cntBits = n
        induction n with
        | zero => exact ⟨[], rfl⟩
        | succ n ih =>
          obtain ⟨ms, hms⟩ := ih
          simp only [L1.flushMsgs, hms, L1.wb]
          split
          · exact ⟨_ :: ms, rfl⟩
          · exact ⟨ms, rfl⟩
      rw [hms]
      simp [respMsgs_map_mem, mkResp, testOf]
  · rename_i h1 h2 h3 h4
    exfalso
    simp only [MT.isAmo, Bool.and_eq_true, decide_eq_true_eq] at h2
    have hlt := q.ty.isLt
    have : q.ty.toNat = 2 := by
      have e0 : q.ty.toNat ≠ 0 := fun h => h1 (.inl (BitVec.eq_of_toNat_eq h))
      have e1 : q.ty.toNat ≠ 1 := fun h => h1 (.inr (BitVec.eq_of_toNat_eq h))
      have e2 : q.ty.toNat ≠ 14 := fun h => h3 (BitVec.eq_of_toNat_eq h)
      have e3 : q.ty.toNat ≠ 15 := fun h => h4 (BitVec.eq_of_toNat_eq h)
      omega
    exact hq (BitVec.eq_of_toNat_eq this)

theorem lruRun_snoc (n : Nat) (qs : List (CReq p)) (q : CReq p) :
    lruRun n (qs ++ [q]) = ((lruStep n (lruRun n qs).1 q).1, (lruRun n qs).2 ++ [(lruStep n (lruRun n qs).1 q).2]) := by
  simp [lruRun, List.foldl_append]

variable {ι : Type} [DecidableEq ι]

/-- Directory and test bits along an execution. -/
theorem lru_run {M : ByteMem} {T : ESys ι p} {tr : List (Ev ι p)} (h : ERun (ESys.init ι p M) tr T) (k : ι) :
    ∀ d, LruInv ((T.L k).answer d).1 (lruRun p.ways.length (accepted k tr)).1 ∧
      (respMsgs (emitted k tr ++ T.E k ++ ((T.L k).answer d).2)).map (·.test) =
        (lruRun p.ways.length (accepted k tr)).2.map testOf := by
  refine cache_induct (P := fun as ms L => ∀ d, LruInv (L.answer d).1 (lruRun p.ways.length as).1 ∧
      (respMsgs (ms ++ (L.answer d).2)).map (·.test) = (lruRun p.ways.length as).2.map testOf) ?_ ?_ ?_ h k
  · intro d
    exact ⟨LruInv.init, rfl⟩
  · intro as ms L q hc hok hq ih d
    have ih := ih d
    rw [answer_of_idle hc] at ih
    obtain ⟨h1, h2⟩ := lru_accept ih.1 hc hok q hq d
    rw [lruRun_snoc]
    refine ⟨h1, ?_⟩
    have h3 := ih.2
    simp only [List.append_nil] at h3
    rw [List.append_assoc, respMsgs_append, List.map_append, h2, h3]
    simp
  · intro as ms L d _ hok ih d'
    rw [answer_of_idle (answer_idle L d)]
    have := ih d
    refine ⟨this.1, ?_⟩
    simpa using this.2

/-- A cache with nothing left to answer: the arrays are those of the event-level
state. -/
theorem RIU.settled {s : St p} {L : L1 p} {E : List (Msg p)} {O : List MType} (h : RI s L E O)
    (hf : s.fsm ≠ .init) (hE : nResp E = 0) (hc : L.cur = .idle) :
    ∃ L' : L1 p, L'.Eqv L ∧ TagsAre s L'.ent ∧ s.rep = L'.rep := by
  cases h with
  | init h => exact absurd h.fsm hf
  | run L' he h =>
    obtain ⟨hok, rest, hEq, hph⟩ := h
    refine ⟨L', he, ?_⟩
    rw [hEq, nResp_append] at hE
    have hrest : nResp rest = 0 := by omega
    have hc' : L'.cur = .idle := he.cur.trans hc
    have hp : L'.cur.pend = 0 := by rw [hc']; rfl
    have hnr : ∀ (ms : List (Msg p)) (r : CResp p), rest = ms ++ [.resp r] → False := by
      intro ms r h; rw [h] at hrest; simp at hrest
    cases hph with
    | flow h => exact ⟨h.arr.tags, h.arr.rep⟩
    | req L0 q h =>
      exfalso
      have hq : q.ty ≠ MT.INIT := by
        intro hq
        have := h.ty
        rw [hq] at this; revert this; decide
      have := accept_nResp L0 q h.cur hq
      rw [h.acc] at this
      simp only [hrest, hp] at this; omega
    | pass2 q h =>
      exfalso
      rcases h.cur with ⟨h, _⟩ | ⟨_, _, h, _⟩ <;> rw [hc'] at h <;> cases h
    | wait h => exact absurd h.mshr (by rw [hc']; exact fun h => h)
    | ans L0 h =>
      exfalso
      have hm := h.mshr
      have := answer_nResp L0 s.mresp0.data
      rw [h.ans] at this
      simp only [hrest, hp] at this
      cases hcu : L0.cur with
      | idle => rw [hcu] at hm; exact hm
      | fill => rw [hcu] at this; simp [Cur.pend] at this
      | amo => rw [hcu] at this; simp [Cur.pend] at this
    | refill L0 q w d h =>
      exfalso
      have := answer_nResp L0 s.req1.data
      rw [h.ans, h.cur] at this
      simp only [hrest, hp] at this
      exact absurd this (by simp [Cur.pend])
    | inv0 q h => exact (hnr [] _ h.restEq).elim
    | inv1 q h => exact (hnr [] _ h.restEq).elim
    | inv2 q h => exact (hnr [] _ h.restEq).elim
    | fl0 L0 q h => exact (hnr _ _ h.restEq).elim
    | fl1 L0 q c h => exact (hnr _ _ h.restEq).elim
    | fl2 L0 q c h => exact (hnr _ _ h.restEq).elim
    | fl3 L0 q c h => exact (hnr _ _ h.restEq).elim
    | ini hU _ => exact absurd trivial hU

theorem recF_congr {r : Way} {e e' : Way → Entry p}
    (h : ∀ w ∈ p.ways, (e w).val = (e' w).val ∧ ((e w).val = true → (e w).tag = (e' w).tag)) :
    recF p r e = recF p r e' := by
  simp only [recF]
  rw [List.filter_congr (q := fun w => (e' w).val)]
  · apply List.map_congr_left
    intro w hw
    simp only [List.mem_filter, decide_eq_true_eq] at hw
    have := h w hw.1.2
    exact this.2 (this.1.trans hw.2)
  · intro w hw
    simp only [List.mem_filter, decide_eq_true_eq] at hw
    exact (h w hw.2).1

end Verif
