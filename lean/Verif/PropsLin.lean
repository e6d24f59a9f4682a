import Verif.SpecLin
import Verif.PropsDisc
import Verif.PropsAmo

/-!
# C66: atomic operations of caches of any shapes
-/

set_option linter.unusedSectionVars false

namespace Verif.WM
variable {ι : Type} [DecidableEq ι] {W : Nat} {M0 : ByteMem} {tr : List (Ev ι)} {A B : State ι}

/-! ## Requests with their responses -/

/-- What `amosOf` does with one pair. Proof device; not in the source. -/
def amoOf (W : Nat) (q : Req) (r : Resp) : Option AmoOp :=
  if MT.isAmo q.ty = true ∧ q.addr / 4 = W then some ⟨q.ty, BitVec.ofNat 32 q.data, BitVec.ofNat 32 r.data⟩ else none

theorem amosOf_cons (W : Nat) (q : Req) (qs : List Req) (r : Resp) (rs : List Resp) :
    amosOf W (q :: qs) (r :: rs) = (amoOf W q r).toList ++ amosOf W qs rs := by
  simp only [amosOf, List.zip_cons_cons, List.filterMap_cons, amoOf]
  split <;> simp_all

theorem amosOf_acc {W : Nat} {qs : List Req} {rs : List Resp} (h : rs.length ≤ qs.length) (l : List Req) :
    amosOf W (qs ++ l) rs = amosOf W qs rs := by
  induction qs generalizing rs with
  | nil => cases rs with
    | nil => simp [amosOf]
    | cons => simp at h
  | cons q qs ih => cases rs with
    | nil => simp [amosOf]
    | cons r rs => rw [List.cons_append, amosOf_cons, amosOf_cons, ih (by simpa using h)]

theorem amosOf_snoc {W : Nat} {qs : List Req} {rs : List Resp} (h : rs.length = qs.length) (q : Req) (r : Resp) :
    amosOf W (qs ++ [q]) (rs ++ [r]) = amosOf W qs rs ++ (amoOf W q r).toList := by
  induction qs generalizing rs with
  | nil => cases rs with
    | nil => simp only [List.nil_append, amosOf_cons]; simp [amosOf]
    | cons => simp at h
  | cons q qs ih => cases rs with
    | nil => simp at h
    | cons r rs => rw [List.cons_append, List.cons_append, amosOf_cons, amosOf_cons, ih (by simpa using h)]; simp

theorem amosOf_prefix (W : Nat) (qs : List Req) (rs l : List Resp) : amosOf W qs rs <+: amosOf W qs (rs ++ l) := by
  induction qs generalizing rs with
  | nil => simp [amosOf]
  | cons q qs ih => cases rs with
    | nil => simp [amosOf]
    | cons r rs =>
      rw [List.cons_append, amosOf_cons, amosOf_cons, List.prefix_append_right_inj]
      exact ih rs

/-- What `askedAmos` does with one request. Proof device; not in the source. -/
def askOf (W : Nat) (q : Req) : Option (MType × BitVec 32) :=
  if MT.isAmo q.ty = true ∧ q.addr / 4 = W then some (q.ty, BitVec.ofNat 32 q.data) else none

theorem amosOf_asked (W : Nat) (qs : List Req) (rs : List Resp) :
    (amosOf W qs rs).map (fun o => (o.ty, o.arg)) <+: qs.filterMap (askOf W) := by
  induction qs generalizing rs with
  | nil => simp [amosOf]
  | cons q qs ih => cases rs with
    | nil => simp [amosOf]
    | cons r rs =>
      rw [amosOf_cons, List.filterMap_cons, List.map_append]
      by_cases hc : MT.isAmo q.ty = true ∧ q.addr / 4 = W
      · simp only [amoOf, askOf, if_pos hc, Option.toList_some, List.map_cons, List.map_nil, List.singleton_append,
          List.cons_prefix_cons, true_and]
        exact ih rs
      · simp only [amoOf, askOf, if_neg hc, Option.toList_none, List.map_nil, List.nil_append]
        exact ih rs

/-! ## The invariant -/

/-- Proof device; not in the source. -/
structure LInv (W : Nat) (M0 : ByteMem) (tr : List (Ev ι)) (A : State ι) : Prop where
  clean : ∀ k, (A.loc k).copy W ≠ .dirty
  seq : ∃ s : List (ι × AmoOp), AmoSeq (memWord M0 W) (s.map (·.2)) (memWord A.mem W) ∧
    (∀ k, ofCache k s = amosOf W (accepted k tr) (responses k tr ++ (A.loc k).done)) ∧ Linearised W tr s

theorem Linearised.snoc {s : List (ι × AmoOp)} (h : Linearised W tr s)
    (hs : ∀ k, ofCache k s = amosOf W (accepted k tr) (responses k tr ++ (A.loc k).done)) (e : Ev ι)
    (hs' : ∀ k, ofCache k s = amosOf W (accepted k (tr ++ [e])) (responses k (tr ++ [e]) ++ (B.loc k).done)) :
    Linearised W (tr ++ [e]) s := by
  intro a b hab
  rcases List.eq_nil_or_concat b with rfl | ⟨b', x, rfl⟩
  · refine ⟨s, [], by simp, fun k => ?_⟩
    rw [List.append_nil] at hab
    subst hab
    rw [hs' k]
    exact ⟨amosOf_prefix _ _ _ _, amosOf_asked _ _ _⟩
  · rw [List.concat_eq_append, ← List.append_assoc] at hab
    have := List.append_inj' hab rfl
    exact h a b' this.1

theorem LInv.silent (h : LInv W M0 tr A) {k : ι} {a : Loc} (hB : ∀ k', B.loc k' = if k' = k then a else A.loc k')
    (hd : a.copy W ≠ .dirty) (hdone : a.done = (A.loc k).done) (hm : AgreeW W B.mem A.mem) : LInv W M0 tr B := by
  obtain ⟨s, h1, h2, h3⟩ := h.seq
  refine ⟨?_, s, ?_, ?_, h3⟩
  · intro k'; rw [hB]; split
    · exact hd
    · exact h.clean k'
  · rw [memWord_agree hm]; exact h1
  · intro k'
    rw [h2 k', hB]; split
    · rename_i hk; rw [hk, hdone]
    · rfl

theorem LInv.perform (h : LInv W M0 tr A) {k : ι} {a : Loc} {q : Req} {r : Resp}
    (hc : Count k tr (A.loc k)) (hp : (A.loc k).pend = some q)
    (hB : ∀ k', B.loc k' = if k' = k then a else A.loc k')
    (hd : a.copy W ≠ .dirty) (hdone : a.done = (A.loc k).done ++ [r])
    (hm : (¬ (MT.isAmo q.ty = true ∧ q.addr / 4 = W) ∧ AgreeW W B.mem A.mem) ∨
      (MT.isAmo q.ty = true ∧ q.addr = 4 * W ∧ r.data = readLE A.mem q.addr 4 ∧ B.mem = (flat A.mem q).1)) :
    LInv W M0 tr B := by
  obtain ⟨s, h1, h2, h3⟩ := h.seq
  have hclean : ∀ k', (B.loc k').copy W ≠ .dirty := by
    intro k'; rw [hB]; split
    · exact hd
    · exact h.clean k'
  obtain ⟨perf, c1, c2⟩ := hc
  rw [hp, Option.toList_some] at c1
  have hlen : (responses k tr ++ (A.loc k).done).length = perf.length := by rw [List.length_append]; omega
  have hnew : amosOf W (accepted k tr) (responses k tr ++ a.done) =
      amosOf W (accepted k tr) (responses k tr ++ (A.loc k).done) ++ (amoOf W q r).toList := by
    rw [hdone, ← List.append_assoc, c1, amosOf_snoc hlen, amosOf_acc (by omega)]
  rcases hm with ⟨hno, hm⟩ | ⟨ty, hW, hr, hm⟩
  · refine ⟨hclean, s, ?_, ?_, h3⟩
    · rw [memWord_agree hm]; exact h1
    · intro k'
      rw [hB]; split
      · rename_i hk; subst hk
        rw [hnew, h2 k']
        simp only [amoOf, if_neg hno, Option.toList_none, List.append_nil]
      · exact h2 k'
  · have hW' : q.addr / 4 = W := by omega
    refine ⟨hclean, s ++ [(k, ⟨q.ty, BitVec.ofNat 32 q.data, BitVec.ofNat 32 r.data⟩)], ?_, ?_, ?_⟩
    · rw [List.map_append, List.map_singleton]
      have ho : (BitVec.ofNat 32 r.data) = memWord A.mem W := by rw [hr, hW]; rfl
      have := AmoSeq.snoc h1 ⟨q.ty, BitVec.ofNat 32 q.data, BitVec.ofNat 32 r.data⟩ ho
      refine cast ?_ this
      congr 1
      rw [hm, flat_amo ty]
      simp only
      rw [hW, memWord_write, ← hW, ← hr]
    · intro k'
      rw [ofCache_append, h2 k', hB]
      split
      · rename_i hk; subst hk
        rw [hnew]
        simp [ofCache, amoOf, ty, hW']
      · rename_i hk
        simp [ofCache, Ne.symm hk]
    · intro x y hxy
      obtain ⟨s1, s2, h4, h5⟩ := h3 x y hxy
      exact ⟨s1, s2 ++ [_], by rw [h4, List.append_assoc], h5⟩

theorem LInv.step {ev : List (Ev ι)} (hc : ∀ k, Count k tr (A.loc k)) (h : LInv W M0 tr A) (hs : Step A ev B)
    (hal : AmosAligned (tr ++ ev)) (hno : ∀ k, ∀ q ∈ accepted k (tr ++ ev), q.ty = MT.WRITE → ¬ q.covers W) :
    LInv W M0 (tr ++ ev) B := by
  have hpa : ∀ k q, (A.loc k).pend = some q → q ∈ accepted k tr := by
    intro k q hq
    obtain ⟨perf, c1, _⟩ := hc k
    rw [c1, hq]; simp
  cases hs with
  | mk k e a M hl =>
    have hB : ∀ k', (⟨fun k' => if k' = k then a else A.loc k', M⟩ : State ι).loc k' =
      if k' = k then a else A.loc k' := fun _ => rfl
    cases hl with
    | accept q hp =>
      obtain ⟨s, h1, h2, h3⟩ := h.seq
      have h2' : ∀ k', ofCache k' s = amosOf W (accepted k' (tr ++ [.acc k q])) (responses k' (tr ++ [.acc k q]) ++
          ((⟨fun k' => if k' = k then { A.loc k with pend := some q } else A.loc k', A.mem⟩ : State ι).loc k').done) := by
        intro k'
        rw [h2 k']
        by_cases hk : k' = k
        · subst hk
          obtain ⟨perf, c1, c2⟩ := hc k'
          have := congrArg List.length c1
          rw [hp] at this
          simp only [if_true, accepted_append, responses_append, responses_acc, responses_nil, List.append_nil]
          rw [amosOf_acc]
          simp at this ⊢; omega
        · simp [if_neg hk, accepted_acc_other (Ne.symm hk)]
      refine ⟨?_, s, h1, h2', h3.snoc h2 _ h2'⟩
      intro k'; rw [hB]; split
      · exact h.clean k
      · exact h.clean k'
    | deliver r l hdn =>
      obtain ⟨s, h1, h2, h3⟩ := h.seq
      have h2' : ∀ k', ofCache k' s = amosOf W (accepted k' (tr ++ [.resp k r])) (responses k' (tr ++ [.resp k r]) ++
          ((⟨fun k' => if k' = k then { A.loc k with done := l } else A.loc k', A.mem⟩ : State ι).loc k').done) := by
        intro k'
        rw [h2 k']
        by_cases hk : k' = k
        · subst hk
          simp [hdn]
        · simp [if_neg hk, responses_resp_other (Ne.symm hk)]
      refine ⟨?_, s, h1, h2', h3.snoc h2 _ h2'⟩
      intro k'; rw [hB]; split
      · exact h.clean k
      · exact h.clean k'
    | fetch q Bw hp hq hBw =>
      simp only [List.map_nil, List.append_nil]
      refine h.silent (k := k) hB ?_ rfl (.refl _ _)
      simp only
      split
      · simp
      · exact h.clean k
    | drop q Bw hp hq hBw =>
      simp only [List.map_nil, List.append_nil]
      refine h.silent (k := k) hB ?_ rfl (.refl _ _)
      simp only
      split
      · simp
      · exact h.clean k
    | save q Bw hp hq hBw =>
      simp only [List.map_nil, List.append_nil]
      refine h.silent (k := k) hB ?_ rfl ?_
      · simp only
        split
        · simp
        · exact h.clean k
      · intro x hx
        simp only
        rw [hx, if_neg]
        intro hb
        exact h.clean k (hBw W hb)
    | read q hp hq hcv =>
      simp only [List.map_nil, List.append_nil]
      exact h.perform (k := k) (hc k) hp hB (h.clean k) rfl (.inl ⟨fun hh => read_not_amo hq hh.1, .refl _ _⟩)
    | write q hp hq hcv =>
      simp only [List.map_nil, List.append_nil] at hno ⊢
      have hW := hno k q (hpa k q hp) hq
      refine h.perform (k := k) (hc k) hp hB ?_ rfl (.inl ⟨fun hh => write_not_amo hq hh.1, .refl _ _⟩)
      simp only [Loc.reply]; rw [if_neg hW]; exact h.clean k
    | amo q hp hq hcv =>
      simp only [List.map_nil, List.append_nil] at hal ⊢
      have hal' := hal k q (hpa k q hp) hq
      by_cases hW : q.addr / 4 = W
      · refine h.perform (k := k) (hc k) hp hB (h.clean k) rfl (.inr ⟨hq, by omega, rfl, ?_⟩)
        rw [flat_amo hq]
      · refine h.perform (k := k) (hc k) hp hB (h.clean k) rfl (.inl ⟨fun hh => hW hh.2, ?_⟩)
        refine writeLE_untouched ?_
        omega
    | inv q hp hq =>
      simp only [List.map_nil, List.append_nil]
      refine h.perform (k := k) (hc k) hp hB ?_ rfl (.inl ⟨fun hh => inv_not_amo hq hh.1, .refl _ _⟩)
      simp only [Loc.reply]
      split
      · simp
      · exact h.clean k
    | flush q hp hq hcv =>
      simp only [List.map_nil, List.append_nil]
      exact h.perform (k := k) (hc k) hp hB (h.clean k) rfl (.inl ⟨fun hh => flush_not_amo hq hh.1, .refl _ _⟩)

theorem LInv.run (h : Run (WM.init ι M0) tr A) (hal : AmosAligned tr)
    (hno : ∀ k, ∀ q ∈ accepted k tr, q.ty = MT.WRITE → ¬ q.covers W) : LInv W M0 tr A := by
  induction h with
  | refl =>
    refine ⟨fun _ => by simp [init], [], .nil _, fun _ => rfl, ?_⟩
    intro a b hab
    have : a = [] := by simp at hab; exact hab.1
    subst this
    exact ⟨[], [], rfl, fun k => ⟨List.nil_prefix, List.nil_prefix⟩⟩
  | snoc h hs ih =>
    exact (ih hal.prefix fun k q hq => hno k q (by simp [hq])).step (fun k => count_run h k) hs hal hno

end Verif.WM

namespace Verif
variable {ι : Type} [DecidableEq ι] {p : ι → Params}

/-- **C66.**  Caches of any shapes on one memory; no WRITE request stores to word `W`
(atomic operations may).  There is one sequence of atomic operations on `W` that explains
what all processors see: each operation returns the word left by the previous one, memory
holds the word left by the last one; and at any time of the history an initial part of the
sequence contains every operation answered so far, with the word given in the response, and
only operations asked for so far, for each cache in its order.  So an operation answered
before another one is asked for comes first. -/
theorem C66_amos_linearised (wf : ∀ k, (p k).WF) {H H' : HSys ι p} {tr : List (HEv ι p)} (h0 : HStart H)
    (h : HetRun H tr H') (hv : HValid tr) {W : Nat}
    (hno : ∀ k, ∀ q ∈ WM.accepted k (visible tr), q.ty = MT.WRITE → ¬ q.covers W) :
    ∃ s : List (ι × AmoOp), AmoSeq (memWord H.mem W) (s.map (·.2)) (memWord H'.mem W) ∧
      WM.Linearised W (visible tr) s := by
  obtain ⟨A, h1, h2⟩ := C64_memory_model wf h0 h hv
  obtain ⟨s, h3, _, h5⟩ := (WM.LInv.run h1 (visible_aligned hv) hno).seq
  exact ⟨s, by rw [← h2]; exact h3, h5⟩

end Verif
