import Verif.SpecDisc
import Verif.Word

/-!
# Lemmas on histories of the programmer's memory model
-/

set_option linter.unusedSectionVars false

namespace Verif.WM
variable {ι : Type} [DecidableEq ι] {k : ι} {W : Nat} {M : ByteMem} {tr : List (Ev ι)}

@[simp] theorem accepted_append (k : ι) (a b : List (Ev ι)) : accepted k (a ++ b) = accepted k a ++ accepted k b := by
  simp [accepted]
@[simp] theorem responses_append (k : ι) (a b : List (Ev ι)) :
    responses k (a ++ b) = responses k a ++ responses k b := by
  simp [responses]
@[simp] theorem accepted_nil (k : ι) : accepted k ([] : List (Ev ι)) = [] := rfl
@[simp] theorem responses_nil (k : ι) : responses k ([] : List (Ev ι)) = [] := rfl
@[simp] theorem accepted_acc (k : ι) (q : Req) (b : List (Ev ι)) : accepted k (.acc k q :: b) = q :: accepted k b := by
  simp [accepted]
theorem accepted_acc_other {k k' : ι} (h : k' ≠ k) (q : Req) (b : List (Ev ι)) :
    accepted k (.acc k' q :: b) = accepted k b := by
  simp [accepted, h]
@[simp] theorem accepted_resp (k k' : ι) (r : Resp) (b : List (Ev ι)) : accepted k (.resp k' r :: b) = accepted k b := by
  simp [accepted]
@[simp] theorem responses_acc (k k' : ι) (q : Req) (b : List (Ev ι)) : responses k (.acc k' q :: b) = responses k b := by
  simp [responses]
@[simp] theorem responses_resp (k : ι) (r : Resp) (b : List (Ev ι)) :
    responses k (.resp k r :: b) = r :: responses k b := by
  simp [responses]
theorem responses_resp_other {k k' : ι} (h : k' ≠ k) (r : Resp) (b : List (Ev ι)) :
    responses k (.resp k' r :: b) = responses k b := by
  simp [responses, h]

theorem latest_append (M : ByteMem) (a b : List (Ev ι)) : latest M (a ++ b) = latest (latest M a) b := by
  induction a generalizing M with
  | nil => rfl
  | cons e a ih => cases e <;> simp only [List.cons_append, latest, ih]

theorem latest_acc (M : ByteMem) (a : List (Ev ι)) (k : ι) (q : Req) :
    latest M (a ++ [.acc k q]) = (flat (latest M a) q).1 := by
  rw [latest_append]; rfl

theorem latest_resp (M : ByteMem) (a : List (Ev ι)) (k : ι) (r : Resp) : latest M (a ++ [.resp k r]) = latest M a := by
  rw [latest_append]; rfl

/-- The `n`-th accepted request of `k` in the history. -/
theorem accepted_split {k : ι} {tr : List (Ev ι)} {n : Nat} {q : Req} (h : (accepted k tr)[n]? = some q) :
    ∃ a b, tr = a ++ .acc k q :: b ∧ (accepted k a).length = n := by
  induction tr generalizing n with
  | nil => simp at h
  | cons e tr ih =>
    have go : ∀ (m : Nat), (accepted k tr)[m]? = some q → (accepted k [e]).length + m = n →
        ∃ a b, e :: tr = a ++ .acc k q :: b ∧ (accepted k a).length = n := by
      intro m h1 h2
      obtain ⟨a, b, h3, h4⟩ := ih h1
      refine ⟨e :: a, b, by rw [h3]; rfl, ?_⟩
      rw [show e :: a = [e] ++ a from rfl, accepted_append, List.length_append, h4, h2]
    cases e with
    | resp k' r => exact go n (by simpa using h) (by simp)
    | acc k' q' =>
      by_cases hk : k' = k
      · subst hk
        rw [accepted_acc] at h
        cases n with
        | zero =>
          simp only [List.getElem?_cons_zero, Option.some.injEq] at h
          subst h
          exact ⟨[], tr, rfl, rfl⟩
        | succ m => exact go m (by simpa using h) (by simp; omega)
      · exact go n (by rwa [accepted_acc_other hk] at h) (by rw [accepted_acc_other hk]; simp)

theorem split_unique {k : ι} {a b a' b' : List (Ev ι)} {q q' : Req} (h : a ++ .acc k q :: b = a' ++ .acc k q' :: b')
    (hn : (accepted k a).length = (accepted k a').length) : a = a' ∧ q = q' ∧ b = b' := by
  induction a generalizing a' with
  | nil =>
    cases a' with
    | nil => simp at h; exact ⟨rfl, h.1, h.2⟩
    | cons e a' =>
      simp only [List.nil_append, List.cons_append, List.cons.injEq] at h
      rw [← h.1] at hn
      simp at hn
  | cons e a ih =>
    cases a' with
    | nil =>
      simp only [List.nil_append, List.cons_append, List.cons.injEq] at h
      rw [h.1] at hn
      simp at hn
    | cons e' a' =>
      simp only [List.cons_append, List.cons.injEq] at h
      obtain ⟨rfl, h⟩ := h
      rw [show e :: a = [e] ++ a from rfl, show e :: a' = [e] ++ a' from rfl, accepted_append, accepted_append,
        List.length_append, List.length_append] at hn
      obtain ⟨rfl, h1, h2⟩ := ih h (by omega)
      exact ⟨rfl, h1, h2⟩

/-- Where the last event of an extended history is in a split. -/
theorem snoc_split {tr a b : List (Ev ι)} {e x : Ev ι} (h : tr ++ [e] = a ++ x :: b) :
    (b = [] ∧ x = e ∧ a = tr) ∨ ∃ b', b = b' ++ [e] ∧ tr = a ++ x :: b' := by
  rcases List.eq_nil_or_concat b with rfl | ⟨b', y, rfl⟩
  · left
    have := List.append_inj' h rfl
    simp only [List.cons.injEq, and_true] at this
    exact ⟨rfl, this.2.symm, this.1.symm⟩
  · right
    rw [List.concat_eq_append] at h ⊢
    have h' : tr ++ [e] = (a ++ x :: b') ++ [y] := by simp [h]
    have := List.append_inj' h' rfl
    simp only [List.cons.injEq, and_true] at this
    exact ⟨b', by rw [this.2], this.1⟩

theorem Released.mono {k : ι} {a b : List (Ev ι)} (c : List (Ev ι)) (h : Released k W a b) : Released k W a (b ++ c) := by
  obtain ⟨b1, f, b2, rfl, h1, h2⟩ := h
  refine ⟨b1, f, b2 ++ c, by simp, h1, ?_⟩
  rw [← List.append_assoc a, responses_append _ _ c, List.length_append]
  omega

theorem UpToDate.others (h : UpToDate k W tr) : OthersReleased k W tr := by
  intro k' hk a q b htr hq
  obtain ⟨c, i, d, rfl, _, h2⟩ := h k' hk a q b htr hq
  exact h2.mono (.acc k i :: d)

/-- A store that has not been answered is not released. -/
theorem not_released {n : Nat} {q : Req} (hq : (accepted k tr)[n]? = some q)
    (h : ∀ m f, n ≤ m → m < (responses k tr).length → (accepted k tr)[m]? = some f → ¬ f.releases W) :
    ∃ a b, tr = a ++ .acc k q :: b ∧ ¬ Released k W a (.acc k q :: b) := by
  obtain ⟨a, b, rfl, h2⟩ := accepted_split hq
  refine ⟨a, b, rfl, ?_⟩
  rintro ⟨c, f, d, h3, h4, h5⟩
  refine h (accepted k (a ++ c)).length f ?_ h5 ?_ h4
  · simp [h2]
  · rw [h3, ← List.append_assoc, accepted_append, accepted_acc, List.getElem?_append_right (Nat.le_refl _)]
    simp

theorem UpToDate.shrink {e : Ev ι} (h : UpToDate k W (tr ++ [e])) (he : ∀ i, e = .acc k i → ¬ i.acquires W) :
    UpToDate k W tr := by
  intro k' hk a q b htr hq
  obtain ⟨c, i, d, h1, h2, h3⟩ := h k' hk a q (b ++ [e]) (by rw [htr]; simp) hq
  rcases snoc_split h1 with ⟨_, h4, _⟩ | ⟨d', rfl, h4⟩
  · exact absurd h2 (he i h4.symm)
  · exact ⟨c, i, d', h4, h2, h3⟩

theorem UpToDate.grow {e : Ev ι} (h : UpToDate k W tr) (he : ∀ k' q, e = .acc k' q → k' ≠ k → ¬ q.stores W) :
    UpToDate k W (tr ++ [e]) := by
  intro k' hk a q b htr hq
  rcases snoc_split htr with ⟨_, h4, _⟩ | ⟨b', rfl, h4⟩
  · exact absurd hq (he k' q h4.symm hk)
  · obtain ⟨c, i, d, h1, h2, h3⟩ := h k' hk a q b' h4 hq
    exact ⟨c, i, d ++ [e], by rw [h1]; simp, h2, h3⟩

theorem UpToDate.grow' {b : List (Ev ι)} (h : UpToDate k W tr)
    (hb : ∀ k' q c d, b = c ++ .acc k' q :: d → k' ≠ k → ¬ q.stores W) : UpToDate k W (tr ++ b) := by
  induction b generalizing tr with
  | nil => simpa using h
  | cons e b ih =>
    rw [show tr ++ e :: b = (tr ++ [e]) ++ b by simp]
    refine ih (h.grow fun k' q he => hb k' q [] b (by rw [he]; rfl)) ?_
    intro k' q c d hbe
    exact hb k' q (e :: c) d (by rw [hbe]; rfl)

theorem Disciplined.prefix {a b : List (Ev ι)} (h : Disciplined W (a ++ b)) : Disciplined W a := by
  intro k c q d hc
  exact h k c q (d ++ b) (by rw [hc]; simp)

theorem AmosAligned.prefix {a b : List (Ev ι)} (h : AmosAligned (a ++ b)) : AmosAligned a := by
  intro k q hq
  exact h k q (by simp [hq])

/-! ## Words of memory -/

theorem writeLE_untouched {M : ByteMem} {a n v : Nat} (h : ¬ (a < 4 * W + 4 ∧ 4 * W < a + n)) :
    AgreeW W (writeLE M a n v) M := by
  intro x hx
  simp only [writeLE]
  rw [if_neg]
  omega

theorem writeLE_agree {M M' : ByteMem} (h : AgreeW W M M') (a n v : Nat) : AgreeW W (writeLE M a n v) (writeLE M' a n v) := by
  intro x hx
  simp only [writeLE]
  split
  · rfl
  · exact h x hx

theorem read_not_amo {t : MType} (h : t = MT.READ) : ¬ MT.isAmo t = true := by subst h; decide
theorem write_not_amo {t : MType} (h : t = MT.WRITE) : ¬ MT.isAmo t = true := by subst h; decide
theorem inv_not_amo {t : MType} (h : t = MT.INV) : ¬ MT.isAmo t = true := by subst h; decide
theorem flush_not_amo {t : MType} (h : t = MT.FLUSH) : ¬ MT.isAmo t = true := by subst h; decide
theorem amo_not_read {t : MType} (h : MT.isAmo t = true) : t ≠ MT.READ := fun e => read_not_amo e h
theorem amo_not_write {t : MType} (h : MT.isAmo t = true) : t ≠ MT.WRITE := fun e => write_not_amo e h

theorem flat_write {M : ByteMem} {q : Req} (h : q.ty = MT.WRITE) : flat M q = (writeLE M q.addr q.bytes q.data, 0) := by
  simp only [flat, h]; rfl

theorem flat_read {M : ByteMem} {q : Req} (h : q.ty = MT.READ) : flat M q = (M, readLE M q.addr q.bytes) := by
  simp only [flat, h]; rfl

theorem flat_amo {M : ByteMem} {q : Req} (h : MT.isAmo q.ty = true) : flat M q =
    (writeLE M q.addr 4 (amoFun q.ty (BitVec.ofNat 32 (readLE M q.addr 4)) (BitVec.ofNat 32 q.data)).toNat,
      readLE M q.addr 4) := by
  simp only [flat]
  rw [if_neg (amo_not_read h), if_neg (amo_not_write h), if_pos h]

theorem flat_other {M : ByteMem} {q : Req} (h1 : q.ty ≠ MT.READ) (h2 : q.ty ≠ MT.WRITE) (h3 : ¬ MT.isAmo q.ty = true) :
    flat M q = (M, 0) := by
  simp only [flat]
  rw [if_neg h1, if_neg h2, if_neg h3]

theorem flat_untouched {M : ByteMem} {q : Req} (hal : MT.isAmo q.ty = true → 4 ∣ q.addr) (h : ¬ q.stores W) :
    AgreeW W (flat M q).1 M := by
  by_cases hr : q.ty = MT.READ
  · rw [flat_read hr]; exact .refl _ _
  · by_cases hw : q.ty = MT.WRITE
    · rw [flat_write hw]
      exact writeLE_untouched fun hc => h (.inl ⟨hw, hc⟩)
    · by_cases ha : MT.isAmo q.ty = true
      · rw [flat_amo ha]
        refine writeLE_untouched fun hc => h (.inr ⟨ha, ?_⟩)
        have := hal ha
        omega
      · rw [flat_other hr hw ha]; exact .refl _ _

theorem flat_agree {M M' : ByteMem} (h : AgreeW W M M') {q : Req} (hal : MT.isAmo q.ty = true → 4 ∣ q.addr)
    (hs : q.stores W) : AgreeW W (flat M q).1 (flat M' q).1 := by
  rcases hs with ⟨hw, _⟩ | ⟨ha, h4⟩
  · rw [flat_write hw, flat_write hw]
    exact writeLE_agree h _ _ _
  · rw [flat_amo ha, flat_amo ha, readLE_word h h4 (hal ha)]
    exact writeLE_agree h _ _ _

theorem latest_untouched {a b : List (Ev ι)} (hal : AmosAligned (a ++ b))
    (h : ∀ k q c d, b = c ++ .acc k q :: d → ¬ q.stores W) : AgreeW W (latest M (a ++ b)) (latest M a) := by
  induction b generalizing a with
  | nil => simpa using AgreeW.refl _ _
  | cons e b ih =>
    have e1 : a ++ e :: b = (a ++ [e]) ++ b := by simp
    rw [e1]
    refine (ih (by rwa [← e1]) fun k q c d hb => h k q (e :: c) d (by rw [hb]; rfl)).trans ?_
    cases e with
    | resp k r => rw [latest_resp]; exact .refl _ _
    | acc k q =>
      rw [latest_acc]
      exact flat_untouched (hal k q (by simp)) (h k q [] b rfl)

end Verif.WM
