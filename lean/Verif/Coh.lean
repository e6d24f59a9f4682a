import Verif.Log
import Verif.SubWord

/-!
# Coherence of cache and memory with the flat memory

`Coh P L V SV`: `V` is the memory seen line by line (after all messages the cache
has emitted or will emit for the requests accepted so far), `SV` the
specification memory seen line by line.  Only the bits in `P` are constrained:
with one cache `P` is everything, with several caches `P` is a word that is
properly synchronised.
-/

namespace Verif
variable {p : Params}

/-- A set of bits of lines. -/
abbrev Bits (p : Params) := LAddr p → Nat → Prop

/-- All bits. Proof device; not in the source. -/
def Bits.all (p : Params) : Bits p := fun _ _ => True

variable {P : Bits p}

/-- Proof device; not in the source. -/
structure Coh (P : Bits p) (L : L1 p) (V SV : LAddr p → Line p) : Prop where
  hitc : ∀ w ∈ p.ways, ∀ j i, i < p.lineBits → P ⟨(L.ent w j).tag, j⟩ i →
    ((L.ent w j).val = true ∨ (L.ent w j).dty.getLsbD (i / 32) = true) →
    (L.dat w j).getLsbD i = (SV ⟨(L.ent w j).tag, j⟩).getLsbD i
  memc : ∀ la i, i < p.lineBits → P la i →
    (∀ w ∈ p.ways, (L.ent w la.idx).tag = la.tag → (L.ent w la.idx).dty.getLsbD (i / 32) = false) →
    (V la).getLsbD i = (SV la).getLsbD i
  uniq : ∀ w ∈ p.ways, ∀ w' ∈ p.ways, ∀ j, (L.ent w j).Present → (L.ent w' j).Present →
    (L.ent w j).tag = (L.ent w' j).tag → w = w'

/-- Only the arrays matter. -/
theorem Coh.congr {L L' : L1 p} {V SV} (h : Coh P L V SV) (he : L'.ent = L.ent) (hd : L'.dat = L.dat) :
    Coh P L' V SV := by
  cases L; cases L'; subst he hd; exact ⟨h.hitc, h.memc, h.uniq⟩

theorem Coh.uniqAt {L : L1 p} {V SV} (h : Coh P L V SV) (j : Idx p) : L.UniqAt j :=
  fun w hw w' hw' => h.uniq w hw w' hw' j

/-! ## Elementary changes -/

/-- The memory view after writing back the dirty words of a line. -/
def wbView (V : LAddr p → Line p) (a : LAddr p) (d : Dty p) (l : Line p) : LAddr p → Line p :=
  fun la => if la = a then merge (expand p d) (V la) l else V la

theorem wbView_zero (V : LAddr p → Line p) (a : LAddr p) (l : Line p) : wbView V a 0 l = V := by
  funext la; simp only [wbView, expand_zero, merge_zero, ite_self]

/-- Writing back the dirty words of an entry and then making it clean (and
possibly dropping it and giving it another tag). -/
theorem Coh.evict {L : L1 p} {V SV} (h : Coh P L V SV) {w : Way} (hw : w ∈ p.ways) (j : Idx p)
    (e' : Entry p) (hd : e'.dty = 0)
    (hv : e'.val = true → (L.ent w j).val = true ∧ e'.tag = (L.ent w j).tag) :
    Coh P { L with ent := setAt L.ent w j e' }
      (wbView V ⟨(L.ent w j).tag, j⟩ (L.ent w j).dty (L.dat w j)) SV := by
  refine ⟨?_, ?_, ?_⟩
  · intro w' hw' j' i hi hP hp
    by_cases hwj : w' = w ∧ j' = j
    · obtain ⟨rfl, rfl⟩ := hwj
      simp only [setAt_same] at hp hP ⊢
      rcases hp with hp | hp
      · rw [(hv hp).2] at hP ⊢; exact h.hitc w' hw' j' i hi hP (.inl (hv hp).1)
      · rw [hd] at hp; simp at hp
    · simp only [setAt_ne _ _ hwj] at hp hP ⊢
      exact h.hitc w' hw' j' i hi hP hp
  · intro la i hi hP hc
    simp only [wbView]
    split
    · rename_i hla
      rw [getLsbD_merge, getLsbD_expand]
      simp only [hi, decide_true, Bool.true_and]
      split
      · rename_i hb
        rw [hla]; exact h.hitc w hw j i hi (hla ▸ hP) (.inr hb)
      · rename_i hb
        apply h.memc la i hi hP
        intro w' hw' ht
        by_cases hww : w' = w
        · subst hww
          have : la.idx = j := by rw [hla]
          rw [this]; simpa using hb
        · have := hc w' hw'
          simp only [setAt_ne _ _ (fun hx : w' = w ∧ la.idx = j => hww hx.1)] at this
          exact this ht
    · rename_i hla
      apply h.memc la i hi hP
      intro w' hw' ht
      by_cases hwj : w' = w ∧ la.idx = j
      · obtain ⟨rfl, hj⟩ := hwj
        exfalso; apply hla
        rw [← hj, ht]
      · have := hc w' hw'
        simp only [setAt_ne _ _ hwj] at this
        exact this ht
  · intro w1 hw1 w2 hw2 j' h1 h2 ht
    have key : ∀ w', (setAt L.ent w j e' w' j').Present → (L.ent w' j').Present ∧
        (setAt L.ent w j e' w' j').tag = (L.ent w' j').tag := by
      intro w' hp
      by_cases hwj : w' = w ∧ j' = j
      · obtain ⟨rfl, rfl⟩ := hwj
        rw [setAt_same] at hp ⊢
        rcases hp with hp | hp
        · exact ⟨.inl (hv hp).1, (hv hp).2⟩
        · exact absurd hd hp
      · rw [setAt_ne _ _ hwj] at hp ⊢
        exact ⟨hp, rfl⟩
    have k1 := key w1 h1
    have k2 := key w2 h2
    simp only at ht
    rw [k1.2, k2.2] at ht
    exact h.uniq w1 hw1 w2 hw2 j' k1.1 k2.1 ht

/-- Refill of an entry. -/
theorem Coh.fill {L : L1 p} {V SV} (h : Coh P L V SV) {w : Way} (hw : w ∈ p.ways) (j : Idx p)
    (hoth : ∀ w' ∈ p.ways, w' ≠ w → (L.ent w' j).Present → (L.ent w' j).tag ≠ (L.ent w j).tag) :
    Coh P { L with
        ent := setAt L.ent w j ⟨true, (L.ent w j).dty, (L.ent w j).tag⟩
        dat := setAt L.dat w j (merge (~~~ expand p (L.ent w j).dty) (L.dat w j)
          (V ⟨(L.ent w j).tag, j⟩)) } V SV := by
  refine ⟨?_, ?_, ?_⟩
  · intro w' hw' j' i hi hP hp
    by_cases hwj : w' = w ∧ j' = j
    · obtain ⟨rfl, rfl⟩ := hwj
      simp only [setAt_same] at hp hP ⊢
      rw [refill_merge]
      split
      · rename_i hb; exact h.hitc w' hw' j' i hi hP (.inr hb)
      · rename_i hb
        apply h.memc _ i hi hP
        intro w2 hw2 ht
        by_cases hww : w2 = w'
        · subst hww; simpa using hb
        · cases hb2 : (L.ent w2 j').dty.getLsbD (i / 32)
          · rfl
          · exfalso
            refine hoth w2 hw2 hww (.inr ?_) ht
            intro h0; rw [h0] at hb2; simp at hb2
    · simp only [setAt_ne _ _ hwj] at hp hP ⊢
      exact h.hitc w' hw' j' i hi hP hp
  · intro la i hi hP hc
    apply h.memc la i hi hP
    intro w' hw' ht
    have := hc w' hw'
    by_cases hwj : w' = w ∧ la.idx = j
    · obtain ⟨rfl, hj⟩ := hwj
      simp only [hj, setAt_same] at this ht ⊢
      exact this ht
    · simp only [setAt_ne _ _ hwj] at this
      exact this ht
  · intro w1 hw1 w2 hw2 j' h1 h2 ht
    by_cases hjj : j' = j
    · subst hjj
      by_cases h1w : w1 = w
      · by_cases h2w : w2 = w
        · rw [h1w, h2w]
        · exfalso
          subst h1w
          simp only [setAt_same, setAt_ne _ _ (fun hx : w2 = w1 ∧ j' = j' => h2w hx.1)] at h1 h2 ht
          exact hoth w2 hw2 h2w h2 ht.symm
      · by_cases h2w : w2 = w
        · exfalso
          subst h2w
          simp only [setAt_same, setAt_ne _ _ (fun hx : w1 = w2 ∧ j' = j' => h1w hx.1)] at h1 h2 ht
          exact hoth w1 hw1 h1w h1 ht
        · simp only [setAt_ne _ _ (fun hx : w1 = w ∧ j' = j' => h1w hx.1),
            setAt_ne _ _ (fun hx : w2 = w ∧ j' = j' => h2w hx.1)] at h1 h2 ht
          exact h.uniq w1 hw1 w2 hw2 j' h1 h2 ht
    · simp only [setAt_ne _ _ (fun hx : _ ∧ j' = j => hjj hx.2)] at h1 h2 ht
      exact h.uniq w1 hw1 w2 hw2 j' h1 h2 ht

/-- The specification view after a store. -/
def putView (SV : LAddr p → Line p) (a : LAddr p) (off n v : Nat) : LAddr p → Line p :=
  fun la => if la = a then putBytes (SV a) off n v else SV la

/-- A store into a valid line, with dirty bits that cover it. -/
theorem Coh.store {L : L1 p} {V SV} (h : Coh P L V SV) {w : Way} (hw : w ∈ p.ways) (j : Idx p)
    (hv : (L.ent w j).val = true) (off n v : Nat) (d : Dty p)
    (hmono : ∀ b, (L.ent w j).dty.getLsbD b = true → d.getLsbD b = true)
    (hcov : ∀ i, i < p.lineBits → 8 * off ≤ i ∧ i < 8 * (off + n) → d.getLsbD (i / 32) = true) :
    Coh P { L with
        ent := setAt L.ent w j ⟨true, d, (L.ent w j).tag⟩
        dat := setAt L.dat w j (putBytes (L.dat w j) off n v) }
      V (putView SV ⟨(L.ent w j).tag, j⟩ off n v) := by
  refine ⟨?_, ?_, ?_⟩
  · intro w' hw' j' i hi hP hp
    by_cases hwj : w' = w ∧ j' = j
    · obtain ⟨rfl, rfl⟩ := hwj
      simp only [setAt_same, putView, if_true] at hp hP ⊢
      rw [getLsbD_putBytes _ _ _ _ _ hi, getLsbD_putBytes _ _ _ _ _ hi]
      split
      · rfl
      · exact h.hitc w' hw' j' i hi hP (.inl hv)
    · simp only [setAt_ne _ _ hwj] at hp hP ⊢
      rw [h.hitc w' hw' j' i hi hP hp]
      simp only [putView]
      rw [if_neg]
      intro he
      simp only [LAddr.mk.injEq] at he
      obtain ⟨he, rfl⟩ := he
      have hpr : (L.ent w' j').Present := by
        rcases hp with hp | hp
        · exact .inl hp
        · right; intro h0; rw [h0] at hp; simp at hp
      exact hwj ⟨h.uniq w' hw' w hw j' hpr (.inl hv) he, rfl⟩
  · intro la i hi hP hc
    simp only [putView]
    have hold : (∀ w' ∈ p.ways, (L.ent w' la.idx).tag = la.tag → (L.ent w' la.idx).dty.getLsbD (i / 32) = false) := by
      intro w' hw' ht
      have := hc w' hw'
      by_cases hwj : w' = w ∧ la.idx = j
      · obtain ⟨rfl, hj⟩ := hwj
        simp only [hj, setAt_same] at this ht ⊢
        have := this ht
        cases hb : (L.ent w' j).dty.getLsbD (i / 32)
        · rfl
        · rw [hmono _ hb] at this; cases this
      · simp only [setAt_ne _ _ hwj] at this
        exact this ht
    rw [h.memc la i hi hP hold]
    split
    · rename_i hla
      subst hla
      rw [getLsbD_putBytes _ _ _ _ _ hi, if_neg]
      intro hr
      have := hc w hw
      simp only [setAt_same] at this
      rw [hcov i hi hr] at this
      simp at this
    · rfl
  · intro w1 hw1 w2 hw2 j' h1 h2 ht
    have key : ∀ w', (setAt L.ent w j ⟨true, d, (L.ent w j).tag⟩ w' j').Present →
        (L.ent w' j').Present ∧
        (setAt L.ent w j ⟨true, d, (L.ent w j).tag⟩ w' j').tag = (L.ent w' j').tag := by
      intro w' hp
      by_cases hwj : w' = w ∧ j' = j
      · obtain ⟨rfl, rfl⟩ := hwj
        rw [setAt_same]; exact ⟨.inl hv, rfl⟩
      · rw [setAt_ne _ _ hwj] at hp ⊢
        exact ⟨hp, rfl⟩
    have k1 := key w1 h1
    have k2 := key w2 h2
    simp only at ht
    rw [k1.2, k2.2] at ht
    exact h.uniq w1 hw1 w2 hw2 j' k1.1 k2.1 ht

/-- A line that is not in the cache is up to date in memory. -/
theorem Coh.absent {L : L1 p} {V SV} (h : Coh P L V SV) (la : LAddr p)
    (hn : ∀ w ∈ p.ways, (L.ent w la.idx).Present → (L.ent w la.idx).tag ≠ la.tag) (i : Nat) (hi : i < p.lineBits)
    (hP : P la i) : (V la).getLsbD i = (SV la).getLsbD i := by
  apply h.memc la i hi hP
  intro w hw ht
  cases hb : (L.ent w la.idx).dty.getLsbD (i / 32)
  · rfl
  · exfalso
    refine hn w hw (.inr ?_) ht
    intro h0; rw [h0] at hb; simp at hb

/-- Memory and specification change an absent line in the same way (as far as
the bits in `P` are concerned). -/
theorem Coh.both {L : L1 p} {V SV} (h : Coh P L V SV) (la : LAddr p)
    (hn : ∀ w ∈ p.ways, (L.ent w la.idx).Present → (L.ent w la.idx).tag ≠ la.tag) (off n v v' : Nat)
    (hvv : ∀ i, 8 * off ≤ i ∧ i < 8 * (off + n) → P la i → v = v') :
    Coh P L (putView V la off n v) (putView SV la off n v') := by
  refine ⟨?_, ?_, h.uniq⟩
  · intro w hw j i hi hP hp
    rw [h.hitc w hw j i hi hP hp]
    simp only [putView]
    rw [if_neg]
    intro he
    have hj : la.idx = j := by rw [← he]
    have ht : (L.ent w la.idx).tag = la.tag := by rw [hj, ← he]
    refine hn w hw ?_ ht
    rw [hj]
    rcases hp with hp | hp
    · exact .inl hp
    · right; intro h0; rw [h0] at hp; simp at hp
  · intro lb i hi hP hc
    simp only [putView]
    split
    · rename_i hl; subst hl
      rw [getLsbD_putBytes _ _ _ _ _ hi, getLsbD_putBytes _ _ _ _ _ hi]
      split
      · rename_i hr; rw [hvv i hr hP]
      · exact h.absent _ hn i hi hP
    · exact h.memc lb i hi hP hc

/-- Only the bits in `P` matter. -/
theorem Coh.congr_bits {L L' : L1 p} {V V' SV SV'} (h : Coh P L V SV) (he : L'.ent = L.ent)
    (hd : ∀ w ∈ p.ways, ∀ j i, i < p.lineBits → P ⟨(L.ent w j).tag, j⟩ i →
      ((L.ent w j).val = true ∨ (L.ent w j).dty.getLsbD (i / 32) = true) →
      (L'.dat w j).getLsbD i = (L.dat w j).getLsbD i)
    (hV : ∀ la i, i < p.lineBits → P la i → (V' la).getLsbD i = (V la).getLsbD i)
    (hS : ∀ la i, i < p.lineBits → P la i → (SV' la).getLsbD i = (SV la).getLsbD i) :
    Coh P L' V' SV' := by
  refine ⟨?_, ?_, ?_⟩
  · intro w hw j i hi hP hp
    rw [he] at hP hp ⊢
    rw [hd w hw j i hi hP hp, hS _ _ hi hP]; exact h.hitc w hw j i hi hP hp
  · intro la i hi hP hc
    rw [he] at hc
    rw [hV _ _ hi hP, hS _ _ hi hP]; exact h.memc la i hi hP hc
  · rw [he]; exact h.uniq

end Verif
