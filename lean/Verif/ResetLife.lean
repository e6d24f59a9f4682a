import Verif.SpecReset
import Verif.PropsPass

/-!
# One word through the lives of a cache

The proof of `Recovers` on the machine with crashes.
-/

set_option linter.unusedSectionVars false

namespace Verif.WM
variable {ι : Type} [DecidableEq ι]

theorem perform_take_succ {M : ByteMem} {L : List Req} {n : Nat} {q : Req} (h : L[n]? = some q) :
    perform M (L.take (n + 1)) = (flat (perform M (L.take n)) q).1 := by
  simp only [perform, List.take_add_one, h, Option.toList_some, List.foldl_append, List.foldl_cons, List.foldl_nil]

/-! ## The life of one cache -/

/-- Word `W` of a cache that has performed `n` of the requests `L`, in memory `M`; memory has
the word as the first `c` of them left it. Proof device; not in the source. -/
structure OW (m : ByteMem) (L : List Req) (W c n : Nat) (cp : Copy) (v M : ByteMem) : Prop where
  copy : cp ≠ .none → AgreeW W v (perform m (L.take n))
  clean : cp ≠ .dirty → AgreeW W M (perform m (L.take n))
  mem : AgreeW W M (perform m (L.take c))
  dur : ∀ i f, i < n → L[i]? = some f → f.releases W → i < c

variable {m : ByteMem} {L : List Req} {W c n : Nat} {cp cp' : Nat → Copy} {v v' M M' : ByteMem} {pr : Option (Req × Resp)}

theorem OW.own (h : OW m L W c n (cp W) v M) (he : Eff cp v M cp' v' M' pr)
    (hq : ∀ q r, pr = some (q, r) → L[n]? = some q) (hal : ∀ q ∈ L, MT.isAmo q.ty = true → 4 ∣ q.addr) :
    (∃ c', OW m L W c' (n + (pr.map (·.2)).toList.length) (cp' W) v' M') ∧
    ∀ q r, pr = some (q, r) → q.touches W → Sees W (perform m (L.take n)) q r := by
  cases he with
  | idle => exact ⟨⟨c, h⟩, nofun⟩
  | fetch Bw hb =>
    refine ⟨⟨c, ?_, ?_, h.mem, h.dur⟩, nofun⟩
    · by_cases hW : Bw W = true
      · intro _
        refine AgreeW.trans (M' := M) ?_ (h.clean (by rw [hb W hW]; simp))
        intro x hx; simp [hx, hW]
      · simp only [hW]
        intro hc
        refine AgreeW.trans ?_ (h.copy hc)
        intro x hx; simp [hx, hW]
    · by_cases hW : Bw W = true
      · exact fun _ => h.clean (by rw [hb W hW]; simp)
      · simp only [hW]; exact h.clean
  | drop Bw hb =>
    refine ⟨⟨c, ?_, ?_, h.mem, h.dur⟩, nofun⟩
    · dsimp only
      split
      · intro hc; exact absurd rfl hc
      · exact h.copy
    · dsimp only
      split
      · rename_i hW; exact fun _ => h.clean (by rw [hb W hW]; simp)
      · exact h.clean
  | save Bw hb =>
    by_cases hW : Bw W = true
    · have hv := h.copy (by rw [hb W hW]; simp)
      have hm : AgreeW W (fun x => if Bw (x / 4) then v x else M x) (perform m (L.take n)) := by
        refine AgreeW.trans (M' := v) ?_ hv
        intro x hx; simp [hx, hW]
      exact ⟨⟨n, fun _ => hv, fun _ => hm, hm, fun i f hi _ _ => hi⟩, nofun⟩
    · have hm : AgreeW W (fun x => if Bw (x / 4) then v x else M x) M := by
        intro x hx; simp [hx, hW]
      simp only [hW]
      exact ⟨⟨c, h.copy, fun hc => hm.trans (h.clean hc), hm.trans h.mem, h.dur⟩, nofun⟩
  | read q ty hc =>
    have hL := hq q _ rfl
    have e : perform m (L.take (n + 1)) = perform m (L.take n) := by rw [perform_take_succ hL]; simp [flat, ty]
    refine ⟨⟨c, ?_, ?_, h.mem, ?_⟩, ?_⟩
    · show _ → AgreeW W v (perform m (L.take (n + 1))); rw [e]; exact h.copy
    · show _ → AgreeW W M (perform m (L.take (n + 1))); rw [e]; exact h.clean
    · intro i f hi hf hr
      by_cases hin : i = n
      · subst hin; rw [hL] at hf; cases hf
        rcases hr with hr | ⟨hr, _⟩
        · rw [ty] at hr; exact absurd hr (by decide)
        · rw [ty] at hr; exact absurd hr (by decide)
      · exact h.dur i f (by simp at hi; omega) hf hr
    · intro q' r he ht
      simp only [Option.some.injEq, Prod.mk.injEq] at he
      obtain ⟨rfl, rfl⟩ := he
      have hcov : q.covers W := by
        rcases ht with (⟨h1, _⟩ | ⟨h1, _⟩) | (⟨_, h1⟩ | ⟨h1, _⟩)
        · rw [ty] at h1; exact absurd h1 (by decide)
        · rw [ty] at h1; exact absurd h1 (by decide)
        · exact h1
        · rw [ty] at h1; exact absurd h1 (by decide)
      exact (sees_read ty).congr (h.copy (hc W hcov))
  | write q ty hc =>
    have hL := hq q _ rfl
    have e : perform m (L.take (n + 1)) = writeLE (perform m (L.take n)) q.addr q.bytes q.data := by
      rw [perform_take_succ hL, flat_write ty]
    refine ⟨⟨c, ?_, ?_, h.mem, ?_⟩, ?_⟩
    · show _ → AgreeW W _ (perform m (L.take (n + 1))); rw [e]
      dsimp only
      intro hc'
      refine writeLE_agree (h.copy ?_) _ _ _
      by_cases hW : q.covers W
      · exact hc W hW
      · rw [if_neg hW] at hc'; exact hc'
    · show _ → AgreeW W M (perform m (L.take (n + 1))); rw [e]
      dsimp only
      intro hc'
      by_cases hW : q.covers W
      · rw [if_pos hW] at hc'; exact absurd rfl hc'
      · rw [if_neg hW] at hc'
        exact (h.clean hc').trans (writeLE_untouched hW).symm
    · intro i f hi hf hr
      by_cases hin : i = n
      · subst hin; rw [hL] at hf; cases hf
        rcases hr with hr | ⟨hr, _⟩
        · rw [ty] at hr; exact absurd hr (by decide)
        · rw [ty] at hr; exact absurd hr (by decide)
      · exact h.dur i f (by simp at hi; omega) hf hr
    · intro q' r he ht
      simp only [Option.some.injEq, Prod.mk.injEq] at he
      obtain ⟨rfl, rfl⟩ := he
      exact ⟨rfl, rfl, rfl, fun hx => by rw [ty] at hx; exact absurd hx (by decide),
        fun hx => by rw [ty] at hx; exact absurd hx (by decide)⟩
  | amo q ty hc =>
    have hL := hq q _ rfl
    have ha := hal q (List.mem_of_getElem? hL)
    have e : perform m (L.take (n + 1)) = (flat (perform m (L.take n)) q).1 := perform_take_succ hL
    have hsee : q.touches W → q.addr / 4 = W := by
      rintro ((⟨h1, _⟩ | ⟨_, h1⟩) | (⟨h1, _⟩ | ⟨_, h1⟩))
      · exact absurd ty (write_not_amo h1)
      · exact h1
      · rw [h1] at ty; exact absurd ty (by decide)
      · exact h1
    constructor
    · by_cases hW : q.addr / 4 = W
      · have hn : cp W = .none := by rw [← hW]; exact hc
        have hm : AgreeW W (flat M q).1 (perform m (L.take (n + 1))) := by
          rw [e]
          exact flat_congr (h.clean (by rw [hn]; simp)) fun _ => by have := ha ty; omega
        exact ⟨n + 1, fun hx => absurd hn hx, fun _ => hm, hm, fun i f hi _ _ => hi⟩
      · have hns : ¬ q.stores W := fun hs => hW (hsee (.inl hs))
        have e' : AgreeW W (perform m (L.take (n + 1))) (perform m (L.take n)) := by
          rw [e]; exact flat_elsewhere hns ha
        have hm : AgreeW W (flat M q).1 M := flat_elsewhere hns ha
        refine ⟨c, fun hx => (h.copy hx).trans e'.symm, fun hx => hm.trans ((h.clean hx).trans e'.symm), hm.trans h.mem, ?_⟩
        intro i f hi hf hr
        by_cases hin : i = n
        · subst hin; rw [hL] at hf; cases hf
          rcases hr with hr | ⟨_, hr⟩
          · exact absurd ty (flush_not_amo hr)
          · exact absurd hr hW
        · exact h.dur i f (by simp at hi; omega) hf hr
    · intro q' r he ht
      simp only [Option.some.injEq, Prod.mk.injEq] at he
      obtain ⟨rfl, rfl⟩ := he
      have hW := hsee ht
      have hn : cp W = .none := by rw [← hW]; exact hc
      have h4 : q.addr = 4 * W := by have := ha ty; omega
      refine ⟨rfl, rfl, rfl, fun hx => ?_, fun _ => ?_⟩
      · rw [hx] at ty; exact absurd ty (by decide)
      · simp only
        rw [h4]
        exact readLE_word (h.clean (by rw [hn]; simp)) (by omega) ⟨W, rfl⟩
  | inv q ty =>
    have hL := hq q _ rfl
    have e : perform m (L.take (n + 1)) = perform m (L.take n) := by
      rw [perform_take_succ hL, flat_other (by rw [ty]; decide) (by rw [ty]; decide) (by rw [ty]; decide)]
    refine ⟨⟨c, ?_, ?_, h.mem, ?_⟩, ?_⟩
    · show _ → AgreeW W v (perform m (L.take (n + 1))); rw [e]
      dsimp only
      split
      · intro hc; exact absurd rfl hc
      · exact h.copy
    · show _ → AgreeW W M (perform m (L.take (n + 1))); rw [e]
      dsimp only
      split
      · rename_i hcl; exact fun _ => h.clean (by rw [hcl]; simp)
      · exact h.clean
    · intro i f hi hf hr
      by_cases hin : i = n
      · subst hin; rw [hL] at hf; cases hf
        rcases hr with hr | ⟨hr, _⟩
        · rw [ty] at hr; exact absurd hr (by decide)
        · rw [ty] at hr; exact absurd hr (by decide)
      · exact h.dur i f (by simp at hi; omega) hf hr
    · intro q' r he ht
      simp only [Option.some.injEq, Prod.mk.injEq] at he
      obtain ⟨rfl, rfl⟩ := he
      exact ⟨rfl, rfl, rfl, fun hx => by rw [ty] at hx; exact absurd hx (by decide),
        fun hx => by rw [ty] at hx; exact absurd hx (by decide)⟩
  | flush q ty hc =>
    have hL := hq q _ rfl
    have e : perform m (L.take (n + 1)) = perform m (L.take n) := by
      rw [perform_take_succ hL, flat_other (by rw [ty]; decide) (by rw [ty]; decide) (by rw [ty]; decide)]
    have hm : AgreeW W M (perform m (L.take (n + 1))) := by rw [e]; exact h.clean (hc W)
    refine ⟨⟨n + 1, ?_, fun _ => hm, hm, fun i f hi _ _ => hi⟩, ?_⟩
    · show _ → AgreeW W v (perform m (L.take (n + 1))); rw [e]; exact h.copy
    · intro q' r he ht
      simp only [Option.some.injEq, Prod.mk.injEq] at he
      obtain ⟨rfl, rfl⟩ := he
      exact ⟨rfl, rfl, rfl, fun hx => by rw [ty] at hx; exact absurd hx (by decide),
        fun hx => by rw [ty] at hx; exact absurd hx (by decide)⟩

/-- A step of a cache that does not store to `W`. -/
theorem Eff.stranger (he : Eff cp v M cp' v' M' pr) (hd : cp W ≠ .dirty)
    (hq : ∀ q r, pr = some (q, r) → ¬ q.stores W ∧ (MT.isAmo q.ty = true → 4 ∣ q.addr)) :
    cp' W ≠ .dirty ∧ AgreeW W M' M := by
  cases he with
  | idle => exact ⟨hd, .refl _ _⟩
  | fetch Bw hb => exact ⟨by dsimp only; split; simp; exact hd, .refl _ _⟩
  | drop Bw hb => exact ⟨by dsimp only; split; simp; exact hd, .refl _ _⟩
  | save Bw hb =>
    refine ⟨by dsimp only; split; simp; exact hd, ?_⟩
    intro x hx
    simp only; rw [hx, if_neg]
    exact fun hD => hd (hb W hD)
  | read q ty hc => exact ⟨hd, .refl _ _⟩
  | write q ty hc =>
    refine ⟨?_, .refl _ _⟩
    dsimp only
    rw [if_neg fun hD => (hq q _ rfl).1 (.inl ⟨ty, hD⟩)]
    exact hd
  | amo q ty hc => exact ⟨hd, flat_elsewhere (hq q _ rfl).1 (hq q _ rfl).2⟩
  | inv q ty => exact ⟨by dsimp only; split; simp; exact hd, .refl _ _⟩
  | flush q ty hc => exact ⟨hd, .refl _ _⟩

/-! ## Lives -/

theorem cByLife_append (g : ι → Nat) (a b : List (CEv ι)) :
    cByLife g (a ++ b) = cByLife g a ++ cByLife (cLives g a) b := by
  induction a generalizing g with
  | nil => rfl
  | cons e a ih => cases e <;> simp only [List.cons_append, cByLife, cLives, ih]

theorem cLives_append (g : ι → Nat) (a b : List (CEv ι)) : cLives g (a ++ b) = cLives (cLives g a) b := by
  induction a generalizing g with
  | nil => rfl
  | cons e a ih => cases e <;> simp only [List.cons_append, cLives, ih]

theorem cByLife_evs (g : ι → Nat) (ev : List (Ev ι)) :
    cByLife g (ev.map .ev) = ev.map (Ev.rename fun k => (k, g k)) := by
  induction ev with
  | nil => rfl
  | cons e ev ih => exact congrArg (_ :: ·) ih

theorem cLives_evs (g : ι → Nat) (ev : List (Ev ι)) : cLives g (ev.map .ev) = g := by
  induction ev with
  | nil => rfl
  | cons e ev ih => exact ih

/-- The machine `A'` with one cache per life follows the machine `A` with crashes. Proof device; not in the source. -/
structure LR (M0 : ByteMem) (tr : List (CEv ι)) (A : State ι) (A' : State (ι × Nat)) : Prop where
  run : Run (init (ι × Nat) M0) (cByLife (fun _ => 0) tr) A'
  mem : A'.mem = A.mem
  cur : ∀ k, A'.loc (k, cLives (fun _ => 0) tr k) = A.loc k
  fut : ∀ k n, cLives (fun _ => 0) tr k < n → A'.loc (k, n) = .empty ∧
    accepted (k, n) (cByLife (fun _ => 0) tr) = [] ∧ responses (k, n) (cByLife (fun _ => 0) tr) = []

/-- The requests `L`: only cache `k` stores to `W`. Proof device; not in the source. -/
structure Owned (L : ι × Nat → List Req) (k : ι) (W : Nat) : Prop where
  others : ∀ x : ι × Nat, x.1 ≠ k → ∀ q ∈ L x, ¬ q.stores W
  aligned : ∀ x, ∀ q ∈ L x, MT.isAmo q.ty = true → 4 ∣ q.addr

/-- The invariant: `N` is the life cache `k` is in. Proof device; not in the source. -/
structure RI (L : ι × Nat → List Req) (k : ι) (W : Nat) (M0 : ByteMem) (tr : List (Ev (ι × Nat))) (A : State (ι × Nat))
    (N : Nat) (m : Nat → ByteMem) (c : Nat → Nat) : Prop where
  first : AgreeW W (m 0) M0
  next : ∀ n, n < N → AgreeW W (m (n + 1)) (perform (m n) ((L (k, n)).take (c n)))
  cur : OW (m N) (L (k, N)) W (c N) (outs (k, N) tr A).length ((A.loc (k, N)).copy W) (A.loc (k, N)).val A.mem
  old : ∀ n, n < N → ∀ i f, i < (outs (k, n) tr A).length → (L (k, n))[i]? = some f → f.releases W → i < c n
  right : ∀ n i q r, (L (k, n))[i]? = some q → (outs (k, n) tr A)[i]? = some r → q.touches W →
    Sees W (perform (m n) ((L (k, n)).take i)) q r
  others : ∀ x : ι × Nat, x.1 ≠ k → (A.loc x).copy W ≠ .dirty

theorem accepted_at_other {κ : Type} [DecidableEq κ] {x y : κ} (h : y ≠ x) (e : List LEv) : accepted y (e.map (LEv.at x)) = [] := by
  induction e with
  | nil => rfl
  | cons l e ih =>
    have : accepted y ((l :: e).map (LEv.at x)) = accepted y [l.at x] ++ accepted y (e.map (LEv.at x)) := by
      rw [← accepted_append]; rfl
    rw [this, ih]
    cases l
    · simp [LEv.at, accepted, Ne.symm h]
    · simp [LEv.at, accepted]

theorem responses_at_other {κ : Type} [DecidableEq κ] {x y : κ} (h : y ≠ x) (e : List LEv) : responses y (e.map (LEv.at x)) = [] := by
  induction e with
  | nil => rfl
  | cons l e ih =>
    have : responses y ((l :: e).map (LEv.at x)) = responses y [l.at x] ++ responses y (e.map (LEv.at x)) := by
      rw [← responses_append]; rfl
    rw [this, ih]
    cases l
    · simp [LEv.at, responses]
    · simp [LEv.at, responses, Ne.symm h]

theorem rename_at (g : ι → Nat) (k : ι) (e : List LEv) :
    (e.map (LEv.at k)).map (Ev.rename fun k => (k, g k)) = e.map (LEv.at (k, g k)) := by
  rw [List.map_map]
  congr 1
  funext l; cases l <;> rfl

/-- A step of the current life. -/
theorem RI.step {L : ι × Nat → List Req} {k : ι} {W : Nat} {M0 : ByteMem} {tr : List (Ev (ι × Nat))} {A : State (ι × Nat)}
    {N : Nat} {m : Nat → ByteMem} {c : Nat → Nat} (h : RI L k W M0 tr A N m c) (hO : Owned L k W)
    (hL : ∀ x, accepted x tr <+: L x) {x : ι × Nat} (hx : x.1 = k → x = (k, N))
    {ev : List (Ev (ι × Nat))} {B : State (ι × Nat)} {pr : Option (Req × Resp)} (s : StepEff tr ev A B x pr) :
    ∃ c', RI L k W M0 (tr ++ ev) B N m c' := by
  have hq : ∀ q r, pr = some (q, r) → (L x)[(outs x tr A).length]? = some q := by
    intro q r hp
    obtain ⟨l, hl⟩ := hL x
    have h1 := s.next q r hp
    rw [← hl, List.getElem?_append_left (List.getElem?_eq_some_iff.1 h1).1]
    exact h1
  have hout : ∀ y, y ≠ x → outs y (tr ++ ev) B = outs y tr A := fun y hy => by rw [s.outs y, if_neg hy, List.append_nil]
  by_cases hk : x.1 = k
  · have hxe := hx hk
    subst hxe
    have hn : ∀ n, n ≠ N → outs (k, n) (tr ++ ev) B = outs (k, n) tr A := fun n hn => hout _ (by simpa using hn)
    have hN : outs (k, N) (tr ++ ev) B = outs (k, N) tr A ++ (pr.map (·.2)).toList := by rw [s.outs, if_pos rfl]
    obtain ⟨⟨c', o⟩, hsee⟩ := h.cur.own s.eff hq (hO.aligned _)
    refine ⟨fun n => if n = N then c' else c n, h.first, ?_, ?_, ?_, ?_, ?_⟩
    · intro n hn'
      rw [if_neg (by omega)]; exact h.next n hn'
    · rw [if_pos rfl, hN, List.length_append]; exact o
    · intro n hn'
      rw [hn n (by omega), if_neg (by omega)]; exact h.old n hn'
    · intro n i q r h1 h2 h3
      by_cases he : n = N
      · subst he
        rw [hN] at h2
        by_cases hi : i < (outs (k, n) tr A).length
        · rw [List.getElem?_append_left hi] at h2
          exact h.right n i q r h1 h2 h3
        · rw [List.getElem?_append_right (by omega)] at h2
          cases pr with
          | none => simp at h2
          | some y =>
            have hi' : i = (outs (k, n) tr A).length := by
              have := (List.getElem?_eq_some_iff.1 h2).1
              simp at this; omega
            subst hi'
            simp only [Option.map_some, Option.toList_some, Nat.sub_self, List.getElem?_cons_zero, Option.some.injEq] at h2
            have h4 := hq y.1 y.2 rfl
            rw [h1] at h4
            simp only [Option.some.injEq] at h4
            rw [← h2, h4]
            exact hsee y.1 y.2 rfl (by rw [← h4]; exact h3)
      · rw [hn n he] at h2
        exact h.right n i q r h1 h2 h3
    · intro y hy
      rw [(s.others y (fun he => hy (by rw [he]))).1]
      exact h.others y hy
  · have hn : ∀ n, outs (k, n) (tr ++ ev) B = outs (k, n) tr A := fun n => hout _ (fun he => hk (by rw [← he]))
    obtain ⟨d1, d2⟩ := s.eff.stranger (W := W) (h.others x hk) (fun q r hp =>
      have hm := List.mem_of_getElem? (hq q r hp)
      ⟨hO.others x hk q hm, hO.aligned x q hm⟩)
    have hl := s.others (k, N) (fun he => hk (by rw [← he]))
    refine ⟨c, h.first, h.next, ?_, ?_, ?_, ?_⟩
    · rw [hn, hl.1, hl.2]
      exact ⟨h.cur.copy, fun hc => d2.trans (h.cur.clean hc), d2.trans h.cur.mem, h.cur.dur⟩
    · intro n; rw [hn]; exact h.old n
    · intro n; rw [hn]; exact h.right n
    · intro y hy
      by_cases he : y = x
      · subst he; exact d1
      · rw [(s.others y he).1]; exact h.others y hy

theorem life_run {L : ι × Nat → List Req} {k : ι} {W : Nat} {M0 : ByteMem} {tr : List (CEv ι)} {A : State ι}
    (hO : Owned L k W) (h : CRun (init ι M0) tr A) (hL : ∀ x, accepted x (cByLife (fun _ => 0) tr) <+: L x) :
    ∃ A' m c, LR M0 tr A A' ∧ RI L k W M0 (cByLife (fun _ => 0) tr) A' (cLives (fun _ => 0) tr k) m c := by
  generalize hT : init ι M0 = T at h
  induction h with
  | refl =>
    subst hT
    refine ⟨init (ι × Nat) M0, fun _ => M0, fun _ => 0, ⟨.refl _, rfl, fun _ => rfl, fun k n _ => ⟨rfl, rfl, rfl⟩⟩,
      .refl _ _, fun n hn => absurd hn (Nat.not_lt_zero n), ⟨fun hx => absurd rfl hx, fun _ => .refl _ _, .refl _ _, ?_⟩, ?_, ?_, ?_⟩
    · intro i f hi; simp [outs, responses, cByLife, init] at hi
    · intro n hn; exact absurd hn (Nat.not_lt_zero n)
    · intro n i q r _ h2; simp [outs, responses, cByLife, init] at h2
    · intro x _ hx; simp [init] at hx
  | @snoc A A2 tr ev _ hs ih =>
    have hL' : ∀ x, accepted x (cByLife (fun _ => 0) tr) <+: L x := by
      intro x
      have := hL x
      rw [cByLife_append, accepted_append] at this
      exact (List.prefix_append _ _).trans this
    obtain ⟨A', m, c, lr, ri⟩ := ih hL'
    let g := cLives (fun _ => 0) tr
    cases hs with
    | step hs =>
      cases hs with
      | mk k' e a M hl =>
        have hT' : cByLife (fun _ => 0) (tr ++ (e.map (LEv.at k')).map .ev) =
            cByLife (fun _ => 0) tr ++ e.map (LEv.at (k', g k')) := by
          rw [cByLife_append, cByLife_evs, rename_at]
        have hg : cLives (fun _ => 0) (tr ++ (e.map (LEv.at k')).map .ev) = g := by
          rw [cLives_append, cLives_evs]
        have hl' : (A'.loc (k', g k')).Step A'.mem e a M := by
          rw [lr.cur k', lr.mem]; exact hl
        obtain ⟨pr, s⟩ := step_eff_at (fun x => count_run lr.run x) hl'
        obtain ⟨c', r⟩ := ri.step hO hL' (fun he => by simp only at he; subst he; rfl) s
        refine ⟨⟨fun y => if y = (k', g k') then a else A'.loc y, M⟩, m, c', ⟨?_, rfl, ?_, ?_⟩, ?_⟩
        · rw [hT']
          exact lr.run.snoc (.mk A' (k', g k') e a M hl')
        · intro k2
          rw [hg]
          by_cases hk : k2 = k'
          · subst hk; simp
          · simp only [Prod.mk.injEq, hk, false_and, if_false]; exact lr.cur k2
        · intro k2 n hn
          rw [hg] at hn
          have hne : (k2, n) ≠ (k', g k') := by
            intro he
            simp only [Prod.mk.injEq] at he
            rw [he.1, he.2] at hn; exact Nat.lt_irrefl _ hn
          obtain ⟨f1, f2, f3⟩ := lr.fut k2 n hn
          rw [hT', accepted_append, responses_append, accepted_at_other hne, responses_at_other hne, f2, f3]
          exact ⟨by simp only [hne, if_false]; exact f1, rfl, rfl⟩
        · rw [hT', hg]; exact r
    | crash k' =>
      have hT' : cByLife (fun _ => 0) (tr ++ [.crash k']) = cByLife (fun _ => 0) tr := by
        rw [cByLife_append]; simp [cByLife]
      have hg : cLives (fun _ => 0) (tr ++ [.crash k']) = fun k2 => if k2 = k' then g k' + 1 else g k2 := by
        rw [cLives_append]; rfl
      have hlr : LR M0 (tr ++ [.crash k']) ⟨fun k2 => if k2 = k' then .empty else A.loc k2, A.mem⟩ A' := by
        refine ⟨by rw [hT']; exact lr.run, lr.mem, ?_, ?_⟩
        · intro k2
          rw [hg]
          by_cases hk : k2 = k'
          · subst hk; simp only [if_true]; exact (lr.fut k2 _ (Nat.lt_succ_self _)).1
          · simp only [hk, if_false]; exact lr.cur k2
        · intro k2 n hn
          rw [hT']
          rw [hg] at hn
          refine lr.fut k2 n ?_
          show g k2 < n
          by_cases hk : k2 = k'
          · subst hk; simp only [if_true] at hn; omega
          · simp only [hk, if_false] at hn; exact hn
      by_cases hk : k' = k
      · subst hk
        have hN : cLives (fun _ => 0) (tr ++ [.crash k']) k' = g k' + 1 := by rw [hg]; simp
        have hfut : ∀ n, g k' < n → outs (k', n) (cByLife (fun _ => 0) tr) A' = [] := by
          intro n hn
          obtain ⟨f1, _, f3⟩ := lr.fut k' n hn
          rw [outs, f1, f3]; rfl
        refine ⟨A', fun n => if n ≤ g k' then m n else A'.mem, fun n => if n ≤ g k' then c n else 0, hlr, ?_⟩
        rw [hT', hN]
        refine ⟨?_, ?_, ?_, ?_, ?_, ri.others⟩
        · rw [if_pos (Nat.zero_le _)]; exact ri.first
        · intro n hn
          by_cases he : n = g k'
          · subst he
            rw [if_neg (by omega), if_pos (Nat.le_refl _), if_pos (Nat.le_refl _)]
            exact ri.cur.mem
          · rw [if_pos (by omega), if_pos (by omega), if_pos (by omega)]
            exact ri.next n (by show n < g k'; omega)
        · rw [hfut _ (Nat.lt_succ_self _), if_neg (by omega), if_neg (by omega), (lr.fut k' _ (Nat.lt_succ_self _)).1]
          exact ⟨fun hx => absurd rfl hx, fun _ => .refl _ _, .refl _ _, fun i f hi => absurd hi (Nat.not_lt_zero i)⟩
        · intro n hn i f h1 h2 h3
          rw [if_pos (by omega)]
          by_cases he : n = g k'
          · subst he; exact ri.cur.dur i f h1 h2 h3
          · exact ri.old n (by show n < g k'; omega) i f h1 h2 h3
        · intro n i q r h1 h2 h3
          by_cases hn : n ≤ g k'
          · simp only [hn, if_true]; exact ri.right n i q r h1 h2 h3
          · rw [hfut n (by omega)] at h2; simp at h2
      · refine ⟨A', m, c, hlr, ?_⟩
        have : cLives (fun _ => 0) (tr ++ [.crash k']) k = g k := by rw [hg]; simp [Ne.symm hk]
        rw [hT', this]; exact ri

/-- A word only one cache stores to, through the resets of the cache. -/
theorem recovers {M0 : ByteMem} {tr : List (CEv ι)} {A : State ι} (h : CRun (init ι M0) tr A)
    (hal : AmosAligned (cByLife (fun _ => 0) tr)) {k : ι} {W : Nat}
    (hno : ∀ k', k' ≠ k → ∀ n, ∀ q ∈ accepted (k', n) (cByLife (fun _ => 0) tr), ¬ q.stores W) :
    ∃ m c, Recovers k W M0 A.mem (cByLife (fun _ => 0) tr) (cLives (fun _ => 0) tr k) m c := by
  obtain ⟨A', m, c, lr, ri⟩ := life_run (L := fun x => accepted x (cByLife (fun _ => 0) tr)) (k := k) (W := W)
    ⟨fun x hx q hq => hno x.1 hx x.2 q hq, fun x q hq => hal x q hq⟩ h (fun x => List.prefix_refl _)
  have hlt : ∀ n (i : Nat), i < (responses (k, n) (cByLife (fun _ => 0) tr)).length →
      i < (outs (k, n) (cByLife (fun _ => 0) tr) A').length := by
    intro n i hi; rw [outs, List.length_append]; omega
  refine ⟨m, c, ri.first, ri.next, ?_, ?_, ?_⟩
  · rw [← lr.mem]; exact ri.cur.mem
  · intro n i q r h1 h2 h3
    refine ri.right n i q r h1 ?_ h3
    rw [outs, List.getElem?_append_left (List.getElem?_eq_some_iff.1 h2).1]; exact h2
  · intro n i f h1 h2 h3
    rcases Nat.lt_trichotomy n (cLives (fun _ => 0) tr k) with hn | hn | hn
    · exact ri.old n hn i f (hlt n i h1) h2 h3
    · subst hn; exact ri.cur.dur i f (hlt _ i h1) h2 h3
    · rw [(lr.fut k n hn).2.2] at h1; simp at h1

end Verif.WM
