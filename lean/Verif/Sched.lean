/-!
# Evaluation of a netlist of update blocks

A PyMTL3 component is a set of wires, each written by exactly one update block
(`@update` function, lambda or connection).  The simulator runs the blocks of a
cycle in some order; blocks that depend on each other cyclically are run again
and again until nothing changes.  This file is about netlists in general; the
netlist of the cache is in `Net.lean`.
-/

namespace Verif.Sched

variable {X : Type} {T : X → Type} {β : Type} [DecidableEq β]

/-- A valuation of the wires satisfies every wire's equation: no block would
change anything. PyMTL3's simulator of update blocks; not in the source. -/
def Settled (f : ((x : X) → T x) → (x : X) → T x) (w : (x : X) → T x) : Prop := ∀ x, f w x = w x

/-- The equation of each wire reads only wires of lower levels. PyMTL3's simulator of update blocks; not in the source. -/
def Local (f : ((x : X) → T x) → (x : X) → T x) (lvl : X → Nat) : Prop :=
  ∀ (x : X) (w w' : (x : X) → T x), (∀ y, lvl y < lvl x → w y = w' y) → f w x = f w' x

/-- Running update block `B`: it recomputes all the wires it writes from the
values of all wires before. PyMTL3's simulator of update blocks; not in the source. -/
def runBlk (f : ((x : X) → T x) → (x : X) → T x) (blk : X → β) (B : β) (w : (x : X) → T x) :
    (x : X) → T x :=
  fun x => if blk x = B then f w x else w x

/-- Running a schedule, i.e. a list of blocks. PyMTL3's simulator of update blocks; not in the source. -/
def runs (f : ((x : X) → T x) → (x : X) → T x) (blk : X → β) (L : List β) (w : (x : X) → T x) :
    (x : X) → T x :=
  L.foldl (fun w B => runBlk f blk B w) w

/-- The schedule consists of (at least) `n` rounds, each of which runs every
block at least once, in any order. PyMTL3's simulator of update blocks; not in the source. -/
inductive Rounds (β : Type) : Nat → List β → Prop
  | zero (L : List β) : Rounds β 0 L
  | succ {n : Nat} {L₁ L₂ : List β} (h₁ : ∀ B, B ∈ L₁) (h₂ : Rounds β n L₂) : Rounds β (n + 1) (L₁ ++ L₂)

variable {f : ((x : X) → T x) → (x : X) → T x} {lvl : X → Nat} {blk : X → β}

/-- Two settled valuations are equal. -/
theorem settled_unique (hl : Local f lvl) {w w' : (x : X) → T x} (h : Settled f w) (h' : Settled f w') :
    w = w' := by
  have : ∀ n x, lvl x < n → w x = w' x := by
    intro n
    induction n with
    | zero => intro x hx; omega
    | succ n ih =>
      intro x hx
      rw [← h x, ← h' x]
      exact hl x w w' fun y hy => ih y (by omega)
  funext x
  exact this (lvl x + 1) x (by omega)

/-- Iterating all equations. PyMTL3's simulator of update blocks; not in the source. -/
def iter (f : ((x : X) → T x) → (x : X) → T x) : Nat → ((x : X) → T x) → (x : X) → T x
  | 0, w => w
  | n + 1, w => f (iter f n w)

/-- A settled valuation exists. -/
theorem settled_exists (hl : Local f lvl) {N : Nat} (hN : ∀ x, lvl x < N) (w₀ : (x : X) → T x) :
    Settled f (iter f N w₀) := by
  have key : ∀ n x, lvl x < n → ∀ m, n ≤ m → iter f (m + 1) w₀ x = iter f m w₀ x := by
    intro n
    induction n with
    | zero => intro x hx; omega
    | succ n ih =>
      intro x hx m hm
      cases m with
      | zero => omega
      | succ m =>
        show f (iter f (m + 1) w₀) x = f (iter f m w₀) x
        exact hl x _ _ fun y hy => ih y (by omega) m (by omega)
  intro x
  exact key N x (hN x) N (Nat.le_refl _)

/-- A valuation that no block changes is settled. -/
theorem settled_of_stable {w : (x : X) → T x} (h : ∀ B, runBlk f blk B w = w) : Settled f w := by
  intro x
  have := congrFun (h (blk x)) x
  simpa [runBlk] using this

theorem stable_of_settled {w : (x : X) → T x} (h : Settled f w) (B : β) : runBlk f blk B w = w := by
  funext x
  simp only [runBlk]
  split
  · exact h x
  · rfl

/-- The wires below level `n` have their settled values. PyMTL3's simulator of update blocks; not in the source. -/
def Upto (lvl : X → Nat) (v : (x : X) → T x) (n : Nat) (w : (x : X) → T x) : Prop :=
  ∀ x, lvl x < n → w x = v x

theorem runBlk_correct (hl : Local f lvl) {v w : (x : X) → T x} (hv : Settled f v) {n : Nat}
    (hu : Upto lvl v n w) {x : X} (hx : lvl x ≤ n) : f w x = v x := by
  rw [← hv x]
  exact hl x w v fun y hy => hu y (by omega)

theorem Upto.runBlk (hl : Local f lvl) {v w : (x : X) → T x} (hv : Settled f v) {n : Nat}
    (hu : Upto lvl v n w) (B : β) : Upto lvl v n (runBlk f blk B w) := by
  intro x hx
  simp only [Sched.runBlk]
  split
  · exact runBlk_correct hl hv hu (by omega)
  · exact hu x hx

theorem Upto.runs (hl : Local f lvl) {v : (x : X) → T x} (hv : Settled f v) {n : Nat} (L : List β) :
    ∀ {w : (x : X) → T x}, Upto lvl v n w → Upto lvl v n (runs f blk L w) := by
  induction L with
  | nil => intro w h; exact h
  | cons B L ih => intro w h; exact ih (h.runBlk hl hv B)

/-- A wire of level `n` whose block is run while the levels below are settled
gets its settled value and keeps it. -/
theorem runs_level (hl : Local f lvl) {v : (x : X) → T x} (hv : Settled f v) {n : Nat} {x : X}
    (hx : lvl x = n) (L : List β) :
    ∀ {w : (x : X) → T x}, Upto lvl v n w → (blk x ∈ L ∨ w x = v x) → runs f blk L w x = v x := by
  induction L with
  | nil =>
    intro w hu h
    cases h with
    | inl h => cases h
    | inr h => exact h
  | cons B L ih =>
    intro w hu h
    show Sched.runs f blk L (Sched.runBlk f blk B w) x = v x
    apply ih (hu.runBlk hl hv B)
    by_cases hB : blk x = B
    · right
      simp only [Sched.runBlk, hB, if_true]
      exact runBlk_correct hl hv hu (by omega)
    · cases h with
      | inl h =>
        cases h with
        | head => exact absurd rfl hB
        | tail _ h => exact .inl h
      | inr h => right; simpa only [Sched.runBlk, hB, if_false] using h

theorem runs_append (L₁ L₂ : List β) (w : (x : X) → T x) :
    runs f blk (L₁ ++ L₂) w = runs f blk L₂ (runs f blk L₁ w) := by
  simp [runs, List.foldl_append]

/-- **Every schedule settles.**  If the wires have levels below `N`, any
schedule of `N` rounds ends in the settled valuation, from any start. -/
theorem rounds_settle (hl : Local f lvl) {v : (x : X) → T x} (hv : Settled f v) {N : Nat}
    (hN : ∀ x, lvl x < N) {L : List β} (hL : Rounds β N L) (w : (x : X) → T x) :
    runs f blk L w = v := by
  have key : ∀ (n : Nat) (L : List β), Rounds β n L → ∀ m, n + m = N → ∀ w, Upto lvl v m w →
      Upto lvl v N (runs f blk L w) := by
    intro n L h
    induction h with
    | zero L => intro m hm w hu; have : m = N := by omega
                subst this; exact hu.runs hl hv L
    | @succ n L₁ L₂ h₁ h₂ ih =>
      intro m hm w hu
      rw [runs_append]
      apply ih (m + 1) (by omega)
      intro x hx
      by_cases h : lvl x < m
      · exact hu.runs hl hv L₁ x h
      · exact runs_level hl hv (by omega : lvl x = m) L₁ hu (.inl (h₁ _))
  funext x
  exact key N L hL 0 (by omega) w (fun x hx => absurd hx (Nat.not_lt_zero _)) x (hN x)

end Verif.Sched
