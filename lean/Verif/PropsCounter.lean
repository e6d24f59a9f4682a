import Verif.Units

/-!
# C48: the counters

units/counters.py contains an up/down counter with load (used by the multicore
driver) and an enabled counter (used for the INIT, INV and FLUSH loops).  The
theorems give the value of the counter after any history of port values.
-/

namespace Verif
namespace Counter

/-- Port values of a `CounterUpDown` in one cycle, units/counters.py:40-46. -/
structure UD (n : Nat) where
  reset : Bool
  ldEn : Bool
  upEn : Bool
  dwEn : Bool
  ldAmt : BitVec n
  upAmt : BitVec n
  dwAmt : BitVec n

/-- One clock edge of `CounterUpDown`: `RegRst` around the combinational logic,
units/counters.py:48-61. -/
def UD.next {n : Nat} (rv c : BitVec n) (o : UD n) : BitVec n :=
  if o.reset then rv else upDownNext o.ldEn o.upEn o.dwEn o.ldAmt o.upAmt o.dwAmt c

/-- Value of the counter after a history of port values. Proof device; not in the source. -/
def UD.run {n : Nat} (rv c : BitVec n) (ops : List (UD n)) : BitVec n := ops.foldl (UD.next rv) c

/-- The cycle assigns a value irrespective of the old one: reset wins over load. Proof device; not in the source. -/
def UD.assigns {n : Nat} (rv : BitVec n) (o : UD n) : Option (BitVec n) :=
  if o.reset then some rv else if o.ldEn then some o.ldAmt else none

/-- Contribution of a cycle that does not assign. Proof device; not in the source. -/
def UD.delta {n : Nat} (o : UD n) : Int :=
  if o.upEn = true ∧ o.dwEn = false then (o.upAmt.toNat : Int)
  else if o.upEn = false ∧ o.dwEn = true then -(o.dwAmt.toNat : Int)
  else 0

theorem UD.run_delta {n : Nat} (rv : BitVec n) : ∀ (ops : List (UD n)) (c : BitVec n),
    (∀ o ∈ ops, o.assigns rv = none) →
    UD.run rv c ops = c + BitVec.ofInt n ((ops.map UD.delta).sum) := by
  intro ops
  induction ops with
  | nil => intro c _; simp [UD.run]
  | cons o ops ih =>
    intro c h
    have h0 := h o (by simp)
    have e1 := ih (UD.next rv c o) (fun x hx => h x (by simp [hx]))
    rw [show UD.run rv c (o :: ops) = UD.run rv (UD.next rv c o) ops from rfl, e1]
    rw [List.map_cons, List.sum_cons, BitVec.ofInt_add, ← BitVec.add_assoc]
    congr 1
    cases o with
    | mk r l u d la ua da =>
      cases r <;> cases l <;> simp [UD.assigns] at h0
      cases u <;> cases d <;> simp [UD.next, upDownNext, UD.delta, BitVec.ofInt_neg, BitVec.ofInt_natCast, BitVec.sub_eq_add_neg]

/-- **C48, up/down counter.**  After any history the counter holds the value of
the last cycle that assigned one (reset: the reset value; otherwise a load: the
load amount), plus the up amounts of the cycles since in which only `up_en` was
high, minus the down amounts of those in which only `dw_en` was high, modulo
`2^n`. -/
theorem C48_up_down {n : Nat} (rv c0 : BitVec n) (pre post : List (UD n)) (o : UD n) (v : BitVec n)
    (ho : o.assigns rv = some v) (hp : ∀ x ∈ post, x.assigns rv = none) :
    UD.run rv c0 (pre ++ o :: post) = v + BitVec.ofInt n ((post.map UD.delta).sum) := by
  have : UD.run rv c0 (pre ++ o :: post) = UD.run rv v post := by
    simp only [UD.run, List.foldl_append, List.foldl_cons]
    congr 1
    cases o with
    | mk r l u d la ua da =>
      cases r <;> cases l <;> simp_all [UD.assigns, UD.next, upDownNext]
  rw [this, UD.run_delta rv post v hp]

/-- A reset, a load of 5, up 3 alone, up and down together, down 1 alone: 7. -/
example : UD.run (9 : BitVec 4) 0
    [⟨true, true, false, false, 2, 0, 0⟩, ⟨false, true, true, false, 5, 3, 0⟩,
     ⟨false, false, true, false, 1, 3, 0⟩, ⟨false, false, true, true, 0, 3, 7⟩,
     ⟨false, false, false, true, 0, 3, 1⟩] = 7 := by decide

example : (UD.mk true true false false (2 : BitVec 4) 0 0).assigns 9 = some 9 ∧
    (UD.mk false true true false (5 : BitVec 4) 3 0).assigns 9 = some 5 ∧
    (UD.mk false false true true (5 : BitVec 4) 3 7).assigns 9 = none := by decide

/-- Port values of a `CounterEnRst` in one cycle, units/counters.py:19-22. -/
structure EN (n : Nat) where
  reset : Bool
  en : Bool
  load : Bool
  countDown : Bool
  loadValue : BitVec n

/-- One clock edge of `CounterEnRst`, units/counters.py:24-32.  The ports `load`
and `load_value` are declared but never read by the code. -/
def EN.next {n : Nat} (rv c : BitVec n) (o : EN n) : BitVec n :=
  if o.reset then rv else counterNext o.en o.countDown c

/-- Value of the counter after a history of port values. Proof device; not in the source. -/
def EN.run {n : Nat} (rv c : BitVec n) (ops : List (EN n)) : BitVec n := ops.foldl (EN.next rv) c

/-- Contribution of a cycle. Proof device; not in the source. -/
def EN.delta {n : Nat} (o : EN n) : Int :=
  if o.en = true then (if o.countDown = true then -1 else 1) else 0

theorem EN.run_delta {n : Nat} (rv : BitVec n) : ∀ (ops : List (EN n)) (c : BitVec n),
    (∀ o ∈ ops, o.reset = false) →
    EN.run rv c ops = c + BitVec.ofInt n ((ops.map EN.delta).sum) := by
  intro ops
  induction ops with
  | nil => intro c _; simp [EN.run]
  | cons o ops ih =>
    intro c h
    have h0 := h o (by simp)
    have e1 := ih (EN.next rv c o) (fun x hx => h x (by simp [hx]))
    rw [show EN.run rv c (o :: ops) = EN.run rv (EN.next rv c o) ops from rfl, e1]
    rw [List.map_cons, List.sum_cons, BitVec.ofInt_add, ← BitVec.add_assoc]
    congr 1
    cases o with
    | mk r e l d lv =>
      cases r <;> simp at h0
      cases e <;> cases d <;> simp [EN.next, counterNext, EN.delta, BitVec.ofInt_neg, BitVec.sub_eq_add_neg]

/-- **C48, enabled counter.**  Since the last reset the counter has moved up by
the number of enabled up-cycles minus the enabled down-cycles, modulo `2^n`. -/
theorem C48_enabled {n : Nat} (rv c0 : BitVec n) (pre post : List (EN n)) (o : EN n)
    (ho : o.reset = true) (hp : ∀ x ∈ post, x.reset = false) :
    EN.run rv c0 (pre ++ o :: post) =
      rv + BitVec.ofInt n ((post.filter (fun x => x.en && !x.countDown)).length -
        (post.filter (fun x => x.en && x.countDown)).length : Int) := by
  have : EN.run rv c0 (pre ++ o :: post) = EN.run rv rv post := by
    simp only [EN.run, List.foldl_append, List.foldl_cons]
    congr 1
    simp [EN.next, ho]
  rw [this, EN.run_delta rv post rv hp]
  congr 2
  clear this hp ho
  induction post with
  | nil => rfl
  | cons x xs ih =>
    rw [List.map_cons, List.sum_cons, ih]
    cases x with
    | mk r e l d lv => cases e <;> cases d <;> simp [EN.delta] <;> omega

/-- **C48, the load ports are dead (defect).**  A user of the enabled counter
would expect `load` to load `load_value`; in no history do the two ports make a
difference. -/
theorem C48_load_ignored {n : Nat} (rv c : BitVec n) (ops : List (EN n)) (f : Nat → Bool × BitVec n) :
    EN.run rv c (ops.zipIdx.map (fun (o, i) => { o with load := (f i).1, loadValue := (f i).2 })) =
      EN.run rv c ops := by
  have : ∀ (ops : List (EN n)) (k : Nat) (c : BitVec n),
      EN.run rv c ((ops.zipIdx k).map (fun (o, i) => { o with load := (f i).1, loadValue := (f i).2 })) =
        EN.run rv c ops := by
    intro ops
    induction ops with
    | nil => intro k c; rfl
    | cons o ops ih => intro k c; exact ih (k + 1) _
  exact this ops 0 c

example : EN.run (3 : BitVec 4) 0
    [⟨true, true, false, false, 0⟩, ⟨false, true, true, true, 9⟩, ⟨false, true, false, true, 0⟩,
     ⟨false, false, true, false, 9⟩, ⟨false, true, false, false, 0⟩] = 2 := by decide

end Counter
end Verif
