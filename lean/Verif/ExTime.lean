import Verif.PropsTime
import Verif.DriveK

/-!
# Executions for C71

The hypotheses are met, and the bounds are sharp: requests that are not answered one cycle before the
bound.
-/

namespace Verif
variable {p : Params}

instance decPlays : ∀ (s : St p) (O : List MType) (l : List (In p)), Decidable (Plays s O l)
  | _, _, [] => isTrue trivial
  | s, O, i :: l => by
    have := decPlays (s.step i) (owes O i (s.out i)) l
    unfold Plays
    infer_instance

instance decPrompt (D : Nat) : ∀ (c : Nat) (s : St p) (O : List MType) (l : List (In p)), Decidable (Prompt D c s O l)
  | _, _, _, [] => isTrue trivial
  | c, s, O, i :: l => by
    have := decPrompt D (if O ≠ [] ∧ i.mrespEn = false then c + 1 else 0) (s.step i) (owes O i (s.out i)) l
    unfold Prompt
    infer_instance

/-- The inputs of `n` cycles with the requests `qs` offered as early as possible, and a memory that
lets the cache wait `D` cycles for each answer. Example; not in the source. -/
def insD (D : Nat) : Nat → Nat → St p → List MType → List (CReq p) → List (In p)
  | 0, _, _, _, _ => []
  | n + 1, c, s, O, qs =>
    let i0 : In p := ⟨false, false, default, true, true, O.length != 0 && c == D, ⟨O.headD 0, 0, 0⟩⟩
    let i : In p := match qs with
      | q :: _ => if (s.out i0).reqRdy then { i0 with reqEn := true, req := q } else i0
      | [] => i0
    i :: insD D n (if O ≠ [] ∧ i.mrespEn = false then c + 1 else 0) (s.step i) (owes O i (s.out i))
      (if i.reqEn then qs.tail else qs)

/-- A cache with garbage in its SRAMs, just reset. Example; not in the source. -/
def fresh (p : Params) : St p := (garbage p).step ⟨true, false, default, true, true, false, default⟩

/-- The number of cycles up to and including the one that accepts request number `k`. Example; not in the source. -/
def upTo : Nat → List (In p) → Nat
  | _, [] => 0
  | k, i :: l => if i.reqEn then (if k = 0 then 1 else 1 + upTo (k - 1) l) else 1 + upTo k l

/-- Request number `k` of the run `l` with wait `D` takes exactly the time of the bound. Example; not in the source. -/
def Sharp (D k : Nat) (l : List (In p)) : Prop :=
  let n := upTo k l
  let b := respBound p D ((l.drop (n - 1)).headD ⟨false, false, default, true, true, false, default⟩).req.ty
  Plays (fresh p) [] (l.take (n + b)) ∧ 0 < n ∧ n + b ≤ l.length ∧
  Prompt D 0 ((fresh p).after (l.take n)) (owesAfter (fresh p) [] (l.take n)) ((l.take (n + b)).drop n) ∧
  nAccepted (l.take n) = k + 1 ∧
  nAnswered (fresh p) (l.take (n + b - 1)) < k + 1 ∧ k + 1 ≤ nAnswered (fresh p) (l.take (n + b))

instance (D k : Nat) (l : List (In p)) : Decidable (Sharp D k l) := by unfold Sharp; infer_instance

/-- WRITE to both lines, a READ that evicts a dirty line, a WRITE to that line, FLUSH with both lines
dirty, INV, WRITE_INIT. -/
def timeProg : List (CReq p1) :=
  [⟨MT.WRITE, 1, ⟨0, 0, 4⟩, 1, 0xab⟩, ⟨MT.WRITE, 0, ⟨0, 1, 4⟩, 1, 0xcd⟩, ⟨MT.READ, 0, ⟨1, 0, 4⟩, 0, 0⟩,
   ⟨MT.WRITE, 0, ⟨1, 0, 0⟩, 2, 5⟩, ⟨MT.FLUSH, 0, ⟨0, 0, 0⟩, 0, 0⟩, ⟨MT.INV, 0, ⟨0, 0, 0⟩, 0, 0⟩,
   ⟨MT.INIT, 0, ⟨0, 1, 0⟩, 1, 7⟩]

/-- Example; not in the source. -/
def timeIns (D : Nat) : List (In p1) := insD D 70 0 (fresh p1) [] timeProg

/-- The bounds are reached: READ with write-back (request 2), FLUSH (4), INV (5) and WRITE_INIT (6),
with a memory that answers at once and with one that answers late. -/
theorem C71_bounds_are_sharp : (∀ k ∈ [2, 4, 5, 6], Sharp 0 k (timeIns 0)) ∧ ∀ k ∈ [2, 4, 5, 6], Sharp 2 k (timeIns 2) := by
  decide +kernel

/-- The hypotheses of `C71_response_time` are met (the READ with write-back, memory late by two cycles). -/
example : ∃ (t : St p1) (r : In p1) (l l' : List (In p1)) (i : In p1), r.reset = true ∧ Plays (t.step r) [] (l ++ i :: l') ∧
    i.reqEn = true ∧ Prompt 2 0 ((t.step r).after (l ++ [i])) (owesAfter (t.step r) [] (l ++ [i])) l' ∧
    respBound p1 2 i.req.ty ≤ l'.length ∧ i.req.ty = MT.READ ∧ nAccepted l = 2 := by
  refine ⟨garbage p1, ⟨true, false, default, true, true, false, default⟩, (timeIns 2).take 18,
    (timeIns 2).drop 19, ((timeIns 2).drop 18).headD ⟨false, false, default, true, true, false, default⟩, rfl, ?_⟩
  decide +kernel

/-- The same with output ports that are ready in every other cycle only. Example; not in the source. -/
def insS (D : Nat) : Nat → Nat → St p → List MType → List (CReq p) → List (In p)
  | 0, _, _, _, _ => []
  | n + 1, c, s, O, qs =>
    let i0 : In p := ⟨false, false, default, n % 2 == 0, n % 2 == 0, O.length != 0 && c == D, ⟨O.headD 0, 0, 0⟩⟩
    let i : In p := match qs with
      | q :: _ => if (s.out i0).reqRdy then { i0 with reqEn := true, req := q } else i0
      | [] => i0
    i :: insS D n (if O ≠ [] ∧ i.mrespEn = false then c + 1 else 0) (s.step i) (owes O i (s.out i))
      (if i.reqEn then qs.tail else qs)

/-- Three requests, the last one a WRITE_INIT. Example; not in the source. -/
def slowIns : List (In p1) := insS 3 90 0 (fresh p1) []
  [⟨MT.WRITE, 1, ⟨0, 0, 4⟩, 1, 0xab⟩, ⟨MT.READ, 0, ⟨1, 0, 4⟩, 0, 0⟩, ⟨MT.INIT, 0, ⟨0, 1, 0⟩, 1, 7⟩]

/-- The hypotheses of `C71_ready_again` and `C71_every_request_answered` are met. -/
theorem slow_ok : Plays (fresh p1) [] (slowIns.take 30 ++ slowIns.drop 30) ∧ (∀ i ∈ slowIns.drop 30, i.reqEn = false) ∧
    3 + 5 * p1.nLines ≤ helped ((fresh p1).after (slowIns.take 30)) (owesAfter (fresh p1) [] (slowIns.take 30))
      (slowIns.drop 30) ∧ nAccepted (slowIns.take 30) = 3 ∧ nAnswered (fresh p1) (slowIns.take 30) < 3 := by
  decide +kernel

example : nAnswered (fresh p1) (slowIns.take 30 ++ slowIns.drop 30) = 3 := by
  obtain ⟨h1, h2, h3, h4, _⟩ := slow_ok
  rw [← h4]
  exact (C71_ready_again p1_wf _ _ rfl _ _ h1 h2 h3).1

end Verif
