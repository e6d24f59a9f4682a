import Verif.PropsBarrier
import Verif.ExLock

/-!
# A concrete execution of the barrier

Two caches of different shapes; word 8 is the counter, word 4 is shared: cache `false` stores to it in phase 0,
cache `true` reads it and stores to it in phase 1, cache `false` reads it in phase 2.
-/

namespace Verif.WM
variable {ι : Type} [DecidableEq ι]

/-- `Passed` can be evaluated (proof device). -/
instance (n : Nat) (k : ι) (B m : Nat) (tr : List (Ev ι)) : Decidable (Passed n k B m tr) :=
  inferInstanceAs (Decidable (_ ∨ ∃ o ∈ answeredAmos k B tr, _))

/-- The barrier protocol with one shared word, decided (proof device). -/
def barrierB (ps : List ι) (B D : Nat) (tr : List (Ev ι)) : Bool :=
  decide (ps.Nodup) && decide (D ≠ B) && decide ((ps.map fun k => arrivals k B tr).sum < 2 ^ 32) &&
  ((List.range tr.length).all fun n => match tr[n]? with
    | some (.acc k q) =>
      decide (q.ty = MT.WRITE → ¬ q.covers B) &&
      decide (MT.isAmo q.ty = true → q.addr / 4 = B → q.ty = ADD ∧
        (BitVec.ofNat 32 q.data = 0 ∨
          (BitVec.ofNat 32 q.data = 1 ∧ k ∈ ps ∧ Passed ps.length k B (arrivals k B (tr.take n)) (tr.take n) ∧
            (accepted k (tr.take n)).length = (responses k (tr.take n)).length ∧ Flushed k D (tr.take n)))) &&
      decide (q.stores D ∨ q.reads D → k ∈ ps ∧ (arrivals k B (tr.take n) = 0 ∨
        ((List.range (tr.take n).length).any fun m => match (tr.take n)[m]? with
        | some (.acc k2 i) => decide (k2 = k ∧ i.ty = MT.INV ∧
            Passed ps.length k B (arrivals k B (tr.take n)) ((tr.take n).take m))
        | _ => false) = true)) &&
      ((List.range tr.length).all fun m => match tr[m]? with
        | some (.acc k' q') => decide (k ≠ k' → q.stores D → (q'.stores D ∨ q'.reads D) →
            arrivals k B (tr.take n) ≠ arrivals k' B (tr.take m))
        | _ => true)
    | _ => true)

theorem barrierB_protocol {ps : List ι} {B D : Nat} {tr : List (Ev ι)} (h : barrierB ps B D tr = true) :
    BarrierProtocol ps B (· = D) tr := by
  simp only [barrierB, Bool.and_eq_true, decide_eq_true_eq, List.all_eq_true] at h
  obtain ⟨⟨⟨hn, h0⟩, hs⟩, h⟩ := h
  have key : ∀ {k q a b}, tr = a ++ .acc k q :: b → (q.ty = MT.WRITE → ¬ q.covers B) ∧
      (MT.isAmo q.ty = true → q.addr / 4 = B → q.ty = ADD ∧
        (BitVec.ofNat 32 q.data = 0 ∨
          (BitVec.ofNat 32 q.data = 1 ∧ k ∈ ps ∧ Passed ps.length k B (arrivals k B a) a ∧
            (accepted k a).length = (responses k a).length ∧ Flushed k D a))) ∧
      (q.stores D ∨ q.reads D → k ∈ ps ∧ (arrivals k B a = 0 ∨
        ∃ c i d, a = c ++ .acc k i :: d ∧ i.ty = MT.INV ∧ Passed ps.length k B (arrivals k B a) c)) ∧
      (∀ k' a' q' b', tr = a' ++ .acc k' q' :: b' → k ≠ k' → q.stores D → (q'.stores D ∨ q'.reads D) →
        arrivals k B a ≠ arrivals k' B a') := by
    intro k q a b he
    obtain ⟨n, h1, h2, rfl, rfl⟩ := split_iff.1 he
    have := h n h1
    rw [h2] at this
    simp only [Bool.and_eq_true] at this
    obtain ⟨⟨⟨h3, h4⟩, h5⟩, h6⟩ := this
    refine ⟨of_decide_eq_true h3, of_decide_eq_true h4, ?_, ?_⟩
    · intro hq
      obtain ⟨h7, h8⟩ := of_decide_eq_true h5 hq
      refine ⟨h7, ?_⟩
      rcases h8 with h8 | h8
      · exact .inl h8
      · rw [List.any_eq_true] at h8
        obtain ⟨m, h9, h10⟩ := h8
        split at h10
        · rename_i k2 i he2
          obtain ⟨rfl, h11, h12⟩ := of_decide_eq_true h10
          exact .inr ⟨_, i, _, split_at he2, h11, h12⟩
        · cases h10
    · intro k' a' q' b' he'
      obtain ⟨m, g1, g2, rfl, rfl⟩ := split_iff.1 he'
      rw [List.all_eq_true] at h6
      have := h6 m g1
      rw [g2] at this
      exact of_decide_eq_true this
  refine ⟨hn, fun e => h0 e.symm, ?_, ?_, hs, ?_, ?_⟩
  · intro k q hq
    obtain ⟨n, hn⟩ := List.getElem?_of_mem hq
    obtain ⟨a, b, h1, _⟩ := accepted_split hn
    exact (key h1).1
  · intro k a q b he ha hL
    obtain ⟨h1, h2⟩ := (key he).2.1 ha hL
    refine ⟨h1, ?_⟩
    rcases h2 with h2 | ⟨h2, h3, h4, h5, h6⟩
    · exact .inl h2
    · exact .inr ⟨h2, h3, h4, h5, fun W hW => by subst hW; exact h6⟩
  · intro k a q b he W hW hq
    subst hW
    exact (key he).2.2.1 hq
  · intro k k' hk a q b a' q' b' he he' W hW hq hq'
    subst hW
    exact (key he).2.2.2 k' a' q' b' he' hk hq hq'

end Verif.WM

namespace Verif.ExBar
open Verif.ExL

/-- AMO_ADD on the counter, cache `false` (not in the source: a request). -/
def adF (d : BitVec 32) : CReq (pH false) := ⟨3, 0, ⟨2, 0, 0⟩, 0, d⟩
/-- AMO_ADD on the counter, cache `true` (not in the source: a request). -/
def adT (d : BitVec 32) : CReq (pH true) := ⟨3, 0, ⟨0, 2, 0⟩, 0, d⟩

/-- Part 1 of the execution: phase 0 of cache `false` (not in the source: an execution). -/
def h1 := driveH false 60 startL [⟨MT.WRITE, 0, ⟨1, 0, 0⟩, 0, 41⟩, ⟨MT.FLUSH, 0, ⟨0, 0, 0⟩, 0, 0⟩]
/-- Part 2 of the execution: cache `false` arrives (not in the source: an execution). -/
def h2 := driveH false 20 h1.1 [adF 1]
/-- Part 3 of the execution: cache `true` arrives and sees 2 (not in the source: an execution). -/
def h3 := driveH true 20 h2.1 [adT 1]
/-- Part 4 of the execution: phase 1 of cache `true` (not in the source: an execution). -/
def h4 := driveH true 90 h3.1 [⟨MT.INV, 0, ⟨0, 0, 0⟩, 0, 0⟩, ⟨MT.READ, 1, ⟨0, 1, 0⟩, 0, 0⟩, ⟨MT.WRITE, 0, ⟨0, 1, 0⟩, 0, 42⟩,
  ⟨MT.FLUSH, 0, ⟨0, 0, 0⟩, 0, 0⟩]
/-- Part 5 of the execution: cache `true` arrives (not in the source: an execution). -/
def h5 := driveH true 20 h4.1 [adT 1]
/-- Part 6 of the execution: cache `false` looks at the counter (not in the source: an execution). -/
def h6 := driveH false 20 h5.1 [adF 0]
/-- Part 7 of the execution: cache `false` arrives and sees 4 (not in the source: an execution). -/
def h7 := driveH false 20 h6.1 [adF 1]
/-- Part 8 of the execution: phase 2 of cache `false` (not in the source: an execution). -/
def h8 := driveH false 50 h7.1 [⟨MT.INV, 0, ⟨0, 0, 0⟩, 0, 0⟩, ⟨MT.READ, 1, ⟨1, 0, 0⟩, 0, 0⟩]

/-- The whole execution (not in the source: an execution). -/
def trB : List (HEv Bool pH) :=
  h1.2.map (fun e => ⟨false, e⟩) ++ h2.2.map (fun e => ⟨false, e⟩) ++ h3.2.map (fun e => ⟨true, e⟩) ++
  h4.2.map (fun e => ⟨true, e⟩) ++ h5.2.map (fun e => ⟨true, e⟩) ++ h6.2.map (fun e => ⟨false, e⟩) ++
  h7.2.map (fun e => ⟨false, e⟩) ++ h8.2.map (fun e => ⟨false, e⟩)
theorem trB_run : HetRun startL trB h8.1 :=
  (((((((driveH_run false 60 startL _).trans (driveH_run false 20 h1.1 _)).trans (driveH_run true 20 h2.1 _)).trans
    (driveH_run true 90 h3.1 _)).trans (driveH_run true 20 h4.1 _)).trans (driveH_run false 20 h5.1 _)).trans
    (driveH_run false 20 h6.1 _)).trans (driveH_run false 50 h7.1 _)

theorem b1 : accepted () h1.2 = [⟨MT.WRITE, 0, ⟨1, 0, 0⟩, 0, 41⟩, ⟨MT.FLUSH, 0, ⟨0, 0, 0⟩, 0, 0⟩] := by decide +kernel
theorem b2 : accepted () h2.2 = [adF 1] := by decide +kernel
theorem b3 : accepted () h3.2 = [adT 1] := by decide +kernel
theorem b4 : accepted () h4.2 = [⟨MT.INV, 0, ⟨0, 0, 0⟩, 0, 0⟩, ⟨MT.READ, 1, ⟨0, 1, 0⟩, 0, 0⟩,
  ⟨MT.WRITE, 0, ⟨0, 1, 0⟩, 0, 42⟩, ⟨MT.FLUSH, 0, ⟨0, 0, 0⟩, 0, 0⟩] := by decide +kernel
theorem b5 : accepted () h5.2 = [adT 1] := by decide +kernel
theorem b6 : accepted () h6.2 = [adF 0] := by decide +kernel
theorem b7 : accepted () h7.2 = [adF 1] := by decide +kernel
theorem b8 : accepted () h8.2 = [⟨MT.INV, 0, ⟨0, 0, 0⟩, 0, 0⟩, ⟨MT.READ, 1, ⟨1, 0, 0⟩, 0, 0⟩] := by decide +kernel

theorem adF_valid (d : BitVec 32) : (adF d).Valid :=
  .amo (show 3 ≤ (3 : MType).toNat ∧ (3 : MType).toNat ≤ 11 by decide) (.inl rfl) (show 4 ∣ (adF 0).addr.flat by decide)
theorem adT_valid (d : BitVec 32) : (adT d).Valid :=
  .amo (show 3 ≤ (3 : MType).toNat ∧ (3 : MType).toNat ≤ 11 by decide) (.inl rfl) (show 4 ∣ (adT 0).addr.flat by decide)

theorem trB_valid : HValid trB := by
  refine hvalid_append (hvalid_append (hvalid_append (hvalid_append (hvalid_append (hvalid_append (hvalid_append
    (hvalid_one _ ?_) (hvalid_one _ ?_)) (hvalid_one _ ?_)) (hvalid_one _ ?_)) (hvalid_one _ ?_)) (hvalid_one _ ?_))
    (hvalid_one _ ?_)) (hvalid_one _ ?_)
  · rw [b1]; intro q hq; simp only [List.mem_cons, List.not_mem_nil, or_false] at hq
    rcases hq with rfl | rfl
    · exact .write rfl 2 (by decide) (by decide) (by decide)
    · exact .flush rfl
  · rw [b2]; intro q hq; simp only [List.mem_cons, List.not_mem_nil, or_false] at hq; subst hq; exact adF_valid _
  · rw [b3]; intro q hq; simp only [List.mem_cons, List.not_mem_nil, or_false] at hq; subst hq; exact adT_valid _
  · rw [b4]; intro q hq; simp only [List.mem_cons, List.not_mem_nil, or_false] at hq
    rcases hq with rfl | rfl | rfl | rfl
    · exact .inv rfl
    · exact .read rfl 2 (by decide) (by decide)
    · exact .write rfl 2 (by decide) (by decide) (by decide)
    · exact .flush rfl
  · rw [b5]; intro q hq; simp only [List.mem_cons, List.not_mem_nil, or_false] at hq; subst hq; exact adT_valid _
  · rw [b6]; intro q hq; simp only [List.mem_cons, List.not_mem_nil, or_false] at hq; subst hq; exact adF_valid _
  · rw [b7]; intro q hq; simp only [List.mem_cons, List.not_mem_nil, or_false] at hq; subst hq; exact adF_valid _
  · rw [b8]; intro q hq; simp only [List.mem_cons, List.not_mem_nil, or_false] at hq
    rcases hq with rfl | rfl
    · exact .inv rfl
    · exact .read rfl 2 (by decide) (by decide)

/-- The events up to the first READ (not in the source: an execution). -/
def visB₁ : List (WM.Ev Bool) :=
  [.acc false ⟨MT.WRITE, 0, 16, 0, 4, 41⟩, .acc false ⟨MT.FLUSH, 0, 0, 0, 4, 0⟩, .resp false ⟨MT.WRITE, 0, 0, 0⟩,
   .resp false ⟨MT.FLUSH, 0, 0, 0⟩, .acc false ⟨3, 0, 32, 0, 4, 1⟩, .resp false ⟨3, 0, 0, 0⟩,
   .acc true ⟨3, 0, 32, 0, 4, 1⟩, .resp true ⟨3, 0, 0, 1⟩, .acc true ⟨MT.INV, 0, 0, 0, 4, 0⟩]
/-- The events after the first READ, up to the second (not in the source: an execution). -/
def visB₂ : List (WM.Ev Bool) :=
  [.resp true ⟨MT.INV, 0, 0, 0⟩, .acc true ⟨MT.WRITE, 0, 16, 0, 4, 42⟩, .resp true ⟨MT.READ, 1, 0, 41⟩,
   .acc true ⟨MT.FLUSH, 0, 0, 0, 4, 0⟩, .resp true ⟨MT.WRITE, 0, 0, 0⟩, .resp true ⟨MT.FLUSH, 0, 0, 0⟩,
   .acc true ⟨3, 0, 32, 0, 4, 1⟩, .resp true ⟨3, 0, 0, 2⟩, .acc false ⟨3, 0, 32, 0, 4, 0⟩, .resp false ⟨3, 0, 0, 3⟩,
   .acc false ⟨3, 0, 32, 0, 4, 1⟩, .resp false ⟨3, 0, 0, 3⟩, .acc false ⟨MT.INV, 0, 0, 0, 4, 0⟩]
/-- The events after the second READ (not in the source: an execution). -/
def visB₃ : List (WM.Ev Bool) := [.resp false ⟨MT.INV, 0, 0, 0⟩, .resp false ⟨MT.READ, 1, 0, 42⟩]

theorem trB_visible : visible trB = visB₁ ++ .acc true ⟨MT.READ, 1, 16, 0, 4, 0⟩ ::
    (visB₂ ++ .acc false ⟨MT.READ, 1, 16, 0, 4, 0⟩ :: visB₃) := by decide +kernel

attribute [irreducible] h1 h2 h3 h4 h5 h6 h7 h8

theorem trB_protocol : WM.BarrierProtocol [false, true] 8 (· = 4) (visible trB) := by
  rw [trB_visible]; exact WM.barrierB_protocol (by decide +kernel)

theorem read16 (W : Nat) (h : (⟨MT.READ, 1, 16, 0, 4, 0⟩ : WM.Req).reads W) : W = 4 := by
  rcases h with ⟨_, h1, h2⟩ | ⟨h, _⟩
  · simp only at h1 h2; omega
  · exact absurd h (by decide)

/-- The READ of cache `true` in phase 1 returns what cache `false` stored in phase 0. -/
example : (⟨MT.READ, 1, 0, 41⟩ : WM.Resp) =
    ⟨MT.READ, 1, 0, (WM.flat (WM.latest (fun _ => 0) visB₁) ⟨MT.READ, 1, 16, 0, 4, 0⟩).2⟩ := by
  refine C90_reads pH_wf startL_start trB_run trB_valid (by decide +kernel) trB_protocol trB_visible read16 ?_
  rw [trB_visible]; decide +kernel

/-- The READ of cache `false` in phase 2 returns what cache `true` stored in phase 1. -/
example : (⟨MT.READ, 1, 0, 42⟩ : WM.Resp) =
    ⟨MT.READ, 1, 0, (WM.flat (WM.latest (fun _ => 0) (visB₁ ++ .acc true ⟨MT.READ, 1, 16, 0, 4, 0⟩ :: visB₂))
      ⟨MT.READ, 1, 16, 0, 4, 0⟩).2⟩ := by
  refine C90_reads pH_wf startL_start trB_run trB_valid (by decide +kernel) trB_protocol (k := false)
    (b := visB₃) (trB_visible.trans (by simp only [List.append_assoc, List.cons_append])) read16 ?_
  rw [trB_visible]; decide +kernel

/-- The hypothesis of `C90_everybody_came`: cache `false` does not pass by looking at 3, but by seeing 4. -/
example : WM.Passed 2 true 8 1 (visB₁.take 8) ∧ ¬ WM.Passed 2 true 8 1 (visB₁.take 7) ∧
    ¬ WM.Passed 2 false 8 2 (visB₁ ++ visB₂.take 10) ∧ WM.Passed 2 false 8 2 (visB₁ ++ visB₂) := by decide +kernel

example : 1 ≤ WM.arrivals false 8 visB₁ :=
  C90_everybody_came pH_wf startL_start trB_run trB_valid (by decide +kernel) trB_protocol trB_visible
    (k := true) (by decide +kernel) (by simp)

/-- At the end memory holds the latest contents of the shared word, 42. -/
example : h8.1.mem 16 = 42 := by
  have h := C90_memory pH_wf startL_start trB_run trB_valid (by decide +kernel) trB_protocol (k := false) (m := 2)
    (W := 4) (x := 16) (by rw [trB_visible]; decide +kernel) rfl (by
      intro k' a q b he hq
      have hb : (List.range (visible trB).length).all (fun n => match (visible trB)[n]? with
          | some (.acc k q) => decide (q.stores 4 → WM.arrivals k 8 ((visible trB).take n) < 2)
          | _ => true) = true := by rw [trB_visible]; decide +kernel
      obtain ⟨n, h1, h2, rfl, rfl⟩ := WM.split_iff.1 he
      rw [List.all_eq_true] at hb
      have := hb n (by simpa using h1)
      rw [h2] at this
      exact of_decide_eq_true this hq) rfl
  rw [h, trB_visible]; decide +kernel

end Verif.ExBar
