import Verif.PropsPass
import Verif.ExModel

/-!
# C81: a message is passed; without FLUSH or without INV it is not

Word 4 (bytes 16 to 19) is the data, byte 32 the flag; cache `false` is the producer, cache `true` the consumer.
-/

namespace Verif

/-- The consumer reads the data before they are written: it gets a copy that will be stale. Example; not in the source. -/
def mq1 : List (CReq (pH true)) := [⟨MT.READ, 0, ⟨0, 1, 0⟩, 0, 0⟩]
/-- The producer writes 100, flushes, raises the flag (7) and flushes again. Example; not in the source. -/
def mq2 : List (CReq (pH false)) :=
  [⟨MT.WRITE, 0, ⟨1, 0, 0⟩, 0, 100⟩, ⟨MT.FLUSH, 1, ⟨0, 0, 0⟩, 0, 0⟩, ⟨MT.WRITE, 0, ⟨2, 0, 0⟩, 1, 7⟩,
   ⟨MT.FLUSH, 1, ⟨0, 0, 0⟩, 0, 0⟩]
/-- The consumer reads the flag, invalidates and reads the data. Example; not in the source. -/
def mq3 : List (CReq (pH true)) :=
  [⟨MT.READ, 1, ⟨0, 2, 0⟩, 1, 0⟩, ⟨MT.INV, 0, ⟨0, 0, 0⟩, 0, 0⟩, ⟨MT.READ, 1, ⟨0, 1, 0⟩, 0, 0⟩]
/-- The producer forgets the FLUSH; it raises the flag with an AMO. Example; not in the source. -/
def mq4 : List (CReq (pH false)) := [⟨MT.WRITE, 0, ⟨1, 0, 0⟩, 0, 100⟩, ⟨6, 1, ⟨2, 0, 0⟩, 0, 7⟩]
/-- The consumer forgets the INV. Example; not in the source. -/
def mq5 : List (CReq (pH true)) := [⟨MT.READ, 1, ⟨0, 2, 0⟩, 1, 0⟩, ⟨MT.READ, 0, ⟨0, 1, 0⟩, 0, 0⟩]

/-- Example; not in the source. -/
def pasA := driveH true 30 startH mq1
/-- Example; not in the source. -/
def pasB := driveH false 80 pasA.1 mq2
/-- Example; not in the source. -/
def pasC := driveH true 50 pasB.1 mq3
/-- Example; not in the source. -/
def pasB' := driveH false 40 pasA.1 mq4
/-- Example; not in the source. -/
def pasC' := driveH true 50 pasB'.1 mq3
/-- Example; not in the source. -/
def pasC'' := driveH true 50 pasB.1 mq5

theorem pasA_acc : accepted () pasA.2 = mq1 := by decide +kernel
theorem pasB_acc : accepted () pasB.2 = mq2 := by decide +kernel
theorem pasC_acc : accepted () pasC.2 = mq3 := by decide +kernel
theorem pasB'_acc : accepted () pasB'.2 = mq4 := by decide +kernel
theorem pasC'_acc : accepted () pasC'.2 = mq3 := by decide +kernel
theorem pasC''_acc : accepted () pasC''.2 = mq5 := by decide +kernel

theorem mq1_valid : ∀ q ∈ mq1, q.Valid := by
  intro q hq
  simp only [mq1, List.mem_cons, List.not_mem_nil, or_false] at hq
  subst hq
  exact .read rfl 2 (by decide) (by decide)

theorem mq2_valid : ∀ q ∈ mq2, q.Valid := by
  intro q hq
  simp only [mq2, List.mem_cons, List.not_mem_nil, or_false] at hq
  rcases hq with rfl | rfl | rfl | rfl
  · exact .write rfl 2 (by decide) (by decide) (by decide)
  · exact .flush rfl
  · exact .write rfl 0 (by decide) (by decide) (by decide)
  · exact .flush rfl

theorem mq3_valid : ∀ q ∈ mq3, q.Valid := by
  intro q hq
  simp only [mq3, List.mem_cons, List.not_mem_nil, or_false] at hq
  rcases hq with rfl | rfl | rfl
  · exact .read rfl 0 (by decide) (by decide)
  · exact .inv rfl
  · exact .read rfl 2 (by decide) (by decide)

theorem mq4_valid : ∀ q ∈ mq4, q.Valid := by
  intro q hq
  simp only [mq4, List.mem_cons, List.not_mem_nil, or_false] at hq
  rcases hq with rfl | rfl
  · exact .write rfl 2 (by decide) (by decide) (by decide)
  · exact .amo (by decide) (by decide) (by decide)

theorem mq5_valid : ∀ q ∈ mq5, q.Valid := by
  intro q hq
  simp only [mq5, List.mem_cons, List.not_mem_nil, or_false] at hq
  rcases hq with rfl | rfl
  · exact .read rfl 0 (by decide) (by decide)
  · exact .read rfl 2 (by decide) (by decide)

/-- Example; not in the source. -/
def trPass : List (HEv Bool pH) :=
  pasA.2.map (fun e => ⟨true, e⟩) ++ pasB.2.map (fun e => ⟨false, e⟩) ++ pasC.2.map (fun e => ⟨true, e⟩)
/-- Example; not in the source. -/
def trNoFlush : List (HEv Bool pH) :=
  pasA.2.map (fun e => ⟨true, e⟩) ++ pasB'.2.map (fun e => ⟨false, e⟩) ++ pasC'.2.map (fun e => ⟨true, e⟩)
/-- Example; not in the source. -/
def trNoInv : List (HEv Bool pH) :=
  pasA.2.map (fun e => ⟨true, e⟩) ++ pasB.2.map (fun e => ⟨false, e⟩) ++ pasC''.2.map (fun e => ⟨true, e⟩)

theorem trPass_run : HetRun startH trPass pasC.1 :=
  ((driveH_run true 30 startH mq1).trans (driveH_run false 80 pasA.1 mq2)).trans (driveH_run true 50 pasB.1 mq3)
theorem trNoFlush_run : HetRun startH trNoFlush pasC'.1 :=
  ((driveH_run true 30 startH mq1).trans (driveH_run false 40 pasA.1 mq4)).trans (driveH_run true 50 pasB'.1 mq3)
theorem trNoInv_run : HetRun startH trNoInv pasC''.1 :=
  ((driveH_run true 30 startH mq1).trans (driveH_run false 80 pasA.1 mq2)).trans (driveH_run true 50 pasB.1 mq5)

theorem trPass_valid : HValid trPass :=
  hvalid_append (hvalid_append (hvalid_one _ (pasA_acc ▸ mq1_valid)) (hvalid_one _ (pasB_acc ▸ mq2_valid)))
    (hvalid_one _ (pasC_acc ▸ mq3_valid))
theorem trNoFlush_valid : HValid trNoFlush :=
  hvalid_append (hvalid_append (hvalid_one _ (pasA_acc ▸ mq1_valid)) (hvalid_one _ (pasB'_acc ▸ mq4_valid)))
    (hvalid_one _ (pasC'_acc ▸ mq3_valid))
theorem trNoInv_valid : HValid trNoInv :=
  hvalid_append (hvalid_append (hvalid_one _ (pasA_acc ▸ mq1_valid)) (hvalid_one _ (pasB_acc ▸ mq2_valid)))
    (hvalid_one _ (pasC''_acc ▸ mq5_valid))

theorem trPass_visible : visible trPass =
    [.acc true ⟨MT.READ, 0, 16, 0, 4, 0⟩, .resp true ⟨MT.READ, 0, 0, 0x14131211⟩,
     .acc false ⟨MT.WRITE, 0, 16, 0, 4, 100⟩] ++ .acc false ⟨MT.FLUSH, 1, 0, 0, 4, 0⟩ ::
    [.resp false ⟨MT.WRITE, 0, 0, 0⟩, .acc false ⟨MT.WRITE, 0, 32, 1, 1, 7⟩, .resp false ⟨MT.FLUSH, 1, 0, 0⟩,
     .acc false ⟨MT.FLUSH, 1, 0, 0, 4, 0⟩,
     .resp false ⟨MT.WRITE, 0, 1, 0⟩, .resp false ⟨MT.FLUSH, 1, 0, 0⟩,
     .acc true ⟨MT.READ, 1, 32, 1, 1, 0⟩, .acc true ⟨MT.INV, 0, 0, 0, 4, 0⟩, .resp true ⟨MT.READ, 1, 1, 7⟩,
     .acc true ⟨MT.READ, 1, 16, 0, 4, 0⟩, .resp true ⟨MT.INV, 0, 0, 0⟩, .resp true ⟨MT.READ, 1, 0, 100⟩] := by
  decide +kernel

/-- What the consumer sees without the FLUSH of the producer. -/
theorem trNoFlush_visible : visible trNoFlush =
    [.acc true ⟨MT.READ, 0, 16, 0, 4, 0⟩, .resp true ⟨MT.READ, 0, 0, 0x14131211⟩,
     .acc false ⟨MT.WRITE, 0, 16, 0, 4, 100⟩, .acc false ⟨6, 1, 32, 0, 4, 7⟩,
     .resp false ⟨MT.WRITE, 0, 0, 0⟩, .resp false ⟨6, 1, 0, 0x24232221⟩,
     .acc true ⟨MT.READ, 1, 32, 1, 1, 0⟩, .acc true ⟨MT.INV, 0, 0, 0, 4, 0⟩, .resp true ⟨MT.READ, 1, 1, 7⟩,
     .acc true ⟨MT.READ, 1, 16, 0, 4, 0⟩, .resp true ⟨MT.INV, 0, 0, 0⟩, .resp true ⟨MT.READ, 1, 0, 0x14131211⟩] := by
  decide +kernel

/-- What the consumer sees without its INV. -/
theorem trNoInv_visible : (visible trNoInv).drop 10 =
    [.acc true ⟨MT.READ, 1, 32, 1, 1, 0⟩, .acc true ⟨MT.READ, 0, 16, 0, 4, 0⟩, .resp true ⟨MT.READ, 1, 1, 7⟩,
     .resp true ⟨MT.READ, 0, 0, 0x14131211⟩] := by
  decide +kernel

theorem trNoInv_before : (visible trNoInv).take 10 = (visible trPass).take 10 := by decide +kernel

attribute [irreducible] pasA pasB pasC pasB' pasC' pasC''

/-- The flag value 7 is impossible without the requests after the FLUSH. -/
theorem flag_new : ¬ WM.Could startH.mem (WM.requests
      [.acc true ⟨MT.READ, 0, 16, 0, 4, 0⟩, .resp true ⟨MT.READ, 0, 0, 0x14131211⟩,
       .acc false ⟨MT.WRITE, 0, 16, 0, 4, 100⟩] ++ WM.othersRequests false
    [.resp false ⟨MT.WRITE, 0, 0, 0⟩, .acc false ⟨MT.WRITE, 0, 32, 1, 1, 7⟩, .resp false ⟨MT.FLUSH, 1, 0, 0⟩,
     .acc false ⟨MT.FLUSH, 1, 0, 0, 4, 0⟩,
     .resp false ⟨MT.WRITE, 0, 1, 0⟩, .resp false ⟨MT.FLUSH, 1, 0, 0⟩,
     .acc true ⟨MT.READ, 1, 32, 1, 1, 0⟩, .acc true ⟨MT.INV, 0, 0, 0, 4, 0⟩, .resp true ⟨MT.READ, 1, 1, 7⟩,
     .acc true ⟨MT.READ, 1, 16, 0, 4, 0⟩, .resp true ⟨MT.INV, 0, 0, 0⟩, .resp true ⟨MT.READ, 1, 0, 100⟩]) 32 7 := by
  generalize hQ : (WM.requests _ ++ WM.othersRequests false _) = Q
  have hw : ∀ q ∈ Q, q.ty = MT.WRITE → q.addr ≤ 32 → ¬ 32 < q.addr + q.bytes := by subst hQ; decide +kernel
  have ha : ∀ q ∈ Q, ¬ MT.isAmo q.ty = true := by subst hQ; decide +kernel
  generalize hβ : (7 : BitVec 8) = β
  intro h
  cases h with
  | init => revert hβ; decide +kernel
  | write q x h hq h1 h2 => exact hw q h hq h1 h2
  | amo q x h hq => exact ha q h hq

/-- The execution meets the hypotheses of C81: the consumer sees the flag (its request number 1), invalidates and reads
the data. -/
example : ∀ y, y / 4 = 4 → 16 ≤ y → y < 16 + 4 → 100 / 256 ^ (y - 16) % 256 =
    (WM.perform startH.mem [⟨MT.WRITE, 0, 16, 0, 4, 100⟩] y).toNat := by
  refine C81_message_passing pH_wf startH_start trPass_run trPass_valid (P := false) (C := true) (D := 4) (by decide)
    trPass_visible rfl ?_ ?_ (i := 1) (j := 2) (l := 3) (by decide) (by decide)
    (qf := ⟨MT.READ, 1, 32, 1, 1, 0⟩) (rf := ⟨MT.READ, 1, 1, 7⟩) (qi := ⟨MT.INV, 0, 0, 0, 4, 0⟩)
    (qd := ⟨MT.READ, 1, 16, 0, 4, 0⟩) (rd := ⟨MT.READ, 1, 0, 100⟩) (x := 32) (β := 7)
    ?_ ?_ ⟨.inl ⟨rfl, by decide⟩, by decide, by decide⟩ flag_new ?_ rfl ?_ rfl ?_
  · rw [trPass_visible]
    intro k hk
    cases k
    · exact absurd rfl hk
    · decide +kernel
  · decide +kernel
  · rw [trPass_visible]; decide +kernel
  · rw [trPass_visible]; decide +kernel
  · rw [trPass_visible]; decide +kernel
  · rw [trPass_visible]; decide +kernel
  · rw [trPass_visible]; decide +kernel

/-- **C81, FLUSH is needed.**  The producer writes 100 and raises the flag without a FLUSH; the consumer sees the flag,
invalidates, and reads the old data. -/
theorem C81_flush_needed : ∃ (tr : List (HEv Bool pH)) (H' : HSys Bool pH), HStart startH ∧ HetRun startH tr H' ∧
    HValid tr ∧
    WM.accepted false (visible tr) = [⟨MT.WRITE, 0, 16, 0, 4, 100⟩, ⟨6, 1, 32, 0, 4, 7⟩] ∧
    (WM.accepted true (visible tr)).zip (WM.responses true (visible tr)) =
      [(⟨MT.READ, 0, 16, 0, 4, 0⟩, ⟨MT.READ, 0, 0, 0x14131211⟩), (⟨MT.READ, 1, 32, 1, 1, 0⟩, ⟨MT.READ, 1, 1, 7⟩),
       (⟨MT.INV, 0, 0, 0, 4, 0⟩, ⟨MT.INV, 0, 0, 0⟩), (⟨MT.READ, 1, 16, 0, 4, 0⟩, ⟨MT.READ, 1, 0, 0x14131211⟩)] := by
  refine ⟨trNoFlush, pasC'.1, startH_start, trNoFlush_run, trNoFlush_valid, ?_⟩
  rw [trNoFlush_visible]
  decide +kernel

/-- **C81, INV is needed.**  The producer flushes as it should; the consumer sees the flag and reads the data without an
INV: it gets its old copy. -/
theorem C81_inv_needed : ∃ (tr : List (HEv Bool pH)) (H' : HSys Bool pH), HStart startH ∧ HetRun startH tr H' ∧
    HValid tr ∧
    WM.accepted false (visible tr) = [⟨MT.WRITE, 0, 16, 0, 4, 100⟩, ⟨MT.FLUSH, 1, 0, 0, 4, 0⟩,
      ⟨MT.WRITE, 0, 32, 1, 1, 7⟩, ⟨MT.FLUSH, 1, 0, 0, 4, 0⟩] ∧
    (WM.accepted true (visible tr)).zip (WM.responses true (visible tr)) =
      [(⟨MT.READ, 0, 16, 0, 4, 0⟩, ⟨MT.READ, 0, 0, 0x14131211⟩), (⟨MT.READ, 1, 32, 1, 1, 0⟩, ⟨MT.READ, 1, 1, 7⟩),
       (⟨MT.READ, 0, 16, 0, 4, 0⟩, ⟨MT.READ, 0, 0, 0x14131211⟩)] := by
  refine ⟨trNoInv, pasC''.1, startH_start, trNoInv_run, trNoInv_valid, ?_⟩
  rw [← List.take_append_drop 10 (visible trNoInv), trNoInv_before, trNoInv_visible, trPass_visible]
  decide +kernel

end Verif
