import Verif.PropsLock
import Verif.ExDisc

/-!
# A concrete execution of the spin lock

Two caches of different shapes; word 8 is the lock, word 4 is protected.
-/

namespace Verif.WM
variable {ι : Type} [DecidableEq ι]

/-- `Holds`, decided. Example; not in the source. -/
def holdsB (k : ι) (L : Nat) (tr : List (Ev ι)) : Bool :=
  decide ((answeredAmos k L tr).length = (askedAmos k L tr).length) &&
    match (answeredAmos k L tr).getLast? with
    | some o => decide (o.arg = 1 ∧ o.old = 0)
    | none => false

theorem holdsB_iff (k : ι) (L : Nat) (tr : List (Ev ι)) : holdsB k L tr = true ↔ Holds k L tr := by
  simp only [holdsB, Holds, Bool.and_eq_true, decide_eq_true_eq]
  refine and_congr_right fun _ => ?_
  cases (answeredAmos k L tr).getLast? with
  | none => simp
  | some o => simp

instance (k : ι) (L : Nat) (tr : List (Ev ι)) : Decidable (Holds k L tr) := decidable_of_iff _ (holdsB_iff k L tr)

/-- `Flushed`, decided. Example; not in the source. -/
def flushedB (k : ι) (W : Nat) (tr : List (Ev ι)) : Bool :=
  (List.range tr.length).all fun n => match tr[n]? with
    | some (.acc k' q) => decide (k' = k → q.stores W → (accepted k (tr.drop (n + 1))).any (fun f => decide (f.ty = MT.FLUSH)) = true)
    | _ => true

theorem flushedB_iff (k : ι) (W : Nat) (tr : List (Ev ι)) : flushedB k W tr = true ↔ Flushed k W tr := by
  simp only [flushedB, List.all_eq_true]
  constructor
  · intro h a q b he hs
    obtain ⟨n, h1, h2, rfl, rfl⟩ := split_iff.1 he
    have := h n h1
    rw [h2] at this
    have := of_decide_eq_true this rfl hs
    simpa using this
  · intro h n hn
    split
    · rename_i k' q he
      refine decide_eq_true ?_
      intro hk hs
      subst hk
      simpa using h _ q _ (split_at he) hs
    · rfl

instance (k : ι) (W : Nat) (tr : List (Ev ι)) : Decidable (Flushed k W tr) := decidable_of_iff _ (flushedB_iff k W tr)

/-- The lock protocol with one protected word, decided. Example; not in the source. -/
def lockB (L D : Nat) (tr : List (Ev ι)) : Bool :=
  decide (D ≠ L) && (List.range tr.length).all fun n => match tr[n]? with
    | some (.acc k q) =>
      decide (q.ty = MT.WRITE → ¬ q.covers L) &&
      decide (MT.isAmo q.ty = true → q.addr / 4 = L → q.ty = SWAP ∧
        ((¬ Holds k L (tr.take n) ∧ BitVec.ofNat 32 q.data = 1) ∨
          (Holds k L (tr.take n) ∧ BitVec.ofNat 32 q.data = 0 ∧
            (accepted k (tr.take n)).length = (responses k (tr.take n)).length ∧ Flushed k D (tr.take n)))) &&
      decide (q.stores D ∨ q.reads D → ((List.range (tr.take n).length).any fun m => match (tr.take n)[m]? with
        | some (.acc k2 i) => decide (k2 = k ∧ i.ty = MT.INV ∧ Holds k L ((tr.take n).take m) ∧
            askedAmos k L ((tr.take n).drop (m + 1)) = [])
        | _ => false) = true)
    | _ => true

theorem lockB_protocol {L D : Nat} {tr : List (Ev ι)} (h : lockB L D tr = true) : LockProtocol L (· = D) tr := by
  simp only [lockB, Bool.and_eq_true, decide_eq_true_eq, List.all_eq_true] at h
  obtain ⟨h0, h⟩ := h
  have key : ∀ {k q a b}, tr = a ++ .acc k q :: b → (q.ty = MT.WRITE → ¬ q.covers L) ∧
      (MT.isAmo q.ty = true → q.addr / 4 = L → q.ty = SWAP ∧
        ((¬ Holds k L a ∧ BitVec.ofNat 32 q.data = 1) ∨
          (Holds k L a ∧ BitVec.ofNat 32 q.data = 0 ∧ (accepted k a).length = (responses k a).length ∧ Flushed k D a))) ∧
      (q.stores D ∨ q.reads D → ∃ c i d, a = c ++ .acc k i :: d ∧ i.ty = MT.INV ∧ Holds k L c ∧ askedAmos k L d = []) := by
    intro k q a b he
    obtain ⟨n, h1, h2, rfl, rfl⟩ := split_iff.1 he
    have := h n h1
    rw [h2] at this
    simp only [Bool.and_eq_true] at this
    obtain ⟨⟨h3, h4⟩, h5⟩ := this
    refine ⟨of_decide_eq_true h3, of_decide_eq_true h4, ?_⟩
    intro hq
    have h6 := of_decide_eq_true h5 hq
    rw [List.any_eq_true] at h6
    obtain ⟨m, h7, h8⟩ := h6
    split at h8
    · rename_i k2 i he2
      obtain ⟨rfl, h9⟩ := of_decide_eq_true h8
      exact ⟨_, i, _, split_at he2, h9⟩
    · cases h8
  refine ⟨fun e => h0 e.symm, ?_, ?_, ?_⟩
  · intro k q hq
    obtain ⟨n, hn⟩ := List.getElem?_of_mem hq
    obtain ⟨a, b, h1, _⟩ := accepted_split hn
    exact (key h1).1
  · intro k a q b he ha hL
    obtain ⟨h1, h2⟩ := (key he).2.1 ha hL
    refine ⟨h1, ?_⟩
    rcases h2 with h2 | ⟨h2, h3, h4, h5⟩
    · exact .inl h2
    · exact .inr ⟨h2, h3, h4, fun W hW => by subst hW; exact h5⟩
  · intro k a q b he W hW hq
    subst hW
    exact (key he).2.2 hq

end Verif.WM

namespace Verif.ExL

/-- Two caches, just reset, with garbage in their SRAMs; memory is zero. Example; not in the source. -/
def startL : HSys Bool pH := ⟨fun k => (start0 (pH k)).node, fun _ => 0⟩

theorem startL_start : HStart startL := fun k => ⟨(start0_start (pH k)).reset, fun _ => rfl, fun _ => rfl⟩

/-- Lock and protected word in cache `false`. Example; not in the source. -/
def lkF (d : BitVec 32) : CReq (pH false) := ⟨6, 0, ⟨2, 0, 0⟩, 0, d⟩
/-- Lock and protected word in cache `true`. Example; not in the source. -/
def lkT (d : BitVec 32) : CReq (pH true) := ⟨6, 0, ⟨0, 2, 0⟩, 0, d⟩

/-- Example; not in the source. -/
def g1 := driveH false 20 startL [lkF 1]
/-- Example; not in the source. -/
def g2 := driveH false 60 g1.1 [⟨MT.INV, 0, ⟨0, 0, 0⟩, 0, 0⟩, ⟨MT.READ, 1, ⟨1, 0, 0⟩, 0, 0⟩, ⟨MT.WRITE, 0, ⟨1, 0, 0⟩, 0, 41⟩]
/-- Example; not in the source. -/
def g3 := driveH true 20 g2.1 [lkT 1]
/-- Example; not in the source. -/
def g4 := driveH false 40 g3.1 [⟨MT.FLUSH, 0, ⟨0, 0, 0⟩, 0, 0⟩]
/-- Example; not in the source. -/
def g5 := driveH false 20 g4.1 [lkF 0]
/-- Example; not in the source. -/
def g6 := driveH true 20 g5.1 [lkT 1]
/-- Example; not in the source. -/
def g7 := driveH true 50 g6.1 [⟨MT.INV, 0, ⟨0, 0, 0⟩, 0, 0⟩, ⟨MT.READ, 1, ⟨0, 1, 0⟩, 0, 0⟩]

/-- Example; not in the source. -/
def trL : List (HEv Bool pH) :=
  g1.2.map (fun e => ⟨false, e⟩) ++ g2.2.map (fun e => ⟨false, e⟩) ++ g3.2.map (fun e => ⟨true, e⟩) ++
  g4.2.map (fun e => ⟨false, e⟩) ++ g5.2.map (fun e => ⟨false, e⟩) ++ g6.2.map (fun e => ⟨true, e⟩) ++
  g7.2.map (fun e => ⟨true, e⟩)

theorem trL_run : HetRun startL trL g7.1 :=
  ((((((driveH_run false 20 startL _).trans (driveH_run false 60 g1.1 _)).trans (driveH_run true 20 g2.1 _)).trans
    (driveH_run false 40 g3.1 _)).trans (driveH_run false 20 g4.1 _)).trans (driveH_run true 20 g5.1 _)).trans
    (driveH_run true 50 g6.1 _)

theorem a1 : accepted () g1.2 = [lkF 1] := by decide +kernel
theorem a2 : accepted () g2.2 = [⟨MT.INV, 0, ⟨0, 0, 0⟩, 0, 0⟩, ⟨MT.READ, 1, ⟨1, 0, 0⟩, 0, 0⟩,
  ⟨MT.WRITE, 0, ⟨1, 0, 0⟩, 0, 41⟩] := by decide +kernel
theorem a3 : accepted () g3.2 = [lkT 1] := by decide +kernel
theorem a4 : accepted () g4.2 = [⟨MT.FLUSH, 0, ⟨0, 0, 0⟩, 0, 0⟩] := by decide +kernel
theorem a5 : accepted () g5.2 = [lkF 0] := by decide +kernel
theorem a6 : accepted () g6.2 = [lkT 1] := by decide +kernel
theorem a7 : accepted () g7.2 = [⟨MT.INV, 0, ⟨0, 0, 0⟩, 0, 0⟩, ⟨MT.READ, 1, ⟨0, 1, 0⟩, 0, 0⟩] := by decide +kernel

theorem lkF_valid (d : BitVec 32) : (lkF d).Valid :=
  .amo (show 3 ≤ (6 : MType).toNat ∧ (6 : MType).toNat ≤ 11 by decide) (.inl rfl) (show 4 ∣ (lkF 0).addr.flat by decide)
theorem lkT_valid (d : BitVec 32) : (lkT d).Valid :=
  .amo (show 3 ≤ (6 : MType).toNat ∧ (6 : MType).toNat ≤ 11 by decide) (.inl rfl) (show 4 ∣ (lkT 0).addr.flat by decide)

theorem trL_valid : HValid trL := by
  refine hvalid_append (hvalid_append (hvalid_append (hvalid_append (hvalid_append (hvalid_append (hvalid_one _ ?_)
    (hvalid_one _ ?_)) (hvalid_one _ ?_)) (hvalid_one _ ?_)) (hvalid_one _ ?_)) (hvalid_one _ ?_)) (hvalid_one _ ?_)
  · rw [a1]; intro q hq; simp only [List.mem_cons, List.not_mem_nil, or_false] at hq; subst hq; exact lkF_valid _
  · rw [a2]; intro q hq; simp only [List.mem_cons, List.not_mem_nil, or_false] at hq
    rcases hq with rfl | rfl | rfl
    · exact .inv rfl
    · exact .read rfl 2 (by decide) (by decide)
    · exact .write rfl 2 (by decide) (by decide) (by decide)
  · rw [a3]; intro q hq; simp only [List.mem_cons, List.not_mem_nil, or_false] at hq; subst hq; exact lkT_valid _
  · rw [a4]; intro q hq; simp only [List.mem_cons, List.not_mem_nil, or_false] at hq; subst hq; exact .flush rfl
  · rw [a5]; intro q hq; simp only [List.mem_cons, List.not_mem_nil, or_false] at hq; subst hq; exact lkF_valid _
  · rw [a6]; intro q hq; simp only [List.mem_cons, List.not_mem_nil, or_false] at hq; subst hq; exact lkT_valid _
  · rw [a7]; intro q hq; simp only [List.mem_cons, List.not_mem_nil, or_false] at hq
    rcases hq with rfl | rfl
    · exact .inv rfl
    · exact .read rfl 2 (by decide) (by decide)

/-- The events before the last READ. Example; not in the source. -/
def visL : List (WM.Ev Bool) :=
  [.acc false ⟨6, 0, 32, 0, 4, 1⟩, .resp false ⟨6, 0, 0, 0⟩,
   .acc false ⟨MT.INV, 0, 0, 0, 4, 0⟩, .acc false ⟨MT.READ, 1, 16, 0, 4, 0⟩, .resp false ⟨MT.INV, 0, 0, 0⟩,
   .acc false ⟨MT.WRITE, 0, 16, 0, 4, 41⟩, .resp false ⟨MT.READ, 1, 0, 0⟩, .resp false ⟨MT.WRITE, 0, 0, 0⟩,
   .acc true ⟨6, 0, 32, 0, 4, 1⟩, .resp true ⟨6, 0, 0, 1⟩,
   .acc false ⟨MT.FLUSH, 0, 0, 0, 4, 0⟩, .resp false ⟨MT.FLUSH, 0, 0, 0⟩,
   .acc false ⟨6, 0, 32, 0, 4, 0⟩, .resp false ⟨6, 0, 0, 1⟩,
   .acc true ⟨6, 0, 32, 0, 4, 1⟩, .resp true ⟨6, 0, 0, 0⟩,
   .acc true ⟨MT.INV, 0, 0, 0, 4, 0⟩]

theorem trL_visible : visible trL = visL ++ .acc true ⟨MT.READ, 1, 16, 0, 4, 0⟩ ::
    [.resp true ⟨MT.INV, 0, 0, 0⟩, .resp true ⟨MT.READ, 1, 0, 41⟩] := by decide +kernel

attribute [irreducible] g1 g2 g3 g4 g5 g6 g7

theorem trL_protocol : WM.LockProtocol 8 (· = 4) (visible trL) := by
  rw [trL_visible]; exact WM.lockB_protocol (by decide +kernel)

/-- The READ of cache `true` returns what cache `false` wrote under the lock. -/
example : (⟨MT.READ, 1, 0, 41⟩ : WM.Resp) =
    ⟨MT.READ, 1, 0, (WM.flat (WM.latest (fun _ => 0) visL) ⟨MT.READ, 1, 16, 0, 4, 0⟩).2⟩ := by
  refine C67_protected_reads pH_wf startL_start trL_run trL_valid (by decide +kernel) trL_protocol trL_visible ?_ ?_
  · intro W hW
    rcases hW with ⟨_, h1, h2⟩ | ⟨h, _⟩
    · simp only at h1 h2; show W = 4; omega
    · exact absurd h (by decide)
  · rw [trL_visible]; decide +kernel

/-- The lock changes hands. -/
example : WM.Holds false 8 (visL.take 8) ∧ ¬ WM.Holds true 8 (visL.take 10) ∧ WM.Holds false 8 (visL.take 10) ∧
    WM.Holds true 8 visL ∧ ¬ WM.Holds false 8 visL := by decide +kernel

example {k : Bool} (h : WM.Holds k 8 visL) : k = true :=
  C67_mutual_exclusion pH_wf startL_start trL_run trL_valid (by decide +kernel) trL_protocol trL_visible h
    (by decide +kernel)

/-- The four swaps in the order found by C66. -/
example : ∃ s : List (Bool × AmoOp), AmoSeq 0 (s.map (·.2)) (memWord g7.1.mem 8) ∧ WM.Linearised 8 (visible trL) s := by
  have h := C66_amos_linearised pH_wf startL_start trL_run trL_valid trL_protocol.noWrite
  rwa [show memWord startL.mem 8 = 0 by decide +kernel] at h

example : WM.answeredAmos false 8 (visible trL) = [⟨6, 1, 0⟩, ⟨6, 0, 1⟩] ∧
    WM.answeredAmos true 8 (visible trL) = [⟨6, 1, 1⟩, ⟨6, 1, 0⟩] := by rw [trL_visible]; decide +kernel

end Verif.ExL
