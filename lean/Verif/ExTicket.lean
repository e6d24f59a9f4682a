import Verif.TicketLive
import Verif.ExBarrier
import Verif.ExLockLive

/-!
# A concrete execution of the ticket lock

Two caches of different shapes; the tickets are at word 8, the number served at word 9.
-/

namespace Verif.WM
variable {ι : Type} [DecidableEq ι]

/-- `HasTurn` can be evaluated (proof device). -/
instance (k : ι) (T S : Nat) (n : BitVec 32) (tr : List (Ev ι)) : Decidable (HasTurn k T S n tr) :=
  inferInstanceAs (Decidable (_ ∧ ∃ o ∈ answeredAmos k S tr, _))

/-- Whether a processor has its turn, decided (proof device). -/
def turnB (k : ι) (T S : Nat) (tr : List (Ev ι)) : Bool := match (drawn k T tr)[given k S tr]? with
  | some n => decide (HasTurn k T S n tr)
  | none => false

theorem turnB_iff {k : ι} {T S : Nat} {tr : List (Ev ι)} : turnB k T S tr = true ↔ ∃ n, HasTurn k T S n tr := by
  unfold turnB
  split
  · rename_i n hn
    rw [decide_eq_true_eq]
    refine ⟨fun h => ⟨n, h⟩, fun ⟨n', h⟩ => ?_⟩
    have := h.1
    rw [hn] at this
    obtain rfl := Option.some.inj this
    exact h
  · rename_i hn
    refine ⟨(fun h => by cases h), fun ⟨n', h⟩ => ?_⟩
    have := h.1
    rw [hn] at this
    cases this

/-- The protocol, decided (proof device). -/
def ticketB (T S : Nat) (tr : List (Ev ι)) : Bool :=
  decide ((drawers T tr).length < 2 ^ 32) &&
  ((List.range tr.length).all fun n => match tr[n]? with
    | some (.acc k q) =>
      decide (q.ty = MT.WRITE → ¬ q.covers T ∧ ¬ q.covers S) &&
      decide (MT.isAmo q.ty = true → q.addr / 4 = T →
        q.ty = ADD ∧ BitVec.ofNat 32 q.data = 1 ∧ (askedAmos k T (tr.take n)).length = given k S (tr.take n)) &&
      decide (MT.isAmo q.ty = true → q.addr / 4 = S → q.ty = ADD ∧
        (BitVec.ofNat 32 q.data = 0 ∨ (BitVec.ofNat 32 q.data = 1 ∧ turnB k T S (tr.take n) = true)))
    | _ => true)

theorem ticketB_protocol {T S : Nat} {tr : List (Ev ι)} (h : ticketB T S tr = true) : TicketProtocol T S tr := by
  simp only [ticketB, Bool.and_eq_true, decide_eq_true_eq, List.all_eq_true] at h
  obtain ⟨hs, h⟩ := h
  have key : ∀ {k q a b}, tr = a ++ .acc k q :: b → (q.ty = MT.WRITE → ¬ q.covers T ∧ ¬ q.covers S) ∧
      (MT.isAmo q.ty = true → q.addr / 4 = T →
        q.ty = ADD ∧ BitVec.ofNat 32 q.data = 1 ∧ (askedAmos k T a).length = given k S a) ∧
      (MT.isAmo q.ty = true → q.addr / 4 = S → q.ty = ADD ∧
        (BitVec.ofNat 32 q.data = 0 ∨ (BitVec.ofNat 32 q.data = 1 ∧ turnB k T S a = true))) := by
    intro k q a b he
    obtain ⟨n, h1, h2, rfl, rfl⟩ := split_iff.1 he
    have := h n h1
    rw [h2] at this
    simp only [Bool.and_eq_true] at this
    exact ⟨of_decide_eq_true this.1.1, of_decide_eq_true this.1.2, of_decide_eq_true this.2⟩
  refine ⟨?_, fun k a q b he h1 h2 => (key he).2.1 h1 h2, ?_, hs⟩
  · intro k q hq
    obtain ⟨n, hn⟩ := List.getElem?_of_mem hq
    obtain ⟨a, b, h1, _⟩ := accepted_split hn
    exact (key h1).1
  · intro k a q b he h1 h2
    obtain ⟨h3, h4⟩ := (key he).2.2 h1 h2
    exact ⟨h3, h4.imp id fun h => ⟨h.1, turnB_iff.1 h.2⟩⟩

theorem TicketProtocol.prefix {T S : Nat} {a tr : List (Ev ι)} (h : TicketProtocol T S tr) (ha : a <+: tr) :
    TicketProtocol T S a := by
  obtain ⟨z, rfl⟩ := ha
  refine ⟨fun k q hq => h.noWrite k q (by rw [accepted_append]; exact List.mem_append_left _ hq),
    fun k c q b he => h.draw k c q (b ++ z) (by rw [he]; simp),
    fun k c q b he => h.serve k c q (b ++ z) (by rw [he]; simp), ?_⟩
  refine Nat.lt_of_le_of_lt ?_ h.small
  simp only [drawers, List.filterMap_append, List.length_append]
  omega

end Verif.WM

namespace Verif.ExTk
open Verif.ExL Verif.ExBar Verif.Net

/-- AMO_ADD on the number served, cache `false` (not in the source: a request). -/
def svF (d : BitVec 32) : CReq (pH false) := ⟨3, 0, ⟨2, 0, 4⟩, 0, d⟩
/-- AMO_ADD on the number served, cache `true` (not in the source: a request). -/
def svT (d : BitVec 32) : CReq (pH true) := ⟨3, 0, ⟨0, 2, 4⟩, 0, d⟩

/-- Part 1 of the execution: cache `true` draws ticket 0 (not in the source: an execution). -/
def h1 := driveH true 20 startL [adT 1]
/-- Part 2 of the execution: cache `false` draws ticket 1 and looks: not yet (not in the source: an execution). -/
def h2 := driveH false 40 h1.1 [adF 1, svF 0]
/-- Part 3 of the execution: cache `true` looks: it is its turn (not in the source: an execution). -/
def h3 := driveH true 20 h2.1 [svT 0]
/-- Part 4 of the execution: cache `true` gives its ticket back and draws ticket 2 (not in the source: an execution). -/
def h4 := driveH true 40 h3.1 [svT 1, adT 1]
/-- Part 5 of the execution: cache `true` looks: not yet (not in the source: an execution). -/
def h5 := driveH true 20 h4.1 [svT 0]
/-- Part 6 of the execution: cache `false` looks: it is its turn (not in the source: an execution). -/
def h6 := driveH false 20 h5.1 [svF 0]
/-- Part 7 of the execution: cache `false` gives its ticket back (not in the source: an execution). -/
def h7 := driveH false 20 h6.1 [svF 1]
/-- Part 8 of the execution: cache `true` looks: it is its turn (not in the source: an execution). -/
def h8 := driveH true 20 h7.1 [svT 0]
/-- Part 9 of the execution: cache `true` gives its ticket back (not in the source: an execution). -/
def h9 := driveH true 20 h8.1 [svT 1]

/-- The whole execution (not in the source: an execution). -/
def trT : List (HEv Bool pH) :=
  h1.2.map (fun e => ⟨true, e⟩) ++ h2.2.map (fun e => ⟨false, e⟩) ++ h3.2.map (fun e => ⟨true, e⟩) ++
  h4.2.map (fun e => ⟨true, e⟩) ++ h5.2.map (fun e => ⟨true, e⟩) ++ h6.2.map (fun e => ⟨false, e⟩) ++
  h7.2.map (fun e => ⟨false, e⟩) ++ h8.2.map (fun e => ⟨true, e⟩) ++ h9.2.map (fun e => ⟨true, e⟩)
theorem trT_run : HetRun startL trT h9.1 :=
  ((((((((driveH_run true 20 startL _).trans (driveH_run false 40 h1.1 _)).trans (driveH_run true 20 h2.1 _)).trans
    (driveH_run true 40 h3.1 _)).trans (driveH_run true 20 h4.1 _)).trans (driveH_run false 20 h5.1 _)).trans
    (driveH_run false 20 h6.1 _)).trans (driveH_run true 20 h7.1 _)).trans (driveH_run true 20 h8.1 _)

theorem t1 : accepted () h1.2 = [adT 1] := by decide +kernel
theorem t2 : accepted () h2.2 = [adF 1, svF 0] := by decide +kernel
theorem t3 : accepted () h3.2 = [svT 0] := by decide +kernel
theorem t4 : accepted () h4.2 = [svT 1, adT 1] := by decide +kernel
theorem t5 : accepted () h5.2 = [svT 0] := by decide +kernel
theorem t6 : accepted () h6.2 = [svF 0] := by decide +kernel
theorem t7 : accepted () h7.2 = [svF 1] := by decide +kernel
theorem t8 : accepted () h8.2 = [svT 0] := by decide +kernel
theorem t9 : accepted () h9.2 = [svT 1] := by decide +kernel

theorem svF_valid (d : BitVec 32) : (svF d).Valid :=
  .amo (show 3 ≤ (3 : MType).toNat ∧ (3 : MType).toNat ≤ 11 by decide) (.inl rfl) (show 4 ∣ (svF 0).addr.flat by decide)
theorem svT_valid (d : BitVec 32) : (svT d).Valid :=
  .amo (show 3 ≤ (3 : MType).toNat ∧ (3 : MType).toNat ≤ 11 by decide) (.inl rfl) (show 4 ∣ (svT 0).addr.flat by decide)

theorem trT_valid : HValid trT := by
  refine hvalid_append (hvalid_append (hvalid_append (hvalid_append (hvalid_append (hvalid_append (hvalid_append
    (hvalid_append (hvalid_one _ ?_) (hvalid_one _ ?_)) (hvalid_one _ ?_)) (hvalid_one _ ?_)) (hvalid_one _ ?_))
    (hvalid_one _ ?_)) (hvalid_one _ ?_)) (hvalid_one _ ?_)) (hvalid_one _ ?_)
  · rw [t1]; intro q hq; simp only [List.mem_cons, List.not_mem_nil, or_false] at hq; subst hq; exact adT_valid _
  · rw [t2]; intro q hq; simp only [List.mem_cons, List.not_mem_nil, or_false] at hq
    rcases hq with rfl | rfl
    · exact adF_valid _
    · exact svF_valid _
  · rw [t3]; intro q hq; simp only [List.mem_cons, List.not_mem_nil, or_false] at hq; subst hq; exact svT_valid _
  · rw [t4]; intro q hq; simp only [List.mem_cons, List.not_mem_nil, or_false] at hq
    rcases hq with rfl | rfl
    · exact svT_valid _
    · exact adT_valid _
  · rw [t5]; intro q hq; simp only [List.mem_cons, List.not_mem_nil, or_false] at hq; subst hq; exact svT_valid _
  · rw [t6]; intro q hq; simp only [List.mem_cons, List.not_mem_nil, or_false] at hq; subst hq; exact svF_valid _
  · rw [t7]; intro q hq; simp only [List.mem_cons, List.not_mem_nil, or_false] at hq; subst hq; exact svF_valid _
  · rw [t8]; intro q hq; simp only [List.mem_cons, List.not_mem_nil, or_false] at hq; subst hq; exact svT_valid _
  · rw [t9]; intro q hq; simp only [List.mem_cons, List.not_mem_nil, or_false] at hq; subst hq; exact svT_valid _

/-- What the processors see (not in the source: an execution). -/
def visT : List (WM.Ev Bool) :=
  [.acc true ⟨3, 0, 32, 0, 4, 1⟩, .resp true ⟨3, 0, 0, 0⟩, .acc false ⟨3, 0, 32, 0, 4, 1⟩, .acc false ⟨3, 0, 36, 0, 4, 0⟩,
   .resp false ⟨3, 0, 0, 1⟩, .resp false ⟨3, 0, 0, 0⟩, .acc true ⟨3, 0, 36, 0, 4, 0⟩, .resp true ⟨3, 0, 0, 0⟩,
   .acc true ⟨3, 0, 36, 0, 4, 1⟩, .acc true ⟨3, 0, 32, 0, 4, 1⟩, .resp true ⟨3, 0, 0, 0⟩, .resp true ⟨3, 0, 0, 2⟩,
   .acc true ⟨3, 0, 36, 0, 4, 0⟩, .resp true ⟨3, 0, 0, 1⟩, .acc false ⟨3, 0, 36, 0, 4, 0⟩, .resp false ⟨3, 0, 0, 1⟩,
   .acc false ⟨3, 0, 36, 0, 4, 1⟩, .resp false ⟨3, 0, 0, 1⟩, .acc true ⟨3, 0, 36, 0, 4, 0⟩, .resp true ⟨3, 0, 0, 2⟩,
   .acc true ⟨3, 0, 36, 0, 4, 1⟩, .resp true ⟨3, 0, 0, 2⟩]
theorem trT_visible : visible trT = visT := by decide +kernel

attribute [irreducible] h1 h2 h3 h4 h5 h6 h7 h8 h9

theorem trT_protocol : WM.TicketProtocol 8 9 (visible trT) := by
  rw [trT_visible]; exact WM.ticketB_protocol (by decide +kernel)

/-- The tickets drawn. -/
example : WM.drawn true 8 visT = [0, 2] ∧ WM.drawn false 8 visT = [1] := by decide +kernel

/-- Whose turn it is: nobody's after 6 events; that of `true` with ticket 0, of `false` with ticket 1, of `true` with ticket 2. -/
example : ¬ WM.HasTurn true 8 9 0 (visT.take 6) ∧ ¬ WM.HasTurn false 8 9 1 (visT.take 6) ∧
    WM.HasTurn true 8 9 0 (visT.take 8) ∧ ¬ WM.HasTurn true 8 9 2 (visT.take 14) ∧ WM.HasTurn false 8 9 1 (visT.take 16) ∧
    WM.HasTurn true 8 9 2 (visT.take 20) := by decide +kernel

/-- The hypotheses of `C93_in_order`: when `false` has its turn, `true` has given its first ticket back. -/
example : 0 < WM.given true 9 (visT.take 16) := by
  refine C93_in_order pH_wf startL_start trT_run trT_valid (by decide +kernel) (by decide +kernel) trT_protocol
    (a := visT.take 16) (b := visT.drop 16) (k := false) (n := 1) (m := 0) ?_ (by decide +kernel) ?_ (by decide)
  · rw [trT_visible, List.take_append_drop]
  · rw [trT_visible]; decide +kernel

/-- The hypotheses of `C93_mutual_exclusion`: nobody but `false` has its turn after 16 events. -/
example (k : Bool) (n : BitVec 32) (h : WM.HasTurn k 8 9 n (visT.take 16)) : k = false := by
  refine C93_mutual_exclusion pH_wf startL_start trT_run trT_valid (by decide +kernel) (by decide +kernel) trT_protocol
    (a := visT.take 16) (b := visT.drop 16) ?_ h (n' := 1) (by decide +kernel)
  rw [trT_visible, List.take_append_drop]

/-- The hypotheses of `C93_tickets_differ`. -/
example (k : Bool) (j : Nat) (h : (WM.drawn k 8 (visible trT))[j]? = some 2) : true = k ∧ 1 = j :=
  C93_tickets_differ pH_wf startL_start trT_run trT_valid (by decide +kernel) (by decide +kernel) trT_protocol
    (by rw [trT_visible]; decide +kernel) h

/-- The hypotheses of `C94_turn_comes`: ticket 0 is given back (12 events); `false`, with ticket 1, looks and finds its number. -/
example : 0 < WM.given false 9 (visT.take 16) ∨ ∃ o ∈ WM.answeredAmos false 9 (visT.take 16), o.old + o.arg = 1 := by
  refine C94_turn_comes pH_wf startL_start trT_run trT_valid (by decide +kernel) (by decide +kernel) trT_protocol
    (a := visT.take 12) (b := (visT.drop 12).take 4) (c := visT.drop 16) (k := false) ?_ ?_
    (.inr ⟨true, 0, 0, ?_, by decide, by decide +kernel⟩) (by decide +kernel)
  · rw [trT_visible]; decide +kernel
  · rw [trT_visible]; decide +kernel
  · rw [trT_visible]; decide +kernel

/-- The hypotheses of `C94_starvation_free` are met by an infinite execution in which three tickets are drawn and given back. -/
theorem C94_example : ∃ X : HLInf Bool pH, HNStart (X.st 0) ∧ (∀ t, HWValid (evsOf (X.labs t))) ∧
    (∀ k, X.PortsReady k) ∧ (∀ k, X.MemoryAnswers k) ∧ memWord (X.st 0).mem 8 = 0 ∧ memWord (X.st 0).mem 9 = 0 ∧
    (∀ t, WM.TicketProtocol 8 9 (X.seen t)) ∧
    (∀ k t n, (WM.drawn k 8 (X.seen t))[WM.given k 9 (X.seen t)]? = some n →
      (∀ t', ¬ WM.TurnBetween k 8 9 n (X.seen t) (X.seen t')) →
      ∀ t', ∃ t'', t' ≤ t'' ∧ (WM.askedAmos k 9 (X.seen t')).length < (WM.askedAmos k 9 (X.seen t'')).length) ∧
    (∀ k t x n, x <+: X.seen t → WM.HasTurn k 8 9 n x → ∃ t', WM.given k 9 x < WM.given k 9 (X.seen t')) ∧
    ∃ t, X.seen t = visible trT := by
  obtain ⟨X, g1, g2, g3, g4, n, g5⟩ := live_example pH_wf startL_start trT_run trT_valid (by rw [trT_visible]; decide +kernel)
  have he := (g5 n).2 (Nat.le_refl _)
  have pre : ∀ {x}, x <+: visible trT → x.length < 23 ∧ x = visT.take x.length := by
    intro x hx
    rw [trT_visible] at hx
    obtain ⟨z, hz⟩ := hx
    refine ⟨?_, by rw [← hz, List.take_left']; rfl⟩
    have := congrArg List.length hz
    rw [List.length_append, show visT.length = 22 from rfl] at this
    omega
  refine ⟨X, g1, g3, fun k => (g4 k).1, fun k => (g4 k).2, ?_, ?_, fun t => trT_protocol.prefix (g5 t).1, ?_, ?_, n, he⟩
  · rw [g2]; decide +kernel
  · rw [g2]; decide +kernel
  · intro k t m hd hno
    refine absurd ?_ (hno n)
    have hb : ∀ i < 23, ∀ k, ((WM.drawn k 8 (visT.take i))[WM.given k 9 (visT.take i)]?).all
        (fun m => (List.range 23).any fun j => decide (i ≤ j ∧ WM.HasTurn k 8 9 m (visT.take j))) = true := by decide +kernel
    obtain ⟨h1, h2⟩ := pre (g5 t).1
    have := hb _ h1 k
    rw [← h2, hd] at this
    obtain ⟨j, _, h3⟩ := List.any_eq_true.1 this
    obtain ⟨h4, h5⟩ := of_decide_eq_true h3
    refine ⟨visT.take j, ?_, by rw [he, trT_visible]; exact List.take_prefix _ _, h5⟩
    rw [h2]
    exact List.take_prefix_take_left h4
  · intro k t x m hx ht
    refine ⟨n, ?_⟩
    have hb : ∀ i < 23, ∀ k, ((WM.drawn k 8 (visT.take i))[WM.given k 9 (visT.take i)]?).all
        (fun _ => decide (WM.given k 9 (visT.take i) < WM.given k 9 visT)) = true := by decide +kernel
    obtain ⟨h1, h2⟩ := pre (hx.trans (g5 t).1)
    have := hb _ h1 k
    rw [← h2, ht.1] at this
    rw [he, trT_visible]; exact of_decide_eq_true this

end Verif.ExTk
