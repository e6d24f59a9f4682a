import Verif.LockLive
import Verif.ExHetWave
import Verif.ExBarrier

/-!
# C91, C92: the hypotheses are met

The lock of `ExLock.lean` and the barrier of `ExBarrier.lean`, in finite executions and in infinite
ones on the wires; and what goes wrong when a processor does not wait for the answer of an attempt.
-/

set_option linter.unusedSectionVars false

namespace Verif.WM
variable {ι : Type} [DecidableEq ι]

/-- `OneByOne`, decided. Example; not in the source. -/
def oneByOneB (L : Nat) (tr : List (Ev ι)) : Bool :=
  (List.range tr.length).all fun n => match tr[n]? with
    | some (.acc k q) => decide (MT.isAmo q.ty = true → q.addr / 4 = L →
        (answeredAmos k L (tr.take n)).length = (askedAmos k L (tr.take n)).length)
    | _ => true

theorem oneByOneB_spec {L : Nat} {tr : List (Ev ι)} (h : oneByOneB L tr = true) : OneByOne L tr := by
  intro k a q b he
  obtain ⟨n, h1, h2, rfl, rfl⟩ := split_iff.1 he
  simp only [oneByOneB, List.all_eq_true] at h
  have := h n (by simpa using h1)
  rw [h2] at this
  exact of_decide_eq_true this

theorem OneByOne.prefix {L : Nat} {a tr : List (Ev ι)} (h : OneByOne L tr) (ha : a <+: tr) : OneByOne L a := by
  obtain ⟨z, rfl⟩ := ha
  intro k c q d he
  exact h k c q (d ++ z) (by rw [he]; simp)

theorem mem_accepted_mono {k : ι} {q : Req} {a z : List (Ev ι)} (h : q ∈ accepted k a) : q ∈ accepted k (a ++ z) := by
  rw [accepted_append]; exact List.mem_append_left _ h

theorem LockProtocol.prefix {L : Nat} {D : Nat → Prop} {a tr : List (Ev ι)} (h : LockProtocol L D tr) (ha : a <+: tr) :
    LockProtocol L D a := by
  obtain ⟨z, rfl⟩ := ha
  refine ⟨h.apart, fun k q hq => h.noWrite k q (mem_accepted_mono hq), ?_, ?_⟩
  · intro k c q d he; exact h.swap k c q (d ++ z) (by rw [he]; simp)
  · intro k c q d he; exact h.guarded k c q (d ++ z) (by rw [he]; simp)

theorem BarrierProtocol.prefix {ps : List ι} {B : Nat} {D : Nat → Prop} {a tr : List (Ev ι)}
    (h : BarrierProtocol ps B D tr) (ha : a <+: tr) : BarrierProtocol ps B D a := by
  obtain ⟨z, rfl⟩ := ha
  refine ⟨h.nodup, h.apart, fun k q hq => h.noWrite k q (mem_accepted_mono hq), ?_, ?_, ?_, ?_⟩
  · intro k c q d he; exact h.add k c q (d ++ z) (by rw [he]; simp)
  · refine Nat.lt_of_le_of_lt (sum_le _ (fun k => arrivals k B (a ++ z)) fun k _ => ?_) h.small
    rw [arrivals_append]; omega
  · intro k c q d he; exact h.guarded k c q (d ++ z) (by rw [he]; simp)
  · intro k k' hk c q d c' q' d' he he'
    exact h.phases k k' hk c q (d ++ z) c' q' (d' ++ z) (by rw [he]; simp) (by rw [he']; simp)

end Verif.WM

namespace Verif.Net
open Verif
variable {ι : Type} [DecidableEq ι] {p : ι → Params}

theorem quiet_evs (s : Nat → ι) (N : HNSys ι p) (t : Nat) (k : ι) (u : Unit) (q : WReq (p k)) :
    (⟨k, WEv.acc u q⟩ : HWEv ι p) ∉ evsOf ((quietInf s N).labs t) := by
  intro h
  rw [evsOf, List.mem_flatMap] at h
  obtain ⟨l, h1, h2⟩ := h
  rw [HLInf.labs, List.mem_map] at h1
  obtain ⟨i, _, rfl⟩ := h1
  have : (quietInf s N).lab i = (quietStep (quietSt s N i) (s i)).1 := rfl
  rw [this] at h2
  simp only [quietStep] at h2
  split at h2
  · simp only [Lab.evs, List.mem_map] at h2
    obtain ⟨e, h3, h4⟩ := h2
    obtain ⟨rfl, h5⟩ := Sigma.mk.inj h4
    have h5 := eq_of_heq h5
    subst h5
    have hq : ∀ n : NNode (p (s i)), (quiet n).cachereqEn = false := by intro n; simp only [quiet]; split <;> rfl
    simp only [cycEvs, hq, Bool.false_eq_true, if_false, List.nil_append, List.mem_append] at h3
    rcases h3 with h3 | h3 <;> split at h3 <;> simp at h3
  · simp only [Lab.evs, List.mem_singleton] at h2
    obtain ⟨rfl, h5⟩ := Sigma.mk.inj h2
    cases eq_of_heq h5

theorem wvisible_resp {tr : List (HWEv ι p)} (h : ∀ k u q, (⟨k, WEv.acc u q⟩ : HWEv ι p) ∉ tr) (k : ι) :
    WM.accepted k (wvisible tr) = [] := by
  induction tr with
  | nil => rfl
  | cons e tr ih =>
    have ih := ih (fun k u q hq => h k u q (List.mem_cons_of_mem _ hq))
    obtain ⟨k2, e⟩ := e
    rw [show (⟨k2, e⟩ : HWEv ι p) :: tr = [⟨k2, e⟩] ++ tr from rfl, wvisible_append, WM.accepted_append, ih, List.append_nil]
    cases e with
    | acc u q => exact absurd List.mem_cons_self (h k2 u q)
    | resp u r => rfl
    | mreq u r => rfl
    | exec u m r => rfl

theorem no_events {tr : List (WM.Ev ι)} (h1 : ∀ k, WM.accepted k tr = []) (h2 : ∀ k, WM.responses k tr = []) : tr = [] := by
  cases tr with
  | nil => rfl
  | cons e tr =>
    cases e with
    | acc k q => have := h1 k; simp [WM.accepted] at this
    | resp k r => have := h2 k; simp [WM.responses] at this

/-- A finite execution in which everything is answered, continued for ever without requests. -/
theorem live_example (wf : ∀ k, (pH k).WF) {H H' : HSys Bool pH} {tr : List (HEv Bool pH)} (h0 : HStart H)
    (h : HetRun H tr H') (hv : HValid tr)
    (ha : ∀ k, (WM.accepted k (visible tr)).length ≤ (WM.responses k (visible tr)).length) :
    ∃ X : HLInf Bool pH, HNStart (X.st 0) ∧ (X.st 0).mem = H.mem ∧ (∀ t, HWValid (evsOf (X.labs t))) ∧
      (∀ k, X.PortsReady k ∧ X.MemoryAnswers k) ∧
      ∃ n, ∀ t, X.seen t <+: visible tr ∧ (n ≤ t → X.seen t = visible tr) := by
  obtain ⟨N, N', tr', g1, g2, g3, g4, g5, _⟩ := wires_example wf h0 h hv
  obtain ⟨ls, g6, g7⟩ := g2.label
  obtain ⟨X, e1, e2, e3⟩ := quiet_extension turns_all g6
  have hend : ∀ t, ls.length ≤ t → X.seen t = visible tr ∧ HWValid (evsOf (X.labs t)) := by
    intro t ht
    obtain ⟨d, rfl⟩ : ∃ d, t = ls.length + d := ⟨t - ls.length, by omega⟩
    have hacc := fun k => wvisible_resp (quiet_evs turns N' d) k
    have hseen : X.seen (ls.length + d) = visible tr ++ wvisible (evsOf ((quietInf turns N').labs d)) := by
      rw [HLInf.seen, e2, evsOf_append, wvisible_append, g7, g4]
    refine ⟨?_, ?_⟩
    · rw [hseen]
      have : wvisible (evsOf ((quietInf turns N').labs d)) = [] := by
        refine no_events hacc fun k => ?_
        have h5 := (C83_responses_in_order wf (by rw [e1]; exact g1) (X.run (ls.length + d)).toRun k).length_le
        rw [List.length_map, List.length_map] at h5
        change (WM.responses k (X.seen _)).length ≤ (WM.accepted k (X.seen _)).length at h5
        rw [hseen, WM.responses_append, WM.accepted_append, hacc, List.append_nil, List.length_append] at h5
        have := ha k
        exact List.length_eq_zero_iff.1 (by omega)
      rw [this, List.append_nil]
    · intro k u q hq
      rw [e2, evsOf_append, g7] at hq
      rcases List.mem_append.1 hq with hq | hq
      · exact g3 k u q hq
      · exact absurd hq (quiet_evs turns N' d k u q)
  refine ⟨X, by rw [e1]; exact g1, by rw [e1]; exact g5, ?_, e3, ls.length, fun t => ⟨?_, fun ht => (hend t ht).1⟩⟩
  · intro t k u q hq
    refine (hend (max t ls.length) (by omega)).2 k u q ?_
    obtain ⟨d, hd⟩ : ∃ d, max t ls.length = t + d := ⟨max t ls.length - t, by omega⟩
    rw [hd, X.labs_add, evsOf_append]
    exact List.mem_append_left _ hq
  · have := (hend (max t ls.length) (by omega)).1
    rw [← this]
    exact X.seen_mono (by omega)

end Verif.Net

namespace Verif.ExL
open Verif.Net

theorem trL_oneByOne : WM.OneByOne 8 (visible trL) := by
  rw [trL_visible]; exact WM.oneByOneB_spec (by decide +kernel)

/-- The hypotheses of `C91_progress`: the lock is given back (in the first 14 events), then cache `true` tries. -/
example : WM.HeldBetween 8 (visL.take 13) (visible trL) := by
  refine C91_progress pH_wf startL_start trL_run trL_valid (by decide +kernel) trL_protocol trL_oneByOne (k0 := true)
    (b := visL.drop 13 |>.take 1) (c := visL.drop 14 |>.take 2)
    (d := visL.drop 16 ++ .acc true ⟨MT.READ, 1, 16, 0, 4, 0⟩ ::
      [.resp true ⟨MT.INV, 0, 0, 0⟩, .resp true ⟨MT.READ, 1, 0, 41⟩]) ?_ ?_ ?_ ?_
  · rw [trL_visible]; decide +kernel
  · decide +kernel
  · decide +kernel
  · rw [trL_visible]; decide +kernel

/-- At that time nobody holds the lock. -/
example : ¬ WM.Holds true 8 (visL.take 13) ∧ ¬ WM.Holds false 8 (visL.take 13) := by decide +kernel

/-- The hypotheses of `C91_deadlock_free` are met by an infinite execution in which the lock is taken, given back and
taken by the other processor. -/
theorem C91_example : ∃ X : HLInf Bool pH, HNStart (X.st 0) ∧ (∀ t, HWValid (evsOf (X.labs t))) ∧
    (∀ k, X.PortsReady k) ∧ (∀ k, X.MemoryAnswers k) ∧ memWord (X.st 0).mem 8 = 0 ∧
    (∀ t, WM.LockProtocol 8 (· = 4) (X.seen t)) ∧ (∀ t, WM.OneByOne 8 (X.seen t)) ∧
    ((∀ t', 0 ≤ t' → ¬ WM.HeldBetween 8 (X.seen 0) (X.seen t')) →
      ∀ t', ∃ t'', t' ≤ t'' ∧ (WM.askedAmos true 8 (X.seen t')).length < (WM.askedAmos true 8 (X.seen t'')).length) ∧
    ∃ t, X.seen t = visible trL := by
  obtain ⟨X, h1, h2, h3, h4, n, h5⟩ := live_example pH_wf startL_start trL_run trL_valid (by rw [trL_visible]; decide +kernel)
  refine ⟨X, h1, h3, fun k => (h4 k).1, fun k => (h4 k).2, ?_, fun t => trL_protocol.prefix (h5 t).1,
    fun t => trL_oneByOne.prefix (h5 t).1, fun hno => absurd ?_ (hno n (Nat.zero_le _)), n, (h5 n).2 (Nat.le_refl _)⟩
  · rw [h2]; decide +kernel
  · refine ⟨false, visL.take 8, List.nil_prefix, ?_, by decide +kernel⟩
    rw [(h5 n).2 (Nat.le_refl _), trL_visible]
    exact List.IsPrefix.trans (List.take_prefix 8 visL) (List.prefix_append _ _)

/-- A processor that asks for the lock twice without waiting. Example; not in the source. -/
def kk := driveH true 60 startL [lkT 1, lkT 1]

/-- What it sees. Example; not in the source. -/
def visK : List (WM.Ev Bool) :=
  [.acc true ⟨6, 0, 32, 0, 4, 1⟩, .acc true ⟨6, 0, 32, 0, 4, 1⟩, .resp true ⟨6, 0, 0, 0⟩, .resp true ⟨6, 0, 0, 1⟩]

/-- `OneByOne` cannot be left out of C91: a processor that asks for the lock again before the answer takes it without
noticing; everything is answered, the lock is taken, nobody has held it at any moment, and nobody may give it back. -/
theorem C91_waiting_needed : ∃ (tr : List (HEv Bool pH)) (H : HSys Bool pH), HStart startL ∧ HetRun startL tr H ∧ HValid tr ∧
    memWord startL.mem 8 = 0 ∧ WM.LockProtocol 8 (· = 4) (visible tr) ∧
    (∀ k, (WM.accepted k (visible tr)).length = (WM.responses k (visible tr)).length) ∧
    (WM.accepted true (visible tr)).length = 2 ∧ memWord H.mem 8 = 1 ∧ ¬ WM.HeldBetween 8 [] (visible tr) := by
  have hv : visible (kk.2.map (fun e => (⟨true, e⟩ : HEv Bool pH))) = visK := by decide +kernel
  have ha : accepted () kk.2 = [lkT 1, lkT 1] := by decide +kernel
  refine ⟨kk.2.map (fun e => ⟨true, e⟩), kk.1, startL_start, driveH_run true 60 startL _, hvalid_one _ ?_, by decide +kernel,
    ?_, ?_, ?_, by decide +kernel, ?_⟩
  · rw [ha]; intro q hq; simp only [List.mem_cons, List.not_mem_nil, or_false, or_self] at hq; subst hq; exact lkT_valid _
  · rw [hv]; exact WM.lockB_protocol (by decide +kernel)
  · rw [hv]; decide +kernel
  · rw [hv]; decide +kernel
  · rw [hv]
    rintro ⟨k, x, _, ⟨z, hz⟩, hh⟩
    have hx : x = visK.take x.length := by rw [← hz, List.take_left']; rfl
    have hl : x.length < 5 := by
      have := congrArg List.length hz
      rw [List.length_append, show visK.length = 4 from rfl] at this
      omega
    have hb : ∀ n < 5, ∀ k, ¬ WM.Holds k 8 (visK.take n) := by decide +kernel
    rw [hx] at hh
    exact hb _ hl k hh

end Verif.ExL

namespace Verif.ExBar
open Verif.Net Verif.ExL

/-- The hypotheses of `C92_opens`: both have arrived once (8 events), then cache `false` looks (sees 3). -/
example : WM.Passed 2 false 8 1 (visB₁.take 8 ++ ((visB₁.drop 8 ++ .acc true ⟨MT.READ, 1, 16, 0, 4, 0⟩ :: visB₂).take 12)) := by
  refine C92_opens (ps := [false, true]) pH_wf startL_start trB_run trB_valid (by decide +kernel) trB_protocol
    (c := (visB₁.drop 8 ++ .acc true ⟨MT.READ, 1, 16, 0, 4, 0⟩ :: visB₂).drop 12 ++
      .acc false ⟨MT.READ, 1, 16, 0, 4, 0⟩ :: visB₃) ?_ ?_ ?_
  · rw [trB_visible]; decide +kernel
  · decide +kernel
  · decide +kernel

/-- The hypotheses of `C92_eventually_opens` are met by an infinite execution with two phases. -/
theorem C92_example : ∃ X : HLInf Bool pH, HNStart (X.st 0) ∧ (∀ t, HWValid (evsOf (X.labs t))) ∧
    (∀ k, X.PortsReady k) ∧ (∀ k, X.MemoryAnswers k) ∧ memWord (X.st 0).mem 8 = 0 ∧
    (∀ t, WM.BarrierProtocol [false, true] 8 (· = 4) (X.seen t)) ∧
    (∀ j ∈ [false, true], ∃ t, 2 ≤ WM.arrivals j 8 (X.seen t)) ∧
    ((∀ t, ¬ WM.Passed 2 false 8 2 (X.seen t)) → ∀ t, ∃ t', t ≤ t' ∧
      (WM.askedAmos false 8 (X.seen t)).length < (WM.askedAmos false 8 (X.seen t')).length) ∧
    ∃ t, X.seen t = visible trB := by
  obtain ⟨X, h1, h2, h3, h4, n, h5⟩ := live_example pH_wf startL_start trB_run trB_valid (by rw [trB_visible]; decide +kernel)
  have he := (h5 n).2 (Nat.le_refl _)
  refine ⟨X, h1, h3, fun k => (h4 k).1, fun k => (h4 k).2, ?_, fun t => trB_protocol.prefix (h5 t).1, ?_,
    fun hno => absurd ?_ (hno n), n, he⟩
  · rw [h2]; decide +kernel
  · intro j _
    refine ⟨n, ?_⟩
    rw [he, trB_visible]
    cases j <;> decide +kernel
  · rw [he, trB_visible]; decide +kernel

end Verif.ExBar
