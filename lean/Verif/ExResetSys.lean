import Verif.PropsResetSys
import Verif.ExModel

/-!
# A concrete execution in which one of two caches is reset (C84)

Cache `false` makes a store durable, stores again and is reset while a write-back and a refill
are in flight.  Cache `true` goes on in the meantime and has a dirty word of its own.
-/

namespace Verif
namespace Ex84

section
variable {ι : Type} [DecidableEq ι] {p : ι → Params}

theorem _root_.Verif.RRun.trans {A A' A'' : RSys ι p} {a b : List (REv ι p)} (h : RRun A a A') (h' : RRun A' b A'') :
    RRun A (a ++ b) A'' := by
  induction h' with
  | refl => simpa using h
  | snoc _ hs ih => rw [← List.append_assoc]; exact .snoc ih hs

theorem _root_.Verif.RRun.one {A A' : RSys ι p} {a : List (REv ι p)} (h : RStep A a A') : RRun A a A' := by
  simpa using RRun.snoc (.refl A) h

theorem put_put (R : RSys ι p) (k : ι) (S S' : Sys Unit (p k)) (s s' : Option Nat) :
    (R.put k S s).put k S' s' = R.put k S' s' := by
  simp only [RSys.put, RSys.mk.injEq, HSys.mk.injEq, and_true]
  refine ⟨setNode_setNode _ _ _ _ _, ?_⟩
  funext k'
  by_cases h : k' = k
  · subst h; simp
  · simp [upd_other _ h]

theorem put_one (R : RSys ι p) (k : ι) (S : Sys Unit (p k)) (s : Option Nat) : (R.put k S s).one k = S := by
  simp only [RSys.one, RSys.put, setNode_same]; rfl

theorem put_since (R : RSys ι p) (k : ι) (S : Sys Unit (p k)) (s : Option Nat) : (R.put k S s).since k = s := by
  simp [RSys.put]

/-- A run of one cache is a run of the system. -/
theorem node_rrun {R : RSys ι p} {k : ι} (hs : R.since k = none) {tr : List (Ev Unit (p k))} {S : Sys Unit (p k)}
    (h : Run (R.one k) tr S) : RRun R (evsAt k tr) (R.put k S none) := by
  generalize hT : R.one k = T at h
  induction h with
  | refl =>
    subst hT
    have : R.put k (R.one k) none = R := by
      cases R with | mk sys since =>
      cases sys with | mk node mem =>
      simp only [RSys.put, RSys.mk.injEq, HSys.mk.injEq]
      refine ⟨⟨setNode_self _ k, rfl⟩, upd_id hs.symm⟩
    rw [this]; exact .refl _
  | @snoc S' S'' tr ev _ st ih =>
    have e : evsAt k (tr ++ ev) = (evsAt k tr ++ evsAt k ev : List (REv ι p)) := by simp [evsAt]
    rw [e]
    refine .snoc ih ?_
    have := RStep.run (R.put k S' none) k (put_since ..) ev S'' (by rw [put_one]; exact st)
    rwa [put_put] at this

omit [DecidableEq ι] in
theorem rvalid_append {a b : List (REv ι p)} (h : RValid a) (h' : RValid b) : RValid (a ++ b) := by
  intro k u q hq
  rw [List.mem_append] at hq
  exact hq.elim (h k u q) (h' k u q)

theorem rvalid_one (k : ι) {tr : List (Ev Unit (p k))} (h : ∀ q ∈ accepted () tr, q.Valid) : RValid (evsAt k tr) := by
  intro k' u q hq
  refine hvalid_one k h k' u q ?_
  simp only [evsAt, List.mem_map] at hq ⊢
  obtain ⟨e, he, hq⟩ := hq
  refine ⟨e, he, ?_⟩
  injection hq

end

/-- The two caches of `ExModel.lean`. Example; not in the source. -/
def s0 : RSys Bool pH := ⟨startH, fun _ => none⟩
theorem s0_start : RStart s0 := ⟨startH_start, fun _ => rfl⟩

/-- Cache `true` writes the word at address 20. Example; not in the source. -/
def q1 : List (CReq (pH true)) := [⟨MT.WRITE, 0, ⟨0, 1, 4⟩, 0, 0x55555555⟩]
/-- Cache `false`: a store made durable, a second store to the word and one to another word,
and two reads of other lines of the set; the last evicts the word. -/
def q2 : List (CReq (pH false)) :=
  [⟨MT.WRITE, 1, ⟨0, 0, 0⟩, 0, 0x11111111⟩, ⟨MT.FLUSH, 0, ⟨0, 0, 0⟩, 0, 0⟩, ⟨MT.WRITE, 1, ⟨0, 1, 0⟩, 0, 0x33333333⟩,
    ⟨MT.WRITE, 1, ⟨0, 0, 0⟩, 0, 0x22222222⟩, ⟨MT.READ, 1, ⟨1, 0, 0⟩, 0, 0⟩, ⟨MT.READ, 1, ⟨2, 0, 0⟩, 0, 0⟩]
/-- Example; not in the source. -/
def d1 : Sys Unit pB × List (Ev Unit pB) := drive 20 (s0.one true) q1
/-- Example; not in the source. -/
def s1 : RSys Bool pH := s0.put true d1.1 none
/-- Example; not in the source. -/
def d2 : Sys Unit p0 × List (Ev Unit p0) := drive 37 (s1.one false) q2
/-- Example; not in the source. -/
def s2 : RSys Bool pH := s1.put false d2.1 none

/-- The reset of cache `false`: the refill request leaves at this edge, the acknowledgement of
the write-back is on its way. Example; not in the source. -/
def rin : In p0 := ⟨true, false, default, true, true, false, default⟩
/-- Example; not in the source. -/
def e3 : List (Ev Unit p0) := (s2.one false).clockEvs () { rin with reqEn := false }
/-- Example; not in the source. -/
def s3 : RSys Bool pH := s2.put false ((s2.one false).clock () rin) (some 0)
theorem inFlight : ((s3.one false).reqQ ()).length = 1 ∧ ((s3.one false).respQ ()).length = 1 := by decide +kernel

/-- Cache `true` reads its word. Example; not in the source. -/
def q4 : List (CReq (pH true)) := [⟨MT.READ, 0, ⟨0, 1, 4⟩, 0, 0⟩]
/-- Example; not in the source. -/
def d4 : Sys Unit pB × List (Ev Unit pB) := drive 6 (s3.one true) q4
/-- Example; not in the source. -/
def s4 : RSys Bool pH := s3.put true d4.1 none

/-- Memory works on the refill request, and both responses are delivered. Example; not in the source. -/
def m5 : MReq p0 := ((s4.one false).reqQ ()).headD ⟨0, 0, ⟨0, 0, 0⟩, 0, 0, 0⟩
/-- Example; not in the source. -/
def e5 : List (Ev Unit p0) := [.exec () m5 (memExec s4.sys.mem m5).2]
/-- Example; not in the source. -/
def s5 : RSys Bool pH := s4.put false ((s4.one false).exec () m5) (some 0)
/-- Example; not in the source. -/
def i6 : In p0 := ⟨false, false, default, true, true, true, ((s5.one false).respQ ()).headD default⟩
/-- Example; not in the source. -/
def e6 : List (Ev Unit p0) := (s5.one false).clockEvs () i6
/-- Example; not in the source. -/
def s6 : RSys Bool pH := s5.put false ((s5.one false).clock () i6) (some 1)
/-- Example; not in the source. -/
def i7 : In p0 := ⟨false, false, default, true, true, true, ((s6.one false).respQ ()).headD default⟩
/-- Example; not in the source. -/
def e7 : List (Ev Unit p0) := (s6.one false).clockEvs () i7
/-- Example; not in the source. -/
def s7 : RSys Bool pH := s6.put false ((s6.one false).clock () i7) (some 2)
/-- The port of cache `false` is empty. Example; not in the source. -/
def s8 : RSys Bool pH := s7.put false (s7.one false) none

/-- Cache `false` reads the two words it had stored to; cache `true` reads its word again. Example; not in the source. -/
def q9 : List (CReq (pH false)) := [⟨MT.READ, 0, ⟨0, 0, 0⟩, 0, 0⟩, ⟨MT.READ, 1, ⟨0, 1, 0⟩, 0, 0⟩]
/-- Example; not in the source. -/
def d9 : Sys Unit p0 × List (Ev Unit p0) := drive 40 (s8.one false) q9
/-- Example; not in the source. -/
def s9 : RSys Bool pH := s8.put false d9.1 none
/-- Example; not in the source. -/
def d10 : Sys Unit pB × List (Ev Unit pB) := drive 6 (s9.one true) q4
/-- Example; not in the source. -/
def s10 : RSys Bool pH := s9.put true d10.1 none

/-- All events. Example; not in the source. -/
def tr : List (REv Bool pH) :=
  evsAt true d1.2 ++ evsAt false d2.2 ++ evsAt false e3 ++ evsAt true d4.2 ++ evsAt false e5 ++ evsAt false e6 ++
    evsAt false e7 ++ [.again false] ++ evsAt false d9.2 ++ evsAt true d10.2

theorem acc1 : accepted () d1.2 = q1 := by decide +kernel
theorem acc2 : accepted () d2.2 = q2 := by decide +kernel
theorem acc3 : accepted () e3 = [] := by decide +kernel
theorem acc4 : accepted () d4.2 = q4 := by decide +kernel
theorem acc5 : accepted () e5 = [] := rfl
theorem acc6 : accepted () e6 = [] := by decide +kernel
theorem acc7 : accepted () e7 = [] := by decide +kernel
theorem acc9 : accepted () d9.2 = q9 := by decide +kernel
theorem acc10 : accepted () d10.2 = q4 := by decide +kernel

theorem req5 : (s4.one false).reqQ () = [m5] := by decide +kernel
theorem can6 : (s5.one false).respQ () = i6.mresp :: ((s5.one false).respQ ()).tail := by decide +kernel
theorem can7 : (s6.one false).respQ () = i7.mresp :: ((s6.one false).respQ ()).tail := by decide +kernel
theorem empty8 : (s7.one false).reqQ () = [] ∧ (s7.one false).respQ () = [] :=
  ⟨List.length_eq_zero_iff.1 (by decide +kernel), List.length_eq_zero_iff.1 (by decide +kernel)⟩
theorem since3 : s3.since false = some 0 := by decide
theorem since8 : s8.since false = none ∧ s8.since true = none := by decide
theorem since2 : s2.since true = none ∧ s3.since true = none ∧ s4.since false = some 0 ∧ s9.since true = none := by decide

/-- What the processors see, by lives: the word at address 0 is the second store, whose
write-back was in flight; the store to address 8 is lost; cache `true` still has its word. -/
theorem seen : rvisible tr =
    [.acc (true, 0) ⟨MT.WRITE, 0, 20, 0, 4, 0x55555555⟩, .resp (true, 0) ⟨MT.WRITE, 0, 0, 0⟩,
     .acc (false, 0) ⟨MT.WRITE, 1, 0, 0, 4, 0x11111111⟩, .acc (false, 0) ⟨MT.FLUSH, 0, 0, 0, 4, 0⟩,
     .resp (false, 0) ⟨MT.WRITE, 1, 0, 0⟩, .acc (false, 0) ⟨MT.WRITE, 1, 8, 0, 4, 0x33333333⟩,
     .resp (false, 0) ⟨MT.FLUSH, 0, 0, 0⟩, .acc (false, 0) ⟨MT.WRITE, 1, 0, 0, 4, 0x22222222⟩,
     .resp (false, 0) ⟨MT.WRITE, 1, 0, 0⟩, .acc (false, 0) ⟨MT.READ, 1, 16, 0, 4, 0⟩,
     .resp (false, 0) ⟨MT.WRITE, 1, 0, 0⟩, .acc (false, 0) ⟨MT.READ, 1, 32, 0, 4, 0⟩,
     .resp (false, 0) ⟨MT.READ, 1, 0, 0x14131211⟩,
     .acc (true, 0) ⟨MT.READ, 0, 20, 0, 4, 0⟩, .resp (true, 0) ⟨MT.READ, 0, 0, 0x55555555⟩,
     .acc (false, 1) ⟨MT.READ, 0, 0, 0, 4, 0⟩, .acc (false, 1) ⟨MT.READ, 1, 8, 0, 4, 0⟩,
     .resp (false, 1) ⟨MT.READ, 0, 0, 0x22222222⟩, .resp (false, 1) ⟨MT.READ, 1, 0, 0x0c0b0a09⟩,
     .acc (true, 0) ⟨MT.READ, 0, 20, 0, 4, 0⟩, .resp (true, 0) ⟨MT.READ, 0, 0, 0x55555555⟩] := by decide +kernel

theorem lives_tr : lives (fun _ => 0) tr false = 1 ∧ lives (fun _ => 0) tr true = 0 := by decide +kernel

theorem run1 : RRun s0 (evsAt true d1.2) s1 := node_rrun (k := true) rfl (drive_run _ _ _)
theorem run2 : RRun s1 (evsAt false d2.2) s2 := node_rrun (k := false) rfl (drive_run _ _ _)
theorem run3 : RRun s2 (evsAt false e3) s3 := .one (.reset s2 false rin rfl (fun h => by cases h))
theorem run4 : RRun s3 (evsAt true d4.2) s4 := node_rrun (k := true) since2.2.1 (drive_run _ _ _)
theorem run5 : RRun s4 (evsAt false e5) s5 := .one (.exec s4 false 0 since2.2.2.1 m5 [] req5)
theorem run6 : RRun s5 (evsAt false e6) s6 :=
  .one (.quiet s5 false 0 rfl (by decide) i6 ⟨rfl, (fun h => by cases h), fun _ => ⟨_, can6⟩⟩)
theorem run7 : RRun s6 (evsAt false e7) s7 :=
  .one (.quiet s6 false 1 rfl (by decide) i7 ⟨rfl, (fun h => by cases h), fun _ => ⟨_, can7⟩⟩)
theorem run8 : RRun s7 [.again false] s8 := .one (.again s7 false 2 rfl empty8.1 empty8.2)
theorem run9 : RRun s8 (evsAt false d9.2) s9 := node_rrun (k := false) rfl (drive_run _ _ _)
theorem run10 : RRun s9 (evsAt true d10.2) s10 := node_rrun (k := true) since2.2.2.2 (drive_run _ _ _)

theorem run : RRun s0 tr s10 :=
  ((((((((run1.trans run2).trans run3).trans run4).trans run5).trans run6).trans run7).trans run8).trans run9).trans run10

theorem valid : RValid tr := by
  have h : RValid ([.again false] : List (REv Bool pH)) := by
    intro k u q hq
    simp at hq
  refine rvalid_append (rvalid_append (rvalid_append (rvalid_append (rvalid_append (rvalid_append (rvalid_append
    (rvalid_append (rvalid_append (rvalid_one _ ?_) (rvalid_one _ ?_)) (rvalid_one _ ?_)) (rvalid_one _ ?_))
    (rvalid_one _ ?_)) (rvalid_one _ ?_)) (rvalid_one _ ?_)) h) (rvalid_one _ ?_)) (rvalid_one _ ?_)
  · rw [acc1]
    intro q hq
    simp only [q1, List.mem_cons, List.not_mem_nil, or_false] at hq
    subst hq
    exact .write rfl 2 (by decide) (by decide) (by decide)
  · rw [acc2]
    intro q hq
    simp only [q2, List.mem_cons, List.not_mem_nil, or_false] at hq
    rcases hq with rfl | rfl | rfl | rfl | rfl | rfl
    · exact .write rfl 2 (by decide) (by decide) (by decide)
    · exact .flush rfl
    · exact .write rfl 2 (by decide) (by decide) (by decide)
    · exact .write rfl 2 (by decide) (by decide) (by decide)
    · exact .read rfl 2 (by decide) (by decide)
    · exact .read rfl 2 (by decide) (by decide)
  · rw [acc3]; simp
  · rw [acc4]
    intro q hq
    simp only [q4, List.mem_cons, List.not_mem_nil, or_false] at hq
    subst hq
    exact .read rfl 2 (by decide) (by decide)
  · rw [acc5]; simp
  · rw [acc6]; simp
  · rw [acc7]; simp
  · rw [acc9]
    intro q hq
    simp only [q9, List.mem_cons, List.not_mem_nil, or_false] at hq
    rcases hq with rfl | rfl
    · exact .read rfl 2 (by decide) (by decide)
    · exact .read rfl 2 (by decide) (by decide)
  · rw [acc10]
    intro q hq
    simp only [q4, List.mem_cons, List.not_mem_nil, or_false] at hq
    subst hq
    exact .read rfl 2 (by decide) (by decide)

attribute [irreducible] tr s10 s9 s8 s7 s6 s5 s4 s3 s2 s1

/-- The words 0 and 2 are stored to by cache `false` only. -/
theorem owned (W : Nat) (hW : W = 0 ∨ W = 2) : ∀ k', k' ≠ false → ∀ n, ∀ q ∈ WM.accepted (k', n) (rvisible tr), ¬ q.stores W := by
  intro k' hk n q hq
  have hk' : k' = true := by cases k' <;> simp_all
  subst hk'
  rw [seen] at hq
  have : n = 0 := by
    cases n with
    | zero => rfl
    | succ n => simp [WM.accepted] at hq
  subst this
  have : q ∈ ([⟨MT.WRITE, 0, 20, 0, 4, 0x55555555⟩, ⟨MT.READ, 0, 20, 0, 4, 0⟩, ⟨MT.READ, 0, 20, 0, 4, 0⟩] : List WM.Req) := by
    simpa [WM.accepted] using hq
  revert q
  rcases hW with rfl | rfl <;> intro q _ hq <;> revert q <;> decide

end Ex84

/-- The execution meets the hypotheses of C84: two requests and two responses in the second
life of cache `false`, an answered FLUSH in the first, a request and a response in flight at the
reset, and an answered READ of a dirty word of cache `true` during and after it. -/
example : ∃ m c, WM.Recovers false 0 startH.mem Ex84.s10.sys.mem (rvisible Ex84.tr) (lives (fun _ => 0) Ex84.tr false) m c :=
  C84_recovers pH_wf Ex84.s0_start Ex84.run Ex84.valid (Ex84.owned 0 (.inl rfl))

example : ∃ A, WM.CRun (WM.init Bool startH.mem) (cvisible Ex84.tr) A ∧ A.mem = Ex84.s10.sys.mem :=
  C84_crash_model pH_wf Ex84.s0_start Ex84.run Ex84.valid

/-- The word at address 8 goes back to its contents before the life: `Recovers` holds, with no
request of the first life in the part that survives. -/
example {m : Nat → ByteMem} {c : Nat → Nat}
    (h : WM.Recovers false 2 startH.mem Ex84.s10.sys.mem (rvisible Ex84.tr) (lives (fun _ => 0) Ex84.tr false) m c) :
    (m 1 8).toNat = 9 := by
  have h1 := h.right 1 1 ⟨MT.READ, 1, 8, 0, 4, 0⟩ ⟨MT.READ, 1, 0, 0x0c0b0a09⟩ (by rw [Ex84.seen]; decide)
    (by rw [Ex84.seen]; decide) (by decide)
  have h2 := h1.2.2.2.1 rfl 8 (by decide) (by decide) (by decide)
  rw [Ex84.seen] at h2
  exact h2.symm

end Verif
