import Verif.MLive
import Verif.MultiTests
set_option linter.unusedSectionVars false

/-!
# Multicore programs terminate (C47)

The statements use the driver of `Verif/Multicore.lean` and the infinite executions and fairness
conditions of `Verif/MLive.lean`.
-/

namespace Verif
variable {p : Params} {n : Nat} {g : Prog n p}

/-- On every core the orders of the requests never decrease. Proof device; not in the source. -/
def Prog.Sorted (g : Prog n p) : Prop := ∀ k, (g.of k).Pairwise fun a b => a.1 ≤ b.1

theorem MInf.src_eq (wf : p.WF) (hg : g.length < 2 ^ 32) (X : MInf g) (h0 : MStart g (X.st 0)) (k : Fin n) (t : Nat) :
    (X.st t).src k = (g.of k).drop (accepted k (X.trace t)).length := by
  obtain ⟨l, h1, h2, _⟩ := (minv wf hg h0 (X.run t)).taken k
  have h3 : l.length = (accepted k (X.trace t)).length := by rw [← h2, List.length_map]
  rw [h1, ← h3, List.drop_left]

theorem MInf.no_accept (X : MInf g) {k : Fin n} {t : Nat}
    (h : ∀ e ∈ ((X.st t).src k).head?, ¬ e.1 ≤ (X.st t).curr) :
    accepted k (X.trace (t + 1)) = accepted k (X.trace t) := by
  have hd := X.does t
  simp only [MInf.trace, accepted_append]
  generalize X.st t = A at *
  generalize X.evs t = ev at *
  generalize X.st (t + 1) = B at *
  cases hd with
  | exec k' m ms hm => simp [accepted]
  | cycle i hc hs =>
    rw [accepted_all]
    cases hr : (i k).reqEn with
    | false => simp
    | true =>
      obtain ⟨o, rest, h1, h2⟩ := hs k hr
      exact absurd h2 (h (o, (i k).req) (by rw [h1]; rfl))

/-- With the order counter at `c` for ever, core `k` comes to rest. -/
theorem MInf.rests (wf : p.WF) (hg : g.length < 2 ^ 32) (X : MInf g) (h0 : MStart g (X.st 0)) (hf : X.Fair)
    (k : Fin n) {t : Nat} {c : BitVec 32} (hc : ∀ t', t ≤ t' → (X.st t').curr = c) :
    ∃ T, t ≤ T ∧ ∀ t', T ≤ t' → (∀ e ∈ ((X.st t').src k).head?, ¬ e.1 ≤ c) ∧
      (responses k (X.trace t')).length = (accepted k (X.trace t')).length := by
  generalize hl : ((X.st t).src k).length = l
  induction l using Nat.strongRecOn generalizing t with
  | ind l ih =>
  have hle : ∀ t, (accepted k (X.trace t)).length ≤ (g.of k).length := by
    intro t
    obtain ⟨l, h1, h2, _⟩ := (minv wf hg h0 (X.run t)).taken k
    have h3 : l.length = (accepted k (X.trace t)).length := by rw [← h2, List.length_map]
    rw [h1, List.length_append]; omega
  by_cases hh : ∀ e ∈ ((X.st t).src k).head?, ¬ e.1 ≤ c
  · have hst : ∀ d, (accepted k (X.trace (t + d))).length = (accepted k (X.trace t)).length := by
      intro d
      induction d with
      | zero => rfl
      | succ d ihd =>
        rw [← ihd]
        refine congrArg _ (X.no_accept (t := t + d) ?_)
        rw [hc _ (by omega), X.src_eq wf hg h0 k, ihd, ← X.src_eq wf hg h0 k]
        exact hh
    obtain ⟨T, h1, h2⟩ := X.answered wf h0 (hf k).1 (hf k).2.1 t
    refine ⟨T, h1, fun t' ht => ?_⟩
    obtain ⟨d, rfl⟩ : ∃ d, t' = t + d := ⟨t' - t, by omega⟩
    have a := hst d
    have b := (X.resp_mono k ht).length_le
    have c' := X.resp_le wf h0 k (t + d)
    refine ⟨?_, by omega⟩
    rw [X.src_eq wf hg h0 k, a, ← X.src_eq wf hg h0 k]
    exact hh
  · have : ∃ e, ((X.st t).src k).head? = some e ∧ e.1 ≤ c := by
      apply Classical.byContradiction
      intro hn
      exact hh fun e he hec => hn ⟨e, he, hec⟩
    obtain ⟨⟨o, q⟩, h1, h2⟩ := this
    cases hs : (X.st t).src k with
    | nil => rw [hs] at h1; cases h1
    | cons a rest =>
      rw [hs, List.head?_cons, Option.some.injEq] at h1
      subst h1
      obtain ⟨t', h3, h4⟩ := X.head_taken wf h0 hf hc hs h2 (fun t' _ he => by
        rw [X.src_eq wf hg h0 k t', he, ← X.src_eq wf hg h0 k])
      have h5 : ((X.st t').src k).length < l := by
        rw [X.src_eq wf hg h0 k, List.length_drop] at hl ⊢
        have := hle t'
        omega
      obtain ⟨T, h6, h7⟩ := ih _ h5 (fun t'' ht => hc t'' (by omega)) rfl
      exact ⟨T, by omega, h7⟩

theorem MInf.all_rest (wf : p.WF) (hg : g.length < 2 ^ 32) (X : MInf g) (h0 : MStart g (X.st 0)) (hf : X.Fair)
    {t : Nat} {c : BitVec 32} (hc : ∀ t', t ≤ t' → (X.st t').curr = c) (ks : List (Fin n)) :
    ∃ T, t ≤ T ∧ ∀ t', T ≤ t' → ∀ k ∈ ks, (∀ e ∈ ((X.st t').src k).head?, ¬ e.1 ≤ c) ∧
      (responses k (X.trace t')).length = (accepted k (X.trace t')).length := by
  induction ks with
  | nil => exact ⟨t, Nat.le_refl _, fun _ _ _ h => by cases h⟩
  | cons k ks ih =>
    obtain ⟨T1, h1, h2⟩ := ih
    obtain ⟨T2, h3, h4⟩ := X.rests wf hg h0 hf k hc
    refine ⟨T1 + T2, by omega, fun t' ht j hj => ?_⟩
    rcases List.mem_cons.1 hj with rfl | hj
    · exact h4 t' (by omega)
    · exact h2 t' (by omega) j hj

theorem MInf.curr_step (X : MInf g) (t : Nat) (h : (X.st t).inFlight ≠ 0) : (X.st (t + 1)).curr = (X.st t).curr := by
  have hd := X.does t
  generalize X.st t = A at *
  generalize X.evs t = ev at *
  generalize X.st (t + 1) = B at *
  cases hd with
  | exec k' m ms hm => rfl
  | cycle i hc hs =>
    have hb : (A.inFlight == 0) = false := by simpa using h
    simp only [upDownNext, hb]; rfl

/-- Unless the program is finished, all requests admitted so far are answered at some time before
the order counter moves. -/
theorem MInf.drains (wf : p.WF) (hg : g.length < 2 ^ 32) (hs : g.Sorted) (X : MInf g) (h0 : MStart g (X.st 0))
    (hf : X.Fair) (hn : ∀ t, ¬ AllDone g (X.trace t)) (t : Nat) :
    ∃ t', t ≤ t' ∧ (X.st t').inFlight = 0 ∧ (X.st t').curr = (X.st t).curr := by
  apply Classical.byContradiction
  intro hno
  have hc : ∀ d, (X.st (t + d)).curr = (X.st t).curr := by
    intro d
    induction d with
    | zero => rfl
    | succ d ih =>
      rw [← ih]
      exact X.curr_step (t + d) fun h => hno ⟨t + d, by omega, h, ih⟩
  obtain ⟨T, h1, h2⟩ := X.all_rest wf hg h0 hf (t := t) (c := (X.st t).curr) (fun t' ht => by
    have := hc (t' - t); rwa [show t + (t' - t) = t' by omega] at this) (List.finRange n)
  have h2 := h2 T (Nat.le_refl _)
  have hcT : (X.st T).curr = (X.st t).curr := by
    have := hc (T - t); rwa [show t + (T - t) = T by omega] at this
  have hinv := minv wf hg h0 (X.run T)
  obtain ⟨hcnt, _⟩ := hinv.count.resolve_left (hn T)
  rw [hcT] at hcnt
  have heq : totalResp n (X.trace T) = g.upTo (X.st t).curr := by
    rw [Prog.upTo, ← sum_count (fun o => decide (o ≤ (X.st t).curr)) g, totalResp]
    congr 1
    apply List.map_congr_left
    intro k hk
    obtain ⟨h3, h4⟩ := h2 k hk
    obtain ⟨l, h5, h6, h7⟩ := hinv.taken k
    have h7 := h7.resolve_left (hn T)
    rw [hcT] at h7
    have h8 : l.countP (fun e => decide (e.1 ≤ (X.st t).curr)) = l.length := by
      rw [List.countP_eq_length]; intro e he; simpa using h7 e he
    have h9 : l.length = (accepted k (X.trace T)).length := by rw [← h6, List.length_map]
    have h10 : ((X.st T).src k).countP (fun e => decide (e.1 ≤ (X.st t).curr)) = 0 := by
      rw [List.countP_eq_zero]
      intro e he
      have hsk := hs k
      rw [h5, List.pairwise_append] at hsk
      cases hsrc : (X.st T).src k with
      | nil => rw [hsrc] at he; cases he
      | cons a rest =>
        rw [hsrc] at he hsk h3
        have ha := h3 a rfl
        rw [decide_eq_true_eq]
        intro hle
        rcases List.mem_cons.1 he with rfl | he
        · exact ha hle
        · have := (List.pairwise_cons.1 hsk.2.1).1 e he
          rw [BitVec.le_def] at this hle ha
          omega
    rw [h5, List.countP_append, h8, h10]
    omega
  refine hno ⟨T, h1, ?_, hcT⟩
  rw [← BitVec.toNat_inj]
  show (X.st T).inFlight.toNat = 0
  omega

theorem MInf.idle_or_next (X : MInf g) {t : Nat} (hz : (X.st t).inFlight = 0) (d : Nat) :
    (∃ t', t ≤ t' ∧ (X.st t').curr = (X.st t).curr + 1) ∨
    ((X.st (t + d)).inFlight = 0 ∧ (X.st (t + d)).curr = (X.st t).curr) := by
  induction d with
  | zero => exact .inr ⟨hz, rfl⟩
  | succ d ih =>
    rcases ih with h | ⟨h1, h2⟩
    · exact .inl h
    · have hd := X.does (t + d)
      rw [← Nat.add_assoc]
      have hlt : t ≤ t + d + 1 := by omega
      generalize hB : X.st (t + d + 1) = B at *
      generalize X.st (t + d) = A at *
      generalize X.evs (t + d) = ev at *
      generalize (X.st t).curr = c at *
      cases hd with
      | exec k' m ms hm => exact .inr ⟨h1, h2⟩
      | cycle i hc hs =>
        refine .inl ⟨t + d + 1, hlt, ?_⟩
        have hb : (A.inFlight == 0) = true := by simp [h1]
        rw [hB]
        simp only [upDownNext, hb, h2]; rfl

theorem MInf.next_order (X : MInf g) (k : Fin n) (hp : X.PortsReady k) {t : Nat} (hz : (X.st t).inFlight = 0) :
    ∃ t', t ≤ t' ∧ (X.st t').curr = (X.st t).curr + 1 := by
  obtain ⟨t1, h1, i, h2, _, _⟩ := hp t
  obtain ⟨d, rfl⟩ : ∃ d, t1 = t + d := ⟨t1 - t, by omega⟩
  rcases X.idle_or_next hz d with h | ⟨h3, h4⟩
  · exact h
  · refine ⟨t + d + 1, by omega, ?_⟩
    have hb : ((X.st (t + d)).inFlight == 0) = true := by simp [h3]
    rw [h2.next]
    simp only [MSys.next, upDownNext, hb, h4]; rfl

/-- **C47, termination.**  If on every core the orders never decrease, then in every fair execution of
the driver there is a time from which on every request has been answered. -/
theorem C47_terminates (wf : p.WF) (hg : g.length < 2 ^ 32) (hs : g.Sorted) (X : MInf g) (h0 : MStart g (X.st 0))
    (hf : X.Fair) : ∃ t, ∀ t', t ≤ t' → AllDone g (X.trace t') := by
  apply Classical.byContradiction
  intro hno
  have hn : ∀ t, ¬ AllDone g (X.trace t) := by
    intro t hd
    refine hno ⟨t, fun t' ht => ?_⟩
    obtain ⟨d, rfl⟩ : ∃ d, t' = t + d := ⟨t' - t, by omega⟩
    rw [X.trace_add]; exact hd.mono
  have hk : ∃ k : Fin n, True := by
    apply Classical.byContradiction
    intro h
    exact hn 0 fun k => absurd ⟨k, trivial⟩ h
  obtain ⟨k, _⟩ := hk
  have key : ∀ c, c < 2 ^ 32 → ∃ t, (X.st t).curr.toNat = c := by
    intro c
    induction c with
    | zero => intro _; exact ⟨0, by rw [h0.curr]; rfl⟩
    | succ c ih =>
      intro hc
      obtain ⟨t, ht⟩ := ih (by omega)
      obtain ⟨t1, h1, h2, h3⟩ := X.drains wf hg hs h0 hf hn t
      obtain ⟨t2, h4, h5⟩ := X.next_order k (hf k).1 h2
      refine ⟨t2, ?_⟩
      rw [h5, h3, BitVec.toNat_add, ht]
      show (c + 1) % 2 ^ 32 = _
      omega
  obtain ⟨t, ht⟩ := key (2 ^ 32 - 1) (by omega)
  obtain ⟨t1, _, h2, h3⟩ := X.drains wf hg hs h0 hf hn t
  have hinv := minv wf hg h0 (X.run t1)
  obtain ⟨hcnt, _⟩ := hinv.count.resolve_left (hn t1)
  have hfull := (all_answered (X := X.st t1) (fun k => by
    obtain ⟨l, a, b, c⟩ := hinv.taken k
    exact ⟨l, a, b, c.resolve_left (hn t1)⟩) (fun k => X.resp_le wf h0 k t1)).2 (by
      rw [h2] at hcnt; simpa using hcnt)
  refine hn t1 fun j => ?_
  rcases Nat.eq_zero_or_pos (g.of j).length with hz | hz
  · omega
  · have hlt : (g.of j).length - 1 < (g.of j).length := by omega
    have := (hfull j).2.2 ((g.of j).length - 1) _ (List.getElem?_eq_getElem hlt) (by
      rw [BitVec.le_def, h3]
      have := ((g.of j)[(g.of j).length - 1]).1.isLt
      omega)
    omega

/-- **C47, the condition is necessary.**  A program that has been answered completely in some
execution has non-decreasing orders on every core. -/
theorem C47_needs_sorted (wf : p.WF) (hg : g.length < 2 ^ 32) {X X' : MSys n p} {tr : List (Ev (Fin n) p)}
    (h0 : MStart g X) (h : MRun g X tr X') (hd : AllDone g tr) : g.Sorted := by
  intro k
  rw [List.pairwise_iff_getElem]
  intro i j hi hj hij
  apply Classical.byContradiction
  intro hle
  have hlt : (g.of k)[j].1 < (g.of k)[i].1 := by
    rw [BitVec.le_def] at hle; rw [BitVec.lt_def]; omega
  have hr := (C06_at_most_two_unanswered wf h0.sys h.open k).1
  have hdk := hd k
  obtain ⟨a, q, b, ht, ha⟩ := find_acc k (t := tr) (m := i) (by omega)
  obtain ⟨o, h1, h2⟩ := C37_orders_respected wf hg h0 h ht
  rw [ha, List.getElem?_eq_getElem hi, Option.some.injEq] at h1
  have h3 := h2 k j _ _ (List.getElem?_eq_getElem hj) (by rw [h1] at hlt; exact hlt)
  have := (ordered wf hg h0 h).resp ht k
  omega

/-- **C47, responses.**  A synchronised program with valid requests and non-decreasing orders, in
every fair execution: from some time on, every core has received exactly the expected responses. -/
theorem C47_expected (wf : p.WF) (hg : g.length < 2 ^ 32) (hv : ∀ e ∈ g, e.2.2.Valid) (hy : g.Synchronised)
    (hs : g.Sorted) (X : MInf g) (h0 : MStart g (X.st 0)) (hf : X.Fair) :
    ∃ t, ∀ t', t ≤ t' → ∀ k, responses k (X.trace t') = Prog.expect (X.st 0).sys.mem g k := by
  obtain ⟨t, ht⟩ := C47_terminates wf hg hs X h0 hf
  exact ⟨t, fun t' h k => C43_complete wf hg hv hy h0 (X.run t') (ht t' h) k⟩

/-! ## The multi-cache tests of the repository -/

instance (g : Prog n p) : Decidable g.Sorted :=
  inferInstanceAs (Decidable (∀ k : Fin n, (g.of k).Pairwise fun a b => a.1 ≤ b.1))

/-- **C47, rd_wr_2c.**  In every fair execution, from some time on, the sinks have received exactly
what the test lists. -/
theorem C47_rd_wr_2c (X : MInf rd_wr_2c) (h0 : MStart rd_wr_2c (X.st 0)) (hm : (X.st 0).sys.mem = multicacheMem)
    (hf : X.Fair) : ∃ t, ∀ t', t ≤ t' →
      responses 0 (X.trace t') = [mresp pDM MT.READ 0 0 0, mresp pDM MT.WRITE 0 1 0, mresp pDM MT.READ 0 0 0xd] ∧
      responses 1 (X.trace t') = [mresp pDM MT.READ 0 0 1] := by
  obtain ⟨t, ht⟩ := C47_expected pDM_wf (by decide) (valid_of (by decide +kernel)) (check_sound (by decide +kernel))
    (by decide +kernel) X h0 hf
  rw [hm] at ht
  exact ⟨t, fun t' h => ⟨(ht t' h 0).trans (by decide +kernel), (ht t' h 1).trans (by decide +kernel)⟩⟩

/-- **C47, amo_2c.** -/
theorem C47_amo_2c (X : MInf amo_2c) (h0 : MStart amo_2c (X.st 0)) (hm : (X.st 0).sys.mem = multicacheMem)
    (hf : X.Fair) : ∃ t, ∀ t', t ≤ t' →
      responses 0 (X.trace t') = [mresp pDM MT.AMO 0 0 0, mresp pDM MT.READ 1 0 1] ∧
      responses 1 (X.trace t') = [mresp pDM MT.READ 0 0 1] := by
  obtain ⟨t, ht⟩ := C47_expected pDM_wf (by decide) (valid_of (by decide +kernel)) (check_sound (by decide +kernel))
    (by decide +kernel) X h0 hf
  rw [hm] at ht
  exact ⟨t, fun t' h => ⟨(ht t' h 0).trans (by decide +kernel), (ht t' h 1).trans (by decide +kernel)⟩⟩

/-- **C47, inv_fl_2c.** -/
theorem C47_inv_fl_2c (X : MInf inv_fl_2c) (h0 : MStart inv_fl_2c (X.st 0)) (hm : (X.st 0).sys.mem = multicacheMem)
    (hf : X.Fair) : ∃ t, ∀ t', t ≤ t' →
      responses 0 (X.trace t') = [mresp pDM MT.WRITE 0 0 0, mresp pDM MT.WRITE 1 1 0, mresp pDM MT.INV 2 0 0,
        mresp pDM MT.READ 3 0 3, mresp pDM MT.READ 4 1 0x12] ∧
      responses 1 (X.trace t') = [mresp pDM MT.WRITE 0 0 0, mresp pDM MT.FLUSH 1 0 0] := by
  obtain ⟨t, ht⟩ := C47_expected pDM_wf (by decide) (valid_of (by decide +kernel)) (check_sound (by decide +kernel))
    (by decide +kernel) X h0 hf
  rw [hm] at ht
  exact ⟨t, fun t' h => ⟨(ht t' h 0).trans (by decide +kernel), (ht t' h 1).trans (by decide +kernel)⟩⟩

/-- **C47, inv_fl_4c.** -/
theorem C47_inv_fl_4c (X : MInf inv_fl_4c) (h0 : MStart inv_fl_4c (X.st 0)) (hm : (X.st 0).sys.mem = multicacheMem)
    (hf : X.Fair) : ∃ t, ∀ t', t ≤ t' → ∀ k : Fin 4,
      responses k (X.trace t') = [mresp pSA MT.WRITE 0 0 0, mresp pSA MT.FLUSH 1 0 0, mresp pSA MT.INV 2 0 0,
        mresp pSA MT.READ 3 0 ([0x34, 0x23, 0x12, 0x01].getD k 0)] := by
  obtain ⟨t, ht⟩ := C47_expected pSA_wf (by decide) (valid_of (by decide +kernel)) (check_sound (by decide +kernel))
    (by decide +kernel) X h0 hf
  rw [hm] at ht
  refine ⟨t, fun t' h k => (ht t' h k).trans ?_⟩
  clear ht hf
  revert k
  decide +kernel

/-! ## Fair executions exist -/

namespace MLiveEx

theorem rdy (S : Sys (Fin n) p) (k : Fin n) (q : Option (CReq p)) :
    (driveInK S k q).respRdy = true ∧ (driveInK S k q).mreqRdy = true ∧ (driveInK S k q).reset = false := by
  simp only [driveInK]; refine ⟨?_, ?_, ?_⟩ <;> split <;> split <;> (try split) <;> rfl

theorem mresp_of (S : Sys (Fin n) p) (k : Fin n) (q : Option (CReq p)) :
    ((driveInK S k q).mrespEn = true → ∃ l, S.respQ k = (driveInK S k q).mresp :: l) ∧
    (S.respQ k ≠ [] → (driveInK S k q).mrespEn = true) := by
  simp only [driveInK]
  cases hr : S.respQ k with
  | nil =>
    refine ⟨fun h => ?_, fun h => absurd rfl h⟩
    exfalso
    simp only at h
    split at h
    · split at h <;> cases h
    · cases h
  | cons r l => exact ⟨fun _ => ⟨l, rfl⟩, fun _ => rfl⟩

theorem req_of (S : Sys (Fin n) p) (k : Fin n) (q : Option (CReq p)) (h : (driveInK S k q).reqEn = true) :
    ((S.cache k).out (driveInK S k q)).reqRdy = true ∧ (driveInK S k q).req.ty ≠ MT.INIT ∧
    q = some (driveInK S k q).req := by
  simp only [driveInK] at h ⊢
  cases q with
  | none => simp only at h; split at h <;> cases h
  | some q =>
    simp only at h ⊢
    by_cases hc : (((S.cache k).out ⟨false, false, default, true, true, false, default⟩).reqRdy &&
        (q.ty != MT.INIT)) = true
    · rw [if_pos hc]
      simp only [Bool.and_eq_true, bne_iff_ne] at hc
      refine ⟨?_, ?_, ?_⟩
      · refine Eq.trans ?_ hc.1
        apply out_rdy_congr <;> (split <;> rfl)
      · split <;> exact hc.2
      · split <;> rfl
    · rw [if_neg hc] at h
      split at h <;> cases h

theorem en_of (S : Sys (Fin n) p) (k : Fin n) (q : CReq p) (hq : q.ty ≠ MT.INIT)
    (h : ((S.cache k).out (driveInK S k (some q))).reqRdy = true) : (driveInK S k (some q)).reqEn = true := by
  have h1 : ((S.cache k).out ⟨false, false, default, true, true, false, default⟩).reqRdy = true := by
    refine Eq.trans (out_rdy_congr _ _ (driveInK S k (some q)) ?_ ?_) h
    · exact (rdy S k (some q)).2.1.symm
    · exact (rdy S k (some q)).1.symm
  have h2 : (q.ty != MT.INIT) = true := bne_iff_ne.2 hq
  simp only [driveInK, h1, h2, Bool.and_self, if_true]
  split <;> rfl

/-- A port of memory with work. Proof device; not in the source. -/
def port (X : MSys n p) : Option (Fin n) := (List.finRange n).find? fun k => !(X.sys.reqQ k).isEmpty

/-- Memory first, then a clock edge. Proof device; not in the source. -/
def nxt (g : Prog n p) (X : MSys n p) : MSys n p :=
  match port X with
  | none => X.next g (mDriveIn X)
  | some k => match X.sys.reqQ k with
    | [] => X
    | m :: _ => { X with sys := X.sys.exec k m }

/-- Proof device; not in the source. -/
def evs (X : MSys n p) : List (Ev (Fin n) p) :=
  match port X with
  | none => X.sys.clockAllEvs (mDriveIn X)
  | some k => match X.sys.reqQ k with
    | [] => []
    | m :: _ => [.exec k m (memExec X.sys.mem m).2]

theorem can (X : MSys n p) (k : Fin n) : X.sys.CanClock k (mDriveIn X k) :=
  ⟨(rdy ..).2.2, fun h => ⟨(req_of _ _ _ h).1, (req_of _ _ _ h).2.1⟩, (mresp_of ..).1⟩

theorem sends (X : MSys n p) (k : Fin n) (h : (mDriveIn X k).reqEn = true) :
    ∃ o rest, X.src k = (o, (mDriveIn X k).req) :: rest ∧ o ≤ X.curr := by
  have h2 := (req_of _ _ _ h).2.2
  change _ = some (mDriveIn X k).req at h2
  cases hs : X.src k with
  | nil => rw [hs] at h2; cases h2
  | cons a l =>
    obtain ⟨o, q⟩ := a
    rw [hs] at h2
    simp only at h2
    split at h2
    · rename_i ho
      cases h2
      exact ⟨o, l, rfl, ho⟩
    · cases h2

theorem steps (g : Prog n p) (X : MSys n p) : MStep g X (evs X) (nxt g X) := by
  simp only [nxt, evs]
  cases h : port X with
  | none => exact .cycle X _ (can X) (sends X)
  | some k =>
    have := List.find?_some h
    cases hq : X.sys.reqQ k with
    | nil => rw [hq] at this; cases this
    | cons m ms => simp only [hq]; exact .exec X k m ms hq

/-- Proof device; not in the source. -/
def st (g : Prog n p) (X : MSys n p) : Nat → MSys n p
  | 0 => X
  | t + 1 => nxt g (st g X t)

/-- Proof device; not in the source. -/
def inf (g : Prog n p) (X : MSys n p) : MInf g := ⟨st g X, fun t => evs (st g X t), fun _ => steps g _⟩

theorem cycle_of {X : MSys n p} {t : Nat} (h : port (st g X t) = none) :
    (inf g X).CycleAt t (mDriveIn (st g X t)) := by
  refine ⟨can _, ?_, ?_⟩
  · show evs (st g X t) = _
    simp only [evs, h]; rfl
  · show nxt g (st g X t) = _
    simp only [nxt, h]; rfl

/-- Work in the memory queues. Proof device; not in the source. -/
def work (X : MSys n p) : Nat := ((List.finRange n).map fun k => (X.sys.reqQ k).length).sum

theorem work_exec (X : MSys n p) {k : Fin n} {m : MReq p} {ms : List (MReq p)} (h : X.sys.reqQ k = m :: ms) :
    work { X with sys := X.sys.exec k m } < work X := by
  have e : (fun j => (X.sys.reqQ j).length) =
      fun j => ((X.sys.exec k m).reqQ j).length + (if k = j then 1 else 0) := by
    funext j
    by_cases hj : k = j
    · subst hj; simp [Sys.exec, upd_same, h]
    · simp [Sys.exec, upd_other _ (Ne.symm hj), hj]
  simp only [work]
  rw [e, sum_add, sum_ind _ (List.nodup_finRange n), if_pos (List.mem_finRange k)]
  omega

theorem port_none {X : MSys n p} (h : port X = none) (k : Fin n) : X.sys.reqQ k = [] := by
  have := List.find?_eq_none.1 h k (List.mem_finRange k)
  cases hq : X.sys.reqQ k with
  | nil => rfl
  | cons a l => rw [hq] at this; exact absurd rfl this

theorem clocks (g : Prog n p) (X : MSys n p) (k : Fin n) (t : Nat) :
    ∃ t', t ≤ t' ∧ port (st g X t') = none ∧
      (((st g X t).sys.reqQ k ≠ [] ∨ (st g X t).sys.respQ k ≠ []) → (st g X t').sys.respQ k ≠ []) := by
  generalize hl : work (st g X t) = l
  induction l using Nat.strongRecOn generalizing t with
  | ind l ih =>
  cases hp : port (st g X t) with
  | none =>
    refine ⟨t, Nat.le_refl _, hp, fun h => ?_⟩
    rcases h with h | h
    · exact absurd (port_none hp k) h
    · exact h
  | some j =>
    have := List.find?_some hp
    cases hq : (st g X t).sys.reqQ j with
    | nil => rw [hq] at this; cases this
    | cons m ms =>
      have e : st g X (t + 1) = { st g X t with sys := (st g X t).sys.exec j m } := by
        simp only [st, nxt, hp, hq]
      have hw : work (st g X (t + 1)) < l := by rw [e, ← hl]; exact work_exec _ hq
      obtain ⟨t', h1, h2, h3⟩ := ih _ hw (t + 1) rfl
      refine ⟨t', by omega, h2, fun h => h3 ?_⟩
      rw [e]
      by_cases hj : k = j
      · subst hj
        right
        simp [Sys.exec, upd_same]
      · simpa [Sys.exec, upd_other _ hj] using h

/-- C47: for every program without INIT and every start there is a fair execution. -/
theorem inf_fair (X : MSys n p) (hi : ∀ t k e, e ∈ (st g X t).src k → e.2.ty ≠ MT.INIT) : (inf g X).Fair := by
  intro k
  refine ⟨fun t => ?_, fun t h => ?_, fun t => ?_⟩
  · obtain ⟨t', h1, h2, _⟩ := clocks g X k t
    exact ⟨t', h1, _, cycle_of h2, (rdy ..).1, (rdy ..).2.1⟩
  · obtain ⟨t', h1, h2, h3⟩ := clocks g X k t
    exact ⟨t', h1, _, cycle_of h2, (mresp_of ..).2 (h3 h)⟩
  · obtain ⟨t', h1, h2, _⟩ := clocks g X k t
    refine ⟨t', h1, _, cycle_of h2, ?_⟩
    intro o q rest hs ho hr _
    change (st g X t').src k = _ at hs
    change o ≤ (st g X t').curr at ho
    have e : mDriveIn (st g X t') k = driveInK (st g X t').sys k (some q) := by
      simp only [mDriveIn, hs, ho, if_true]
    rw [e] at hr ⊢
    exact en_of _ _ _ (hi t' k (o, q) (by rw [hs]; simp)) hr

end MLiveEx

/-- The hypotheses of C47 are met by every multi-cache test. -/
theorem fair_of {g : Prog n p} (wf : p.WF) (hg : g.length < 2 ^ 32) (hv : ∀ e ∈ g, e.2.2.Valid) :
    ∃ X : MInf g, MStart g (X.st 0) ∧ (X.st 0).sys.mem = multicacheMem ∧ X.Fair := by
  refine ⟨MLiveEx.inf g (mstartOf g), mstartOf_start g, rfl, MLiveEx.inf_fair _ ?_⟩
  intro t k e he
  change e ∈ ((MLiveEx.inf g (mstartOf g)).st t).src k at he
  rw [MInf.src_eq wf hg _ (mstartOf_start g)] at he
  have he := List.mem_of_mem_drop he
  simp only [Prog.of, List.mem_filterMap] at he
  obtain ⟨e', he', h1⟩ := he
  split at h1
  · cases h1
    intro h
    cases hv _ he' with
    | amo ty _ _ => rw [h] at ty; exact absurd ty.1 (by decide)
    | read ty | write ty | dword ty | inv ty | flush ty => rw [h] at ty; exact absurd ty (by decide)
  · cases h1

example : ∃ X : MInf inv_fl_4c, MStart inv_fl_4c (X.st 0) ∧ (X.st 0).sys.mem = multicacheMem ∧ X.Fair :=
  fair_of pSA_wf (by decide) (valid_of (by decide +kernel))

/-- A program that is not sorted: core 0 would have to send its second request first.  By
`C47_needs_sorted` it is never finished. Proof device; not in the source. -/
def unsorted : Prog 2 pDM := [mreq pDM 0 1 MT.READ 0 0 0, mreq pDM 0 0 MT.READ 1 4 0]

example {X X' : MSys 2 pDM} {tr : List (Ev (Fin 2) pDM)} (h0 : MStart unsorted X) (h : MRun unsorted X tr X') :
    ¬ AllDone unsorted tr := fun hd =>
  absurd (C47_needs_sorted pDM_wf (by decide) h0 h hd) (by decide +kernel)

end Verif
