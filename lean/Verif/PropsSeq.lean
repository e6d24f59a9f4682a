import Verif.PropsDirty
import Verif.PropsLife
import Verif.PropsLru
import Verif.PropsLive
import Verif.ProcLoop
set_option linter.unusedSectionVars false

/-!
# The response stream of one cache, all fields (C46)

`expectSeq M qs` is the list of responses a test bench with a source and a sink compares with: for
each request its type, opaque field and length, the hit bit of the LRU specification
(`Verif/SpecLru.lean`) and the data of the flat memory (`Verif/Spec.lean`).
-/

namespace Verif
variable {p : Params}

/-- Specification of C46: the expected responses to `qs`, from memory `M`, in order. -/
def expectSeq (M : ByteMem) (qs : List (CReq p)) : List (CResp p) :=
  List.zipWith (fun (q : CReq p) (x : Bool × Data p) => (⟨q.ty, q.opq, if x.1 then 1 else 0, q.len, x.2⟩ : CResp p))
    qs ((lruRun p.ways.length qs).2.zip (flatRun M qs).2)

theorem expectSeq_length (M : ByteMem) (qs : List (CReq p)) : (expectSeq M qs).length = qs.length := by
  simp [expectSeq, lruRun_length, flatRun_length]

theorem flatRun_prefix (M : ByteMem) (a b : List (CReq p)) : (flatRun M a).2 <+: (flatRun M (a ++ b)).2 := by
  induction a generalizing M with
  | nil => exact List.nil_prefix
  | cons q a ih => simp only [List.cons_append, flatRun]; exact (List.prefix_cons_inj _).2 (ih _)

/-- The responses expected so far do not depend on the requests still to come. -/
theorem expectSeq_mono (M : ByteMem) {a b : List (CReq p)} (h : a <+: b) : expectSeq M a <+: expectSeq M b := by
  obtain ⟨l, rfl⟩ := h
  obtain ⟨c, hc⟩ := flatRun_prefix M a l
  obtain ⟨d, hd⟩ := lruRun_hits_append p.ways.length a l
  have h1 : (lruRun p.ways.length a).2.length = a.length := lruRun_length ..
  have h2 : (flatRun M a).2.length = a.length := flatRun_length M a
  simp only [expectSeq]
  rw [← hc, hd, List.zip_append (by omega), List.zipWith_append (by simp; omega)]
  exact List.prefix_append _ _

/-- **C46, responses.**  In every execution of one cache with valid requests, the responses that
have left are, in order and in every field, the expected ones for the accepted requests. -/
theorem C46_responses (wf : p.WF) {S S' : Sys Unit p} {tr : List (Ev Unit p)}
    (h0 : Start S) (h : Run S tr S') (hv : ∀ q ∈ accepted () tr, q.Valid) :
    responses () tr <+: expectSeq S.mem (accepted () tr) := by
  have hd := C01_responses_equal_flat_memory wf h0 h hv
  have h2 := (C02_multi wf h0 h ()).1
  have h3 := C03_test_is_lru_hit wf h0 h ()
  have hl : (responses () tr).length ≤ (accepted () tr).length := by simpa using h2.length_le
  rw [List.prefix_iff_getElem?] at hd h2 h3 ⊢
  intro m hm
  have hd := hd m (by simpa using hm)
  have h2 := h2 m (by simpa using hm)
  have h3 := h3 m (by simpa using hm)
  simp only [List.getElem?_map, List.getElem_map] at hd h2 h3
  obtain ⟨q, hq, h2⟩ := Option.map_eq_some_iff.1 h2
  obtain ⟨bt, hb, h3⟩ := Option.map_eq_some_iff.1 h3
  have hz : ((lruRun p.ways.length (accepted () tr)).2.zip (flatRun S.mem (accepted () tr)).2)[m]? = some (bt, _) :=
    List.getElem?_zip_eq_some.2 ⟨hb, hd⟩
  simp only [expectSeq, List.getElem?_zipWith, hz, hq, h3]
  generalize (responses () tr)[m] = r at *
  obtain ⟨ty, opq, test, len, data⟩ := r
  simp only [Prod.mk.injEq] at h2
  obtain ⟨rfl, rfl, rfl⟩ := h2
  rfl

/-- **C46, a test.**  A source offers the valid requests `qs` in order; the environment is otherwise
arbitrary.  The responses are those expected for `qs`, as far as they have come; when all of them
have come, exactly those. -/
theorem C46_test (wf : p.WF) {S S' : Sys Unit p} {tr : List (Ev Unit p)} {qs : List (CReq p)}
    (h0 : Start S) (h : Run S tr S') (hv : ∀ q ∈ qs, q.Valid) (ha : accepted () tr <+: qs) :
    responses () tr <+: expectSeq S.mem qs ∧
    ((responses () tr).length = qs.length → responses () tr = expectSeq S.mem qs) := by
  have h1 := (C46_responses wf h0 h (fun q hq => hv q (ha.subset hq))).trans (expectSeq_mono S.mem ha)
  exact ⟨h1, fun hl => h1.eq_of_length_le (by rw [expectSeq_length]; omega)⟩

/-- **C46, determinism.**  Two executions of one cache from the same memory with the same requests
deliver the same responses, whatever the timing, as far as both have come. -/
theorem C46_deterministic (wf : p.WF) {S S' R R' : Sys Unit p} {tr tr' : List (Ev Unit p)} {qs : List (CReq p)}
    (h0 : Start S) (h : Run S tr S') (h0' : Start R) (h' : Run R tr' R') (hm : S.mem = R.mem)
    (hv : ∀ q ∈ qs, q.Valid) (ha : accepted () tr <+: qs) (ha' : accepted () tr' <+: qs) :
    responses () tr <+: responses () tr' ∨ responses () tr' <+: responses () tr := by
  have a := (C46_test wf h0 h hv ha).1
  have b := (C46_test wf h0' h' hv ha').1
  rw [← hm] at b
  exact List.prefix_or_prefix_of_prefix a b

/-! ## Termination -/

/-- The source of cache `k` has the requests `qs`: they are handed over in order, and there are again
and again clock edges at which the source hands over the next request if there is one, the cache is
ready and no request is unanswered. Proof device; not in the source. -/
def Inf.Sources {ι : Type} [DecidableEq ι] (X : Inf ι p) (k : ι) (qs : List (CReq p)) : Prop :=
  (∀ t, accepted k (X.trace t) <+: qs) ∧
  ∀ t, ∃ t', t ≤ t' ∧ ∃ i, X.act t' = .clock k i ∧
    (accepted k (X.trace t') ≠ qs → (((X.st t').cache k).out i).reqRdy = true →
      (responses k (X.trace t')).length = (accepted k (X.trace t')).length → i.reqEn = true)

theorem Inf.acc_mono {ι : Type} [DecidableEq ι] (X : Inf ι p) (k : ι) {t t' : Nat} (h : t ≤ t') :
    accepted k (X.trace t) <+: accepted k (X.trace t') := by
  obtain ⟨d, rfl⟩ : ∃ d, t' = t + d := ⟨t' - t, by omega⟩
  rw [X.trace_add, accepted_append]; exact List.prefix_append _ _

/-- Every request is handed over. -/
theorem Inf.all_accepted {ι : Type} [DecidableEq ι] (wf : p.WF) (X : Inf ι p) (h0 : Start (X.st 0)) (k : ι)
    (hp : X.PortsReady k) (hm : X.MemoryAnswers k) {qs : List (CReq p)} (hs : X.Sources k qs) :
    ∃ t, accepted k (X.trace t) = qs := by
  have key : ∀ m, m ≤ qs.length → ∃ t, m ≤ (accepted k (X.trace t)).length := by
    intro m
    induction m with
    | zero => intro _; exact ⟨0, Nat.zero_le _⟩
    | succ m ih =>
      intro hm'
      obtain ⟨t, ht⟩ := ih (by omega)
      rcases Nat.lt_or_ge m (accepted k (X.trace t)).length with h | h
      · exact ⟨t, h⟩
      rcases C15_eventually_ready wf X h0 k hp hm t with ⟨t', h1, h2⟩ | ⟨t', h1, h2⟩
      · exact ⟨t', by omega⟩
      rcases Nat.lt_or_ge m (accepted k (X.trace t')).length with h3 | h3
      · exact ⟨t', h3⟩
      obtain ⟨t3, h4, h5⟩ := C15_eventually_answered wf X h0 k hp hm t'
      obtain ⟨t'', g1, i, g2, g5⟩ := hs.2 t3
      rcases Nat.lt_or_ge m (accepted k (X.trace t'')).length with h6 | h6
      · exact ⟨t'', h6⟩
      by_cases hall : accepted k (X.trace t'') = qs
      · exact ⟨t'', by rw [hall]; exact hm'⟩
      have a1 := (X.acc_mono k (Nat.le_trans h4 g1)).length_le
      have a2 := (X.acc_mono k h1).length_le
      have a3 := (C06_at_most_two_unanswered wf h0 (X.run t'') k).1
      have a4 : (responses k (X.trace t3)).length ≤ (responses k (X.trace t'')).length := by
        obtain ⟨d, rfl⟩ : ∃ d, t'' = t3 + d := ⟨t'' - t3, by omega⟩
        rw [X.trace_add, responses_append, List.length_append]; omega
      have g6 := g5 hall (by
        rw [idle_reqRdy wf h0 (X.run t'') k (by omega) i { i with respRdy := true, mreqRdy := true }]
        exact h2 t'' (by omega) _ rfl rfl) (by omega)
      refine ⟨t'' + 1, ?_⟩
      simp only [Inf.trace, accepted_append, List.length_append, (X.clocked g2).2.2]
      have : (accepted k ((X.st t'').clockEvs k i)).length = 1 := by
        rw [accepted_clock_len]; simp [g6]
      omega
  obtain ⟨t, ht⟩ := key _ (Nat.le_refl _)
  exact ⟨t, (hs.1 t).eq_of_length_le ht⟩

/-- **C46, termination.**  In every infinite execution in which the ports are ready again and again,
memory answers, and the source has the valid requests `qs`, there is a time at which the responses
are exactly the expected ones, and they are so from then on. -/
theorem C46_terminates (wf : p.WF) (X : Inf Unit p) (h0 : Start (X.st 0)) (hp : X.PortsReady ())
    (hm : X.MemoryAnswers ()) {qs : List (CReq p)} (hv : ∀ q ∈ qs, q.Valid) (hs : X.Sources () qs) :
    ∃ t, ∀ t', t ≤ t' → responses () (X.trace t') = expectSeq (X.st 0).mem qs := by
  obtain ⟨t1, h1⟩ := X.all_accepted wf h0 () hp hm hs
  obtain ⟨t2, h2, h3⟩ := C15_eventually_answered wf X h0 () hp hm t1
  refine ⟨t2, fun t' ht => ?_⟩
  obtain ⟨h4, h5⟩ := C46_test wf h0 (X.run t') hv (hs.1 t')
  refine h5 (Nat.le_antisymm (by rw [← expectSeq_length (X.st 0).mem]; exact h4.length_le) ?_)
  obtain ⟨d, rfl⟩ : ∃ d, t' = t2 + d := ⟨t' - t2, by omega⟩
  rw [X.trace_add, responses_append, List.length_append]
  rw [h1] at h3
  omega

/-! ## Concrete cases -/

namespace LiveEx

theorem driveIn_en (S : Sys Unit p) (q : CReq p) (hq : q.ty ≠ MT.INIT)
    (h : ((S.cache ()).out (driveIn S (some q))).reqRdy = true) :
    (driveIn S (some q)).reqEn = true ∧ (driveIn S (some q)).req = q := by
  have h1 : ((S.cache ()).out ⟨false, false, default, true, true, false, default⟩).reqRdy = true := by
    refine Eq.trans (out_rdy_congr _ _ (driveIn S (some q)) ?_ ?_) h
    · exact (driveIn_rdy S (some q)).2.1.symm
    · exact (driveIn_rdy S (some q)).1.symm
  have h2 : (q.ty != MT.INIT) = true := bne_iff_ne.2 hq
  simp only [driveIn, h1, h2, Bool.and_self, if_true]
  split <;> exact ⟨rfl, rfl⟩

theorem driveIn_some (S : Sys Unit p) (q : Option (CReq p)) (h : (driveIn S q).reqEn = true) :
    q = some (driveIn S q).req := by
  simp only [driveIn] at h ⊢
  cases q with
  | none => simp only at h; split at h <;> cases h
  | some q =>
    simp only at h ⊢
    split at h
    · by_cases hc : (((S.cache ()).out ⟨false, false, default, true, true, false, default⟩).reqRdy && (q.ty != MT.INIT)) = true
      · rw [if_pos hc]
      · rw [if_neg hc] at h; cases h
    · by_cases hc : (((S.cache ()).out ⟨false, false, default, true, true, false, default⟩).reqRdy && (q.ty != MT.INIT)) = true
      · rw [if_pos hc]
      · rw [if_neg hc] at h; cases h

theorem acc_clockEvs (S : Sys Unit p) (i : In p) : accepted () (S.clockEvs () i) = if i.reqEn then [i.req] else [] := by
  simp only [Sys.clockEvs]
  cases i.reqEn <;> cases ((S.cache ()).out i).mreqEn <;> cases ((S.cache ()).out i).respEn <;> simp [accepted]

theorem inf_split (S : Sys Unit p) (qs : List (CReq p)) (t : Nat) :
    accepted () ((inf S qs).trace t) ++ (st t S qs).2 = qs := by
  induction t with
  | zero => rfl
  | succ t ih =>
    have e : (inf S qs).evs t = evs (st t S qs).1 (st t S qs).2.head? := rfl
    simp only [Inf.trace, accepted_append, e, st, evs]
    generalize hx : st t S qs = x at ih ⊢
    cases hq : x.1.reqQ () with
    | nil =>
      simp only [acc_clockEvs]
      cases hr : (driveIn x.1 x.2.head?).reqEn with
      | false => simpa using ih
      | true =>
        have := driveIn_some _ _ hr
        cases h2 : x.2 with
        | nil => rw [h2] at this; cases this
        | cons a l =>
          rw [h2] at this ih
          simp only [List.head?_cons, Option.some.injEq] at this
          simp only [List.head?_cons, if_true, ← this, List.append_assoc, List.singleton_append, List.tail_cons]
          exact ih
    | cons m ms => simpa [accepted] using ih

/-- C46: there are executions with every property required by `C46_terminates`, for every list of
requests without INIT. -/
theorem inf_sources (S : Sys Unit p) {qs : List (CReq p)} (hi : ∀ q ∈ qs, q.ty ≠ MT.INIT) :
    (inf S qs).Sources () qs := by
  refine ⟨fun t => ⟨_, inf_split S qs t⟩, fun t => ?_⟩
  obtain ⟨t', h1, h2, _⟩ := inf_clock S qs t
  refine ⟨t', h1, driveIn (st t' S qs).1 (st t' S qs).2.head?, ?_, ?_⟩
  · have h2 : (st t' S qs).1.reqQ () = [] := h2
    simp only [inf, act, if_pos h2]
  · intro hne hr _
    have hs := inf_split S qs t'
    cases h3 : (st t' S qs).2 with
    | cons q l =>
      rw [h3, List.head?_cons] at hr
      rw [List.head?_cons]
      exact (driveIn_en _ q (hi q (by rw [← hs, h3]; simp)) hr).1
    | nil => rw [h3, List.append_nil] at hs; exact absurd hs hne

end LiveEx

end Verif
