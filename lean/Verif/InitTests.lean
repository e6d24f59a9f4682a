import Verif.InitWarm
import Verif.SingleTests

/-!
# C58: the directed tests with WRITE_INIT, for every timing
-/

namespace Verif
variable {p : Params}

/-- The requests with the way and dirty bits a WRITE_INIT finds right after reset. Example; not in the source. -/
def hinted (qs : List (CReq p)) : List (HReq p) := qs.map fun q => ⟨q, false, 0⟩

theorem opsI_hinted (A : L1 p) (M : ByteMem) (hs : List (HReq p))
    (h : ∀ x ∈ hs, x.q.ty = MT.INIT → x.w = false ∧ x.d = 0) :
    A.opsI M hs = A.opsI M (hinted (hs.map (·.q))) := by
  induction hs generalizing A M with
  | nil => rfl
  | cons x hs ih =>
    have e : A.opI M x = A.opI M ⟨x.q, false, 0⟩ := by
      by_cases hi : x.q.ty = MT.INIT
      · obtain ⟨q, w, d⟩ := x
        obtain ⟨rfl, rfl⟩ := h _ (by simp) hi
        rfl
      · simp only [L1.opI, hi, if_false]
    simp only [hinted, List.map_cons, L1.opsI, e]
    rw [ih _ _ (fun y hy => h y (by simp [hy]))]
    rfl

/-- WRITE_INITs come first; with two ways there is at most one. Example; not in the source. -/
def WarmFirst (qs : List (CReq p)) : Prop :=
  ∃ inits rest, qs = inits ++ rest ∧ (∀ q ∈ inits, q.ty = MT.INIT) ∧ (∀ q ∈ rest, q.ty ≠ MT.INIT) ∧
    (p.twoWay = false ∨ inits.length ≤ 1)

theorem HintsOk.warm {hs : List (HReq p)} (h : HintsOk hs) {qs : List (CReq p)} (hq : hs.map (·.q) <+: qs)
    (hw : WarmFirst qs) : ∀ x ∈ hs, x.q.ty = MT.INIT → x.w = false ∧ x.d = 0 := by
  obtain ⟨inits, rest, rfl, h1, h2, h3⟩ := hw
  intro x hx hi
  obtain ⟨n, hlt, hn⟩ := List.getElem_of_mem hx
  have hget : hs[n]? = some x := by rw [List.getElem?_eq_getElem hlt, hn]
  have hat : ∀ m, m < hs.length → (hs.map (·.q))[m]? = (inits ++ rest)[m]? := by
    intro m hm
    obtain ⟨t, ht⟩ := hq
    rw [← ht, List.getElem?_append_left (by simpa using hm)]
  have hn' : n < inits.length := by
    rcases Nat.lt_or_ge n inits.length with h | h
    · exact h
    · have := hat n hlt
      rw [List.getElem?_append_right h, List.getElem?_map, hget] at this
      exact absurd hi (h2 _ (List.mem_of_getElem? this.symm))
  refine ⟨?_, ?_⟩
  · rcases h3 with h3 | h3
    · have := h.way x hx
      simpa [Params.ways, h3] using this
    · have : n = 0 := by omega
      subst this
      exact h.first x (by rw [← hget]; simp [List.head?_eq_getElem?])
  · refine h.dty n x hget ?_
    intro y hy
    obtain ⟨m, hm, hy'⟩ := List.getElem_of_mem hy
    rw [List.length_take] at hm
    have := hat m (by omega)
    rw [List.getElem?_append_left (by omega), List.getElem?_map, List.getElem?_eq_getElem (by omega)] at this
    rw [List.getElem_take] at hy'
    rw [hy'] at this
    exact h1 _ (List.mem_of_getElem? this.symm)

theorem opsI_prefix (A : L1 p) (M : ByteMem) {a b : List (HReq p)} (h : a <+: b) :
    respMsgs (A.opsI M a).2.2 <+: respMsgs (A.opsI M b).2.2 := by
  obtain ⟨t, rfl⟩ := h
  rw [opsI_append]
  simp only [respMsgs_append]
  exact List.prefix_append _ _

/-- The responses of the reset machine to `qs`. Example; not in the source. -/
def machineResps (M : ByteMem) (qs : List (CReq p)) : List (CResp p) :=
  respMsgs ((L1.init p).opsI M (hinted qs)).2.2

theorem warm_responses (wf : p.WF) {S S' : Sys Unit p} {tr : List (Ev Unit p)} {qs : List (CReq p)}
    (h0 : Start S) (h : InitRun S tr S') (hw : WarmFirst qs) (ha : accepted () tr <+: qs) :
    responses () tr <+: machineResps S.mem qs := by
  obtain ⟨hs, hl⟩ := loggedI wf h0 h
  obtain ⟨rest, h1, _⟩ := hl.resp
  have hq : hs.map (·.q) <+: qs := by rw [hl.acc]; exact ha
  rw [opsI_hinted _ _ _ (hl.hints.warm hq hw)] at h1
  have h2 : responses () tr <+: respMsgs ((L1.init p).opsI S.mem (hinted (hs.map (·.q)))).2.2 :=
    ⟨rest, h1.symm⟩
  refine h2.trans (opsI_prefix _ _ ?_)
  obtain ⟨t, ht⟩ := hq
  exact ⟨hinted t, by rw [← ht]; simp [hinted]⟩

/-- **C58, determinism.**  Reset, WRITE_INITs (one at most with two ways), then
requests of any kind: the responses, in every field, are a function of the initial memory
and the requests, whatever the timing. -/
theorem C58_deterministic (wf : p.WF) {S S' R R' : Sys Unit p} {tr tr' : List (Ev Unit p)} {qs : List (CReq p)}
    (h0 : Start S) (h : InitRun S tr S') (h0' : Start R) (h' : InitRun R tr' R') (hm : S.mem = R.mem)
    (hw : WarmFirst qs) (ha : accepted () tr <+: qs) (ha' : accepted () tr' <+: qs) :
    responses () tr <+: responses () tr' ∨ responses () tr' <+: responses () tr := by
  have a := warm_responses wf h0 h hw ha
  have b := warm_responses wf h0' h' hw ha'
  rw [← hm] at b
  exact List.prefix_or_prefix_of_prefix a b

/-- Decides what `C58_repo_tests` needs of a test. Example; not in the source. -/
def SeqTest.checkI (T : SeqTest) : Bool :=
  decide (1 ≤ T.p.idxBits ∧ 1 ≤ T.p.nwBits ∧ (2 ≤ T.p.lenBits ∧ T.p.lenBits ≤ 4) ∧ T.p.lenBits ≤ T.p.offBits) &&
  (T.reqs.dropWhile fun q => q.ty == MT.INIT).all (fun q => q.ty != MT.INIT) &&
  (!T.p.twoWay || decide ((T.reqs.takeWhile fun q => q.ty == MT.INIT).length ≤ 1)) &&
  decide (machineResps T.mem T.reqs = T.resps)

theorem SeqTest.of_checkI {T : SeqTest} (h : T.checkI = true) :
    T.p.WF ∧ WarmFirst T.reqs ∧ machineResps T.mem T.reqs = T.resps := by
  simp only [SeqTest.checkI, Bool.and_eq_true, decide_eq_true_eq, List.all_eq_true, Bool.or_eq_true,
    Bool.not_eq_true', bne_iff_ne] at h
  obtain ⟨⟨⟨⟨h1, h2, h3, h4⟩, h5⟩, h6⟩, h7⟩ := h
  refine ⟨⟨h1, h2, h3, h4⟩, ⟨_, _, (List.takeWhile_append_dropWhile (p := fun q => q.ty == MT.INIT)).symm, ?_, h5, h6⟩, h7⟩
  intro q hq
  have := List.all_eq_true.1 (List.all_takeWhile (p := fun q : CReq T.p => q.ty == MT.INIT) (l := T.reqs)) q hq
  simpa using this

set_option maxRecDepth 100000 in
theorem initTests_checked : initTests.all SeqTest.checkI = true := by decide +kernel

/-- **C58, the tests of the repository.**  Each of the directed tests with WRITE_INIT (and the
one with 128-bit writes), run from its memory image with any timing of the processor side,
of memory and of the clock: the responses that have left the cache are those the test
lists, in every field and in order; when as many have left as there are requests, all of them. -/
theorem C58_repo_init_tests : ∀ T ∈ initTests, ∀ (S S' : Sys Unit T.p) (tr : List (Ev Unit T.p)),
    Start S → S.mem = T.mem → InitRun S tr S' → accepted () tr <+: T.reqs →
    responses () tr <+: T.resps ∧ ((responses () tr).length = T.reqs.length → responses () tr = T.resps) := by
  intro T hT S S' tr h0 hm h ha
  obtain ⟨wf, hw, he⟩ := SeqTest.of_checkI (List.all_eq_true.1 initTests_checked T hT)
  have h1 := warm_responses wf h0 h hw ha
  have hl : (machineResps S.mem T.reqs).length = T.reqs.length := by
    obtain ⟨R, h3, h4, _⟩ := opsI_resp (A := L1.init T.p) rfl S.mem (hinted T.reqs)
    have := congrArg List.length h4
    simp only [List.length_map, hinted] at this
    rw [machineResps, h3]; exact this
  rw [hm, he] at h1 hl
  exact ⟨h1, fun h2 => h1.eq_of_length_le (by omega)⟩

/-! ## Concrete cases -/

set_option maxRecDepth 100000 in
/-- The hypotheses are met: each test has an execution in which all its requests are
accepted and answered. -/
example : ∀ T ∈ initTests, ∃ (S' : Sys Unit T.p) (tr : List (Ev Unit T.p)),
    Start T.start ∧ InitRun T.start tr S' ∧ accepted () tr = T.reqs ∧ (responses () tr).length = T.reqs.length := by
  intro T hT
  refine ⟨(initDrive 100 T.start T.reqs).1, (initDrive 100 T.start T.reqs).2, T.start_start, ?_, ?_⟩
  · have := initDrive_run 100 (.refl T.start) T.reqs
    rw [List.nil_append] at this
    exact this
  · have : initTests.all (fun T => decide (accepted () (initDrive 100 T.start T.reqs).2 = T.reqs) &&
        decide ((responses () (initDrive 100 T.start T.reqs).2).length = T.reqs.length)) = true := by decide +kernel
    have := List.all_eq_true.1 this T hT
    simpa using this

end Verif
