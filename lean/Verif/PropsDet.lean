import Verif.Det
import Verif.PropsLru
import Verif.PropsDirty
set_option linter.unusedSectionVars false

/-!
# Synchronised multicore programs are deterministic (C43)

The statements use the driver of `Verif/Multicore.lean` (`MStart`, `MRun`) and
`Verif/SpecDet.lean`.
-/

namespace Verif
variable {p : Params} {n : Nat}

theorem data_get (M : ByteMem) {g : Prog n p} {y : Nat} {k : Fin n} {o : BitVec 32} {q : CReq p}
    (h : g[y]? = some (k, o, q)) :
    (Prog.data M g k)[g.idx k y]? = some (flatStep (Prog.seq M (g.take y)) q).2 := by
  induction g generalizing M y with
  | nil => simp at h
  | cons e g ih =>
    cases y with
    | zero =>
      simp only [List.getElem?_cons_zero, Option.some.injEq] at h
      subst h
      simp [Prog.data, Prog.idx, Prog.of, Prog.seq, flatRun]
    | succ y =>
      simp only [List.getElem?_cons_succ] at h
      have := ih (flatStep M e.2.2).1 h
      have e2 : Prog.seq M ((e :: g).take (y + 1)) = Prog.seq (flatStep M e.2.2).1 (g.take y) := by
        simp [Prog.seq, flatRun]
      rw [e2, ← this]
      simp only [Prog.data, Prog.idx, Prog.of, List.take_succ_cons, List.filterMap_cons]
      by_cases hk : e.1 = k
      · simp [hk]
      · simp [hk]

/-- **C43, data.**  A synchronised program, executed by the driver with any timing: the data of the
response to the request at position `y` are those of the sequential execution of the program on a
flat memory. -/
theorem C43_sequential_data (wf : p.WF) {g : Prog n p} (hg : g.length < 2 ^ 32) (hv : ∀ e ∈ g, e.2.2.Valid)
    (hs : g.Synchronised) {X X' : MSys n p} {tr : List (Ev (Fin n) p)} (h0 : MStart g X) (h : MRun g X tr X')
    {y : Nat} {k : Fin n} {o : BitVec 32} {q : CReq p} (hy : g[y]? = some (k, o, q)) {r : CResp p}
    (hr : (responses k tr)[(Prog.of (g.take y) k).length]? = some r) :
    r.data = (flatStep (Prog.seq X.sys.mem (g.take y)) q).2 := by
  have H := ordered wf hg h0 h
  have hlt := (List.getElem?_eq_some_iff.1 hr).1
  have hle := H.resp (t1 := tr) (t2 := []) (by simp) k
  obtain ⟨a, f, b, ht, ha⟩ := find_acc k (t := tr) (m := g.idx k y) (Nat.lt_of_lt_of_le hlt hle)
  have hf := H.at_pos ht hy ha
  subst hf
  have hva : ∀ k, ∀ q ∈ accepted k tr, q.Valid := by
    intro k' q' hq'
    obtain ⟨l, hl⟩ := H.pre k'
    have : q' ∈ g.reqs k' := by rw [← hl]; simp [hq']
    simp only [Prog.reqs, Prog.of, List.mem_map, List.mem_filterMap] at this
    obtain ⟨e, ⟨e', he', h1⟩, rfl⟩ := this
    split at h1
    · cases h1; exact hv _ he'
    · cases h1
  have key := C42_synchronised_response wf h0.sys h.open hva ht (fun W hW =>
    ⟨fun k' a' q' b' ht' hw' => H.ready hs ht' (.inr hw'), H.ready hs ht (.inl hW), H.noRace hs ht hW⟩)
    (r := r) (by rw [ha]; exact hr)
  rw [key]
  refine flatStep_resp fun W hW => latest_seq H hs hv _ ht ?_
  intro x k' o' q' hx hw
  constructor
  · rintro ⟨k1, o1, q1, h1, h2⟩
    rw [hx] at h1; cases h1
    by_cases hk : k' = k
    · subst hk
      apply Nat.lt_of_not_le
      intro hle
      have := idx_mono g k' hle
      omega
    · obtain ⟨u, f', v, g1, g2⟩ := find_acc k' h2
      have hf := H.at_pos (q := f') (u := u) (v := v ++ .acc k f :: b) (by rw [ht, g1]; simp) hx g2
      subst hf
      exact H.conflict hs ht g1 hy ha.symm hx g2.symm hk (.inl ⟨hw, .inl hW⟩)
  · intro hxy
    refine ⟨k', o', q', hx, ?_⟩
    by_cases hk : k' = k
    · subst hk
      have := idx_lt hx hxy
      omega
    · obtain ⟨u, w, f', of, qf, h1, h2, _, _, h5, _⟩ := H.store_before hs ht hy ha.symm hx hxy hk hw (.inl hW)
      have h6 := H.resp (t1 := u) (t2 := w ++ .acc k f :: b) (by rw [ht, h1]; simp) k'
      have h7 := acc_len_mono k' u w
      have h8 := idx_mono g k' h2
      rw [h1]
      omega

/-- **C43, responses.**  All fields: the responses delivered to core `k` so far are, in order, the
expected ones. -/
theorem C43_responses (wf : p.WF) {g : Prog n p} (hg : g.length < 2 ^ 32) (hv : ∀ e ∈ g, e.2.2.Valid)
    (hs : g.Synchronised) {X X' : MSys n p} {tr : List (Ev (Fin n) p)} (h0 : MStart g X) (h : MRun g X tr X')
    (k : Fin n) : responses k tr <+: Prog.expect X.sys.mem g k := by
  have H := ordered wf hg h0 h
  rw [List.prefix_iff_getElem?]
  intro m hm
  have hr : (responses k tr)[m]? = some (responses k tr)[m] := List.getElem?_eq_getElem hm
  generalize (responses k tr)[m] = r at hr ⊢
  have hle := H.resp (t1 := tr) (t2 := []) (by simp) k
  have hq : (accepted k tr)[m]? = some (accepted k tr)[m] := List.getElem?_eq_getElem (by omega)
  generalize (accepted k tr)[m] = q at hq
  have hq2 : (g.reqs k)[m]? = some q := by
    obtain ⟨l, hl⟩ := H.pre k
    rw [← hl, List.getElem?_append_left (by omega)]; exact hq
  have hq3 : ∃ o, (Prog.of g k)[m]? = some (o, q) := by
    simp only [Prog.reqs, List.getElem?_map, Option.map_eq_some_iff] at hq2
    obtain ⟨⟨o, q'⟩, h1, rfl⟩ := hq2
    exact ⟨o, h1⟩
  obtain ⟨o, ho⟩ := hq3
  obtain ⟨y, hy, hi⟩ := get_of ho
  have hd := C43_sequential_data wf hg hv hs h0 h hy (r := r) (by rw [Prog.idx] at hi; rw [hi]; exact hr)
  have hdl := data_get X.sys.mem hy
  rw [hi, ← hd] at hdl
  -- type, opaque, length
  have h2 := (C02_multi wf h0.sys h.open k).1
  rw [List.prefix_iff_getElem?] at h2
  have h2 := h2 m (by simpa using hm)
  rw [List.getElem?_map, hq, List.getElem_map] at h2
  have er : (responses k tr)[m] = r := by
    have := List.getElem?_eq_getElem hm
    rw [hr] at this; exact (Option.some.inj this).symm
  rw [er] at h2
  simp only [Option.map_some, Option.some.injEq, Prod.mk.injEq] at h2
  -- hit bit
  have h3 := C03_test_is_lru_hit wf h0.sys h.open k
  rw [List.prefix_iff_getElem?] at h3
  have h3 := h3 m (by simpa using hm)
  rw [List.getElem?_map, List.getElem_map, er] at h3
  obtain ⟨bt, hb1, hb2⟩ := Option.map_eq_some_iff.1 h3
  have hb3 : (lruRun p.ways.length (g.reqs k)).2[m]? = some bt := by
    obtain ⟨l, hl⟩ := H.pre k
    obtain ⟨l', hl'⟩ := lruRun_hits_append p.ways.length (accepted k tr) l
    rw [← hl, hl', List.getElem?_append_left (List.getElem?_eq_some_iff.1 hb1).1]; exact hb1
  have hz : (((lruRun p.ways.length (g.reqs k)).2).zip (Prog.data X.sys.mem g k))[m]? = some (bt, r.data) :=
    List.getElem?_zip_eq_some.2 ⟨hb3, hdl⟩
  simp only [Prog.expect, List.getElem?_zipWith, hz, hq2, hb2]
  obtain ⟨ty, opq, test, len, data⟩ := r
  simp only at h2
  obtain ⟨rfl, rfl, rfl⟩ := h2
  rfl

theorem data_length (M : ByteMem) (g : Prog n p) (k : Fin n) : (Prog.data M g k).length = (Prog.of g k).length := by
  induction g generalizing M with
  | nil => rfl
  | cons e g ih =>
    simp only [Prog.data, List.length_append, ih, Prog.of, List.filterMap_cons]
    by_cases hk : e.1 = k
    · simp [hk]; omega
    · simp [hk]

theorem expect_length (M : ByteMem) (g : Prog n p) (k : Fin n) : (Prog.expect M g k).length = (Prog.of g k).length := by
  simp [Prog.expect, Prog.reqs, data_length, lruRun_length]

/-- When every request has been answered, the responses are exactly the expected ones. -/
theorem C43_complete (wf : p.WF) {g : Prog n p} (hg : g.length < 2 ^ 32) (hv : ∀ e ∈ g, e.2.2.Valid)
    (hs : g.Synchronised) {X X' : MSys n p} {tr : List (Ev (Fin n) p)} (h0 : MStart g X) (h : MRun g X tr X')
    (hd : AllDone g tr) (k : Fin n) : responses k tr = Prog.expect X.sys.mem g k := by
  refine (C43_responses wf hg hv hs h0 h k).eq_of_length_le ?_
  rw [expect_length]; exact hd k

/-- **C43, determinism.**  Two executions of a synchronised program from the same memory, with
whatever timing, deliver the same responses as far as both have come. -/
theorem C43_deterministic (wf : p.WF) {g : Prog n p} (hg : g.length < 2 ^ 32) (hv : ∀ e ∈ g, e.2.2.Valid)
    (hs : g.Synchronised) {X X' Y Y' : MSys n p} {tr tr' : List (Ev (Fin n) p)} (h0 : MStart g X) (h : MRun g X tr X')
    (h0' : MStart g Y) (h' : MRun g Y tr' Y') (hm : X.sys.mem = Y.sys.mem) (k : Fin n) :
    responses k tr <+: responses k tr' ∨ responses k tr' <+: responses k tr := by
  have a := C43_responses wf hg hv hs h0 h k
  have b := C43_responses wf hg hv hs h0' h' k
  rw [← hm] at b
  exact List.prefix_or_prefix_of_prefix a b

/-- **C43, memory.**  When every request has been answered and every store to the word at `x` is
followed, on its core, by a FLUSH or a request that gives up the line (the store itself, if it is
an atomic operation), memory holds the value of the sequential execution. -/
theorem C43_final_memory (wf : p.WF) {g : Prog n p} (hg : g.length < 2 ^ 32) (hv : ∀ e ∈ g, e.2.2.Valid)
    (hs : g.Synchronised) {X X' : MSys n p} {tr : List (Ev (Fin n) p)} (h0 : MStart g X) (h : MRun g X tr X')
    (hd : AllDone g tr) {x : Nat} (hx : x < 2 ^ p.addrBits)
    (hf : ∀ (y : Nat) (k : Fin n) (o : BitVec 32) (q : CReq p), g[y]? = some (k, o, q) → q.writesWord (x / 4) →
      ∃ (f : Nat) (of : BitVec 32) (qf : CReq p), y ≤ f ∧ g[f]? = some (k, of, qf) ∧ (qf.ty = MT.FLUSH ∨ qf.drops (x / 4))) :
    X'.sys.mem x = Prog.seq X.sys.mem g x := by
  have H := ordered wf hg h0 h
  have hva : ∀ k, ∀ q ∈ accepted k tr, q.Valid := by
    intro k' q' hq'
    obtain ⟨l, hl⟩ := H.pre k'
    have : q' ∈ g.reqs k' := by rw [← hl]; simp [hq']
    simp only [Prog.reqs, Prog.of, List.mem_map, List.mem_filterMap] at this
    obtain ⟨e, ⟨e', he', h1⟩, rfl⟩ := this
    split at h1
    · cases h1; exact hv _ he'
    · cases h1
  have hlen : ∀ k y o q, g[y]? = some (k, o, q) → g.idx k y < (responses k tr).length := by
    intro k y o q hy
    have h1 := (List.getElem?_eq_some_iff.1 (of_get hy)).1
    have := hd k
    omega
  have hle : ∀ k, (responses k tr).length ≤ (accepted k tr).length := fun k =>
    H.resp (t1 := tr) (t2 := []) (by simp) k
  rw [C42_published_memory wf h0.sys h.open hva (W := x / 4)
    (fun k a q b ht hw => H.ready hs ht (.inr hw)) (fun k a q b ht hw => ?_) rfl hx]
  · have := latest_seq H hs hv X.sys.mem (W := x / 4) (t := tr) (t' := []) (by simp) (y := g.length) (by
      intro y k o q hy hw
      constructor
      · intro _; exact (List.getElem?_eq_some_iff.1 hy).1
      · intro _
        have := hlen k y o q hy
        have := hle k
        exact ⟨k, o, q, hy, by omega⟩)
    rw [List.take_length] at this
    exact this x rfl
  · obtain ⟨y, o, hy, hi, _⟩ := H.acc ht
    obtain ⟨f, of, qf, h1, h2, h3⟩ := hf y k o q hy hw
    have hm := idx_mono g k h1
    refine pubDone_of (m := g.idx k f) (by omega) (by rw [← ht]; exact hlen k f of qf h2) (by rw [← ht]; exact hle k) ?_
    intro u f' v hu hu'
    have := H.at_pos (q := f') (u := u) (v := v) (by rw [ht, hu]) h2 hu'
    rw [this]; exact h3

end Verif
