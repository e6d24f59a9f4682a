import Verif.Env
import Verif.PropsFL2
import Verif.PropsShared
import Verif.Det
import Verif.PropsHetNet

/-!
# C87: what a cache guarantees whatever the rest of the system does
-/

namespace Verif
variable {p : Params} {ι : Type} [DecidableEq ι]

/-! ## Reading the events of one cache -/

theorem only_eq {k : ι} {e : Ev ι p} {e' : Ev Unit p} (h : Ev.only k e = some e') : e = Ev.to k e' := by
  cases e <;> (simp only [Ev.only] at h; split at h <;> cases h; rename_i h; subst h; rfl)

theorem only_split {k : ι} {L : List (Ev ι p)} {a b : List (Ev Unit p)} {e : Ev Unit p}
    (h : L.filterMap (Ev.only k) = a ++ e :: b) :
    ∃ A B, L = A ++ Ev.to k e :: B ∧ A.filterMap (Ev.only k) = a ∧ B.filterMap (Ev.only k) = b := by
  rw [List.filterMap_eq_append_iff] at h
  obtain ⟨A, X, rfl, h1, h2⟩ := h
  rw [List.filterMap_eq_cons_iff] at h2
  obtain ⟨l, e0, B, rfl, h3, h4, h5⟩ := h2
  rw [only_eq h4]
  refine ⟨A ++ l, B, by simp, ?_, h5⟩
  rw [List.filterMap_append, h1, List.filterMap_eq_nil_iff.2 h3, List.append_nil]

theorem only_window {k : ι} {L : List (Ev ι p)} {b c : List (Ev Unit p)} (h : L.filterMap (Ev.only k) = b ++ c)
    (hw : Window () b c) :
    ∃ B C, L = B ++ C ∧ B.filterMap (Ev.only k) = b ∧ C.filterMap (Ev.only k) = c ∧ Window k B C := by
  rcases hw.next with rfl | ⟨q, c', rfl⟩
  · rw [List.append_nil] at h
    exact ⟨L, [], by simp, h, rfl, by rw [← accepted_only, h]; exact hw.none, .inl rfl⟩
  · obtain ⟨A, B, rfl, h1, h2⟩ := only_split h
    refine ⟨A, _, rfl, h1, ?_, by rw [← accepted_only, h1]; exact hw.none, .inr ⟨q, B, rfl⟩⟩
    rw [List.filterMap_cons, show Ev.only k (Ev.to k (.acc () q : Ev Unit p)) = some (.acc () q) by simp [Ev.to, Ev.only], h2]

theorem unsaved_only (k : ι) (W : Nat) (L : List (Ev ι p)) : Unsaved () W (L.filterMap (Ev.only k)) ↔ Unsaved k W L := by
  constructor
  · rintro ⟨a, q, b, h1, h2, h3, h4⟩
    obtain ⟨A, B, rfl, rfl, rfl⟩ := only_split h1
    exact ⟨A, q, B, rfl, h2, h3, by rw [← sent_only]; exact h4⟩
  · rintro ⟨A, q, B, rfl, h2, h3, h4⟩
    refine ⟨A.filterMap (Ev.only k), q, B.filterMap (Ev.only k), ?_, h2, h3, by rw [sent_only]; exact h4⟩
    rw [List.filterMap_append, List.filterMap_cons]; simp [Ev.only]

theorem lineUnsaved_only (k : ι) (L : List (Ev ι p)) (t : Tag p) (j : Idx p) :
    LineUnsaved () (L.filterMap (Ev.only k)) t j ↔ LineUnsaved k L t j := by
  simp only [LineUnsaved, unsaved_only]

theorem cached_only (k : ι) (L : List (Ev ι p)) (x : Addr p) : Cached () (L.filterMap (Ev.only k)) x ↔ Cached k L x := by
  simp only [Cached, accepted_only]

theorem victim_only (k : ι) (L : List (Ev ι p)) (j : Idx p) : lruVictim () (L.filterMap (Ev.only k)) j = lruVictim k L j := by
  simp only [lruVictim, accepted_only]

variable {D : Nat → Prop} {S S' : Sys Unit p} {tr : List (Ev Unit p)}

/-- The system of equal caches, with the trace cut at a request. -/
theorem ORun.play_at (wf : p.WF) {a b : List (Ev Unit p)} {e : Ev Unit p} (h0 : Start S) (h : ORun D S (a ++ e :: b) S')
    (hf : AmosFit (a ++ e :: b)) :
    ∃ (R R' : Sys (Option Nat) p) (A B : List (Ev (Option Nat) p)), Start R ∧ Run R (A ++ Ev.to none e :: B) R' ∧
      a = A.filterMap (Ev.only none) ∧ b = B.filterMap (Ev.only none) ∧
      a ++ e :: b = (A ++ Ev.to none e :: B).filterMap (Ev.only none) := by
  obtain ⟨R, R', trR, n, h1, -, h2, -, h3, -⟩ := h.play wf h0 hf
  obtain ⟨A, B, rfl, h4, h5⟩ := only_split h3
  exact ⟨R, R', A, B, h1, h2, h4.symm, h5.symm, h3.symm⟩

theorem ORun.play_window (wf : p.WF) {a b c : List (Ev Unit p)} {e : Ev Unit p} (h0 : Start S)
    (h : ORun D S (a ++ e :: (b ++ c)) S') (hf : AmosFit (a ++ e :: (b ++ c))) (hw : Window () b c) :
    ∃ (R R' : Sys (Option Nat) p) (A B C : List (Ev (Option Nat) p)), Start R ∧ Run R (A ++ Ev.to none e :: (B ++ C)) R' ∧
      a = A.filterMap (Ev.only none) ∧ b = B.filterMap (Ev.only none) ∧ Window none B C ∧
      a ++ e :: (b ++ c) = (A ++ Ev.to none e :: (B ++ C)).filterMap (Ev.only none) := by
  obtain ⟨R, R', A, X, h1, h2, h3, h4, h5⟩ := h.play_at wf h0 hf
  obtain ⟨B, C, rfl, g1, g2, g3⟩ := only_window h4.symm hw
  exact ⟨R, R', A, B, C, h1, h2, h3, g1.symm, g3, h5⟩

/-! ## The guarantees -/

/-- **C87** (C02).  Responses in request order, each with the type, opaque field and length of its request, and no more
than two requests unanswered. -/
theorem C87_responses_match (wf : p.WF) (h0 : Start S) (h : ORun D S tr S') (hf : AmosFit tr) :
    (responses () tr).map (fun r => (r.ty, r.opq, r.len)) <+: (accepted () tr).map (fun q => (q.ty, q.opq, q.len)) ∧
    (accepted () tr).length ≤ (responses () tr).length + 2 := by
  obtain ⟨R, R', L, n, h1, -, h2, -, rfl, -⟩ := h.play wf h0 hf
  rw [responses_only, accepted_only]
  exact C02_multi wf h1 h2 none

/-- **C87** (C03).  The test bits are the hits of a true LRU cache on the requests of this cache alone. -/
theorem C87_test_is_lru_hit (wf : p.WF) (h0 : Start S) (h : ORun D S tr S') (hf : AmosFit tr) :
    (responses () tr).map (·.test) <+: (lruRun p.ways.length (accepted () tr)).2.map (fun b => if b then 1 else 0) := by
  obtain ⟨R, R', L, n, h1, -, h2, -, rfl, -⟩ := h.play wf h0 hf
  rw [responses_only, accepted_only]
  exact C03_test_is_lru_hit wf h1 h2 none

/-- **C87** (C03).  The test bits are those of the hit/miss tracker of the FL model. -/
theorem C87_test_equals_FL_tracker (wf : p.WF) (h0 : Start S) (h : ORun D S tr S') (hf : AmosFit tr) :
    (responses () tr).map (·.test) <+: ((FL.Tracker.init (FL.Cfg.of p)).hits (FL.Cfg.of p) (accepted () tr)).map FL.testBit := by
  obtain ⟨R, R', L, n, h1, -, h2, -, rfl, -⟩ := h.play wf h0 hf
  rw [responses_only, accepted_only]
  exact FL.C03_test_equals_FL_tracker wf h1 h2 none

/-- **C87** (C06).  The cache is ready only if it waits for nothing from memory. -/
theorem C87_ready_nothing_outstanding (wf : p.WF) (h0 : Start S) (h : ORun D S tr S') (hf : AmosFit tr) (i : In p)
    (hr : ((S'.cache ()).out i).reqRdy = true) : S'.reqQ () = [] ∧ S'.respQ () = [] := by
  obtain ⟨R, R', L, n, h1, -, h2, hp, rfl, -⟩ := h.play wf h0 hf
  rw [← hp.reqQ, ← hp.respQ]
  exact C06_ready_nothing_outstanding wf h1 h2 none i (by rw [hp.cache]; exact hr)

/-- **C87** (C06).  Ready once, the cache sends nothing to memory until it accepts a request. -/
theorem C87_ready_then_silent (wf : p.WF) {S'' : Sys Unit p} {tr' : List (Ev Unit p)} (h0 : Start S) (h : ORun D S tr S')
    (h' : ORun D S' tr' S'') (hf : AmosFit (tr ++ tr')) (i : In p) (hr : ((S'.cache ()).out i).reqRdy = true)
    (ha : accepted () tr' = []) : sent () tr' = [] := by
  obtain ⟨R, R', L, n, h1, -, h2, hp, h3, -⟩ := h.play wf h0 (fun q hq => hf q (accepted_mono hq))
  obtain ⟨R'', L', n', g1, g2, rfl, -⟩ := h'.play_on wf h0 hf h1 h2 hp h3
  rw [sent_only]
  rw [accepted_only] at ha
  exact C06_ready_then_silent wf h1 h2 none i (by rw [hp.cache]; exact hr) g1 ha

/-- **C87** (C06).  At most one memory request that is not a write-back is under way, and at most one write-back ahead
of it. -/
theorem C87_at_most_one_outstanding (wf : p.WF) (h0 : Start S) (h : ORun D S tr S') (hf : AmosFit tr) :
    let O := (S'.respQ ()).map (·.ty) ++ (S'.reqQ ()).map (·.ty)
    O = [] ∨ (∃ t, O = [t]) ∨ ∃ t, O = [MT.WRITE, t] := by
  obtain ⟨R, R', L, n, h1, -, h2, hp, rfl, -⟩ := h.play wf h0 hf
  rw [← hp.reqQ, ← hp.respQ]
  exact C06_at_most_one_outstanding wf h1 h2 none

/-- **C87** (C07).  A write-back carries exactly the words stored to through this cache and not yet sent. -/
theorem C87_writeback_exact (wf : p.WF) {a b : List (Ev Unit p)} {m : MReq p} (h0 : Start S)
    (h : ORun D S (a ++ .mreq () m :: b) S') (hf : AmosFit (a ++ .mreq () m :: b)) (hv : ∀ q ∈ accepted () a, q.Valid)
    (ht : m.ty = MT.WRITE) :
    m.addr.off = 0 ∧ m.len = 0 ∧ m.wmask ≠ 0 ∧ ∀ W, m.inLine W → (m.carries W ↔ Unsaved () W a) := by
  obtain ⟨R, R', A, B, h1, h2, rfl, rfl, -⟩ := h.play_at wf h0 hf
  simp only [unsaved_only]
  rw [accepted_only] at hv
  exact C07_writeback_exact wf h1 h2 hv ht

/-- **C87** (C08).  After the answer to a FLUSH no word is left unsaved, but for words stored to later. -/
theorem C87_flush_carries (wf : p.WF) {a b c : List (Ev Unit p)} {f : CReq p} (h0 : Start S)
    (h : ORun D S (a ++ .acc () f :: (b ++ c)) S') (hf : AmosFit (a ++ .acc () f :: (b ++ c))) (hw : Window () b c)
    (hv : ∀ q ∈ accepted () a, q.Valid) (hfl : f.ty = MT.FLUSH)
    (hr : (accepted () a).length < (responses () (a ++ .acc () f :: (b ++ c))).length) {W : Nat}
    (hu : Unsaved () W a) : ∃ m ∈ sent () b, m.carries W := by
  obtain ⟨R, R', A, B, C, h1, h2, rfl, rfl, hw', e⟩ := h.play_window wf h0 hf hw
  rw [e, accepted_only, responses_only] at hr
  rw [accepted_only] at hv
  rw [unsaved_only] at hu
  rw [sent_only]
  exact C08_flush_carries wf h1 h2 hw' hv hfl hr hu

/-- **C87** (C08). -/
theorem C87_nothing_unsaved (wf : p.WF) {a b c : List (Ev Unit p)} {f : CReq p} (h0 : Start S)
    (h : ORun D S (a ++ .acc () f :: (b ++ c)) S') (hf : AmosFit (a ++ .acc () f :: (b ++ c))) (hw : Window () b c)
    (hv : ∀ q ∈ accepted () a, q.Valid) (hfl : f.ty = MT.FLUSH)
    (hr : (accepted () a).length < (responses () (a ++ .acc () f :: (b ++ c))).length) (W : Nat) :
    ¬ Unsaved () W (a ++ .acc () f :: b) := by
  obtain ⟨R, R', A, B, C, h1, h2, rfl, rfl, hw', e⟩ := h.play_window wf h0 hf hw
  rw [e, accepted_only, responses_only] at hr
  rw [accepted_only] at hv
  have := C08_nothing_unsaved wf h1 h2 hw' hv hfl hr W
  rw [← unsaved_only, List.filterMap_append, List.filterMap_cons] at this
  exact this

/-- **C87** (C09, C11, and the traffic of every request).  What the cache sends to memory for a request, and what memory
executes, between its acceptance and the next one is what the request calls for; the data of atomic operations and of
reads that miss are those of the last memory response. -/
theorem C87_request_served (wf : p.WF) {a b c : List (Ev Unit p)} {q : CReq p} {r : CResp p} (h0 : Start S)
    (h : ORun D S (a ++ .acc () q :: (b ++ c)) S') (hf : AmosFit (a ++ .acc () q :: (b ++ c))) (hw : Window () b c)
    (hr : (responses () (a ++ .acc () q :: (b ++ c)))[(accepted () a).length]? = some r) :
    Serves q (sent () b) r ∧ Serves q ((execd () b).map (·.1)) r := by
  obtain ⟨R, R', A, B, C, h1, h2, rfl, rfl, hw', e⟩ := h.play_window wf h0 hf hw
  rw [e, accepted_only, responses_only] at hr
  rw [sent_only, execd_only]
  obtain ⟨g1, g2, -⟩ := request_served wf h1 h2 hw' hr
  exact ⟨g1, g2⟩

/-! ## Where memory executes a request -/

theorem ORun.trans {S₁ : Sys Unit p} {tr' : List (Ev Unit p)} (h : ORun D S tr S') (h' : ORun D S' tr' S₁) :
    ORun D S (tr ++ tr') S₁ := by
  induction h' with
  | refl => rw [List.append_nil]; exact h
  | snoc _ hs ih => rw [← List.append_assoc]; exact ih.snoc hs

theorem ORun.split_exec (h : ORun D S tr S') : ∀ x m r y, tr = x ++ .exec () m r :: y →
    ∃ S₁, ORun D S x S₁ ∧ r = (memExec S₁.mem m).2 ∧ ORun D (S₁.exec () m) y S' := by
  induction h with
  | refl => intro x m r y h; simp at h
  | @snoc S1 S2 tr ev h hs ih =>
    intro x m r y he
    rcases List.append_eq_append_iff.1 he with ⟨e, h1, h2⟩ | ⟨e, h1, h2⟩
    · cases hs with
      | outside M hM => simp at h2
      | own hs =>
        cases hs with
        | clock k' i hc =>
          exfalso
          exact clockEvs_noExec _ _ _ () m r (by rw [h2]; simp)
        | exec k' m' ms hm =>
          cases e with
          | nil =>
            simp only [List.nil_append, List.cons.injEq, Ev.exec.injEq, true_and] at h2
            obtain ⟨⟨rfl, rfl⟩, rfl⟩ := h2
            rw [List.append_nil] at h1
            rw [h1]
            exact ⟨S1, h, rfl, .refl _⟩
          | cons z e => simp at h2
    · cases e with
      | nil =>
        simp only [List.nil_append, List.append_nil] at h1 h2
        cases hs with
        | outside M hM => cases h2
        | own hs =>
          cases hs with
          | clock k' i hc =>
            exfalso
            exact clockEvs_noExec _ _ _ () m r (by rw [← h2]; simp)
          | exec k' m' ms hm =>
            simp only [List.cons.injEq, Ev.exec.injEq, true_and] at h2
            obtain ⟨⟨rfl, rfl⟩, rfl⟩ := h2
            rw [← h1]
            exact ⟨S1, h, rfl, .refl _⟩
      | cons z e =>
        simp only [List.cons_append, List.cons.injEq] at h2
        obtain ⟨rfl, rfl⟩ := h2
        obtain ⟨S₁, g1, g2, g3⟩ := ih x m r e h1
        exact ⟨S₁, g1, g2, g3.snoc hs⟩

theorem DataOf.mono {C C' : Nat → Prop} {q : CReq p} {ex : List (MReq p × MResp p)} {r : CResp p} (h : DataOf C q ex r)
    (hc : ∀ W, C' W → C W) : DataOf C' q ex r :=
  ⟨h.amo, fun t1 t2 => let ⟨e, l, h1, h2, h3⟩ := h.read t1 t2; ⟨e, l, h1, h2, fun i hi hw => h3 i hi (hc _ hw)⟩⟩

theorem published_only {k : ι} {W : Nat} {L : List (Ev ι p)} (h : Published () W (L.filterMap (Ev.only k))) :
    Published k W L := by
  rintro A q B rfl hq
  have e1 : ((A ++ .acc k q :: B).filterMap (Ev.only k) : List (Ev Unit p)) =
      A.filterMap (Ev.only k) ++ .acc () q :: B.filterMap (Ev.only k) := by
    rw [List.filterMap_append, List.filterMap_cons]; simp [Ev.only]
  obtain ⟨b₁, f, b₂, h1, h2, h3⟩ := h _ q _ e1 hq
  obtain ⟨B1, B2, rfl, rfl, rfl⟩ := only_split h1
  refine ⟨B1, f, B2, rfl, h2, ?_⟩
  have e3 : ∀ X : List (Ev ι p), (A ++ [Ev.acc k q] ++ X).filterMap (Ev.only k) =
      A.filterMap (Ev.only k) ++ [Ev.acc () q] ++ X.filterMap (Ev.only k) := by
    intro X
    rw [List.filterMap_append, List.filterMap_append]; simp [Ev.only]
  rw [← accepted_only, ← responses_only, e3, e3]
  exact h3

theorem ORun.served (wf : p.WF) {a b c : List (Ev Unit p)} {q : CReq p} {r : CResp p} (h0 : Start S)
    (h : ORun D S (a ++ .acc () q :: (b ++ c)) S') (hf : AmosFit (a ++ .acc () q :: (b ++ c))) (hw : Window () b c)
    (hr : (responses () (a ++ .acc () q :: (b ++ c)))[(accepted () a).length]? = some r) :
    Serves q (sent () b) r ∧ Serves q ((execd () b).map (·.1)) r ∧
    DataOf (fun W => (∀ q ∈ accepted () a, q.Valid) ∧ Published () W a) q (execd () b) r := by
  obtain ⟨R, R', A, B, C, h1, h2, rfl, rfl, hw', e⟩ := h.play_window wf h0 hf hw
  rw [e, accepted_only, responses_only] at hr
  rw [sent_only, execd_only]
  obtain ⟨g1, g2, g3⟩ := request_served wf h1 h2 hw' hr
  refine ⟨g1, g2, g3.mono ?_⟩
  intro W ⟨k1, k2⟩
  rw [accepted_only] at k1
  exact ⟨k1, published_only k2⟩

/-- **C87** (C11).  An atomic operation is executed once by memory, whatever others do to memory: memory and the response
are those of the operation on the contents memory has at that moment. -/
theorem C87_amo_executed_once (wf : p.WF) {a b c : List (Ev Unit p)} {q : CReq p} {r : CResp p} (h0 : Start S)
    (h : ORun D S (a ++ .acc () q :: (b ++ c)) S') (hf : AmosFit (a ++ .acc () q :: (b ++ c))) (hw : Window () b c)
    (hq : MT.isAmo q.ty = true)
    (hr : (responses () (a ++ .acc () q :: (b ++ c)))[(accepted () a).length]? = some r) :
    r.test = 0 ∧ AmoTraffic q (sent () b) ∧ AmoTraffic q ((execd () b).map (·.1)) ∧
    ∃ b₁ m x b₂ S₁, b = b₁ ++ .exec () m x :: b₂ ∧ m.Performs q ∧
      ORun D S (a ++ .acc () q :: b₁) S₁ ∧ ORun D (S₁.exec () m) (b₂ ++ c) S' ∧
      r.data = (flatStep S₁.mem q).2 ∧ (S₁.exec () m).mem = (flatStep S₁.mem q).1 := by
  obtain ⟨hs1, hs2, hd⟩ := h.served wf h0 hf hw hr
  refine ⟨(hs1.amo hq).1, (hs1.amo hq).2, (hs2.amo hq).2, ?_⟩
  obtain ⟨m, hm1, hm2⟩ := (hs2.amo hq).2.last
  rw [List.getLast?_map] at hm1
  obtain ⟨ex, hex, rfl⟩ : ∃ ex, (execd () b).getLast? = some ex ∧ ex.1 = m := by
    cases hg : (execd () b).getLast? with
    | none => rw [hg] at hm1; cases hm1
    | some ex => rw [hg] at hm1; cases hm1; exact ⟨ex, rfl, rfl⟩
  obtain ⟨x1, y1, hxy⟩ := execd_mem (List.mem_of_getLast? hex)
  have e2 : a ++ .acc () q :: (b ++ c) = (a ++ .acc () q :: x1) ++ .exec () ex.1 ex.2 :: (y1 ++ c) := by
    rw [hxy]; simp
  obtain ⟨S₁, g1, g2, g3⟩ := h.split_exec _ ex.1 ex.2 _ e2
  obtain ⟨ex', k1, k2⟩ := hd.amo hq
  rw [hex] at k1
  cases k1
  obtain ⟨f1, f2⟩ := performs_flat (M := S₁.mem) hq hm2
  refine ⟨x1, ex.1, ex.2, y1, S₁, hxy, hm2, g1, g3, ?_, f1⟩
  rw [k2, g2, f2]

/-- **C87** (C09).  After an INV the next read or write of a line misses, whatever others did to memory, and a read
returns, on words not stored to or flushed since, what memory holds at a moment after the read was accepted. -/
theorem C87_refetched (wf : p.WF) {a b c : List (Ev Unit p)} {i q : CReq p} {r : CResp p}
    (h0 : Start S) (h : ORun D S (a ++ .acc () i :: (b ++ .acc () q :: c)) S')
    (hf : AmosFit (a ++ .acc () i :: (b ++ .acc () q :: c))) (hi : i.ty = MT.INV)
    (hq : q.ty = MT.READ ∨ q.ty = MT.WRITE)
    (hy : ∀ y ∈ accepted () b, (y.ty = MT.READ ∨ y.ty = MT.WRITE) → y.addr.la ≠ q.addr.la)
    (hr : (responses () (a ++ .acc () i :: (b ++ .acc () q :: c)))[(accepted () (a ++ .acc () i :: b)).length]? = some r) :
    r.test = 0 ∧
    ∃ c₁ m x c₂ S₁, c = c₁ ++ .exec () m x :: c₂ ∧ m.ReadsLine q.addr ∧
      ORun D S (a ++ .acc () i :: (b ++ .acc () q :: c₁)) S₁ ∧ ORun D (S₁.exec () m) c₂ S' ∧
      (q.ty = MT.READ → q.Valid → (∀ q ∈ accepted () (a ++ .acc () i :: b), q.Valid) →
        (∀ W, q.readsWord W → Published () W (a ++ .acc () i :: b)) → r.data = (flatStep S₁.mem q).2) := by
  have htest : r.test = 0 := by
    obtain ⟨R, R', L, n, h1, -, h2, -, h3, -⟩ := h.play wf h0 hf
    rw [← h3, responses_only] at hr
    refine C09_next_access_misses (k := none) (xs := accepted () a) (ys := accepted () b) (zs := accepted () c) wf h1 h2 ?_ hi hq hy ?_
    · rw [← accepted_only, h3]; simp [accepted]
    · rw [← hr]
      congr 1
      simp [accepted]; omega
  refine ⟨htest, ?_⟩
  obtain ⟨c', c'', rfl, hw⟩ := Window.exists () c
  have e : a ++ .acc () i :: (b ++ .acc () q :: (c' ++ c'')) = (a ++ .acc () i :: b) ++ .acc () q :: (c' ++ c'') := by simp
  rw [e] at h hr hf
  obtain ⟨_, hs, hd⟩ := h.served wf h0 hf hw hr
  have hmt : MissTraffic q ((execd () c').map (·.1)) := by
    rcases hs.rw hq with ⟨h1, _⟩ | ⟨_, h1⟩
    · rw [htest] at h1; cases h1
    · exact h1
  obtain ⟨m, hm1, hm2⟩ := hmt.last
  rw [List.getLast?_map] at hm1
  obtain ⟨ex, hex, rfl⟩ : ∃ ex, (execd () c').getLast? = some ex ∧ ex.1 = m := by
    cases hg : (execd () c').getLast? with
    | none => rw [hg] at hm1; cases hm1
    | some ex => rw [hg] at hm1; cases hm1; exact ⟨ex, rfl, rfl⟩
  obtain ⟨x1, y1, hxy⟩ := execd_mem (List.mem_of_getLast? hex)
  have e2 : (a ++ .acc () i :: b) ++ .acc () q :: (c' ++ c'') =
      (a ++ .acc () i :: (b ++ .acc () q :: x1)) ++ .exec () ex.1 ex.2 :: (y1 ++ c'') := by
    rw [hxy]; simp
  obtain ⟨S₁, g1, g2, g3⟩ := h.split_exec _ ex.1 ex.2 _ e2
  refine ⟨x1, ex.1, ex.2, y1 ++ c'', S₁, by rw [hxy]; simp, hm2, g1, g3, ?_⟩
  intro ty hqv hv hpub
  obtain ⟨ex', l, k1, k2, k3⟩ := hd.read ty htest
  rw [hex] at k1
  cases k1
  obtain ⟨n, hn, al⟩ := valid_read hqv ty
  have hl : Agree (fun la j => la = q.addr.la → ∃ W, q.readsWord W ∧ wordBits p W la j) q (readLine q l) (flatStep S₁.mem q).2 := by
    refine read_spec wf hn al ty S₁.mem l ?_
    intro j hj hP
    obtain ⟨W, hW, hb⟩ := hP rfl
    rw [wordBits_eq] at hb
    rw [k3 j hj ⟨hv, by rw [hb]; exact hpub W hW⟩, g2, exec_readsLine hm2]
  rw [k2]
  apply BitVec.eq_of_getLsbD_eq
  intro j hj
  refine hl.1 ty j hj ?_
  intro hjb _
  exact ⟨_, ⟨_, rfl, .inl ⟨ty, by omega, by omega⟩⟩, word_of_bit⟩

/-! ## Traffic -/

/-- **C87** (C63).  Hits and INV send nothing to memory. -/
theorem C87_silent (wf : p.WF) {a b c : List (Ev Unit p)} {q : CReq p} (h0 : Start S)
    (h : ORun D S (a ++ .acc () q :: (b ++ c)) S') (hf : AmosFit (a ++ .acc () q :: (b ++ c))) (hw : Window () b c)
    (hv : ∀ q ∈ accepted () a, q.Valid)
    (hr : (accepted () a).length < (responses () (a ++ .acc () q :: (b ++ c))).length)
    (hq : ((q.ty = MT.READ ∨ q.ty = MT.WRITE) ∧ Cached () a q.addr) ∨ q.ty = MT.INV) : sent () b = [] := by
  obtain ⟨R, R', A, B, C, h1, h2, rfl, rfl, hw', e⟩ := h.play_window wf h0 hf hw
  rw [e, accepted_only, responses_only] at hr
  rw [accepted_only] at hv
  rw [cached_only] at hq
  rw [sent_only]
  exact C63_silent wf h1 h2 hw' hv hr hq

/-- **C87** (C63).  A miss sends a read of the line, preceded by at most the write-back of the victim. -/
theorem C87_miss (wf : p.WF) {a b c : List (Ev Unit p)} {q : CReq p} (h0 : Start S)
    (h : ORun D S (a ++ .acc () q :: (b ++ c)) S') (hf : AmosFit (a ++ .acc () q :: (b ++ c))) (hw : Window () b c)
    (hv : ∀ q ∈ accepted () a, q.Valid)
    (hr : (accepted () a).length < (responses () (a ++ .acc () q :: (b ++ c))).length)
    (hq : q.ty = MT.READ ∨ q.ty = MT.WRITE) (hn : ¬ Cached () a q.addr) :
    ∃ m ws, sent () b = ws ++ [m] ∧ m.ReadsLine q.addr ∧ ws.length ≤ 1 ∧
      (∀ w ∈ ws, ∃ t, w.WritesBack t q.addr.idx ∧ t ≠ q.addr.tag ∧ LineUnsaved () a t q.addr.idx ∧
        (t ∈ (lruRun p.ways.length (accepted () a)).1 q.addr.idx → lruVictim () a q.addr.idx = some t)) ∧
      (∀ t, lruVictim () a q.addr.idx = some t → LineUnsaved () a t q.addr.idx → ∃ w ∈ ws, w.WritesBack t q.addr.idx) ∧
      (LineUnsaved () a q.addr.tag q.addr.idx → ws = []) := by
  obtain ⟨R, R', A, B, C, h1, h2, rfl, rfl, hw', e⟩ := h.play_window wf h0 hf hw
  rw [e, accepted_only, responses_only] at hr
  rw [accepted_only] at hv
  rw [cached_only] at hn
  simp only [sent_only, lineUnsaved_only, victim_only, accepted_only]
  exact C63_miss wf h1 h2 hw' hv hr hq hn

/-- **C87** (C63).  An AMO sends the operation, preceded by the write-back of its own line exactly if that has a word
memory has not seen. -/
theorem C87_amo (wf : p.WF) {a b c : List (Ev Unit p)} {q : CReq p} (h0 : Start S)
    (h : ORun D S (a ++ .acc () q :: (b ++ c)) S') (hf : AmosFit (a ++ .acc () q :: (b ++ c))) (hw : Window () b c)
    (hv : ∀ q ∈ accepted () a, q.Valid)
    (hr : (accepted () a).length < (responses () (a ++ .acc () q :: (b ++ c))).length)
    (hq : MT.isAmo q.ty = true) :
    ∃ m, m.Performs q ∧ (¬ LineUnsaved () a q.addr.tag q.addr.idx → sent () b = [m]) ∧
      (LineUnsaved () a q.addr.tag q.addr.idx → ∃ w, w.WritesBack q.addr.tag q.addr.idx ∧ sent () b = [w, m]) := by
  obtain ⟨R, R', A, B, C, h1, h2, rfl, rfl, hw', e⟩ := h.play_window wf h0 hf hw
  rw [e, accepted_only, responses_only] at hr
  rw [accepted_only] at hv
  simp only [sent_only, lineUnsaved_only]
  exact C63_amo wf h1 h2 hw' hv hr hq

/-- **C87** (C63).  A FLUSH sends one write-back per line with a word memory has not seen, and nothing else. -/
theorem C87_flush (wf : p.WF) {a b c : List (Ev Unit p)} {q : CReq p} (h0 : Start S)
    (h : ORun D S (a ++ .acc () q :: (b ++ c)) S') (hf : AmosFit (a ++ .acc () q :: (b ++ c))) (hw : Window () b c)
    (hv : ∀ q ∈ accepted () a, q.Valid)
    (hr : (accepted () a).length < (responses () (a ++ .acc () q :: (b ++ c))).length)
    (hq : q.ty = MT.FLUSH) :
    (∀ m ∈ sent () b, ∃ t j, m.WritesBack t j ∧ LineUnsaved () a t j) ∧
    (∀ t j, LineUnsaved () a t j → ∃ m ∈ sent () b, m.WritesBack t j) ∧
    ((sent () b).map (·.addr)).Nodup ∧
    (sent () b).Pairwise fun m m' => m'.addr.idx.toNat ≤ m.addr.idx.toNat := by
  obtain ⟨R, R', A, B, C, h1, h2, rfl, rfl, hw', e⟩ := h.play_window wf h0 hf hw
  rw [e, accepted_only, responses_only] at hr
  rw [accepted_only] at hv
  simp only [sent_only, lineUnsaved_only]
  exact C63_flush wf h1 h2 hw' hv hr hq

/-- **C87** (C74).  Every memory request of the cache is accounted for by the requests it accepted before. -/
theorem C87_traffic_has_cause (wf : p.WF) {a b : List (Ev Unit p)} {m : MReq p} (h0 : Start S)
    (h : ORun D S (a ++ .mreq () m :: b) S') (hf : AmosFit (a ++ .mreq () m :: b)) : m.AskedFor (accepted () a) := by
  obtain ⟨R, R', A, B, h1, h2, rfl, rfl, -⟩ := h.play_at wf h0 hf
  rw [accepted_only]
  exact C74_traffic_has_cause wf h1 h2

/-- **C87** (C17).  No two ways of a set hold the same tag. -/
theorem C87_line_in_one_way (wf : p.WF) (h0 : Start S) (h : ORun D S tr S') (hf : AmosFit tr)
    (hi : (S'.cache ()).fsm ≠ .init) (w w' : Way) (hw : w ∈ p.ways) (hw' : w' ∈ p.ways) (j : Idx p)
    (h1 : ((S'.cache ()).tagRam w j).val = true ∨ ((S'.cache ()).tagRam w j).dty ≠ 0)
    (h2 : ((S'.cache ()).tagRam w' j).val = true ∨ ((S'.cache ()).tagRam w' j).dty ≠ 0)
    (ht : ((S'.cache ()).tagRam w j).tag = ((S'.cache ()).tagRam w' j).tag) : w = w' := by
  obtain ⟨R, R', L, n, g1, -, g2, hp, rfl, -⟩ := h.play wf h0 hf
  rw [← hp.cache] at hi h1 h2 ht
  exact C17_line_in_one_way wf g1 g2 none hi w w' hw hw' j h1 h2 ht

/-! ## Words that only this cache stores to -/

/-- Atomic operations that the caches support stay in memory (not in the source). -/
theorem AmosFit.of_valid (hv : ∀ q ∈ accepted () tr, q.Valid) : AmosFit tr := by
  intro q hq ha
  obtain ⟨h1, h2⟩ := valid_amo (hv q hq) ha
  have h3 : q.addr.flat < 2 ^ p.addrBits := Addr.flat_lt _
  have h4 : 2 ^ p.addrBits = 4 * 2 ^ (p.addrBits - 2) := by
    rw [show p.addrBits = (p.addrBits - 2) + 2 by simp only [Params.addrBits, Params.offBits]; omega, Nat.pow_add]
    simp [Nat.mul_comm]
  omega

theorem latest_own {W : Nat} (hD : D W) (M : ByteMem) {L : List (Ev (Option Nat) p)} (hp : Pokes D L)
    (hv : ∀ q ∈ accepted none L, q.Valid) : AgreeW W (latest M L) (flatRun M (accepted none L)).1 := by
  induction L using snoc_induct with
  | h0 => intro x hx; rfl
  | h1 L e ih =>
    have hp' : Pokes D L := fun j q hq => hp j q (by rw [accepted_append]; exact List.mem_append_left _ hq)
    have hv' : ∀ q ∈ accepted none L, q.Valid := fun q hq => hv q (by rw [accepted_append]; exact List.mem_append_left _ hq)
    have ih := ih hp' hv'
    rw [latest_append, accepted_append]
    cases e with
    | mreq k m => simpa [latest, acceptedAll, accepted, flatRun] using ih
    | resp k m => simpa [latest, acceptedAll, accepted, flatRun] using ih
    | exec k m r => simpa [latest, acceptedAll, accepted, flatRun] using ih
    | acc k q =>
      rw [latest_acc]
      cases k with
      | none =>
        rw [show accepted none [(.acc none q : Ev (Option Nat) p)] = [q] from rfl, flatRun_append]
        exact flatStep_agree ih (hv q (by rw [accepted_append]; simp [accepted]))
      | some j =>
        rw [show accepted none [(.acc (some j) q : Ev (Option Nat) p)] = [] from rfl, List.append_nil]
        obtain ⟨W', v, rfl, h1, h2⟩ := hp j q (by rw [accepted_append]; simp [accepted])
        refine (flatStep_untouched ?_).trans ih
        rintro ⟨x, hx, hb⟩
        rcases hb with ⟨h3, -⟩ | ⟨-, h3, h4⟩
        · cases h3
        · rw [swap_flat h1] at h3 h4
          exact h2 (by rw [show W' = W by omega]; exact hD)

theorem Pokes.onlyWriter {W : Nat} {L : List (Ev (Option Nat) p)} (h : Pokes D L) (hW : D W) : OnlyWriter none W L := by
  intro k hk q' hq'
  cases k with
  | none => exact absurd rfl hk
  | some j =>
    obtain ⟨W', v, rfl, g1, g2⟩ := h j q' hq'
    rintro ⟨x, hx, hb⟩
    rcases hb with ⟨h5, -⟩ | ⟨-, h5, h6⟩
    · cases h5
    · rw [swap_flat g1] at h5 h6
      exact g2 (by rw [show W' = W by omega]; exact hW)

/-- **C87** (C19).  If nobody else stores to the words a request returns, then whatever others do to the rest of memory,
also to other words of the same lines, the response is that of a memory that performs the requests of this cache
in order. -/
theorem C87_private (wf : p.WF) {a b : List (Ev Unit p)} {q : CReq p} {r : CResp p} (h0 : Start S)
    (h : ORun D S (a ++ .acc () q :: b) S') (hv : ∀ q' ∈ accepted () (a ++ .acc () q :: b), q'.Valid)
    (hd : ∀ W, q.readsWord W → D W)
    (hr : (responses () (a ++ .acc () q :: b))[(accepted () a).length]? = some r) :
    r.data = (flatStep (flatRun S.mem (accepted () a)).1 q).2 := by
  obtain ⟨R, R', L, n, h1, hm, h2, hp, h3, h4⟩ := h.play wf h0 (.of_valid hv)
  obtain ⟨A, B, rfl, rfl, rfl⟩ := only_split h3
  have hv' : ∀ k, ∀ q' ∈ accepted k (A ++ Ev.to none (.acc () q) :: B), q'.Valid := by
    intro k q' hq'
    cases k with
    | none => exact hv q' (by rw [← accepted_only, h3] at hq'; exact hq')
    | some j =>
      obtain ⟨W, v, rfl, g1, -⟩ := h4 j q' hq'
      exact swap_valid wf g1 v
  rw [← h3, responses_only, accepted_only] at hr
  have hx := C19_private_response wf h1 h2 hv' (k := none) rfl (fun W hW => ?_) hr
  · rw [hx, hm, accepted_only]
    refine flatStep_resp ?_
    intro W hW
    refine latest_own (hd W hW) _ (fun j q' hq' => h4 j q' ?_) (fun q' hq' => hv' none q' ?_)
    · rw [accepted_append]; exact List.mem_append_left _ hq'
    · rw [accepted_append]; exact List.mem_append_left _ hq'
  · exact h4.onlyWriter (hd W hW)

/-- **C87** (C19, memory).  If nobody else stores to a word, then once every own store to it was followed by an answered
FLUSH memory holds there what the requests of this cache in order make of it. -/
theorem C87_private_memory (wf : p.WF) (h0 : Start S) (h : ORun D S tr S') (hv : ∀ q ∈ accepted () tr, q.Valid) {W : Nat}
    (hd : D W) (hp : Published () W tr) {x : Nat} (hx : x / 4 = W) (hr : x < 2 ^ p.addrBits) :
    S'.mem x = (flatRun S.mem (accepted () tr)).1 x := by
  obtain ⟨R, R', L, n, h1, hm, h2, hpl, rfl, h4⟩ := h.play wf h0 (.of_valid hv)
  rw [accepted_only] at hv
  have hv' : ∀ k, ∀ q' ∈ accepted k L, q'.Valid := by
    intro k q' hq'
    cases k with
    | none => exact hv q' hq'
    | some j =>
      obtain ⟨W, v, rfl, g1, -⟩ := h4 j q' hq'
      exact swap_valid wf g1 v
  have ho := h4.onlyWriter hd
  have hpub : ∀ k, Published k W L := by
    intro k
    cases k with
    | none => exact published_only hp
    | some j =>
      intro a q b he hw
      exact absurd hw (ho (some j) (fun h => by cases h) q (by rw [he, accepted_append]; simp [accepted]))
  rw [← hpl.mem x hr, C18_published_memory wf h1 h2 hv' ho.synced hpub hx hr, hm, accepted_only]
  exact latest_own hd _ h4 hv x hx

end Verif
