import Verif.ResetNet
import Verif.PropsResetSys
import Verif.ExResetSys
import Verif.PropsHetNet

/-!
# C85: caches reset one by one, on the wires
-/

set_option linter.unusedSectionVars false

namespace Verif.Net
variable {ι : Type} [DecidableEq ι] {p : ι → Params}

/-- **C85** (refinement).  Every execution of the wires of several caches of different shapes that are reset one by one
at any time is, event by event, an execution of the cycle models with the same resets. -/
theorem C85_refines (wf : ∀ k, (p k).WF) {R R' : RNSys ι p} {tr : List (RWEv ι p)} (h0 : RNStart R) (h : RNRun R tr R') :
    ∃ T T' : RSys ι p, RStart T ∧ RRun T (tr.map decREv) T' ∧ T.sys.mem = R.sys.mem ∧ T'.sys.mem = R'.sys.mem := by
  obtain ⟨T, hs, he⟩ := h0.refine
  obtain ⟨T', hr, he'⟩ := h.refine wf he
  exact ⟨T, T', hs, hr, he.sys.mem, he'.sys.mem⟩

/-- **C85** (converse).  The wires have every execution with resets of the cycle models, with every complete order of
the blocks. -/
theorem C85_complete (wf : ∀ k, (p k).WF) {T T' : RSys ι p} {tr : List (REv ι p)} (h0 : RStart T) (h : RRun T tr T')
    {L : List Blk} (hL : Sched.Rounds Blk levels L) :
    ∃ (R R' : RNSys ι p) (tr' : List (RWEv ι p)), RNStart R ∧ RNRun R tr' R' ∧ tr'.map decREv = tr ∧
      R.sys.mem = T.sys.mem ∧ R'.sys.mem = T'.sys.mem := by
  obtain ⟨R, hn, he⟩ := rstart_lift wf h0
  obtain ⟨R', tr', hr, ht, he'⟩ := RRun.lift wf he h hL
  exact ⟨R, R', tr', hn, hr, ht, he.sys.mem.symm, he'.sys.mem.symm⟩

/-- **C85** (programmer's model).  What the processors see on the ports, with the resets, is an execution of the
programmer's model in which a reset makes a cache lose its copies, the request it works on and the responses not yet
delivered. -/
theorem C85_crash_model (wf : ∀ k, (p k).WF) {R R' : RNSys ι p} {tr : List (RWEv ι p)} (h0 : RNStart R)
    (h : RNRun R tr R') (hv : RWValid tr) :
    ∃ A, WM.CRun (WM.init ι R.sys.mem) (wcvisible tr) A ∧ A.mem = R'.sys.mem := by
  obtain ⟨T, T', h1, h2, h3, h4⟩ := C85_refines wf h0 h
  rw [← h3, ← h4, ← cvisible_dec]
  exact C84_crash_model wf h1 h2 hv.dec

/-- **C85** (recovery).  Word `W` is stored to through cache `k` only; the cache is reset at any times.  Every life of
the cache finds the word as some initial part of the requests of the life before left it, which contains every answered
FLUSH and atomic operation on the word. -/
theorem C85_recovers (wf : ∀ k, (p k).WF) {R R' : RNSys ι p} {tr : List (RWEv ι p)} (h0 : RNStart R) (h : RNRun R tr R')
    (hv : RWValid tr) {k : ι} {W : Nat}
    (hno : ∀ k', k' ≠ k → ∀ n, ∀ q ∈ WM.accepted (k', n) (wrvisible tr), ¬ q.stores W) :
    ∃ m c, WM.Recovers k W R.sys.mem R'.sys.mem (wrvisible tr) (WM.cLives (fun _ => 0) (wcvisible tr) k) m c := by
  obtain ⟨T, T', h1, h2, h3, h4⟩ := C85_refines wf h0 h
  rw [← rvisible_dec] at hno ⊢
  rw [← h3, ← h4, ← cvisible_dec, ← lives_cvisible]
  exact C84_recovers wf h1 h2 hv.dec hno

/-- **C85** (silence).  While the messages from before a reset are on their way, the wires of the cache's ports say
that it sends nothing and accepts nothing, whatever is offered on its ports (also a new reset), in whatever order the
blocks run and whatever the wires were before. -/
theorem C85_silent (wf : ∀ k, (p k).WF) {R R' : RNSys ι p} {tr : List (RWEv ι p)} (h0 : RNStart R) (h : RNRun R tr R')
    {k : ι} {j : Nat} (hs : R'.since k = some j) (i : PIn (p k)) {L : List Blk} (hL : Sched.Rounds Blk levels L)
    (w : (x : Wire) → T (p k) x) :
    let o := outOf (runBlks (R'.sys.node k).regs i L w)
    o.cachereqRdy = false ∧ o.cacherespEn = false ∧ o.memreqEn = false := by
  obtain ⟨T, h1, he⟩ := h0.refine
  obtain ⟨T', h2, he'⟩ := h.refine wf he
  have hw : Settled (R'.sys.node k).regs i (runBlks (R'.sys.node k).regs i L w) := runBlks_settled _ i hL w
  obtain ⟨ho, _⟩ := sim (wf k) (he'.sys.node k).cache hw
  have := C84_silent h1 h2 (k := k) (j := j) (by rw [he'.since]; exact hs) (decIn i)
  simp only [ho]
  exact this

/-- **C85** (private words). -/
theorem C85_private (wf : ∀ k, (p k).WF) {R R' : RNSys ι p} {tr : List (RWEv ι p)} (h0 : RNStart R) (h : RNRun R tr R')
    (hv : RWValid tr) {x : ι × Nat} {a b : List (WM.Ev (ι × Nat))} {q : WM.Req} (hq : wrvisible tr = a ++ .acc x q :: b)
    (ho : ∀ W, q.reads W → WM.OnlyWriter x W (wrvisible tr))
    {r : WM.Resp} (hresp : (WM.responses x (wrvisible tr))[(WM.accepted x a).length]? = some r) :
    r = ⟨q.ty, q.opq, q.len, (WM.flat (WM.latest R.sys.mem a) q).2⟩ := by
  obtain ⟨T, T', h1, h2, h3, h4⟩ := C85_refines wf h0 h
  rw [← rvisible_dec] at hq ho hresp
  rw [← h3]
  exact C84_private wf h1 h2 hv.dec hq ho hresp

/-- **C85** (software coherence). -/
theorem C85_disciplined (wf : ∀ k, (p k).WF) {R R' : RNSys ι p} {tr : List (RWEv ι p)} (h0 : RNStart R)
    (h : RNRun R tr R') (hv : RWValid tr) {x : ι × Nat} {a b : List (WM.Ev (ι × Nat))} {q : WM.Req}
    (hq : wrvisible tr = a ++ .acc x q :: b)
    (hd : ∀ W, q.reads W → WM.Disciplined W (wrvisible tr))
    (hr : ∀ W, q.reads W → q.ty = MT.READ → WM.UpToDate x W a ∧ WM.NoRace x W a q b)
    {r : WM.Resp} (hresp : (WM.responses x (wrvisible tr))[(WM.accepted x a).length]? = some r) :
    r = ⟨q.ty, q.opq, q.len, (WM.flat (WM.latest R.sys.mem a) q).2⟩ := by
  obtain ⟨T, T', h1, h2, h3, h4⟩ := C85_refines wf h0 h
  rw [← rvisible_dec] at hq hd hresp
  rw [← h3]
  exact C84_disciplined wf h1 h2 hv.dec hq hd hr hresp

/-- **C85** (atomic operations). -/
theorem C85_amos_linearised (wf : ∀ k, (p k).WF) {R R' : RNSys ι p} {tr : List (RWEv ι p)} (h0 : RNStart R)
    (h : RNRun R tr R') (hv : RWValid tr) {W : Nat}
    (hno : ∀ x, ∀ q ∈ WM.accepted x (wrvisible tr), q.ty = MT.WRITE → ¬ q.covers W) :
    ∃ s : List ((ι × Nat) × AmoOp), AmoSeq (memWord R.sys.mem W) (s.map (·.2)) (memWord R'.sys.mem W) ∧
      WM.Linearised W (wrvisible tr) s := by
  obtain ⟨T, T', h1, h2, h3, h4⟩ := C85_refines wf h0 h
  rw [← rvisible_dec] at hno ⊢
  rw [← h3, ← h4]
  exact C84_amos_linearised wf h1 h2 hv.dec hno

/-- **C85** (racy programs). -/
theorem C85_coherent (wf : ∀ k, (p k).WF) {R R' : RNSys ι p} {tr : List (RWEv ι p)} (h0 : RNStart R)
    (h : RNRun R tr R') (hv : RWValid tr) {W : Nat} (hw : WM.WholeWrites W (wrvisible tr)) :
    ∃ s1 s2 : List ((ι × Nat) × WM.Req × WM.Resp), WM.Explains W R.sys.mem (wrvisible tr) (s1 ++ s2) ∧
      ∀ x, x / 4 = W → R'.sys.mem x = WM.runs R.sys.mem (s1.map (·.2)) x := by
  obtain ⟨T, T', h1, h2, h3, h4⟩ := C85_refines wf h0 h
  rw [← rvisible_dec] at hw ⊢
  rw [← h3, ← h4]
  exact C84_coherent wf h1 h2 hv.dec hw

/-- **C85** (no thin air). -/
theorem C85_no_thin_air (wf : ∀ k, (p k).WF) {R R' : RNSys ι p} {tr : List (RWEv ι p)} (h0 : RNStart R)
    (h : RNRun R tr R') (hv : RWValid tr) :
    (∀ x, ∀ y ∈ (WM.accepted x (wrvisible tr)).zip (WM.responses x (wrvisible tr)),
      WM.Plausible R.sys.mem (WM.requests (wrvisible tr)) y.1 y.2) ∧
    ∀ x, WM.Could R.sys.mem (WM.requests (wrvisible tr)) x (R'.sys.mem x) := by
  obtain ⟨T, T', h1, h2, h3, h4⟩ := C85_refines wf h0 h
  rw [← rvisible_dec, ← h3, ← h4]
  exact C84_no_thin_air wf h1 h2 hv.dec

/-! ## A concrete execution -/

theorem rwvalid_of_dec {tr : List (RWEv ι p)} (h : RValid (tr.map decREv)) : RWValid tr := by
  intro k u q hm
  exact valid_of_dec (h k u (decReq q) (List.mem_map.2 ⟨_, hm, rfl⟩))

/-- **C85, example.**  The execution of `ExResetSys.lean` on the wires, with the blocks run in reverse source order:
cache `false` is reset with a request and a response in flight; all hypotheses of `C85_recovers` are met, for the word
the write-back of which was in flight. -/
theorem C85_example : ∃ (R R' : RNSys Bool pH) (tr : List (RWEv Bool pH)), RNStart R ∧ RNRun R tr R' ∧ RWValid tr ∧
    wrvisible tr = rvisible Ex84.tr ∧ WM.cLives (fun _ => 0) (wcvisible tr) false = 1 ∧
    (∀ k', k' ≠ false → ∀ n, ∀ q ∈ WM.accepted (k', n) (wrvisible tr), ¬ q.stores 0) := by
  obtain ⟨R, R', tr, h1, h2, h3, _, _⟩ := C85_complete pH_wf Ex84.s0_start Ex84.run
    (rounds_rep (fun B => List.mem_reverse.2 (mem_blks B)) levels)
  refine ⟨R, R', tr, h1, h2, rwvalid_of_dec (by rw [h3]; exact Ex84.valid), by rw [← rvisible_dec, h3], ?_, ?_⟩
  · rw [← cvisible_dec, ← lives_cvisible, h3]; exact Ex84.lives_tr.1
  · rw [← rvisible_dec, h3]; exact Ex84.owned 0 (.inl rfl)

/-- Something is in flight when cache `false` is reset: `C85_silent` is about reachable states. -/
theorem C85_example_silent : ∃ (R R' : RNSys Bool pH) (tr : List (RWEv Bool pH)), RNStart R ∧ RNRun R tr R' ∧
    R'.since false = some 0 ∧ (R'.sys.node false).reqQ ≠ [] ∧ (R'.sys.node false).respQ ≠ [] := by
  obtain ⟨R, hn, he⟩ := rstart_lift pH_wf Ex84.s0_start
  obtain ⟨R', tr', hr, ht, he'⟩ := RRun.lift pH_wf he ((Ex84.run1.trans Ex84.run2).trans Ex84.run3)
    (rounds_rep (fun B => List.mem_reverse.2 (mem_blks B)) levels)
  refine ⟨R, R', tr', hn, hr, ?_, ?_, ?_⟩
  · rw [← he'.since]; exact Ex84.since3
  · intro hq
    have h1 := Ex84.inFlight.1
    have h2 := (he'.one false).reqQ ()
    rw [show (R'.one false).reqQ () = [] from hq] at h2
    rw [h2] at h1; cases h1
  · intro hq
    have h1 := Ex84.inFlight.2
    have h2 := (he'.one false).respQ ()
    rw [show (R'.one false).respQ () = [] from hq] at h2
    rw [h2] at h1; cases h1

end Verif.Net
