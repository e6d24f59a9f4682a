import Verif.ResetModel
import Verif.ResetLife
import Verif.PropsCoh
import Verif.PropsAir

/-!
# C84: caches reset one by one, at any time
-/

set_option linter.unusedSectionVars false

namespace Verif
variable {ι : Type} [DecidableEq ι] {p : ι → Params}

/-- **C84** (refinement).  Whatever happens in a system in which caches are reset at any time
happens in a system without resets that has one cache for each life of each cache; all these
caches start freshly reset with empty ports, and memory is the same. -/
theorem C84_new_cache {R R' : RSys ι p} {tr : List (REv ι p)} (h0 : RStart R) (h : RRun R tr R') :
    ∃ H H' : HSys (ι × Nat) (fun x => p x.1), HStart H ∧ H.mem = R.sys.mem ∧
      HetRun H (byLife (fun _ => 0) tr) H' ∧ H'.mem = R'.sys.mem := by
  obtain ⟨H, H', h1, h2, h3, h4, _⟩ := (lives_run h0 h).2 (fun x => (start0 (p x.1)).node)
    (fun x M => ⟨(start0_start (p x.1)).reset, fun _ => rfl, fun _ => rfl⟩)
  exact ⟨H, H', h1, h2, h3, h4.mem⟩

theorem byLife_valid {g : ι → Nat} {tr : List (REv ι p)} (hv : RValid tr) : HValid (byLife g tr) := by
  induction tr generalizing g with
  | nil => intro k u q hq; cases hq
  | cons e tr ih =>
    have hv' : RValid tr := fun k u q hq => hv k u q (List.mem_cons_of_mem _ hq)
    cases e with
    | again k => exact ih hv'
    | ev e =>
      obtain ⟨k, e⟩ := e
      intro k' u q hq
      rcases List.mem_cons.1 hq with hq | hq
      · rw [Sigma.mk.injEq] at hq
        obtain ⟨rfl, hq⟩ := hq
        obtain rfl := eq_of_heq hq
        exact hv k u q List.mem_cons_self
      · exact ih hv' k' u q hq

/-- **C84** (programmer's model).  Whatever the processors see, with the resets, is an
execution of the programmer's memory model of C64 in which a reset makes a cache lose all its
copies, the request it works on and the responses not yet delivered, and nothing else
happens: no other cache and no word of memory changes. -/
theorem C84_crash_model (wf : ∀ k, (p k).WF) {R R' : RSys ι p} {tr : List (REv ι p)} (h0 : RStart R) (h : RRun R tr R')
    (hv : RValid tr) : ∃ A, WM.CRun (WM.init ι R.sys.mem) (cvisible tr) A ∧ A.mem = R'.sys.mem := by
  obtain ⟨H, A, h1, c⟩ := crash_sim wf h0 h hv
  exact ⟨A, h1, c.amem.trans c.mem⟩

/-- **C84** (recovery).  Word `W` is stored to through cache `k` only.  The cache is reset at
any times.  Every life of the cache finds the word as some initial part of the requests of the
life before left it, which contains every FLUSH and every atomic operation on the word that was
answered; its responses are those of a flat memory that starts with this word. -/
theorem C84_recovers (wf : ∀ k, (p k).WF) {R R' : RSys ι p} {tr : List (REv ι p)} (h0 : RStart R) (h : RRun R tr R')
    (hv : RValid tr) {k : ι} {W : Nat}
    (hno : ∀ k', k' ≠ k → ∀ n, ∀ q ∈ WM.accepted (k', n) (rvisible tr), ¬ q.stores W) :
    ∃ m c, WM.Recovers k W R.sys.mem R'.sys.mem (rvisible tr) (lives (fun _ => 0) tr k) m c := by
  obtain ⟨A, h1, h2⟩ := C84_crash_model wf h0 h hv
  have hal := visible_aligned (byLife_valid (g := fun _ => 0) hv)
  rw [← h2, lives_cvisible]
  rw [rvisible] at *
  rw [byLife_cvisible] at *
  exact WM.recovers h1 hal hno

/-- **C84** (silence).  A cache that has been reset sends nothing and accepts nothing until
its port is empty. -/
theorem C84_silent {R R' : RSys ι p} {tr : List (REv ι p)} (h0 : RStart R) (h : RRun R tr R') {k : ι} {j : Nat}
    (hs : R'.since k = some j) (i : In (p k)) :
    ((R'.sys.node k).cache.out i).reqRdy = false ∧ ((R'.sys.node k).cache.out i).respEn = false ∧
      ((R'.sys.node k).cache.out i).mreqEn = false := by
  obtain ⟨n, T, q⟩ := (lives_run h0 h).1 k j hs
  exact q.silent i

/-- **C84** (private words).  C65 for the lives of caches: a READ or atomic operation on words
that only this life of this cache stores to returns the latest data, whatever the others do
and however often they are reset. -/
theorem C84_private (wf : ∀ k, (p k).WF) {R R' : RSys ι p} {tr : List (REv ι p)} (h0 : RStart R) (h : RRun R tr R')
    (hv : RValid tr) {x : ι × Nat} {a b : List (WM.Ev (ι × Nat))} {q : WM.Req} (hq : rvisible tr = a ++ .acc x q :: b)
    (ho : ∀ W, q.reads W → WM.OnlyWriter x W (rvisible tr))
    {r : WM.Resp} (hresp : (WM.responses x (rvisible tr))[(WM.accepted x a).length]? = some r) :
    r = ⟨q.ty, q.opq, q.len, (WM.flat (WM.latest R.sys.mem a) q).2⟩ := by
  obtain ⟨H, H', h1, h2, h3, _⟩ := C84_new_cache h0 h
  rw [← h2]
  exact C65_private (p := fun x : ι × Nat => p x.1) (tr := byLife (fun _ => 0) tr) (fun x => wf x.1) h1 h3 (byLife_valid hv) hq ho hresp

/-- **C84** (software coherence).  C65 for the lives of caches. -/
theorem C84_disciplined (wf : ∀ k, (p k).WF) {R R' : RSys ι p} {tr : List (REv ι p)} (h0 : RStart R) (h : RRun R tr R')
    (hv : RValid tr) {x : ι × Nat} {a b : List (WM.Ev (ι × Nat))} {q : WM.Req} (hq : rvisible tr = a ++ .acc x q :: b)
    (hd : ∀ W, q.reads W → WM.Disciplined W (rvisible tr))
    (hr : ∀ W, q.reads W → q.ty = MT.READ → WM.UpToDate x W a ∧ WM.NoRace x W a q b)
    {r : WM.Resp} (hresp : (WM.responses x (rvisible tr))[(WM.accepted x a).length]? = some r) :
    r = ⟨q.ty, q.opq, q.len, (WM.flat (WM.latest R.sys.mem a) q).2⟩ := by
  obtain ⟨H, H', h1, h2, h3, _⟩ := C84_new_cache h0 h
  rw [← h2]
  exact C65_responses (p := fun x : ι × Nat => p x.1) (tr := byLife (fun _ => 0) tr) (fun x => wf x.1) h1 h3 (byLife_valid hv) hq hd hr hresp

/-- **C84** (atomic operations).  C66 for the lives of caches: resets do not disturb the one
order of the atomic operations on a word; an operation a reset cut off is in it once or not at
all. -/
theorem C84_amos_linearised (wf : ∀ k, (p k).WF) {R R' : RSys ι p} {tr : List (REv ι p)} (h0 : RStart R)
    (h : RRun R tr R') (hv : RValid tr) {W : Nat}
    (hno : ∀ x, ∀ q ∈ WM.accepted x (rvisible tr), q.ty = MT.WRITE → ¬ q.covers W) :
    ∃ s : List ((ι × Nat) × AmoOp), AmoSeq (memWord R.sys.mem W) (s.map (·.2)) (memWord R'.sys.mem W) ∧
      WM.Linearised W (rvisible tr) s := by
  obtain ⟨H, H', h1, h2, h3, h4⟩ := C84_new_cache h0 h
  rw [← h2, ← h4]
  exact C66_amos_linearised (p := fun x : ι × Nat => p x.1) (tr := byLife (fun _ => 0) tr) (fun x => wf x.1) h1 h3 (byLife_valid hv) hno

/-- **C84** (racy programs).  C78 for the lives of caches. -/
theorem C84_coherent (wf : ∀ k, (p k).WF) {R R' : RSys ι p} {tr : List (REv ι p)} (h0 : RStart R)
    (h : RRun R tr R') (hv : RValid tr) {W : Nat} (hw : WM.WholeWrites W (rvisible tr)) :
    ∃ s1 s2 : List ((ι × Nat) × WM.Req × WM.Resp), WM.Explains W R.sys.mem (rvisible tr) (s1 ++ s2) ∧
      ∀ x, x / 4 = W → R'.sys.mem x = WM.runs R.sys.mem (s1.map (·.2)) x := by
  obtain ⟨H, H', h1, h2, h3, h4⟩ := C84_new_cache h0 h
  rw [← h2, ← h4]
  exact C78_coherent (p := fun x : ι × Nat => p x.1) (tr := byLife (fun _ => 0) tr) (fun x => wf x.1) h1 h3 (byLife_valid hv) hw

/-- **C84** (no thin air).  C79 for the lives of caches. -/
theorem C84_no_thin_air (wf : ∀ k, (p k).WF) {R R' : RSys ι p} {tr : List (REv ι p)} (h0 : RStart R)
    (h : RRun R tr R') (hv : RValid tr) :
    (∀ x, ∀ y ∈ (WM.accepted x (rvisible tr)).zip (WM.responses x (rvisible tr)),
      WM.Plausible R.sys.mem (WM.requests (rvisible tr)) y.1 y.2) ∧
    ∀ x, WM.Could R.sys.mem (WM.requests (rvisible tr)) x (R'.sys.mem x) := by
  obtain ⟨H, H', h1, h2, h3, h4⟩ := C84_new_cache h0 h
  rw [← h2, ← h4]
  exact C79_no_thin_air (p := fun x : ι × Nat => p x.1) (tr := byLife (fun _ => 0) tr) (fun x => wf x.1) h1 h3 (byLife_valid hv)

end Verif
