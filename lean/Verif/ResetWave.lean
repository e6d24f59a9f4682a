import Verif.PropsResetNet
import Verif.HetWave

/-!
# The ports of a cache since its last reset

The system of `ResetNet.lean` with the values of the ports in each clock cycle (property C86).
-/

set_option linter.unusedSectionVars false

namespace Verif.Net
variable {ι : Type} [DecidableEq ι] {p : ι → Params}

/-! ## Specification -/

/-- What happens in one step: a clock cycle of cache `k` in normal operation (`clock`), with reset asserted (`reset`) or
after a reset while its port has not been empty yet (`quiet`), with the values of its ports; memory executes a request of
port `k`; the port of cache `k`, which has been reset, is empty. Proof device; not in the source. -/
inductive RLab (ι : Type) (p : ι → Params)
  | clock (k : ι) (c : Cyc (p k))
  | reset (k : ι) (c : Cyc (p k))
  | quiet (k : ι) (c : Cyc (p k))
  | exec (k : ι) (m : WMReq (p k)) (r : WMResp (p k))
  | again (k : ι)

/-- The cycle of cache `k` with inputs `i` and block order `L`. Proof device; not in the source. -/
def RNSys.cyc (R : RNSys ι p) (k : ι) (i : PIn (p k)) (L : List Blk) : Cyc (p k) :=
  ⟨i, outOf ((R.one k).run () i L)⟩

/-- The system after this cycle. Proof device; not in the source. -/
def RNSys.tick (R : RNSys ι p) (k : ι) (i : PIn (p k)) (L : List Blk) (s : Option Nat) : RNSys ι p :=
  R.put k ((R.one k).clock () i ((R.one k).run () i L)) s

/-- The steps of `RNStep`, with the ports. Proof device; not in the source. -/
inductive RLStep : RNSys ι p → RLab ι p → RNSys ι p → Prop
  | clock (R : RNSys ι p) (k : ι) (h : R.since k = none) (i : PIn (p k)) (L : List Blk) (hL : Sched.Rounds Blk levels L)
      (hc : (R.one k).CanClock () i ((R.one k).run () i L)) : RLStep R (.clock k (R.cyc k i L)) (R.tick k i L none)
  | reset (R : RNSys ι p) (k : ι) (i : PIn (p k)) (hr : i.reset = true) (L : List Blk) (hL : Sched.Rounds Blk levels L)
      (hm : i.memrespEn = true → ∃ l, (R.one k).respQ () = i.memrespMsg :: l) :
      RLStep R (.reset k (R.cyc k i L)) (R.tick k i L (some 0))
  | quiet (R : RNSys ι p) (k : ι) (j : Nat) (h : R.since k = some j) (hj : j + 1 < (p k).nLines) (i : PIn (p k))
      (L : List Blk) (hL : Sched.Rounds Blk levels L) (hc : (R.one k).CanClock () i ((R.one k).run () i L)) :
      RLStep R (.quiet k (R.cyc k i L)) (R.tick k i L (some (j + 1)))
  | exec (R : RNSys ι p) (k : ι) (m : WMReq (p k)) (ms : List (WMReq (p k))) (hm : (R.one k).reqQ () = m :: ms) :
      RLStep R (.exec k m (memExecW R.sys.mem m).2) (R.put k ((R.one k).exec () m) (R.since k))
  | again (R : RNSys ι p) (k : ι) (j : Nat) (h : R.since k = some j) (hq : (R.one k).reqQ () = [])
      (hp : (R.one k).respQ () = []) : RLStep R (.again k) (R.put k (R.one k) none)

/-- A finite execution. Proof device; not in the source. -/
inductive RLRun : RNSys ι p → List (RLab ι p) → RNSys ι p → Prop
  | refl (R : RNSys ι p) : RLRun R [] R
  | snoc {R R' R'' : RNSys ι p} {ls : List (RLab ι p)} {l : RLab ι p} (h : RLRun R ls R') (hs : RLStep R' l R'') :
      RLRun R (ls ++ [l]) R''

/-- The events of a step; a request offered in a cycle with reset is lost. Proof device; not in the source. -/
def RLab.evs : RLab ι p → List (RWEv ι p)
  | .clock k c => wevsAt k (cycEvs c)
  | .reset k c => wevsAt k (cycEvs ⟨{ c.inp with cachereqEn := false }, c.out⟩)
  | .quiet k c => wevsAt k (cycEvs c)
  | .exec k m r => wevsAt k [.exec () m r]
  | .again k => [.again k]

/-- The events of an execution. Proof device; not in the source. -/
def revsOf (ls : List (RLab ι p)) : List (RWEv ι p) := ls.flatMap RLab.evs

/-- The number of resets of cache `k` that are over. Proof device; not in the source. -/
def resets (k : ι) (ls : List (RLab ι p)) : Nat := WM.cLives (fun _ => 0) (wcvisible (revsOf ls)) k

/-- The cycle without the memory response that was delivered in it. Proof device; not in the source. -/
def Cyc.unanswered {p : Params} (c : Cyc p) : Cyc p := ⟨{ c.inp with memrespEn := false }, c.out⟩

/-- The waveform of the present life of cache `k`, after one more step. Proof device; not in the source. -/
def lifeStep (k : ι) (w : List (Cyc (p k))) : RLab ι p → List (Cyc (p k))
  | .clock k' c => if h : k' = k then w ++ [h ▸ c] else w
  | .reset k' _ => if k' = k then [] else w
  | .quiet k' c => if h : k' = k then w ++ [(h ▸ c).unanswered] else w
  | .exec _ _ _ => w
  | .again _ => w

/-- The waveform on the ports of cache `k` since its last reset.  The memory responses delivered before the port was
empty are left out: they belong to the life before. Proof device; not in the source. -/
def life (k : ι) (ls : List (RLab ι p)) : List (Cyc (p k)) := ls.foldl (lifeStep k) []

/-- The cycle of cache `k` in normal operation, if the step is one. Proof device; not in the source. -/
def RLab.at (k : ι) : RLab ι p → Option (Cyc (p k))
  | .clock k' c => if h : k' = k then some (h ▸ c) else none
  | _ => none

/-- The waveform on the ports of cache `k` in normal operation. Proof device; not in the source. -/
def rwave (k : ι) (ls : List (RLab ι p)) : List (Cyc (p k)) := ls.filterMap (RLab.at k)

/-- The step is no cycle of cache `k` with reset asserted. Proof device; not in the source. -/
def RLab.spares (k : ι) : RLab ι p → Prop
  | .reset k' _ => k' ≠ k
  | _ => True

/-- The cycle, with the message on the request port forgotten if there is no request. Proof device; not in the source. -/
def Cyc.norm {p : Params} (c : Cyc p) : Cyc p :=
  if c.inp.cachereqEn then c else ⟨{ c.inp with cachereqMsg := encReq ⟨0, 0, ⟨0, 0, 0⟩, 0, 0⟩ }, c.out⟩

/-! ## The same system -/

theorem RLStep.toStep {R R' : RNSys ι p} {l : RLab ι p} (h : RLStep R l R') : RNStep R l.evs R' := by
  cases h with
  | clock k h i L hL hc => exact .run R k h _ _ (.clock _ () i L hL hc)
  | reset k i hr L hL hm => exact .reset R k i hr L hL hm
  | quiet k j h hj i L hL hc => exact .quiet R k j h hj i L hL hc
  | exec k m ms hm =>
    cases hn : R.since k with
    | none => exact .run R k hn _ _ (.exec _ () m ms hm)
    | some j => exact .exec R k j hn m ms hm
  | again k j h hq hp => exact .again R k j h hq hp

theorem RNStep.label {R R' : RNSys ι p} {ev : List (RWEv ι p)} (h : RNStep R ev R') : ∃ l, RLStep R l R' ∧ l.evs = ev := by
  cases h with
  | run k hn ev S hs =>
    generalize hT : R.one k = T at hs
    cases hs with
    | clock u i L hL hc => subst hT; exact ⟨_, .clock R k hn i L hL hc, rfl⟩
    | exec u m ms hq =>
      subst hT
      have := RLStep.exec R k m ms hq
      rw [hn] at this
      exact ⟨_, this, rfl⟩
  | reset k i hr L hL hm => exact ⟨_, .reset R k i hr L hL hm, rfl⟩
  | quiet k j h hj i L hL hc => exact ⟨_, .quiet R k j h hj i L hL hc, rfl⟩
  | exec k j hn m ms hm =>
    have := RLStep.exec R k m ms hm
    rw [hn] at this
    exact ⟨_, this, rfl⟩
  | again k j h hq hp => exact ⟨_, .again R k j h hq hp, rfl⟩

theorem RLRun.toRun {R R' : RNSys ι p} {ls : List (RLab ι p)} (h : RLRun R ls R') : RNRun R (revsOf ls) R' := by
  induction h with
  | refl => exact .refl _
  | snoc _ hs ih =>
    have := RNRun.snoc ih hs.toStep
    rw [revsOf, List.flatMap_append]
    simpa [revsOf] using this

theorem RNRun.label {R R' : RNSys ι p} {tr : List (RWEv ι p)} (h : RNRun R tr R') :
    ∃ ls, RLRun R ls R' ∧ revsOf ls = tr := by
  induction h with
  | refl => exact ⟨[], .refl _, rfl⟩
  | snoc _ hs ih =>
    obtain ⟨ls, h1, h2⟩ := ih
    obtain ⟨l, h3, h4⟩ := hs.label
    refine ⟨_, .snoc h1 h3, ?_⟩
    rw [revsOf, List.flatMap_append, ← h4, ← h2]
    simp [revsOf]

/-! ## Forgetting messages without a request -/

section norm
variable {p : Params}

theorem norm_out (c : Cyc p) : c.norm.out = c.out := by simp only [Cyc.norm]; split <;> rfl
theorem norm_en (c : Cyc p) : c.norm.inp.cachereqEn = c.inp.cachereqEn := by simp only [Cyc.norm]; split <;> rfl
theorem norm_reset (c : Cyc p) : c.norm.inp.reset = c.inp.reset := by simp only [Cyc.norm]; split <;> rfl
theorem norm_rdy (c : Cyc p) : c.norm.inp.cacherespRdy = c.inp.cacherespRdy := by simp only [Cyc.norm]; split <;> rfl
theorem norm_mrdy (c : Cyc p) : c.norm.inp.memreqRdy = c.inp.memreqRdy := by simp only [Cyc.norm]; split <;> rfl
theorem norm_men (c : Cyc p) : c.norm.inp.memrespEn = c.inp.memrespEn := by simp only [Cyc.norm]; split <;> rfl
theorem norm_mmsg (c : Cyc p) : c.norm.inp.memrespMsg = c.inp.memrespMsg := by simp only [Cyc.norm]; split <;> rfl
theorem norm_req {c : Cyc p} (h : c.inp.cachereqEn = true) : c.norm = c := by simp only [Cyc.norm, h, if_true]

theorem norm_owes (O : List MType) (c : Cyc p) : owesW O c.norm = owesW O c := by
  simp only [owesW, norm_men, norm_out]

theorem norm_owes' (O : List MType) (l : List (Cyc p)) : owesW' O (l.map Cyc.norm) = owesW' O l := by
  induction l generalizing O with
  | nil => rfl
  | cons c l ih => simp only [owesW', List.map_cons, List.foldl_cons] at ih ⊢; rw [norm_owes, ih]

theorem norm_fair (O : List MType) (l : List (Cyc p)) : Fair O (l.map Cyc.norm) ↔ Fair O l := by
  induction l generalizing O with
  | nil => exact Iff.rfl
  | cons c l ih =>
    simp only [List.map_cons, Fair, norm_reset, norm_en, norm_out, norm_men, norm_mmsg, norm_owes, ih]

theorem norm_prompt (D n : Nat) (O : List MType) (l : List (Cyc p)) : PromptW D n O (l.map Cyc.norm) ↔ PromptW D n O l := by
  induction l generalizing O n with
  | nil => exact Iff.rfl
  | cons c l ih =>
    simp only [List.map_cons, PromptW, norm_rdy, norm_mrdy, norm_men, norm_owes, ih]

theorem norm_helped (O : List MType) (l : List (Cyc p)) : helpedW O (l.map Cyc.norm) = helpedW O l := by
  induction l generalizing O with
  | nil => rfl
  | cons c l ih =>
    simp only [List.map_cons, helpedW, norm_rdy, norm_mrdy, norm_men, norm_owes, ih]

theorem norm_requests (l : List (Cyc p)) : requestsW (l.map Cyc.norm) = requestsW l := by
  simp only [requestsW, List.countP_map]
  congr 1; funext c; exact norm_en c

theorem norm_responses (l : List (Cyc p)) : responsesW (l.map Cyc.norm) = responsesW l := by
  simp only [responsesW, List.countP_map]
  congr 1; funext c; exact congrArg _ (norm_out c)

theorem norm_requestTags (l : List (Cyc p)) : requestTags (l.map Cyc.norm) = requestTags l := by
  induction l with
  | nil => rfl
  | cons c l ih =>
    simp only [requestTags, List.map_cons, List.filter_cons, norm_en] at ih ⊢
    by_cases h : c.inp.cachereqEn = true
    · simp only [h, if_true, List.map_cons, ih, norm_req h]
    · simp only [h]; exact ih

theorem norm_responseTags (l : List (Cyc p)) : responseTags (l.map Cyc.norm) = responseTags l := by
  induction l with
  | nil => rfl
  | cons c l ih =>
    simp only [responseTags, List.map_cons, List.filter_cons, norm_out] at ih ⊢
    by_cases h : c.out.cacherespEn = true
    · simp only [h, if_true, List.map_cons, ih, norm_out]
    · simp only [h]; exact ih

end norm

/-! ## The life of a cache is a waveform from reset -/

/-- What is known of cache `k` with its port, `since` and the waveform `w` of its life. Proof device; not in the source. -/
structure LifeInv {p : Params} (n : NNode p) (since : Option Nat) (w : List (Cyc p)) : Prop where
  fair : Fair [] w
  owes : since = none → owesW' [] w = n.owed
  none : ∀ j, since = some j → owesW' [] w = []
  silent : ∀ j, since = some j → requestsW w = 0 ∧ responsesW w = 0
  wave : ∃ r0 r l s T, AfterReset r0 ∧ Waves r0 l r ∧ l.map Cyc.norm = w.map Cyc.norm ∧ Enc n.regs s ∧ Enc r T ∧
    (since = .none → s = T ∨ (PInit T ∧ n.reqQ = [] ∧ n.respQ = [] ∧ ∃ b, s = T.withEn b)) ∧
    ∀ j, since = some j → PInit T ∧ T.cnt.toNat + j + 1 = p.nLines ∧ ∃ b, s = T.withEn b

section
variable {p : Params}

theorem life_start {n : NNode p} (h : AfterReset n.regs) (hq : n.reqQ = []) (hp : n.respQ = []) : LifeInv n none [] := by
  refine ⟨trivial, fun _ => ?_, (fun j h => by cases h), (fun j h => by cases h), ?_⟩
  · simp [NNode.owed, hq, hp, owesW']
  · obtain ⟨s, j, _, he⟩ := h.refine
    exact ⟨_, _, [], s.step j, s.step j, h, .nil _, rfl, he, he, fun _ => .inl rfl, (fun j h => by cases h)⟩

theorem owesW'_snoc (O : List MType) (w : List (Cyc p)) (c : Cyc p) : owesW' O (w ++ [c]) = owesW (owesW' O w) c := by
  simp [owesW']

theorem clock_regs (N : NSys Unit p) (i : PIn p) (w : (x : Wire) → T p x) :
    (N.clock () i w).node.regs = regsNext (N.regs ()) i w := by simp [NSys.clock, NSys.node]

/-- The edge with reset. -/
theorem life_reset (wf : p.WF) {N : NSys Unit p} {s : St p} (he : Enc (N.regs ()) s) {i : PIn p} (hr : i.reset = true)
    {w : (x : Wire) → T p x} (hw : Settled (N.regs ()) i w) : LifeInv (N.clock () i w).node (some 0) [] := by
  have h2 := (sim wf he hw).2
  have q := ResetQuiet.reset s (decIn i) hr
  refine ⟨trivial, (fun h => by cases h), fun _ _ => rfl, fun _ _ => ⟨rfl, rfl⟩, regsNext (N.regs ()) i w, _, [],
    s.step (decIn i), s.step (decIn i), ⟨_, i, w, hr, rfl⟩, .nil _, rfl, by rw [clock_regs]; exact h2, h2,
    (fun h => by cases h), ?_⟩
  intro j hj
  cases hj
  exact ⟨q.init, q.cnt, q.cache⟩

/-- An edge of a cache that clears its tags, followed by the waveform without the memory response. -/
theorem life_shadow (wf : p.WF) {r0 r : Regs p} {l w : List (Cyc p)} {c : St p} (hW : Waves r0 l r)
    (hn : l.map Cyc.norm = w.map Cyc.norm) (he : Enc r c) (b : Bool) (i : PIn p)
    (hre : i.cachereqEn = false) {o : POut p} (ho : o = encOut ((c.withEn b).out (decIn i)))
    {L : List Blk} (hL : Sched.Rounds Blk levels L) (w0 : (x : Wire) → T p x) :
    ∃ l' r', Waves r0 l' r' ∧ l'.map Cyc.norm = (w ++ [(⟨i, o⟩ : Cyc p).unanswered]).map Cyc.norm ∧
      Enc r' (c.step (c.shadowIn b (decIn i))) := by
  let i' : PIn p := { i with cachereqEn := false, memrespEn := false, cachereqMsg := encReq ((c.withEn b).req0 (decIn i)) }
  have hd : decIn i' = c.shadowIn b (decIn i) := by
    simp only [i', decIn, St.shadowIn, dec_encReq]
  have hs := sim wf he (runBlks_settled r i' hL w0)
  rw [hd] at hs
  refine ⟨_, _, hW.snoc i' w0 L hL, ?_, hs.2⟩
  rw [List.map_append, List.map_append, hn]
  congr 1
  rw [hs.1, ← out_withEn c b (decIn i) (c.shadowIn b (decIn i)) rfl rfl, ← ho]
  simp only [List.map_cons, List.map_nil, Cyc.norm, Cyc.unanswered, i', hre]
  rfl

theorem owed_silent {N : NSys Unit p} {i : PIn p} {w : (x : Wire) → T p x} (h1 : (outOf w).memreqEn = false)
    (h2 : i.memrespEn = false) : (N.clock () i w).node.reqQ = N.reqQ () ∧ (N.clock () i w).node.respQ = N.respQ () := by
  simp [NSys.clock, NSys.node, h1, h2]

/-- An edge in normal operation. -/
theorem life_clock (wf : p.WF) {N : NSys Unit p} {w : List (Cyc p)} (h : LifeInv N.node none w) {i : PIn p}
    {L : List Blk} (hL : Sched.Rounds Blk levels L) (hc : N.CanClock () i (N.run () i L)) :
    LifeInv (N.clock () i (N.run () i L)).node none (w ++ [⟨i, outOf (N.run () i L)⟩]) := by
  obtain ⟨hf, ho, _, _, r0, r, l, s, c, hr0, hW, hn, he, hE, h1, _⟩ := h
  have hw : Settled (N.regs ()) i (N.run () i L) := runBlks_settled _ i hL _
  have hs := sim wf he hw
  have hmem : i.memrespEn = true → (owesW' [] w).head? = some i.memrespMsg.ty := by
    intro hm
    obtain ⟨_, l, hl⟩ := hc.mem hm
    have hl' : N.node.respQ = i.memrespMsg :: l := hl
    rw [ho rfl, NNode.owed, hl']; rfl
  refine ⟨fair_snoc hf hc.noReset (fun h => (hc.req h).1) hmem, fun _ => ?_, (fun j h => by cases h),
    (fun j h => by cases h), ?_⟩
  · rw [owesW'_snoc, ho rfl, owed_clock hc]
  · rcases h1 rfl with rfl | ⟨hP, hq, hp, b, rfl⟩
    · refine ⟨r0, _, _, _, _, hr0, hW.snoc i (N.wires ()) L hL, ?_, by rw [clock_regs]; exact hs.2,
        (sim wf hE (runBlks_settled r i hL (N.wires ()))).2, fun _ => .inl rfl, (fun j h => by cases h)⟩
      rw [List.map_append, List.map_append, hn]
      congr 3
      have h2 := (sim wf hE (runBlks_settled r i hL (N.wires ()))).1
      have h3 : outOf (N.run () i L) = encOut (s.out (decIn i)) := hs.1
      rw [h2, h3]
    · have q := quietEdge hP b (decIn i)
      have hre : i.cachereqEn = false := by
        cases hx : i.cachereqEn
        · rfl
        · have h3 := (hc.req hx).1
          have h4 : outOf (N.run () i L) = encOut ((c.withEn b).out (decIn i)) := hs.1
          rw [h4] at h3
          have h5 : ((c.withEn b).out (decIn i)).reqRdy = true := h3
          rw [q.noReq] at h5; cases h5
      have hme : i.memrespEn = false := by
        cases hx : i.memrespEn
        · rfl
        · obtain ⟨_, l, hl⟩ := hc.mem hx
          have : N.respQ () = [] := hp
          rw [this] at hl; cases hl
      obtain ⟨l', r', a1, a2, a3⟩ := life_shadow wf hW hn hE b i hre (o := outOf (N.run () i L)) hs.1 hL (N.wires ())
      have eu : (⟨i, outOf (N.run () i L)⟩ : Cyc p).unanswered = ⟨i, outOf (N.run () i L)⟩ := by
        simp only [Cyc.unanswered]; rw [← hme]
      rw [eu] at a2
      refine ⟨r0, r', l', _, _, hr0, a1, a2, by rw [clock_regs]; exact hs.2, a3, fun _ => .inl ?_, (fun j h => by cases h)⟩
      have e1 : (c.withEn b).step (decIn i) = (c.withEn b).next (decIn i) := by
        have : (decIn i).reset = false := hc.noReset
        simp [St.step, this]
      have e2 : c.step (c.shadowIn b (decIn i)) = c.next (c.shadowIn b (decIn i)) := by
        have : (decIn i).reset = false := hc.noReset
        simp [St.step, St.shadowIn, this]
      have e3 : (decIn i).mrespEn = false := hme
      rw [e1, e2, q.next, e3, St.withEn_self]
      simp only [St.next]
      rw [hP.noStall]; rfl

/-- An edge after the reset. -/
theorem life_quiet (wf : p.WF) {N : NSys Unit p} {w : List (Cyc p)} {j : Nat} (h : LifeInv N.node (some j) w) {i : PIn p}
    {L : List Blk} (hL : Sched.Rounds Blk levels L) (hc : N.CanClock () i (N.run () i L)) (hj : j + 1 < p.nLines) :
    LifeInv (N.clock () i (N.run () i L)).node (some (j + 1)) (w ++ [(⟨i, outOf (N.run () i L)⟩ : Cyc p).unanswered]) := by
  obtain ⟨hf, _, ho, hsil, r0, r, l, s, c, hr0, hW, hn, he, hE, _, h1⟩ := h
  obtain ⟨hP, hcnt, b, rfl⟩ := h1 j rfl
  have hw : Settled (N.regs ()) i (N.run () i L) := runBlks_settled _ i hL _
  have hs := sim wf he hw
  have h4 : outOf (N.run () i L) = encOut ((c.withEn b).out (decIn i)) := hs.1
  have q := quietEdge hP b (decIn i)
  have hre : i.cachereqEn = false := by
    cases hx : i.cachereqEn
    · rfl
    · have h3 := (hc.req hx).1
      rw [h4] at h3
      have h5 : ((c.withEn b).out (decIn i)).reqRdy = true := h3
      rw [q.noReq] at h5; cases h5
  have hmq : (outOf (N.run () i L)).memreqEn = false := by rw [h4]; exact q.noMem
  have hrs : (outOf (N.run () i L)).cacherespEn = false := by rw [h4]; exact q.noResp
  obtain ⟨l', r', a1, a2, a3⟩ := life_shadow wf hW hn hE b i hre (o := outOf (N.run () i L)) hs.1 hL (N.wires ())
  refine ⟨fair_snoc hf hc.noReset (fun h => ?_) (fun h => ?_), (fun h => by cases h), fun _ _ => ?_, fun _ _ => ?_, ?_⟩
  · have h' : i.cachereqEn = true := h
    rw [hre] at h'; cases h'
  · cases h
  · rw [owesW'_snoc, ho j rfl]
    simp [owesW, Cyc.unanswered, hmq]
  · obtain ⟨g1, g2⟩ := hsil j rfl
    simp only [requestsW, responsesW] at g1 g2 ⊢
    rw [List.countP_append, List.countP_append, g1, g2]
    simp [Cyc.unanswered, hre, hrs]
  · have hst : (decIn i).reset = false := hc.noReset
    have e1 : (c.withEn b).step (decIn i) = (c.withEn b).next (decIn i) := by simp [St.step, hst]
    have e2 : c.step (c.shadowIn b (decIn i)) = c.next (c.shadowIn b (decIn i)) := by simp [St.step, St.shadowIn, hst]
    refine ⟨r0, r', l', _, _, hr0, a1, a2, by rw [clock_regs]; exact hs.2, a3, (fun h => by cases h), ?_⟩
    intro j' hj'
    cases hj'
    have g := step_init (U := True) c (c.shadowIn b (decIn i)) rfl hP
    have hg : PInit (c.next (c.shadowIn b (decIn i))) ∧ c.cnt ≠ 0 ∧ (c.next (c.shadowIn b (decIn i))).cnt = c.cnt - 1 := by
      rcases g.next with g | g
      · exact g
      · rw [g.1] at hcnt; simp at hcnt; omega
    rw [e2]
    refine ⟨hg.1, ?_, _, by rw [e1]; exact q.next⟩
    have h2 : (c.next (c.shadowIn b (decIn i))).cnt.toNat = c.cnt.toNat - 1 := by rw [hg.2.2]; exact sub_one_toNat _ hg.2.1
    have h3 : c.cnt.toNat ≠ 0 := fun hx => hg.2.1 (BitVec.eq_of_toNat_eq (by simpa using hx))
    omega

theorem life_exec {N : NSys Unit p} {w : List (Cyc p)} {s : Option Nat} (h : LifeInv N.node s w) {m : WMReq p}
    {ms : List (WMReq p)} (hm : N.reqQ () = m :: ms) : LifeInv (N.exec () m).node s w := by
  obtain ⟨hf, ho, ho', hsil, r0, r, l, s, c, hr0, hW, hn, he, hE, h1, h2⟩ := h
  refine ⟨hf, fun hx => ?_, ho', hsil, r0, r, l, s, c, hr0, hW, hn, he, hE, fun hx => ?_, h2⟩
  · rw [ho hx]
    simp only [NNode.owed, NSys.exec, NSys.node, upd, if_true, hm, List.tail_cons, List.map_append,
      List.map_cons, List.map_nil, memExecW_ty, List.append_assoc, List.cons_append, List.nil_append]
  · rcases h1 hx with h1 | ⟨_, hq, _⟩
    · exact .inl h1
    · have : N.reqQ () = [] := hq
      rw [hm] at this; cases this

theorem life_again {N : NSys Unit p} {w : List (Cyc p)} {j : Nat} (h : LifeInv N.node (some j) w)
    (hq : N.reqQ () = []) (hp : N.respQ () = []) : LifeInv N.node none w := by
  obtain ⟨hf, ho, ho', hsil, r0, r, l, s, c, hr0, hW, hn, he, hE, h1, h2⟩ := h
  have hq' : N.node.reqQ = [] := hq
  have hp' : N.node.respQ = [] := hp
  refine ⟨hf, fun _ => ?_, (fun j h => by cases h), (fun j h => by cases h), r0, r, l, s, c, hr0, hW, hn, he, hE,
    fun _ => ?_, (fun j h => by cases h)⟩
  · rw [ho' j rfl, NNode.owed, hq', hp']; rfl
  · obtain ⟨g1, _, g2⟩ := h2 j rfl
    exact .inr ⟨g1, hq', hp', g2⟩

end

theorem rput_same (R : RNSys ι p) (k : ι) (S : NSys Unit (p k)) (s : Option Nat) :
    (R.put k S s).sys.node k = S.node := hnSet_same ..

theorem rput_other (R : RNSys ι p) {k k' : ι} (h : k' ≠ k) (S : NSys Unit (p k)) (s : Option Nat) :
    (R.put k S s).sys.node k' = R.sys.node k' := hnSet_other _ _ h

theorem life_snoc (k : ι) (ls : List (RLab ι p)) (l : RLab ι p) : life k (ls ++ [l]) = lifeStep k (life k ls) l := by
  simp [life]

/-- The cache that makes a step. Proof device; not in the source. -/
def RLab.who : RLab ι p → ι
  | .clock k _ => k
  | .reset k _ => k
  | .quiet k _ => k
  | .exec k _ _ => k
  | .again k => k

theorem lifeStep_other {k : ι} {l : RLab ι p} (h : l.who ≠ k) (w : List (Cyc (p k))) : lifeStep k w l = w := by
  cases l <;> simp only [RLab.who] at h <;> simp [lifeStep, h]

/-- A step changes one cache only. -/
theorem RLStep.other {R R' : RNSys ι p} {l : RLab ι p} (h : RLStep R l R') {k : ι} (hk : k ≠ l.who) :
    R'.sys.node k = R.sys.node k ∧ R'.since k = R.since k := by
  cases h <;> simp only [RLab.who] at hk <;>
    exact ⟨rput_other _ hk _ _, by simp [RNSys.put, RNSys.tick, upd_other _ hk]⟩

theorem RLRun.lifeInv (wf : ∀ k, (p k).WF) {R R' : RNSys ι p} {ls : List (RLab ι p)} (h0 : RNStart R) (h : RLRun R ls R')
    (k : ι) : LifeInv (R'.sys.node k) (R'.since k) (life k ls) := by
  induction h with
  | refl =>
    rw [h0.2 k]
    exact life_start (h0.1.after k) ((h0.1 k).reqQ ()) ((h0.1 k).respQ ())
  | @snoc R' R'' ls l _ hs ih =>
    rw [life_snoc]
    by_cases hk : k = l.who
    · cases hs with
      | clock k' hn i L hL hc =>
        obtain rfl : k = k' := hk
        rw [RNSys.tick, rput_same]
        simp only [RNSys.put, upd_same, lifeStep, dif_pos]
        rw [hn] at ih
        exact life_clock (wf k) (N := R'.one k) ih hL hc
      | reset k' i hr L hL hm =>
        obtain rfl : k = k' := hk
        rw [RNSys.tick, rput_same]
        simp only [RNSys.put, upd_same, lifeStep, if_pos]
        obtain ⟨_, _, _, s, _, _, _, _, he, _⟩ := ih.wave
        exact life_reset (wf k) (N := R'.one k) he hr (runBlks_settled _ i hL _)
      | quiet k' j hn hj i L hL hc =>
        obtain rfl : k = k' := hk
        rw [RNSys.tick, rput_same]
        simp only [RNSys.put, upd_same, lifeStep, dif_pos]
        rw [hn] at ih
        exact life_quiet (wf k) (N := R'.one k) ih hL hc hj
      | exec k' m ms hm =>
        obtain rfl : k = k' := hk
        rw [rput_same]
        simp only [RNSys.put, upd_same, lifeStep]
        exact life_exec (N := R'.one k) ih hm
      | again k' j hn hq hp =>
        obtain rfl : k = k' := hk
        rw [rput_same]
        simp only [RNSys.put, upd_same, lifeStep]
        rw [hn] at ih
        exact life_again (N := R'.one k) ih hq hp
    · obtain ⟨e1, e2⟩ := hs.other hk
      rw [e1, e2, lifeStep_other (Ne.symm hk)]
      exact ih

end Verif.Net
