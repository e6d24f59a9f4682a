import Verif.Reset
import Verif.PropsCrash

/-!
# C59: reset in mid-operation

What a user can rely on when the cache is reset at an arbitrary moment while
memory still works on its requests.
-/

namespace Verif
variable {p : Params} {ι : Type} [DecidableEq ι]
set_option linter.unusedSectionVars false

/-- **C59** (silence).  For fewer than `nLines` clock edges after the reset the
cache is not ready and sends nothing, whatever memory delivers. -/
theorem C59_silent {S S₁ : Sys ι p} {n : ι → Nat} (h0 : StaleStart S) (h : Drain S n S₁) (k : ι) (i : In p) :
    ((S₁.cache k).out i).reqRdy = false ∧ ((S₁.cache k).out i).respEn = false ∧
      ((S₁.cache k).out i).mreqEn = false := by
  obtain ⟨T, t⟩ := drained h0 S₁.mem h
  obtain ⟨b, hb⟩ := t.cache k
  have q := quietEdge (t.init k) b i
  rw [hb]
  exact ⟨q.noReq, q.noResp, q.noMem⟩

/-- **C59.**  The caches are reset with anything in their memory ports.  If the
ports are empty before any cache has seen `nLines` clock edges, everything after
that is an execution of caches reset with empty ports on the memory as it is
then. -/
theorem C59_stale_traffic_ignored {S S₁ S' : Sys ι p} {n : ι → Nat} {tr : List (Ev ι p)} (h0 : StaleStart S)
    (h : Drain S n S₁) (hq : ∀ k, S₁.reqQ k = []) (hp : ∀ k, S₁.respQ k = []) (hr : Run S₁ tr S') :
    ∃ R R', Start R ∧ R.cache = S.cache ∧ R.mem = S₁.mem ∧ Run R tr R' ∧ R'.mem = S'.mem := by
  obtain ⟨T, t⟩ := drained h0 S₁.mem h
  have hs : Shadow S₁ T := by
    refine ⟨fun k => .inr ⟨t.init k, by rw [t.reqQ], by rw [t.respQ], t.cache k⟩, ?_, ?_, t.mem.symm⟩
    · rw [t.reqQ]; funext k; exact hq k
    · rw [t.respQ]; funext k; exact hp k
  obtain ⟨T', r, s⟩ := hs.run hr
  exact ⟨S.emptied S₁.mem, T', h0.emptied _, rfl, rfl, by simpa using t.run.trans r, s.mem.symm⟩

/-! ## One cache, from before the reset -/

/-- The cache is being reset: clock edges with reset asserted (a memory request
may still leave and a response may still arrive) and memory working on. Proof device; not in the source. -/
inductive Resetting : Sys Unit p → Sys Unit p → Prop
  | refl (S : Sys Unit p) : Resetting S S
  | edge {S S' : Sys Unit p} (h : Resetting S S') (i : In p) (hr : i.reset = true)
      (hm : i.mrespEn = true → ∃ l, S'.respQ () = i.mresp :: l) : Resetting S (S'.clock () i)
  | exec {S S' : Sys Unit p} (h : Resetting S S') (m : MReq p) (ms : List (MReq p)) (hm : S'.reqQ () = m :: ms) :
      Resetting S (S'.exec () m)

/-- The old system could have gone on to the same memory and the same pending
requests. Proof device; not in the source. -/
structure Along (S S' : Sys Unit p) (tr : List (Ev Unit p)) (T : Sys Unit p) : Prop where
  run : Run S tr T
  acc : accepted () tr = []
  mem : T.mem = S'.mem
  reqQ : T.reqQ () = S'.reqQ ()

theorem Along.exec {S S' T : Sys Unit p} {tr : List (Ev Unit p)} (h : Along S S' tr T) {m : MReq p}
    {ms : List (MReq p)} (hm : S'.reqQ () = m :: ms) : ∃ tr', Along S (S'.exec () m) tr' (T.exec () m) := by
  refine ⟨_, h.run.snoc (.exec T () m ms (by rw [h.reqQ]; exact hm)), ?_, ?_, ?_⟩
  · rw [accepted_append, h.acc]; rfl
  · simp only [Sys.exec, h.mem]
  · simp only [Sys.exec, upd_same, h.reqQ]

/-- After a reset edge nothing is sent. -/
theorem reset_quiet (s : St p) (i j : In p) (hr : i.reset = true) : ((s.step i).out j).mreqEn = false := by
  have h := reset_PInit s i hr
  have q := quietEdge h false j
  have := q.noMem
  rwa [St.withEn_self h.mem] at this

theorem resetting_along {S S' : Sys Unit p} (h : Resetting S S') :
    ∃ tr T, Along S S' tr T ∧ (S'.cache () = T.cache () ∨ ∃ s i, i.reset = true ∧ S'.cache () = St.step s i) := by
  induction h with
  | refl => exact ⟨[], S, ⟨.refl _, rfl, rfl, rfl⟩, .inl rfl⟩
  | exec _ m ms hm ih =>
    obtain ⟨tr, T, a, b⟩ := ih
    obtain ⟨tr', a'⟩ := a.exec hm
    exact ⟨tr', _, a', b⟩
  | @edge S' _ i hr _ ih =>
    obtain ⟨tr, T, a, b⟩ := ih
    rcases b with b | ⟨s, j, hj, b⟩
    · let i' : In p := { i with reset := false, reqEn := false, mrespEn := false }
      have ho : (T.cache ()).out i' = (S'.cache ()).out i := by rw [b]; rfl
      refine ⟨_, _, ⟨a.run.snoc (.clock T () i' ⟨rfl, fun h => by simp [i'] at h, fun h => by simp [i'] at h⟩), ?_, ?_, ?_⟩,
        .inr ⟨_, i, hr, by simp only [Sys.clock, upd_same]; rfl⟩⟩
      · rw [accepted_append, a.acc]
        simp only [Sys.clockEvs, List.nil_append, accepted_append, i']
        simp only [Bool.false_eq_true, if_false]
        rw [ho]
        cases ((S'.cache ()).out i).mreqEn <;> cases ((S'.cache ()).out i).respEn <;> rfl
      · exact a.mem
      · simp only [Sys.clock, upd_same, ho, a.reqQ]
    · refine ⟨tr, T, ⟨a.run, a.acc, a.mem, ?_⟩, .inr ⟨S'.cache (), i, hr, by simp only [Sys.clock, upd_same]⟩⟩
      rw [a.reqQ]
      simp only [Sys.clock, upd_same]
      rw [b, reset_quiet s j i hj]; simp

theorem drain_along {S R R' : Sys Unit p} {n : Unit → Nat} (h0 : StaleStart R) (h : Drain R n R')
    (ha : ∃ tr T, Along S R tr T) : ∃ tr T, Along S R' tr T := by
  induction h with
  | refl => exact ha
  | exec _ k m ms hm ih =>
    obtain ⟨tr, T, a⟩ := ih
    obtain ⟨tr', a'⟩ := a.exec hm
    exact ⟨tr', _, a'⟩
  | clock h k i hc hn ih =>
    obtain ⟨tr, T, a⟩ := ih
    refine ⟨tr, T, a.run, a.acc, a.mem, ?_⟩
    rw [a.reqQ]
    simp only [Sys.clock, upd_same]
    rw [(C59_silent h0 h () i).2.2]; simp

/-- **C59** (from before the reset).  The cache runs, is reset at any moment for
any number of cycles with memory requests in flight, and memory has finished
with them before the cache has seen `nLines` more clock edges.  Then memory holds
at every aligned word a value of the flat memory after some prefix of the
requests accepted before the reset, which contains every answered FLUSH (and AMO
on the line); and from there the cache answers like the flat memory that starts
with those contents. -/
theorem C59_reset_at_any_time (wf : p.WF) {S S₁ R R₁ S' : Sys Unit p} {n : Unit → Nat} {tr tr' : List (Ev Unit p)}
    (h0 : Start S) (h : Run S tr S₁) (hv : ∀ q ∈ accepted () tr, q.Valid) (hres : Resetting S₁ R) (hR : StaleStart R)
    (hd : Drain R n R₁) (hq : R₁.reqQ () = []) (hp : R₁.respQ () = []) (h' : Run R₁ tr' S')
    (hv' : ∀ q ∈ accepted () tr', q.Valid) :
    (∀ x, 4 ∣ x → x < 2 ^ p.addrBits → ∃ k, IsPast S.mem (accepted () tr) x k R₁.mem ∧
      ∀ m q, m < (responses () tr).length → (accepted () tr)[m]? = some q → Durable q x → m < k) ∧
    (responses () tr').map (·.data) <+: (flatRun R₁.mem (accepted () tr')).2 ∧
    (∃ rest, (accepted () tr').map (fun q => (q.ty, q.opq, q.len)) =
      (responses () tr').map (fun r => (r.ty, r.opq, r.len)) ++ rest ∧ rest.length ≤ 2) := by
  refine ⟨?_, ?_, ?_⟩
  · intro x hx ha
    obtain ⟨tr₁, T, a⟩ := drain_along hR hd (by obtain ⟨tr, T, a, _⟩ := resetting_along hres; exact ⟨tr, T, a⟩)
    have hacc : accepted () (tr ++ tr₁) = accepted () tr := by rw [accepted_append, a.acc, List.append_nil]
    obtain ⟨k₁, k₂, h12, _, h2, h3, _⟩ := C55_memory_never_goes_back wf h0 h a.run (by rw [hacc]; exact hv) hx ha
    rw [hacc, a.mem] at h2
    exact ⟨k₂, h2, fun m q h1 h2 h4 => Nat.lt_of_lt_of_le (h3 m q h1 h2 h4) h12⟩
  · obtain ⟨Q, Q', q1, _, q2, q3, _⟩ := C59_stale_traffic_ignored hR hd (fun _ => hq) (fun _ => hp) h'
    rw [← q2]
    exact C01_responses_equal_flat_memory wf q1 q3 hv'
  · obtain ⟨Q, Q', q1, _, q2, q3, _⟩ := C59_stale_traffic_ignored hR hd (fun _ => hq) (fun _ => hp) h'
    exact C02_one_response_per_request wf q1 q3

/-! ## Concrete runs -/

/-- Clock edges of a list of actions. Proof device; not in the source. -/
def edges : List (Act Unit p) → Nat
  | [] => 0
  | .clock _ _ :: as => edges as + 1
  | .exec _ :: as => edges as

theorem perform_drain {S S' S'' : Sys Unit p} {m : Nat} {as : List (Act Unit p)} {tr : List (Ev Unit p)}
    (h : Drain S (fun _ => m) S') (hs : perform S' as = some (S'', tr)) (hn : m + edges as < p.nLines) :
    Drain S (fun _ => m + edges as) S'' := by
  induction as generalizing S' m tr with
  | nil =>
    simp only [perform, Option.some.injEq, Prod.mk.injEq] at hs
    rw [← hs.1]; exact h
  | cons a as ih =>
    simp only [perform, Option.bind_eq_bind, Option.bind_eq_some_iff] at hs
    obtain ⟨⟨S1, ev⟩, h1, ⟨S2, tr2⟩, h2, h3⟩ := hs
    simp only [Option.pure_def, Option.some.injEq, Prod.mk.injEq] at h3
    obtain ⟨rfl, rfl⟩ := h3
    cases a with
    | clock k i =>
      simp only [edges] at hn ⊢
      have hm : m + (edges as + 1) = m + 1 + edges as := by omega
      rw [hm] at hn ⊢
      refine ih ?_ h2 hn
      simp only [Act.perform] at h1
      split at h1
      · rename_i hc
        simp only [Option.some.injEq, Prod.mk.injEq] at h1
        obtain ⟨rfl, rfl⟩ := h1
        have hcan : S'.CanClock k i := by
          refine ⟨hc.1, hc.2.1, ?_⟩
          intro hm
          have := hc.2.2 hm
          cases hq : S'.respQ k with
          | nil => rw [hq] at this; simp at this
          | cons a l => rw [hq] at this; simp at this; exact ⟨l, by rw [this]⟩
        have := Drain.clock h k i hcan (by omega)
        have hu : upd (fun _ => m) k (m + 1) = fun _ : Unit => m + 1 := by funext x; rfl
        rwa [hu] at this
      · cases h1
    | exec k =>
      simp only [edges] at hn ⊢
      refine ih ?_ h2 hn
      simp only [Act.perform] at h1
      split at h1
      · cases h1
      · rename_i m' ms hq
        simp only [Option.some.injEq, Prod.mk.injEq] at h1
        obtain ⟨rfl, rfl⟩ := h1
        exact .exec h k m' ms hq

namespace Ex59
/-- A store made durable, another store to the same word, and two reads of other
lines of the set; the second evicts the word. -/
def reqs : List (CReq p0) :=
  [⟨MT.WRITE, 1, ⟨0, 0, 0⟩, 0, 0x11111111⟩, ⟨MT.FLUSH, 0, ⟨0, 0, 0⟩, 0, 0⟩, ⟨MT.WRITE, 1, ⟨0, 0, 0⟩, 0, 0x22222222⟩,
    ⟨MT.READ, 1, ⟨1, 0, 0⟩, 0, 0⟩, ⟨MT.READ, 1, ⟨2, 0, 0⟩, 0, 0⟩]

theorem valid : ∀ q ∈ reqs, q.Valid := by
  intro q hq
  simp only [reqs, List.mem_cons, List.not_mem_nil, or_false] at hq
  rcases hq with rfl | rfl | rfl | rfl | rfl
  · exact .write rfl 2 (by decide) (by decide) (by decide)
  · exact .flush rfl
  · exact .write rfl 2 (by decide) (by decide) (by decide)
  · exact .read rfl 2 (by decide) (by decide)
  · exact .read rfl 2 (by decide) (by decide)

/-- 31 cycles: the acknowledgement of the write-back is on its way and the refill
request is about to leave. Proof device; not in the source. -/
def mid : Sys Unit p0 × List (Ev Unit p0) := drive 31 (start0 p0) reqs
theorem midRun : Run (start0 p0) mid.2 mid.1 := drive_run _ _ _
theorem midAcc : accepted () mid.2 = reqs := by decide +kernel
theorem midResp : (responses () mid.2).length = 4 := by decide +kernel

/-- Reset for one cycle, in which the refill request leaves. Proof device; not in the source. -/
def rin : In p0 := ⟨true, false, default, true, true, false, default⟩
/-- Proof device; not in the source. -/
def hit : Sys Unit p0 := mid.1.clock () rin
theorem resetting : Resetting mid.1 hit := .edge (.refl _) rin rfl (fun h => by cases h)
theorem stale : StaleStart hit := fun _ => ⟨mid.1.cache (), rin, rfl, rfl⟩
theorem inFlight : (hit.reqQ ()).length = 1 ∧ (hit.respQ ()).length = 1 := by decide +kernel

/-- The responses memory will deliver, oldest first. Proof device; not in the source. -/
def due : List (MResp p0) := hit.respQ () ++ (hit.reqQ ()).map fun m => (memExec hit.mem m).2

/-- A clock edge that delivers the response number `n`. Proof device; not in the source. -/
def give (n : Nat) : Act Unit p0 := .clock () ⟨false, false, default, true, true, true, due[n]?.getD default⟩
/-- Proof device; not in the source. -/
def idle : Act Unit p0 := .clock () ⟨false, false, default, true, true, false, default⟩

/-- Memory executes the request and both responses are delivered at once. Proof device; not in the source. -/
def drained : Sys Unit p0 := ((perform hit [.exec (), give 0, give 1]).getD (hit, [])).1
theorem drained_ok : perform hit [.exec (), give 0, give 1] =
    some (drained, ((perform hit [.exec (), give 0, give 1]).getD (hit, [])).2) := by
  have : (perform hit [.exec (), give 0, give 1]).isSome = true := by decide +kernel
  obtain ⟨x, hx⟩ := Option.isSome_iff_exists.1 this
  simp only [drained, hx, Option.getD_some]
theorem drained_drain : Drain hit (fun _ => 2) drained := perform_drain (.refl _) drained_ok (by decide)
theorem drained_empty : drained.reqQ () = [] ∧ drained.respQ () = [] := by
  constructor
  · exact List.length_eq_zero_iff.1 (by decide +kernel)
  · exact List.length_eq_zero_iff.1 (by decide +kernel)

/-- Reads after the reset. Proof device; not in the source. -/
def reads : List (CReq p0) := [⟨MT.READ, 1, ⟨0, 0, 0⟩, 0, 0⟩, ⟨MT.READ, 1, ⟨2, 0, 0⟩, 0, 0⟩]
theorem reads_valid : ∀ q ∈ reads, q.Valid := by
  intro q hq
  simp only [reads, List.mem_cons, List.not_mem_nil, or_false] at hq
  rcases hq with rfl | rfl
  · exact .read rfl 2 (by decide) (by decide)
  · exact .read rfl 2 (by decide) (by decide)
/-- Proof device; not in the source. -/
def fin : Sys Unit p0 × List (Ev Unit p0) := drive 30 drained reads
theorem finRun : Run drained fin.2 fin.1 := drive_run _ _ _
theorem finAcc : accepted () fin.2 = reads := by decide +kernel
theorem finResp : (responses () fin.2).map (·.data) = [0x22222222, 0x24232221] := by decide +kernel

/-- The same, but the first response arrives at clock edge 3 after the reset... Proof device; not in the source. -/
def acts : List (Act Unit p0) := [.exec (), idle, idle, give 0]
/-- Proof device; not in the source. -/
def wait : Sys Unit p0 := ((perform hit acts).getD (hit, [])).1
theorem wait_ok : perform hit acts = some (wait, ((perform hit acts).getD (hit, [])).2) := by
  have : (perform hit acts).isSome = true := by decide +kernel
  obtain ⟨x, hx⟩ := Option.isSome_iff_exists.1 this
  simp only [wait, hx, Option.getD_some]
theorem wait_drain : Drain hit (fun _ => 3) wait := perform_drain (.refl _) wait_ok (by decide)
theorem wait_reqQ : wait.reqQ () = [] := List.length_eq_zero_iff.1 (by decide +kernel)
/-- Proof device; not in the source. -/
def last : MResp p0 := due[1]?.getD default
theorem wait_respQ : wait.respQ () = [last] := by decide +kernel

/-- ... and the second at clock edge 4 = `nLines`. Proof device; not in the source. -/
def lin : In p0 := ⟨false, false, default, true, true, true, last⟩
/-- Proof device; not in the source. -/
def late : Sys Unit p0 := wait.clock () lin
attribute [irreducible] last wait
theorem late_can : wait.CanClock () lin := ⟨rfl, (fun h => by cases h), (fun _ => ⟨[], wait_respQ⟩)⟩
/-- Proof device; not in the source. -/
def lateRead : Sys Unit p0 × List (Ev Unit p0) := drive 30 late [⟨MT.READ, 1, ⟨0, 1, 0⟩, 0, 0⟩]
theorem lateRun : Run late lateRead.2 lateRead.1 := drive_run _ _ _
theorem lateAcc : accepted () lateRead.2 = [⟨MT.READ, 1, ⟨0, 1, 0⟩, 0, 0⟩] := by decide +kernel
theorem lateResp : responses () lateRead.2 = [⟨MT.READ, 0, 0, 0, 0x22222222⟩] := by decide +kernel
attribute [irreducible] mid hit drained fin lateRead
end Ex59

/-- The hypotheses of `C59_reset_at_any_time` are met by a run with a request and
a response in flight at the reset and an answered FLUSH before it. -/
example : ∃ (S S₁ R R₁ S' : Sys Unit p0) (n : Unit → Nat) (tr tr' : List (Ev Unit p0)), p0.WF ∧ Start S ∧ Run S tr S₁ ∧
    (∀ q ∈ accepted () tr, q.Valid) ∧ Resetting S₁ R ∧ StaleStart R ∧
    (R.reqQ ()).length = 1 ∧ (R.respQ ()).length = 1 ∧
    Drain R n R₁ ∧ R₁.reqQ () = [] ∧ R₁.respQ () = [] ∧ Run R₁ tr' S' ∧ (∀ q ∈ accepted () tr', q.Valid) ∧
    (responses () tr').map (·.data) = [0x22222222, 0x24232221] ∧
    1 < (responses () tr).length ∧ ∃ f, (accepted () tr)[1]? = some f ∧ Durable f 0 := by
  exact ⟨start0 p0, Ex59.mid.1, Ex59.hit, Ex59.drained, Ex59.fin.1, fun _ => 2, Ex59.mid.2, Ex59.fin.2, p0_wf, start0_start p0, Ex59.midRun, by rw [Ex59.midAcc]; exact Ex59.valid,
    Ex59.resetting, Ex59.stale, Ex59.inFlight.1, Ex59.inFlight.2, Ex59.drained_drain, Ex59.drained_empty.1, Ex59.drained_empty.2,
    Ex59.finRun, by rw [Ex59.finAcc]; exact Ex59.reads_valid, Ex59.finResp, by rw [Ex59.midResp]; decide,
    _, by rw [Ex59.midAcc]; rfl, .inl rfl⟩

/-- **C59** (the limit is sharp).  A cache is reset in mid-operation and the last
stale response, the only thing left in its port, is delivered exactly `nLines`
clock edges after the reset.  The first request accepted then, a read of address
8 with opaque 1, is answered with opaque 0 and the data of address 0. -/
theorem C59_late_response_corrupts :
    ∃ (S S₁ R R₁ S' : Sys Unit p0) (tr tr' : List (Ev Unit p0)) (i : In p0), p0.WF ∧ Start S ∧ Run S tr S₁ ∧
      (∀ q ∈ accepted () tr, q.Valid) ∧ Resetting S₁ R ∧ StaleStart R ∧ Drain R (fun _ => p0.nLines - 1) R₁ ∧
      R₁.reqQ () = [] ∧ R₁.respQ () = [i.mresp] ∧ i.mrespEn = true ∧ R₁.CanClock () i ∧
      Run (R₁.clock () i) tr' S' ∧
      accepted () tr' = [⟨MT.READ, 1, ⟨0, 1, 0⟩, 0, 0⟩] ∧
      responses () tr' = [⟨MT.READ, 0, 0, 0, 0x22222222⟩] :=
  ⟨start0 p0, Ex59.mid.1, Ex59.hit, Ex59.wait, Ex59.lateRead.1, Ex59.mid.2, Ex59.lateRead.2, Ex59.lin, p0_wf, start0_start p0, Ex59.midRun, by rw [Ex59.midAcc]; exact Ex59.valid,
    Ex59.resetting, Ex59.stale, Ex59.wait_drain, Ex59.wait_reqQ, Ex59.wait_respQ, rfl, Ex59.late_can, Ex59.lateRun,
    Ex59.lateAcc, Ex59.lateResp⟩

end Verif
