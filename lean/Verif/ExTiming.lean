import Verif.PropsTiming3

/-!
# Concrete executions that meet the hypotheses of C60, C61 and C62
-/

namespace Verif
variable {p : Params}

theorem driveIn_rdy (S : Sys Unit p) (q : Option (CReq p)) : (driveIn S q).respRdy = true ∧ (driveIn S q).mreqRdy = true := by
  simp only [driveIn]
  constructor <;> (split <;> split <;> (try split) <;> rfl)

theorem driveIn_can (S : Sys Unit p) (q : Option (CReq p)) : S.CanClock () (driveIn S q) := by
  refine ⟨?_, ?_, ?_⟩
  · simp only [driveIn]; split <;> split <;> (try split) <;> rfl
  · intro h
    simp only [driveIn] at h ⊢
    cases q with
    | none => simp only at h; split at h <;> cases h
    | some q =>
      simp only at h ⊢
      by_cases hc : (((S.cache ()).out ⟨false, false, default, true, true, false, default⟩).reqRdy &&
          (q.ty != MT.INIT)) = true
      · rw [if_pos hc]
        simp only [Bool.and_eq_true, bne_iff_ne] at hc
        refine ⟨?_, ?_⟩
        · refine Eq.trans ?_ hc.1
          apply out_rdy_congr <;> (split <;> rfl)
        · split <;> exact hc.2
      · rw [if_neg hc] at h
        split at h <;> cases h
  · intro h
    simp only [driveIn] at h ⊢
    cases hr : S.respQ () with
    | nil =>
      exfalso
      rw [hr] at h; simp only at h
      split at h
      · split at h <;> cases h
      · cases h
    | cons r l => exact ⟨l, rfl⟩

/-- Memory executes at most one request; no edge. -/
theorem driveMem_ticks (S : Sys Unit p) : Ticks () 0 S (driveMem S).2 (driveMem S).1 := by
  simp only [driveMem]
  split
  · rename_i m ms hr
    have := Ticks.exec (.refl S) () m ms hr (k := ())
    simpa using this
  · exact .refl S

theorem Ticks.append {ι : Type} [DecidableEq ι] {k : ι} {m n : Nat} {S S' S'' : Sys ι p} {a b : List (Ev ι p)} (h : Ticks k m S a S')
    (h' : Ticks k n S' b S'') : Ticks k (m + n) S (a ++ b) S'' := by
  induction h' with
  | refl => simpa using h
  | edge h1 i hc e1 e2 ih => rw [← List.append_assoc]; exact (ih h).edge i hc e1 e2
  | other h1 k' hk i hc ih => rw [← List.append_assoc]; exact (ih h).other k' hk i hc
  | exec h1 k' m ms hq ih => rw [← List.append_assoc]; exact (ih h).exec k' m ms hq

theorem drive_ticks (n : Nat) (S : Sys Unit p) (qs : List (CReq p)) :
    Ticks () n S (drive n S qs).2 (drive n S qs).1 := by
  induction n generalizing S qs with
  | zero => exact .refl S
  | succ n ih =>
    simp only [drive]
    have h1 := (Ticks.refl (k := ()) S).edge (driveIn S qs.head?) (driveIn_can _ _) (driveIn_rdy _ _).1 (driveIn_rdy _ _).2
    have h2 := (h1.append (driveMem_ticks _)).append (ih (driveMem (S.clock () (driveIn S qs.head?))).1 (if (driveIn S qs.head?).reqEn then qs.tail else qs))
    have e : 0 + 1 + 0 + n = n + 1 := by omega
    rw [e] at h2
    simpa using h2

/-- `n` cycles without requests, in which the cache is not ready (if the last
component is `true`); the number counts the edges that wait for memory. Example; not in the source. -/
def hold : Nat → Sys Unit p → Sys Unit p × List (Ev Unit p) × Nat × Bool
  | 0, S => (S, [], 0, true)
  | n + 1, S =>
    let x := hold n S
    let i := driveIn x.1 none
    let y := driveMem (x.1.clock () i)
    (y.1, x.2.1 ++ x.1.clockEvs () i ++ y.2,
      x.2.2.1 + (if (x.1.reqQ ()).isEmpty && (x.1.respQ ()).isEmpty then 0 else 1), x.2.2.2 && !((x.1.cache ()).out i).reqRdy)

theorem Held.mem {w n : Nat} {S S' : Sys Unit p} {tr : List (Ev Unit p)} (h : Held () n w S tr S') :
    Held () n w S (tr ++ (driveMem S').2) (driveMem S').1 := by
  simp only [driveMem]
  split
  · rename_i m ms hr
    exact h.exec () m ms hr
  · simpa using h

theorem hold_held (n : Nat) (S : Sys Unit p) (h : (hold n S).2.2.2 = true) :
    Held () n (hold n S).2.2.1 S (hold n S).2.1 (hold n S).1 := by
  induction n with
  | zero => exact .refl S
  | succ n ih =>
    simp only [hold] at h ⊢
    simp only [Bool.and_eq_true, Bool.not_eq_true'] at h
    exact ((ih h.1).edge _ (driveIn_can _ _) (driveIn_rdy _ _).1 (driveIn_rdy _ _).2 h.2).mem

/-- `n` cycles with the reads `q 0`, `q 1`, ... of cached lines offered. -/
def streams (tr₀ : List (Ev Unit p)) (q : Nat → CReq p) : Nat → Sys Unit p → Sys Unit p × List (Ev Unit p) × Bool
  | 0, S => (S, [], true)
  | n + 1, S =>
    let x := streams tr₀ q n S
    let i := driveIn x.1 (some (q n))
    let y := driveMem (x.1.clock () i)
    (y.1, x.2.1 ++ x.1.clockEvs () i ++ y.2, x.2.2 && i.req.ty == MT.READ && i.reqEn == ((x.1.cache ()).out i).reqRdy &&
      ((lruRun p.ways.length (accepted () (tr₀ ++ x.2.1))).1 i.req.addr.idx).contains i.req.addr.tag)

theorem streams_stream (tr₀ : List (Ev Unit p)) (q : Nat → CReq p) (n : Nat) (S : Sys Unit p) (h : (streams tr₀ q n S).2.2 = true) :
    Stream () tr₀ n S (streams tr₀ q n S).2.1 (streams tr₀ q n S).1 := by
  induction n with
  | zero => exact .refl S
  | succ n ih =>
    simp only [streams, Bool.and_eq_true, beq_iff_eq, List.contains_iff_mem] at h ⊢
    obtain ⟨⟨⟨h1, h2⟩, h3⟩, h4⟩ := h
    exact .step (ih h1) _ (driveIn_can _ _) (driveIn_rdy _ _).1 (driveIn_rdy _ _).2 h2 h4 h3 (driveMem_ticks _)

namespace Ex60
/-- A write miss (with refill) and a read miss of another set. Example; not in the source. -/
def warm : List (CReq p0) := [⟨MT.WRITE, 1, ⟨2, 0, 4⟩, 0, 0x11111111⟩, ⟨MT.READ, 0, ⟨1, 1, 0⟩, 0, 0⟩]
/-- Example; not in the source. -/
def pre : Sys Unit p0 × List (Ev Unit p0) := drive 40 (start0 p0) warm
/-- A read hit; a write hit on a dirty word; a write hit on a clean word. Example; not in the source. -/
def rd : CReq p0 := ⟨MT.READ, 1, ⟨2, 0, 4⟩, 0, 0⟩
/-- Example; not in the source. -/
def wrD : CReq p0 := ⟨MT.WRITE, 1, ⟨2, 0, 4⟩, 0, 0x22222222⟩
/-- Example; not in the source. -/
def wrC : CReq p0 := ⟨MT.WRITE, 1, ⟨1, 1, 4⟩, 0, 0x33333333⟩
/-- A read miss and an AMO. Example; not in the source. -/
def miss : CReq p0 := ⟨MT.READ, 1, ⟨3, 1, 4⟩, 0, 0⟩
/-- Example; not in the source. -/
def amo : CReq p0 := ⟨3, 1, ⟨2, 0, 4⟩, 0, 5⟩
/-- Example; not in the source. -/
def inv : CReq p0 := ⟨MT.INV, 1, ⟨0, 0, 0⟩, 0, 0⟩
/-- Example; not in the source. -/
def flush : CReq p0 := ⟨MT.FLUSH, 1, ⟨0, 0, 0⟩, 0, 0⟩

theorem preRun : Run (start0 p0) pre.2 pre.1 := drive_run _ _ _

theorem preAcc : accepted () pre.2 = warm := by decide +kernel

/-- Example; not in the source. -/
def offer (q : CReq p0) : In p0 := driveIn pre.1 (some q)

theorem offered : ((offer rd).reqEn = true ∧ (offer rd).req = rd) ∧ ((offer wrD).reqEn = true ∧ (offer wrD).req = wrD) ∧
    ((offer wrC).reqEn = true ∧ (offer wrC).req = wrC) ∧ ((offer miss).reqEn = true ∧ (offer miss).req = miss) ∧
    ((offer amo).reqEn = true ∧ (offer amo).req = amo) ∧ ((offer inv).reqEn = true ∧ (offer inv).req = inv) ∧
    ((offer flush).reqEn = true ∧ (offer flush).req = flush) := by decide +kernel

theorem cachedRd : Cached () pre.2 rd.addr ∧ Cached () pre.2 wrD.addr ∧ Cached () pre.2 wrC.addr ∧ ¬ Cached () pre.2 miss.addr := by
  simp only [Cached, preAcc]; decide +kernel

/-- The stream of reads. Example; not in the source. -/
def reads (n : Nat) : CReq p0 := if n % 2 = 0 then rd else ⟨MT.READ, 0, ⟨1, 1, 4⟩, 0, 0⟩
theorem streamOk : (streams pre.2 reads 6 pre.1).2.2 = true := by decide +kernel

theorem preReady : ((pre.1.cache ()).out ⟨false, false, default, true, true, false, default⟩).reqRdy = true := by decide +kernel

/-- After the flush: one write-back, one edge waiting for memory. Example; not in the source. -/
def flushed : Sys Unit p0 × List (Ev Unit p0) × Nat × Bool := hold 9 (pre.1.clock () (offer flush))
theorem flushOk : flushed.2.2.2 = true ∧ flushed.2.2.1 = 1 ∧ (sent () flushed.2.1).length = 1 := by decide +kernel
theorem flushReady : ((flushed.1.cache ()).out ⟨false, false, default, true, true, false, default⟩).reqRdy = true := by decide +kernel
/-- Example; not in the source. -/
def inved : Sys Unit p0 × List (Ev Unit p0) × Nat × Bool := hold 5 (pre.1.clock () (offer inv))
theorem invOk : inved.2.2.2 = true := by decide +kernel


/-- Example; not in the source. -/
def i0 : In p0 := ⟨false, false, default, true, true, false, default⟩

/-- Waiting for the line of the read miss, and for the result of the AMO. -/
def fetching : Sys Unit p0 × List (Ev Unit p0) := drive 3 pre.1 [miss]
/-- Example; not in the source. -/
def computing : Sys Unit p0 × List (Ev Unit p0) := drive 4 pre.1 [amo]
theorem fetched : (driveIn fetching.1 none).mrespEn = true ∧ (driveIn fetching.1 none).mresp.ty = MT.READ := by decide +kernel
theorem computed : (driveIn computing.1 none).mrespEn = true ∧ (driveIn computing.1 none).mresp.ty = 3 := by decide +kernel

theorem readyD : (((drive 0 (pre.1.clock () (offer wrD)) []).1.cache ()).out i0).reqRdy = true := by decide +kernel
theorem readyC : (((drive 0 (pre.1.clock () (offer wrC)) []).1.cache ()).out i0).reqRdy = false := by decide +kernel

attribute [irreducible] pre offer fetching computing flushed inved

/-- The hypotheses of the theorems of C60 are met: a read hit, a write hit on a
dirty word and one on a clean word, and a stream of six reads. -/
example : ((drive 1 (pre.1.clock () (offer rd)) []).1.cache ()).out i0 |>.respEn := by
  refine (C60_hit_latency p0_wf (start0_start p0) preRun (k := ()) (i := offer rd) (by unfold offer; exact driveIn_can _ _) offered.1.1
    (by rw [offered.1.2]; exact .inl rfl) (by rw [offered.1.2]; exact cachedRd.1) (drive_ticks 1 _ []) rfl rfl).2.1

example : ((drive 0 (pre.1.clock () (offer rd)) []).1.cache ()).out i0 |>.reqRdy :=
  C60_read_hit_ready p0_wf (start0_start p0) preRun (k := ()) (i := offer rd) (by unfold offer; exact driveIn_can _ _) offered.1.1
    (by rw [offered.1.2]; rfl) (by rw [offered.1.2]; exact cachedRd.1) (drive_ticks 0 _ []) rfl rfl

theorem validW : (∀ q ∈ warm, q.Valid) ∧ wrD.Valid ∧ wrC.Valid := by
  refine ⟨?_, ?_, ?_⟩
  · intro q hq
    simp only [warm, List.mem_cons, List.not_mem_nil, or_false] at hq
    rcases hq with rfl | rfl
    · exact .write rfl 2 (by decide) (by decide) (by decide)
    · exact .read rfl 2 (by decide) (by decide)
  · exact .write rfl 2 (by decide) (by decide) (by decide)
  · exact .write rfl 2 (by decide) (by decide) (by decide)

/-- The word written by `wrD` is dirty, that written by `wrC` is not. -/
example : (((drive 0 (pre.1.clock () (offer wrD)) []).1.cache ()).out i0).reqRdy = true ∧
    (((drive 0 (pre.1.clock () (offer wrC)) []).1.cache ()).out i0).reqRdy = false ∧
    (((drive 1 (pre.1.clock () (offer wrC)) []).1.cache ()).out i0).reqRdy = true := by
  have d := C60_write_hit_ready p0_wf (start0_start p0) preRun (k := ()) (by rw [preAcc]; exact validW.1)
    (i := offer wrD) (by unfold offer; exact driveIn_can _ _) offered.2.1.1 (by rw [offered.2.1.2]; exact validW.2.1)
    (by rw [offered.2.1.2]; rfl) (by rw [offered.2.1.2]; exact cachedRd.2.1) (drive_ticks 0 _ []) (drive_ticks 1 _ []) (j := i0) rfl rfl
  have c := C60_write_hit_ready p0_wf (start0_start p0) preRun (k := ()) (by rw [preAcc]; exact validW.1)
    (i := offer wrC) (by unfold offer; exact driveIn_can _ _) offered.2.2.1.1 (by rw [offered.2.2.1.2]; exact validW.2.2)
    (by rw [offered.2.2.1.2]; rfl) (by rw [offered.2.2.1.2]; exact cachedRd.2.2.1) (drive_ticks 0 _ []) (drive_ticks 1 _ []) (j := i0) rfl rfl
  exact ⟨readyD, readyC, c.2 readyC⟩

example : (accepted () (streams pre.2 reads 6 pre.1).2.1).length = 6 :=
  (C60_stream p0_wf (start0_start p0) preRun (k := ()) (j := i0) rfl rfl preReady (streams_stream _ _ 6 _ streamOk)).1

/-- The hypotheses of the theorems of C61 are met: a miss and an AMO of a cached,
dirty line (which is written back first). -/
example : (((drive 1 (pre.1.clock () (offer miss)) []).1.cache ()).out i0).mreqEn = true ∧
    (((drive 1 (pre.1.clock () (offer amo)) []).1.cache ()).out i0).mreqEn = true := by
  refine ⟨?_, ?_⟩
  · exact (C61_miss_requests p0_wf (start0_start p0) preRun (k := ()) (i := offer miss) (by unfold offer; exact driveIn_can _ _)
      offered.2.2.2.1.1 (.inl (by rw [offered.2.2.2.1.2]; exact ⟨.inl rfl, cachedRd.2.2.2⟩)) (drive_ticks 1 _ []) (drive_ticks 1 _ []) rfl rfl).2.2.1
  · exact (C61_miss_requests p0_wf (start0_start p0) preRun (k := ()) (i := offer amo) (by unfold offer; exact driveIn_can _ _)
      offered.2.2.2.2.1.1 (.inr (by rw [offered.2.2.2.2.1.2]; rfl)) (drive_ticks 1 _ []) (drive_ticks 1 _ []) rfl rfl).2.2.1

theorem fetchRun : Run (start0 p0) (pre.2 ++ fetching.2) fetching.1 := by unfold fetching; exact preRun.append (drive_run _ _ _)
theorem compRun : Run (start0 p0) (pre.2 ++ computing.2) computing.1 := by unfold computing; exact preRun.append (drive_run _ _ _)

example : ∃ Sd : Sys Unit p0, ((Sd.cache ()).out i0).respEn = true :=
  ⟨_, (C61_refill_latency p0_wf (start0_start p0) fetchRun (k := ()) (driveIn_can _ none) fetched.1 fetched.2 (drive_ticks 0 _ [])
    (drive_ticks 1 _ []) (drive_ticks 1 _ []) (drive_ticks 1 _ []) (j := i0) rfl rfl).2.2.2.2.1⟩

example : ∃ Sc : Sys Unit p0, ((Sc.cache ()).out i0).respEn = true :=
  ⟨_, (C61_amo_latency p0_wf (start0_start p0) compRun (k := ()) (driveIn_can _ none) computed.1 (by rw [computed.2]; decide) (drive_ticks 0 _ [])
    (drive_ticks 1 _ []) (drive_ticks 1 _ []) (j := i0) rfl rfl).2.2.2.1⟩

theorem flushHeld : Held () 9 flushed.2.2.1 (pre.1.clock () (offer flush)) flushed.2.1 flushed.1 := by
  have := flushOk.1
  unfold flushed at *
  exact hold_held 9 _ this

theorem invHeld : Held () 5 inved.2.2.1 (pre.1.clock () (offer inv)) inved.2.1 inved.1 := by
  have := invOk
  unfold inved at *
  exact hold_held 5 _ this

/-- The hypotheses of the theorems of C62 are met: a flush with one write-back
takes 9 = 4 + 1 + 1 + 3 edges, an invalidation 5. -/
example : 9 = p0.nLines + 1 + flushed.2.2.1 + 3 * (sent () flushed.2.1).length :=
  ((C62_maintenance_latency p0_wf (start0_start p0) preRun (k := ()) (i := offer flush) (by unfold offer; exact driveIn_can _ _)
    offered.2.2.2.2.2.2.1 (by rw [offered.2.2.2.2.2.2.2]; exact .inr rfl) flushHeld (drive_ticks 1 _ []) (j := i0) rfl rfl).2 flushReady).1

example : ((inved.1.cache ()).out i0).reqRdy = true :=
  (C62_invalidation_latency p0_wf (start0_start p0) preRun (k := ()) (i := offer inv) (by unfold offer; exact driveIn_can _ _)
    offered.2.2.2.2.2.1.1 (by rw [offered.2.2.2.2.2.1.2]; rfl) invHeld (j := i0) rfl rfl).2.2.2.2 (by decide)

end Ex60
end Verif
