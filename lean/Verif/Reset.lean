import Verif.PropsBlocking

/-!
# Reset in mid-operation: stale messages on the memory port

A reset does not empty the memory port: requests the cache sent before the reset
may still be unexecuted, responses may still be on their way.  `Start` excludes
this.  Here the ports of a cache that has just been reset are arbitrary.

A stale response that reaches the cache while it initialises its tag arrays is
ignored, except that it changes what is written into the tag fields of the
(invalid) entries.  The file shows that such a cache behaves like one that was
reset with empty ports.
-/

namespace Verif
set_option linter.unusedSectionVars false
variable {p : Params} {ι : Type} [DecidableEq ι]

/-- The state with another value of the register `memresp_en_M0`. Proof device; not in the source. -/
def St.withEn (c : St p) (b : Bool) : St p := { c with mrespEn0 := b }

theorem St.withEn_self {c : St p} (h : c.mrespEn0 = false) : c.withEn false = c := by
  cases c; simp only [St.withEn] at *; subst h; rfl

/-- The inputs under which the shadow state makes the same step. Proof device; not in the source. -/
def St.shadowIn (c : St p) (b : Bool) (i : In p) : In p :=
  { i with reqEn := false, mrespEn := false, req := (c.withEn b).req0 i }

theorem out_withEn (c : St p) (b : Bool) (i i' : In p) (h1 : i'.mreqRdy = i.mreqRdy) (h2 : i'.respRdy = i.respRdy) :
    (c.withEn b).out i = c.out i' := by
  have hc : (c.withEn b).cs2 i = c.cs2 i' := by simp only [St.cs2, h1, h2]; rfl
  have hs : (c.withEn b).stall i = c.stall i' := by
    simp only [St.stall]; rw [hc]; rfl
  have ha : (c.withEn b).allocEn i = c.allocEn i' := by
    simp only [St.allocEn]; rw [hs]; rfl
  have hr : (c.withEn b).reqRdy i = c.reqRdy i' := by
    simp only [St.reqRdy]; rw [hs, ha]; rfl
  simp only [St.out]
  rw [hc, hr]
  rfl

/-- While the tag arrays are initialised a memory response only changes the tag
fields written. -/
theorem next_withEn {c : St p} (h : PInit c) (b : Bool) (i : In p) :
    (c.withEn b).next i = (c.next (c.shadowIn b i)).withEn (if c.stall i then b else i.mrespEn) := by
  have hT : (c.withEn b).trans0 i = .cacheInit := by simp [St.trans0, St.withEn, h.fsm]
  have hT' : c.trans0 (c.shadowIn b i) = .cacheInit := by simp [St.trans0, h.fsm]
  have hc : (c.withEn b).cs2 i = c.cs2 (c.shadowIn b i) := rfl
  have hs : (c.withEn b).stall i = c.stall (c.shadowIn b i) := rfl
  have hs' : c.stall i = c.stall (c.shadowIn b i) := rfl
  have ha : (c.withEn b).allocEn i = c.allocEn (c.shadowIn b i) := rfl
  have hr : (c.withEn b).req0 i = c.req0 (c.shadowIn b i) := by
    simp [St.req0, h.fsm, h.mem, St.shadowIn, St.withEn]
  have hm : (c.withEn b).pmsg0 i .cacheInit = c.pmsg0 (c.shadowIn b i) .cacheInit := by
    simp only [St.pmsg0]; rw [hr]; rfl
  have hti : (c.withEn b).tagIdx0 i .cacheInit = c.tagIdx0 (c.shadowIn b i) .cacheInit := by
    simp only [St.tagIdx0]; rw [hm]; rfl
  have htw : (c.withEn b).tagWdata0 i .cacheInit = c.tagWdata0 (c.shadowIn b i) .cacheInit := by
    simp only [St.tagWdata0]; rw [hm]; rfl
  have hf : (c.withEn b).fsmNext i = c.fsmNext (c.shadowIn b i) := by
    simp [St.fsmNext, h.fsm, St.withEn]
  simp only [St.next]
  rw [hT, hT', hti, htw, hf, hm, hc, hs, hs', ha]
  cases c.stall (c.shadowIn b i) <;> rfl

theorem PInit.noStall {c : St p} (h : PInit c) (i : In p) : c.stall i = false := by
  have hst1 : c.status1 = ⟨false, false, false, false, false, false⟩ := by
    rcases h.t1 with ⟨h1, _⟩ | ⟨h1, _⟩ <;> simp [St.status1, h1]
  have hcs : c.cs1.ostall = false := by
    rcases h.t1 with ⟨h1, _⟩ | ⟨h1, _⟩ <;> simp [St.cs1, h1, cs1]
  simp [St.stall, ostall_nonblocking c i h.t2, hcs]

/-! ## Systems -/

/-- Every cache has just seen a clock edge with reset asserted, from any state;
the port queues hold anything. Proof device; not in the source. -/
def StaleStart (S : Sys ι p) : Prop := ∀ k, ∃ s i, i.reset = true ∧ S.cache k = St.step s i

/-- The system after a reset takes steps; `n k` counts the clock edges of cache
`k`, which stay below the number of lines. -/
inductive Drain : Sys ι p → (ι → Nat) → Sys ι p → Prop
  | refl (S : Sys ι p) : Drain S (fun _ => 0) S
  | clock {S S' : Sys ι p} {n : ι → Nat} (h : Drain S n S') (k : ι) (i : In p) (hc : S'.CanClock k i)
      (hn : n k + 1 < p.nLines) : Drain S (upd n k (n k + 1)) (S'.clock k i)
  | exec {S S' : Sys ι p} {n : ι → Nat} (h : Drain S n S') (k : ι) (m : MReq p) (ms : List (MReq p))
      (hm : S'.reqQ k = m :: ms) : Drain S n (S'.exec k m)

/-- `S` is `T` but for memory responses in the input register of caches that are
still initialising. Proof device; not in the source. -/
structure Shadow (S T : Sys ι p) : Prop where
  cache : ∀ k, S.cache k = T.cache k ∨ (PInit (T.cache k) ∧ T.reqQ k = [] ∧ T.respQ k = [] ∧
    ∃ b, S.cache k = (T.cache k).withEn b)
  reqQ : S.reqQ = T.reqQ
  respQ : S.respQ = T.respQ
  mem : S.mem = T.mem

/-- A cache that is still initialising: what one clock edge does. Proof device; not in the source. -/
structure QuietEdge (c : St p) (b : Bool) (i : In p) : Prop where
  noReq : ((c.withEn b).out i).reqRdy = false
  noMem : ((c.withEn b).out i).mreqEn = false
  noResp : ((c.withEn b).out i).respEn = false
  noMem' : (c.out (c.shadowIn b i)).mreqEn = false
  noResp' : (c.out (c.shadowIn b i)).respEn = false
  next : (c.withEn b).next i = (c.next (c.shadowIn b i)).withEn i.mrespEn

theorem quietEdge {c : St p} (h : PInit c) (b : Bool) (i : In p) : QuietEdge c b i := by
  have e := out_withEn c b i (c.shadowIn b i) rfl rfl
  have h1 := step_init (U := True) c (c.shadowIn b i) rfl h
  have hs := h1.silent
  have hr : (c.out (c.shadowIn b i)).reqRdy = false := h1.notReady
  have hm : (c.out (c.shadowIn b i)).mreqEn = false := by
    cases hx : (c.out (c.shadowIn b i)).mreqEn
    · rfl
    · simp [Out.msgs, hx] at hs
  have hp : (c.out (c.shadowIn b i)).respEn = false := by
    cases hx : (c.out (c.shadowIn b i)).respEn
    · rfl
    · simp [Out.msgs, hx] at hs
  exact ⟨by rw [e]; exact hr, by rw [e]; exact hm, by rw [e]; exact hp, hm, hp,
    by rw [next_withEn h b i, h.noStall]; rfl⟩

theorem upd_id {α : Type} {f : ι → α} {k : ι} {a : α} (h : a = f k) : upd f k a = f := by
  funext k'; simp only [upd]; split
  · subst_vars; rfl
  · rfl

/-- A step of the system is a step of its shadow with the same events. -/
theorem Shadow.step {S S' T : Sys ι p} {ev : List (Ev ι p)} (h : Shadow S T) (hs : Step S ev S') :
    ∃ T', Step T ev T' ∧ Shadow S' T' := by
  cases hs with
  | exec k m ms hm =>
    refine ⟨T.exec k m, ?_, ?_⟩
    · rw [h.mem]; exact .exec T k m ms (by rw [← h.reqQ]; exact hm)
    · refine ⟨?_, ?_, ?_, ?_⟩
      · intro k'
        rcases h.cache k' with h1 | ⟨h1, h2, h3, h4⟩
        · exact .inl h1
        · refine .inr ⟨h1, ?_, ?_, h4⟩
          · simp only [Sys.exec, upd]; split
            · subst_vars; rw [h2]; rfl
            · exact h2
          · simp only [Sys.exec, upd]; split
            · subst_vars; rw [h.reqQ, h2] at hm; simp at hm
            · exact h3
      · simp only [Sys.exec, h.reqQ]
      · simp only [Sys.exec, h.respQ, h.mem]
      · simp only [Sys.exec, h.mem]
  | clock k i hc =>
    rcases h.cache k with h1 | ⟨h1, h2, h3, b, h4⟩
    · refine ⟨T.clock k i, ?_, ?_⟩
      · have : S.clockEvs k i = T.clockEvs k i := by simp only [Sys.clockEvs, h1]
        rw [this]
        exact .clock T k i ⟨hc.noReset, by rw [← h1]; exact hc.req, by rw [← h.respQ]; exact hc.mem⟩
      · refine ⟨?_, ?_, ?_, h.mem⟩
        · intro k'
          by_cases hk : k' = k
          · subst hk; left; simp only [Sys.clock, upd_same, h1]
          · rcases h.cache k' with g1 | ⟨g1, g2, g3, g4⟩
            · left; simp only [Sys.clock, upd_other _ hk, g1]
            · right; simp only [Sys.clock, upd_other _ hk]; exact ⟨g1, g2, g3, g4⟩
        · simp only [Sys.clock, h.reqQ, h1]
        · simp only [Sys.clock, h.respQ]
    · have q := quietEdge h1 b i
      have hme : i.mrespEn = false := by
        cases hx : i.mrespEn
        · rfl
        · obtain ⟨l, hl⟩ := hc.mem hx
          rw [h.respQ, h3] at hl; simp at hl
      have hre : i.reqEn = false := by
        cases hx : i.reqEn
        · rfl
        · have := (hc.req hx).1; rw [h4, q.noReq] at this; simp at this
      refine ⟨T.clock k ((T.cache k).shadowIn b i), ?_, ?_⟩
      · have : S.clockEvs k i = T.clockEvs k ((T.cache k).shadowIn b i) := by
          have hre' : ((T.cache k).shadowIn b i).reqEn = false := rfl
          simp only [Sys.clockEvs]
          rw [h4, q.noMem, q.noResp, q.noMem', q.noResp', hre, hre']; rfl
        rw [this]
        exact .clock T k _ ⟨hc.noReset, fun hx => by simp [St.shadowIn] at hx, fun hx => by simp [St.shadowIn] at hx⟩
      · refine ⟨?_, ?_, ?_, h.mem⟩
        · intro k'
          by_cases hk : k' = k
          · subst hk; left
            have e1 : (S.cache k').step i = (S.cache k').next i := by simp [St.step, hc.noReset]
            have e2 : (T.cache k').step ((T.cache k').shadowIn b i) = (T.cache k').next ((T.cache k').shadowIn b i) := by
              simp [St.step, St.shadowIn, hc.noReset]
            simp only [Sys.clock, upd_same, e1, e2]
            rw [h4, q.next, hme, St.withEn_self]
            simp only [St.next]
            rw [h1.noStall]; rfl
          · rcases h.cache k' with g1 | ⟨g1, g2, g3, g4⟩
            · left; simp only [Sys.clock, upd_other _ hk, g1]
            · right; simp only [Sys.clock, upd_other _ hk]; exact ⟨g1, g2, g3, g4⟩
        · simp only [Sys.clock]
          rw [h4, q.noMem, q.noMem', h.reqQ]; rfl
        · simp only [Sys.clock, h.respQ, hme]; rfl

theorem Shadow.run {S S' T : Sys ι p} {tr : List (Ev ι p)} (h : Shadow S T) (hr : Run S tr S') :
    ∃ T', Run T tr T' ∧ Shadow S' T' := by
  induction hr with
  | refl => exact ⟨T, .refl _, h⟩
  | snoc _ hs ih =>
    obtain ⟨T1, r1, s1⟩ := ih
    obtain ⟨T2, r2, s2⟩ := s1.step hs
    exact ⟨T2, r1.snoc r2, s2⟩

/-! ## The drain -/

/-- The system as reset, with empty ports and another memory. Proof device; not in the source. -/
def Sys.emptied (S : Sys ι p) (M : ByteMem) : Sys ι p := ⟨S.cache, fun _ => [], fun _ => [], M⟩

theorem StaleStart.emptied {S : Sys ι p} (h : StaleStart S) (M : ByteMem) : Start (S.emptied M) :=
  ⟨h, fun _ => rfl, fun _ => rfl⟩

/-- During the drain the system with empty ports runs along, silently. Proof device; not in the source. -/
structure Drained (S : Sys ι p) (M : ByteMem) (n : ι → Nat) (S' : Sys ι p) (T : Sys ι p) : Prop where
  run : Run (S.emptied M) [] T
  mem : T.mem = M
  reqQ : T.reqQ = fun _ => []
  respQ : T.respQ = fun _ => []
  init : ∀ k, PInit (T.cache k)
  cnt : ∀ k, (T.cache k).cnt.toNat + n k + 1 = p.nLines
  cache : ∀ k, ∃ b, S'.cache k = (T.cache k).withEn b

theorem drained {S S' : Sys ι p} {n : ι → Nat} (h0 : StaleStart S) (M : ByteMem) (h : Drain S n S') :
    ∃ T, Drained S M n S' T := by
  induction h with
  | refl =>
    refine ⟨S.emptied M, .refl _, rfl, rfl, rfl, ?_, ?_, ?_⟩
    · intro k; obtain ⟨s, i, h1, h2⟩ := h0 k
      simp only [Sys.emptied]; rw [h2]; exact reset_PInit s i h1
    · intro k; obtain ⟨s, i, h1, h2⟩ := h0 k
      have : (S.cache k).cnt = cntMax p := by rw [h2]; simp only [St.step, h1]; rfl
      simp only [Sys.emptied, this, cntMax_toNat, nLines_eq]
      have := Nat.two_pow_pos p.cntBits; omega
    · intro k; obtain ⟨s, i, h1, h2⟩ := h0 k
      refine ⟨false, ?_⟩
      simp only [Sys.emptied]
      rw [St.withEn_self]; rw [h2]; exact (reset_PInit s i h1).mem
  | exec h k m ms hm ih =>
    obtain ⟨T, t⟩ := ih
    exact ⟨T, t.run, t.mem, t.reqQ, t.respQ, t.init, t.cnt, t.cache⟩
  | clock h k i hc hn ih =>
    obtain ⟨T, t⟩ := ih
    obtain ⟨b, hb⟩ := t.cache k
    have q := quietEdge (t.init k) b i
    have hst : ((T.cache k).shadowIn b i).reset = false := hc.noReset
    have hcl : T.CanClock k ((T.cache k).shadowIn b i) :=
      ⟨hst, fun hx => by simp [St.shadowIn] at hx, fun hx => by simp [St.shadowIn] at hx⟩
    have hev : T.clockEvs k ((T.cache k).shadowIn b i) = [] := by
      have hre' : ((T.cache k).shadowIn b i).reqEn = false := rfl
      simp only [Sys.clockEvs]
      rw [q.noMem', q.noResp', hre']; rfl
    have hnx : (T.cache k).step ((T.cache k).shadowIn b i) = (T.cache k).next ((T.cache k).shadowIn b i) := by
      simp [St.step, hst]
    refine ⟨T.clock k ((T.cache k).shadowIn b i), ?_, t.mem, ?_, ?_, ?_, ?_, ?_⟩
    · have := t.run.snoc (.clock T k _ hcl)
      rw [hev] at this; exact this
    · simp only [Sys.clock]
      rw [q.noMem', t.reqQ]; exact upd_id rfl
    · simp only [Sys.clock]
      rw [t.respQ]; exact upd_id rfl
    · intro k'
      by_cases hk : k' = k
      · subst hk
        simp only [Sys.clock, upd_same, hnx]
        rcases (step_init (U := True) _ ((T.cache k').shadowIn b i) rfl (t.init k')).next with g | g
        · exact g.1
        · have := t.cnt k'
          rw [g.1] at this; simp at this; omega
      · simp only [Sys.clock, upd_other _ hk]; exact t.init k'
    · intro k'
      by_cases hk : k' = k
      · subst hk
        simp only [Sys.clock, upd_same, hnx]
        rcases (step_init (U := True) _ ((T.cache k').shadowIn b i) rfl (t.init k')).next with g | g
        · have h1 := t.cnt k'
          have h2 : ((T.cache k').next ((T.cache k').shadowIn b i)).cnt.toNat = (T.cache k').cnt.toNat - 1 := by
            rw [g.2.2]; exact sub_one_toNat _ g.2.1
          have h3 : (T.cache k').cnt.toNat ≠ 0 := fun hx => g.2.1 (BitVec.eq_of_toNat_eq (by simpa using hx))
          rw [h2]; omega
        · have := t.cnt k'
          rw [g.1] at this; simp at this; omega
      · simp only [Sys.clock, upd_other _ hk]; exact t.cnt k'
    · intro k'
      by_cases hk : k' = k
      · subst hk
        refine ⟨i.mrespEn, ?_⟩
        have e1 : (S.cache k').step i = (S.cache k').next i := by simp [St.step, hc.noReset]
        simp only [Sys.clock, upd_same, hnx]
        rw [hb, St.step, hc.noReset]
        exact q.next
      · simp only [Sys.clock, upd_other _ hk]; exact t.cache k'

end Verif
