import Verif.Blocking
import Verif.PropsSingle

/-!
# Properties of reachable states: initialisation, blocking, MSHR, ways
-/

namespace Verif
variable {p : Params} {ι : Type} [DecidableEq ι]

/-! ## C17 -/

theorem PhU.uniqTags {s : St p} {L : L1 p} {rest : List (Msg p)} {O : List MType} (hok : L.Ok)
    (h : Ph s L rest O) : UniqF s.tagRam := by
  cases h with
  | flow h => exact h.arr.tags.uniq hok.uniq
  | req L0 q h => exact h.tags.elim (·.uniq (h.full trivial).uniq) (·.uniq hok.uniq)
  | pass2 q h => exact h.tags.uniq hok.uniq
  | wait h => exact h.arr.tags.uniq hok.uniq
  | ans L0 h => exact h.arr.tags.uniq (h.ok.full trivial).uniq
  | refill L0 q w d h =>
    refine h.tags.uniq ((h.ok.full trivial).uniq.setAt _ _ _ ?_)
    intro w' hw' hne hp _
    have := (h.ok.full trivial).pend
    rw [h.cur] at this
    exact this w' hw' hne hp
  | inv0 q h => exact h.uq trivial
  | inv1 q h => exact h.uq trivial
  | inv2 q h => exact h.uq trivial
  | fl0 L0 q h => exact h.tags.uniq (h.uq trivial)
  | fl1 L0 q c h => exact h.tags.uniq (h.uq trivial)
  | fl2 L0 q c h => exact h.tags.uniq (h.uq trivial)
  | fl3 L0 q c h => exact h.tags.uniq (h.uq trivial)
  | ini hU _ => exact absurd trivial hU

/-- **C17.**  Once initialisation is over, in every reachable state no two ways of
a set hold (validly, or because of dirty words) the same tag. -/
theorem C17_line_in_one_way (wf : p.WF) {S S' : Sys ι p} {tr : List (Ev ι p)} (h0 : Start S)
    (h : Run S tr S') (k : ι) (hf : (S'.cache k).fsm ≠ .init) (w w' : Way) (hw : w ∈ p.ways)
    (hw' : w' ∈ p.ways) (j : Idx p)
    (h1 : ((S'.cache k).tagRam w j).val = true ∨ ((S'.cache k).tagRam w j).dty ≠ 0)
    (h2 : ((S'.cache k).tagRam w' j).val = true ∨ ((S'.cache k).tagRam w' j).dty ≠ 0)
    (ht : ((S'.cache k).tagRam w j).tag = ((S'.cache k).tagRam w' j).tag) : w = w' := by
  obtain ⟨T, _, hr⟩ := refine wf h0 h
  have hu : UniqF (S'.cache k).tagRam := by
    have hc := hr.cache k
    generalize outTys (S'.respQ k) (S'.reqQ k) = O at hc
    cases hc with
    | init h => exact absurd h.fsm hf
    | run L' he h =>
      obtain ⟨hok, rest, hE, hph⟩ := h
      exact hph.uniqTags (hok.full trivial)
  exact hu w hw w' hw' j h1 h2 ht

/-! ## C16 -/

/-- The MSHR deallocation enable of a cycle, BlockingCacheCtrlRTL.py:399. -/
def St.deallocEn (s : St p) (i : In p) : Bool := (cs0 (s.trans0 i)).dealloc && !s.stall i

/-- **C16.**  In every reachable state and for every input the protocol allows:
the MSHR is allocated only when empty and deallocated only when full, never both
in one cycle, its occupancy counts exactly, and a pending entry is not
overwritten. -/
theorem C16_mshr_occupancy (wf : p.WF) {S S' : Sys ι p} {tr : List (Ev ι p)} (h0 : Start S)
    (h : Run S tr S') (k : ι) (i : In p) (hi : S'.CanClock k i) :
    ((S'.cache k).allocEn i = true → (S'.cache k).mshrNum = 0) ∧
    ((S'.cache k).deallocEn i = true → (S'.cache k).mshrNum = 1) ∧
    ¬ ((S'.cache k).allocEn i = true ∧ (S'.cache k).deallocEn i = true) ∧
    (((S'.cache k).step i).mshrNum.toNat + ((S'.cache k).deallocEn i).toNat =
      (S'.cache k).mshrNum.toNat + ((S'.cache k).allocEn i).toNat) ∧
    ((S'.cache k).mshrNum = 1 → ((S'.cache k).step i).mshr = (S'.cache k).mshr) := by
  obtain ⟨T, _, hr⟩ := refine wf h0 h
  have hc := hr.cache k
  have ha : (S'.cache k).allocEn i = true → (S'.cache k).mshrNum = 0 := by
    intro ha
    simp only [St.allocEn, Bool.and_eq_true] at ha
    exact hc.alloc_empty ha.1
  have hd : (S'.cache k).deallocEn i = true → (S'.cache k).mshrNum = 1 := by
    intro hd
    simp only [St.deallocEn, Bool.and_eq_true] at hd
    exact dealloc_full _ _ hd.1
  have hs : (S'.cache k).step i = (S'.cache k).next i := by simp [St.step, hi.noReset]
  have hn : ((S'.cache k).next i).mshrNum =
      mshrNumNext ((S'.cache k).allocEn i) ((S'.cache k).deallocEn i) (S'.cache k).mshrNum := rfl
  have hm : ((S'.cache k).next i).mshr =
      if (S'.cache k).allocEn i then (S'.cache k).mshrIn else (S'.cache k).mshr := rfl
  rw [hs, hn, hm]
  refine ⟨ha, hd, ?_, ?_, ?_⟩
  · rintro ⟨h1, h2⟩
    have := ha h1; rw [hd h2] at this; cases this
  · cases h1 : (S'.cache k).allocEn i <;> cases h2 : (S'.cache k).deallocEn i
    · simp [mshrNumNext]
    · rw [hd h2]; rfl
    · rw [ha h1]; rfl
    · have := ha h1; rw [hd h2] at this; cases this
  · intro h1
    cases h2 : (S'.cache k).allocEn i
    · rfl
    · have := ha h2; rw [h1] at this; cases this

/-! ## C13 -/

theorem RIU.captured {s : St p} {L : L1 p} {E : List (Msg p)} {O : List MType} (h : RI s L E O)
    (hm : s.mrespEn0 = true) (hty : s.mresp0.ty ≠ MT.WRITE) (i : In p) :
    s.stall i = false ∧ (s.trans0 i = .refill ∨ s.trans0 i = .replayAmo) := by
  have hq : ∀ {O}, Quiet s O → False := fun h => by have := h.mem; rw [hm] at this; cases this
  cases h with
  | init h => have := h.mem; rw [hm] at this; cases this
  | run L' he h =>
    obtain ⟨hok, rest, hE, hph⟩ := h
    cases hph with
    | flow h => exact (hq h.quiet).elim
    | req L0 q h => exact (hq h.quiet).elim
    | pass2 q h => have := h.mem; rw [hm] at this; cases this
    | wait h => exact absurd (h.mem hm) hty
    | ans L0 h =>
      have hst : s.stall i = false := by
        simp [St.stall, St.cs1, h.t1, Verif.cs1, St.cs2, h.t2, Verif.cs2]
      refine ⟨hst, ?_⟩
      have hv : s.mrespVal0 = true := by simp [St.mrespVal0, hm, hty]
      have he : s.mshrEmpty = false := by simp [St.mshrEmpty, mshrEmpty, h.num]
      have hcl : s.status1.cleanHit = false := by simp [St.status1, h.t1]
      have hmo := h.mshr
      have hc := h.ok.wk.cur
      simp only [St.trans0, h.fsm, hcl, hv, he]
      cases hcu : L0.cur with
      | idle => rw [hcu] at hmo; exact hmo.elim
      | fill q w d =>
        rw [hcu] at hmo hc
        have hty : s.mshr.ty = q.ty := hmo.1
        left
        rcases hc.2 with hq | hq <;> simp [hty, hq]
      | amo q hh w =>
        rw [hcu] at hmo hc
        have hty : s.mshr.ty = q.ty := hmo.1
        right
        have h1 : q.ty ≠ MT.READ := by intro h; have h3 := hc.2; rw [h] at h3; exact absurd h3 (by decide)
        have h2 : q.ty ≠ MT.WRITE := by intro h; have h3 := hc.2; rw [h] at h3; exact absurd h3 (by decide)
        have h3 := hc.2
        simp [hty, h1, h2, h3]
    | refill L0 q w d h => have := h.mem; rw [hm] at this; cases this
    | inv0 q h => exact (hq h.quiet).elim
    | inv1 q h => exact (hq h.quiet).elim
    | inv2 q h => exact (hq h.quiet).elim
    | fl0 L0 q h => exact (hq h.quiet).elim
    | fl1 L0 q c h => exact (hq h.quiet).elim
    | fl2 L0 q c h =>
      rcases h.out with ⟨h1, _⟩ | ⟨h1, _⟩ | ⟨_, h1, _⟩
      · rw [hm] at h1; cases h1
      · rw [hm] at h1; cases h1
      · exact absurd h1 hty
    | fl3 L0 q c h => exact (hq h.quiet).elim
    | ini hU _ => exact absurd trivial hU

theorem stall_mresp (s : St p) (i : In p) (b : Bool) : s.stall { i with mrespEn := b } = s.stall i := rfl

theorem next_stall_mresp (s : St p) (i : In p) (h : s.stall i = true) :
    s.next { i with mrespEn := false } = s.next i := by
  have h' : s.stall { i with mrespEn := false } = true := h
  unfold St.next
  simp only [h, h']
  rfl

theorem Rel.legal {S : Sys ι p} {T : ESys ι p} {k : ι} {i : In p} (_hr : Rel S T) (hc : S.CanClock k i) :
    Legal (S.cache k) (outTys (S.respQ k) (S.reqQ k)) i := by
  refine ⟨hc.noReset, fun h => ⟨(hc.req h).1, fun _ => (hc.req h).2⟩, fun hm => ?_⟩
  obtain ⟨l, hl⟩ := hc.mem hm
  exact ⟨outTys l (S.reqQ k), by rw [hl]; rfl⟩

/-- **C13.**  Every memory response that is delivered is either captured in the
input register (and, unless it acknowledges a write, the cache does not stall in
the next cycle and starts the refill or the AMO replay with it), or it
acknowledges the eviction of a read, write or AMO that is still unanswered, and
the cycle behaves exactly as if the acknowledgement had not been delivered. -/
theorem C13_no_needed_response_lost (wf : p.WF) {S S' : Sys ι p} {tr : List (Ev ι p)} (h0 : Start S)
    (h : Run S tr S') (k : ι) (i : In p) (hi : S'.CanClock k i) (hm : i.mrespEn = true) :
    (((S'.cache k).step i).mrespEn0 = true ∧ ((S'.cache k).step i).mresp0 = i.mresp ∧
      (i.mresp.ty ≠ MT.WRITE → ∀ i', ((S'.cache k).step i).stall i' = false ∧
        (((S'.cache k).step i).trans0 i' = .refill ∨ ((S'.cache k).step i).trans0 i' = .replayAmo))) ∨
    (i.mresp.ty = MT.WRITE ∧
      (∃ q, (accepted k tr).getLast? = some q ∧ (q.ty = MT.READ ∨ q.ty = MT.WRITE ∨ MT.isAmo q.ty = true) ∧
        (responses k tr).length < (accepted k tr).length) ∧
      (S'.cache k).step i = (S'.cache k).step { i with mrespEn := false } ∧
      (S'.cache k).out i = (S'.cache k).out { i with mrespEn := false }) := by
  obtain ⟨T, he, hr⟩ := refine wf h0 h
  have hs : (S'.cache k).step i = (S'.cache k).next i := by simp [St.step, hi.noReset]
  cases hst : (S'.cache k).stall i
  · left
    have h1 : ((S'.cache k).next i).mrespEn0 = true := by
      show (if !(S'.cache k).stall i then i.mrespEn else _) = true
      rw [hst, hm]; rfl
    have h2 : ((S'.cache k).next i).mresp0 = i.mresp := by
      show (if !(S'.cache k).stall i then i.mresp else _) = _
      rw [hst]; rfl
    rw [hs]
    refine ⟨h1, h2, fun hty i' => ?_⟩
    obtain ⟨T', _, hr'⟩ := refine_clock wf hr hi
    have hc' := hr'.cache k
    simp only [Sys.clock, upd_same, hs] at hc'
    exact hc'.captured h1 (by rw [h2]; exact hty) i'
  · right
    obtain ⟨h1, h2⟩ := (hr.cache k).drop (hr.legal hi) hm hst
    refine ⟨h1, ?_, ?_, rfl⟩
    · obtain ⟨q, h3, h4⟩ := cur_last he k h2
      rw [accepted_canon] at h3
      refine ⟨q, h3, ?_, ?_⟩
      · have hok : (T.L k).Ok := (EInv.run he k).ok
        have := hok.cur
        rcases h4 with ⟨w, d, h4⟩ | ⟨a, w, h4⟩ <;> rw [h4] at this
        · exact this.2.elim .inl fun h => .inr (.inl h)
        · exact .inr (.inr this.2)
      · have ho := owed he k
        rw [accepted_canon, responses_canon] at ho
        have : (T.L k).cur.pend = 1 := by
          rcases h4 with ⟨w, d, h4⟩ | ⟨a, w, h4⟩ <;> rw [h4] <;> rfl
        omega
    · simp only [St.step, hi.noReset]
      exact (next_stall_mresp _ _ hst).symm

/-! ## C06 -/

/-- **C06 (a).**  A ready cache has nothing outstanding at memory. -/
theorem C06_ready_nothing_outstanding (wf : p.WF) {S S' : Sys ι p} {tr : List (Ev ι p)} (h0 : Start S)
    (h : Run S tr S') (k : ι) (i : In p) (hr : ((S'.cache k).out i).reqRdy = true) :
    S'.reqQ k = [] ∧ S'.respQ k = [] := by
  obtain ⟨T, _, hrel⟩ := refine wf h0 h
  have := outTys_nil ((hrel.cache k).ready hr).2.2
  exact ⟨this.2, this.1⟩

/-- **C06 (b).**  A ready cache sends nothing to memory for the requests accepted
so far: whatever happens next, it sends nothing before it accepts another
request. -/
theorem C06_ready_then_silent (wf : p.WF) {S S' S'' : Sys ι p} {tr tr' : List (Ev ι p)} (h0 : Start S)
    (h : Run S tr S') (k : ι) (i : In p) (hr : ((S'.cache k).out i).reqRdy = true)
    (h' : Run S' tr' S'') (ha : accepted k tr' = []) : sent k tr' = [] := by
  obtain ⟨T, _, hrel⟩ := refine wf h0 h
  obtain ⟨hc, hE, _⟩ := (hrel.cache k).ready hr
  obtain ⟨T', h1, _⟩ := refine_from wf hrel h'
  have := (idle_silent h1 hc hE (by rw [accepted_canon]; exact ha)).1
  rw [sent_canon] at this
  simpa using this

/-- **C06 (c).**  At any time the memory requests a cache has sent and whose
responses it has not received are none, one, or a write-back followed by one
other request. -/
theorem C06_at_most_one_outstanding (wf : p.WF) {S S' : Sys ι p} {tr : List (Ev ι p)} (h0 : Start S)
    (h : Run S tr S') (k : ι) :
    let O := (S'.respQ k).map (·.ty) ++ (S'.reqQ k).map (·.ty)
    O = [] ∨ (∃ t, O = [t]) ∨ ∃ t, O = [MT.WRITE, t] := by
  obtain ⟨T, _, hrel⟩ := refine wf h0 h
  exact (hrel.cache k).outstanding

/-- **C06 (d).**  At most two accepted requests are unanswered. -/
theorem C06_at_most_two_unanswered (wf : p.WF) {S S' : Sys ι p} {tr : List (Ev ι p)} (h0 : Start S)
    (h : Run S tr S') (k : ι) :
    (responses k tr).length ≤ (accepted k tr).length ∧
    (accepted k tr).length ≤ (responses k tr).length + 2 := by
  obtain ⟨T, he, hrel⟩ := refine wf h0 h
  have ho := owed he k
  rw [accepted_canon, responses_canon] at ho
  have := (hrel.cache k).two
  omega

theorem responses_clockEvs (S : Sys ι p) (k : ι) (i : In p) :
    (responses k (S.clockEvs k i)).length = nResp ((S.cache k).out i).msgs := by
  simp only [Sys.clockEvs, responses_append, Out.msgs, nResp_append]
  cases i.reqEn <;> cases ((S.cache k).out i).mreqEn <;> cases ((S.cache k).out i).respEn <;>
    simp [responses]

/-- **C06 (e).**  The responses of all requests accepted before a cycle in which
the cache is ready come out within two cycles: if the cache is ready and no
request is given to it in that cycle and the next, with both output ports ready,
then every accepted request has been answered. -/
theorem C06_ready_answers_in_two_cycles (wf : p.WF) {S S' : Sys ι p} {tr : List (Ev ι p)} (h0 : Start S)
    (h : Run S tr S') (k : ι) (i₁ i₂ : In p) (hr : ((S'.cache k).out i₁).reqRdy = true)
    (r₁ : i₁.reqEn = false) (r₂ : i₂.reqEn = false)
    (a₁ : i₁.respRdy = true) (b₁ : i₁.mreqRdy = true) (a₂ : i₂.respRdy = true) (b₂ : i₂.mreqRdy = true)
    (c₁ : S'.CanClock k i₁) (_c₂ : (S'.clock k i₁).CanClock k i₂) :
    let tr' := tr ++ S'.clockEvs k i₁ ++ (S'.clock k i₁).clockEvs k i₂
    (responses k tr').length = (accepted k tr').length := by
  obtain ⟨T, he, hrel⟩ := refine wf h0 h
  have ho := owed he k
  rw [accepted_canon, responses_canon] at ho
  have hRI := hrel.cache k
  obtain ⟨hc, _, _⟩ := hRI.ready hr
  have hp : (T.L k).cur.pend = 0 := by rw [hc]; rfl
  rw [hRI.ready_adv hr, hp, nResp_append] at ho
  have e1 := ostall_ready (S'.cache k) i₁ b₁ a₁
  have e2 := ostall_ready ((S'.clock k i₁).cache k) i₂ b₂ a₂
  have hs : (S'.clock k i₁).cache k = (S'.cache k).next i₁ := by
    simp [Sys.clock, St.step, c₁.noReset]
  have g1 := responses_clockEvs S' k i₁
  have g2 := responses_clockEvs (S'.clock k i₁) k i₂
  rw [out_msgs_adv _ _ e1] at g1
  rw [out_msgs_adv _ _ e2, hs, next_slot_adv _ _ e1] at g2
  have k1 : accepted k (S'.clockEvs k i₁) = [] := by
    simp only [Sys.clockEvs, accepted_append, r₁]
    cases ((S'.cache k).out i₁).mreqEn <;> cases ((S'.cache k).out i₁).respEn <;> simp [accepted]
  have k2 : accepted k ((S'.clock k i₁).clockEvs k i₂) = [] := by
    simp only [Sys.clockEvs, accepted_append, r₂]
    cases (((S'.clock k i₁).cache k).out i₂).mreqEn <;> cases (((S'.clock k i₁).cache k).out i₂).respEn <;>
      simp [accepted]
  simp only [responses_append, accepted_append, List.length_append, g1, g2, k1, k2, List.length_nil]
  omega

/-! ## C04 -/

theorem init_last (s : St p) (i : In p) (h : PInit s) (hc : s.cnt = 0) :
    (s.next i).fsm = .ready ∧ (s.next i).t1 = .cacheInit ∧ blocking (s.next i).t2 = false ∧
    (s.next i).mshrNum = 0 := by
  have hst1 : s.status1 = ⟨false, false, false, false, false, false⟩ := by
    rcases h.t1 with ⟨h1, _⟩ | ⟨h1, _⟩ <;> simp [St.status1, h1]
  have hcs : s.cs1.ostall = false ∧ s.cs1.alloc = false := by
    rcases h.t1 with ⟨h1, _⟩ | ⟨h1, _⟩ <;> simp [St.cs1, h1, cs1]
  have ho := ostall_nonblocking s i h.t2
  have hst : s.stall i = false := by simp [St.stall, ho, hcs]
  have hT : s.trans0 i = .cacheInit := by simp [St.trans0, h.fsm]
  refine ⟨?_, ?_, ?_, ?_⟩
  · simp [St.next, hst, St.fsmNext, h.fsm, hc]
  · simp [St.next, hT]
  · have hcen : (((!(s.cs2 i).ostall && (s.t1 != Trans.cacheInit)) || (s.t1 == Trans.cacheInit))) = true := by
      cases h : (s.t1 == Trans.cacheInit) <;> simp [ho, bne, h]
    have g2 : (s.next i).t2 = s.t1 := by simp only [St.next]; rw [hcen]; simp
    rw [g2]
    rcases h.t1 with ⟨h1, _⟩ | ⟨h1, _⟩ <;> rw [h1] <;> rfl
  · simp [St.next, St.allocEn, hcs, hT, cs0, mshrNumNext, h.num]

theorem init_ready (s : St p) (i : In p) (hf : s.fsm = .ready) (h1 : s.t1 = .cacheInit)
    (h2 : blocking s.t2 = false) (hn : s.mshrNum = 0) : s.reqRdy i = true := by
  have ho := ostall_nonblocking s i h2
  simp [St.reqRdy, hf, St.status1, h1, St.stall, ho, St.cs1, cs1, St.mshrEmpty, mshrEmpty, hn,
    mshrFull, St.allocEn]

/-- Number of lines (sets times ways). -/
def Params.nLines (p : Params) : Nat := p.ways.length * 2 ^ p.idxBits

theorem nLines_eq (p : Params) : p.nLines = 2 ^ p.cntBits := by
  simp only [Params.nLines, Params.cntBits, Params.ways, Params.wayBits]
  split <;> simp [Nat.pow_add, Nat.mul_comm]

/-- The cache after a list of clock edges. Proof device; not in the source. -/
def St.steps (s : St p) (is : List (In p)) : St p := is.foldl St.step s

theorem init_run (s : St p) (is : List (In p)) (hi : ∀ i ∈ is, i.reset = false ∧ i.mrespEn = false)
    (h : PInit s) (hl : is.length ≤ s.cnt.toNat) :
    PInit (s.steps is) ∧ (s.steps is).cnt.toNat = s.cnt.toNat - is.length := by
  induction is generalizing s with
  | nil => exact ⟨h, rfl⟩
  | cons i is ih =>
    have h1 := hi i (by simp)
    have hs : s.step i = s.next i := by simp [St.step, h1.1]
    simp only [List.length_cons] at hl
    rcases (step_init (U := True) s i h1.2 h).next with ⟨g1, g2, g3⟩ | ⟨g1, _⟩
    · have hc : (s.next i).cnt.toNat = s.cnt.toNat - 1 := by
        rw [g3, BitVec.toNat_sub]
        have := s.cnt.isLt
        have h2 : (1 : BitVec p.cntBits).toNat = 1 := by
          rcases Nat.eq_zero_or_pos p.cntBits with hz | hz
          · exfalso
            have e : 2 ^ p.cntBits = 1 := by simp [hz]
            omega
          · show (1 % 2 ^ p.cntBits) = 1
            exact Nat.mod_eq_of_lt (by have := Nat.one_lt_two_pow (by omega : p.cntBits ≠ 0); omega)
        have e : 2 ^ p.cntBits - 1 + s.cnt.toNat = 2 ^ p.cntBits + (s.cnt.toNat - 1) := by omega
        rw [h2, e, Nat.add_mod_left]
        exact Nat.mod_eq_of_lt (by omega)
      have := ih (s.next i) (fun j hj => hi j (by simp [hj])) g1 (by omega)
      simp only [St.steps, List.foldl_cons, hs] at this ⊢
      refine ⟨this.1, ?_⟩
      rw [this.2, hc, List.length_cons]; omega
    · rw [g1] at hl; simp at hl

/-- **C04.**  After a clock edge with reset (from any state), with no memory
response arriving: for fewer than `nLines` further edges the cache is not ready
and sends nothing; after exactly `nLines` edges it is ready and no entry of the
tag arrays is valid or dirty, whatever they contained. -/
theorem C04_initialisation (s : St p) (i₀ : In p) (h0 : i₀.reset = true) (is : List (In p))
    (hi : ∀ i ∈ is, i.reset = false ∧ i.mrespEn = false) :
    (is.length < p.nLines → ∀ i, i.mrespEn = false →
      (((s.step i₀).steps is).out i).reqRdy = false ∧ (((s.step i₀).steps is).out i).respEn = false ∧
      (((s.step i₀).steps is).out i).mreqEn = false) ∧
    (is.length = p.nLines →
      (∀ i, (((s.step i₀).steps is).out i).reqRdy = true) ∧
      ∀ w ∈ p.ways, ∀ j, (((s.step i₀).steps is).tagRam w j).val = false ∧
        (((s.step i₀).steps is).tagRam w j).dty = 0) := by
  have hp := reset_PInit s i₀ h0
  have hcnt : (s.step i₀).cnt.toNat = 2 ^ p.cntBits - 1 := by
    have : (s.step i₀).cnt = cntMax p := by simp [St.step, h0]; rfl
    rw [this, cntMax_toNat]
  have hpos := Nat.two_pow_pos p.cntBits
  rw [nLines_eq]
  constructor
  · intro hl i hme
    have h1 := (init_run _ is hi hp (by omega)).1
    have h2 := step_init (U := True) _ i hme h1
    refine ⟨h2.notReady, ?_⟩
    have h3 := h2.silent
    simp only [Out.msgs] at h3
    constructor
    · cases hx : (((s.step i₀).steps is).out i).respEn
      · rfl
      · rw [hx] at h3; simp at h3
    · cases hx : (((s.step i₀).steps is).out i).mreqEn
      · rfl
      · rw [hx] at h3; simp at h3
  · intro hl
    rcases List.eq_nil_or_concat is with rfl | ⟨is', i, rfl⟩
    · simp at hl
      omega
    · simp only [List.concat_eq_append] at hi hl ⊢
      rw [List.length_append] at hl
      simp only [List.length_singleton] at hl
      have h1 := init_run _ is' (fun j hj => hi j (by simp [hj])) hp (by omega)
      have hii := hi i (by simp)
      have hs : (s.step i₀).steps (is' ++ [i]) = ((s.step i₀).steps is').next i := by
        simp [St.steps, List.foldl_append, St.step, hii.1]
      have hz : ((s.step i₀).steps is').cnt = 0 := by
        apply BitVec.eq_of_toNat_eq
        rw [h1.2, hcnt]; simp; omega
      obtain ⟨f1, f2, f3, f4⟩ := init_last _ i h1.1 hz
      rw [hs]
      refine ⟨fun i' => init_ready _ i' f1 f2 f3 f4, ?_⟩
      rcases (step_init (U := True) _ i hii.2 h1.1).next with ⟨_, g2, _⟩ | ⟨_, L, hL, hR⟩
      · exact absurd hz g2
      · obtain ⟨hok, rest, hE, hph⟩ := hR
        have : TagsAre (((s.step i₀).steps is').next i) L.ent := by
          have rt : ∀ t, reqTrans t ≠ .cacheInit := by
            intro t; simp only [reqTrans]; split
            · simp
            · split <;> simp
          cases hph with
          | flow h => exact h.arr.tags
          | req L0 q h => exact absurd (h.t1.symm.trans f2) (rt _)
          | pass2 q h => exact absurd (h.t1.symm.trans f2) (rt _)
          | wait h => have := h.t1; rw [f2] at this; cases this
          | ans L0 h => have := h.t1; rw [f2] at this; cases this
          | refill L0 q w d h => have := h.t1; rw [f2] at this; cases this
          | inv0 q h => have := h.t1; rw [f2] at this; cases this
          | inv1 q h => have := h.t1; rw [f2] at this; cases this
          | inv2 q h => have := h.t1; rw [f2] at this; cases this
          | fl0 L0 q h => have := h.t1; rw [f2] at this; cases this
          | fl1 L0 q c h => have := h.t1; rw [f2] at this; cases this
          | fl2 L0 q c h => have := h.t1; rw [f2] at this; cases this
          | fl3 L0 q c h => have := h.t1; rw [f2] at this; cases this
          | ini hU _ => exact absurd trivial hU
        intro w hw j
        rw [this w hw j]
        exact ⟨hL.val w hw j, hL.dty w hw j⟩

/-! ## Concrete cases -/

namespace Ex
/-- One way, two sets, two words per line, 2-bit tags, 32-bit data. -/
def pd : Params := ⟨1, 2, 1, 2, 1, false⟩

theorem pd_wf : pd.WF := ⟨by decide, by decide, by decide, by decide⟩

/-- A write and a conflicting read that evicts the written line. -/
def conflict : List (CReq pd) := [⟨MT.WRITE, 1, ⟨0, 0, 4⟩, 1, 0xab⟩, ⟨MT.READ, 0, ⟨1, 0, 4⟩, 0, 0⟩]

/-- Proof device; not in the source. -/
def crun (n : Nat) : Sys Unit pd × List (Ev Unit pd) := drive n (start0 pd) conflict

theorem crunRun (n : Nat) : Run (start0 pd) (crun n).2 (crun n).1 := drive_run _ _ _

/-- No request; memory port as given; optionally a memory response. Proof device; not in the source. -/
def mIn (mrdy : Bool) (r : Option (MResp pd)) : In pd :=
  ⟨false, false, default, true, mrdy, r.isSome, r.getD default⟩

/-- Two reads of different lines of one set of a two-way cache. -/
def two : List (CReq p0) := [⟨MT.READ, 1, ⟨0, 0, 4⟩, 1, 0⟩, ⟨MT.READ, 0, ⟨1, 0, 4⟩, 0, 0⟩]
end Ex

set_option maxRecDepth 10000 in
/-- C17: a reachable state in which both ways of a set hold a valid line. -/
example : ∃ (S S' : Sys Unit p0) (tr : List (Ev Unit p0)), Start S ∧ Run S tr S' ∧
    (S'.cache ()).fsm ≠ .init ∧ ((S'.cache ()).tagRam false 0).val = true ∧
    ((S'.cache ()).tagRam true 0).val = true ∧
    ((S'.cache ()).tagRam false 0).tag ≠ ((S'.cache ()).tagRam true 0).tag :=
  ⟨_, _, _, start0_start p0, drive_run 22 (start0 p0) Ex.two, by decide, by decide, by decide, by decide⟩

set_option maxRecDepth 10000 in
/-- C16: reachable cycles with an allocation and with a deallocation. -/
example : ∃ (S S₁ S₂ : Sys Unit Ex.pd) (tr₁ tr₂ : List (Ev Unit Ex.pd)) (i : In Ex.pd), Start S ∧ Run S tr₁ S₁ ∧
    Run S tr₂ S₂ ∧ S₁.CanClock () i ∧ S₂.CanClock () i ∧ (S₁.cache ()).allocEn i = true ∧
    (S₂.cache ()).deallocEn i = true :=
  ⟨_, _, _, _, _, Ex.mIn true none, start0_start Ex.pd, Ex.crunRun 3, Ex.crunRun 7,
    ⟨rfl, by simp [Ex.mIn], by simp [Ex.mIn]⟩, ⟨rfl, by simp [Ex.mIn], by simp [Ex.mIn]⟩, by decide, by decide⟩

set_option maxRecDepth 10000 in
/-- C13: a reachable cycle in which the response to a refill read is captured, and
one in which the acknowledgement of an eviction arrives during a stall. -/
example : ∃ (S S₁ S₂ : Sys Unit Ex.pd) (tr₁ tr₂ : List (Ev Unit Ex.pd)) (i₁ i₂ : In Ex.pd), Start S ∧
    Run S tr₁ S₁ ∧ Run S tr₂ S₂ ∧ S₁.CanClock () i₁ ∧ S₂.CanClock () i₂ ∧ i₁.mrespEn = true ∧
    i₂.mrespEn = true ∧ i₁.mresp.ty = MT.READ ∧ (S₁.cache ()).stall i₁ = false ∧
    i₂.mresp.ty = MT.WRITE ∧ (S₂.cache ()).stall i₂ = true := by
  have e1 : (Ex.crun 5).1.respQ () = [⟨MT.READ, 1, 0x0807060504030201⟩] := by decide
  have e2 : (Ex.crun 11).1.respQ () = [⟨MT.WRITE, 0, 0⟩] := by decide
  refine ⟨_, _, _, _, _, Ex.mIn true (some ⟨MT.READ, 1, 0x0807060504030201⟩),
    Ex.mIn false (some ⟨MT.WRITE, 0, 0⟩), start0_start Ex.pd, Ex.crunRun 5, Ex.crunRun 11,
    ⟨rfl, by simp [Ex.mIn], fun _ => ⟨_, e1⟩⟩, ⟨rfl, by simp [Ex.mIn], fun _ => ⟨_, e2⟩⟩, rfl, rfl, rfl, by decide,
    rfl, by decide⟩

set_option maxRecDepth 10000 in
/-- C06: a reachable ready state with an unanswered request. -/
example : ∃ (S S' : Sys Unit p0) (tr : List (Ev Unit p0)), Start S ∧ Run S tr S' ∧
    ((S'.cache ()).out Ex.idleIn).reqRdy = true ∧ S'.CanClock () Ex.idleIn ∧
    (accepted () tr).length = 1 ∧ (responses () tr).length = 0 :=
  ⟨_, _, _, start0_start p0, drive_run 10 (start0 p0) (Ex.reqs.take 1), by decide,
    ⟨rfl, by simp [Ex.idleIn], by simp [Ex.idleIn]⟩, by decide, by decide⟩

/-- C04: such input lists exist, and the state before had valid dirty lines. -/
example : (∀ i ∈ List.replicate p0.nLines Ex.idleIn, i.reset = false ∧ i.mrespEn = false) ∧
    p0.nLines = 4 ∧ ((garbage p0).tagRam false 0).val = true ∧ ((garbage p0).tagRam false 0).dty ≠ 0 :=
  ⟨fun i hi => by rw [(List.mem_replicate.1 hi).2]; exact ⟨rfl, rfl⟩, by decide, rfl, by decide⟩

end Verif
