import Verif.Blocking
import Verif.SimMain

set_option linter.unusedSectionVars false

/-!
# A measure that bounds the time to the next ready state

`mu s O` is an upper bound for the number of *counting* cycles (memory delivers a
response, or nothing is outstanding and both output ports are ready) a cache in the state
`s` needs until everything it accepted is answered and it is ready.
-/

namespace Verif
variable {p : Params} {U : Prop}

/-- The measure; `O` are the types of the outstanding memory requests. Proof device; not in the source. -/
def mu (s : St p) (O : List MType) : Nat :=
  if s.fsm = .init then s.cnt.toNat + 1
  else match s.t1 with
  | .readReq | .writeReq | .amoReq => if s.evict2 then 8 else 9
  | .refill => 3
  | .invStart => 4 + s.cnt.toNat
  | .invWrite => if s.fsm = .inv then 4 + s.cnt.toNat else 3
  | .flushStart => 3 + 5 * 2 ^ p.cntBits
  | .flushRead => 7 + 5 * (s.cnt + 1).toNat
  | .flushWait => 2 + 5 * (s.cnt + 1).toNat + (if s.mrespEn0 then 2 else if O = [] then 4 else 3)
  | .flushWrite => 3 + 5 * (s.cnt + 1).toNat
  | _ => if s.mshrNum = 1 then
      (if s.mrespVal0 then 4 else 4 + O.length + 2 * (memTypes s.slot.msgs).length)
    else if s.adv.msgs ≠ [] then 2 else if s.slot.msgs ≠ [] then 1 else 0

/-- A cycle in which the environment does its part. Proof device; not in the source. -/
def Counts (O : List MType) (i : In p) : Prop :=
  i.mrespEn = true ∨ (i.respRdy = true ∧ i.mreqRdy = true ∧ O = [])

/-- The measure does not increase, and decreases in a counting cycle. Proof device; not in the source. -/
def Dec (s : St p) (i : In p) (O : List MType) : Prop :=
  let O' := outTail O i ++ memTypes (s.out i).msgs
  mu (s.next i) O' ≤ mu s O ∧ (Counts O i → mu s O ≠ 0 → mu (s.next i) O' < mu s O)

theorem Dec.of_lt {s : St p} {i : In p} {O : List MType}
    (h : mu (s.next i) (outTail O i ++ memTypes (s.out i).msgs) < mu s O) : Dec s i O :=
  ⟨Nat.le_of_lt h, fun _ _ => h⟩

/-- Transactions for which the measure looks at the pipeline and the MSHR. -/
def muFlow : Trans → Bool
  | .readReq | .writeReq | .amoReq | .refill | .invStart | .invWrite | .flushStart | .flushRead
  | .flushWait | .flushWrite => false
  | _ => true

theorem mu_flow {s : St p} {O : List MType} (hf : s.fsm ≠ .init) (ht : muFlow s.t1 = true) (hn : s.mshrNum = 0) :
    mu s O = if s.adv.msgs ≠ [] then 2 else if s.slot.msgs ≠ [] then 1 else 0 := by
  have h0 : ¬ s.mshrNum = 1 := by rw [hn]; decide
  simp only [mu, if_neg hf]
  cases h : s.t1 <;> simp [h, muFlow] at ht <;> simp only [if_neg h0]

theorem mu_flow_le {s : St p} {O : List MType} (hf : s.fsm ≠ .init) (ht : muFlow s.t1 = true) (hn : s.mshrNum = 0) :
    mu s O ≤ 2 := by
  rw [mu_flow hf ht hn]; split
  · omega
  · split <;> omega

theorem mu_wait {s : St p} {O : List MType} (hf : s.fsm ≠ .init) (ht : muFlow s.t1 = true) (hn : s.mshrNum = 1) :
    mu s O = if s.mrespVal0 then 4 else 4 + O.length + 2 * (memTypes s.slot.msgs).length := by
  simp only [mu, if_neg hf]
  cases h : s.t1 <;> simp [h, muFlow] at ht <;> simp only [if_pos hn]

theorem memTypes_slot_le (m : M2 p) : (memTypes m.msgs).length ≤ 1 := by
  rcases slot_le_one m with h | ⟨x, h⟩ | ⟨x, h⟩ <;> rw [h] <;> simp

theorem mu_req {s : St p} {O : List MType} (ty : MType) (hf : s.fsm ≠ .init) (ht : s.t1 = reqTrans ty) :
    mu s O = if s.evict2 then 8 else 9 := by
  simp only [mu, if_neg hf, ht, reqTrans]
  by_cases h1 : ty = MT.READ
  · simp [h1]
  · by_cases h2 : ty = MT.WRITE
    · simp [h2]
    · simp [h1, h2]

/-- While M2 stalls nothing the measure looks at changes, except what memory owes. -/
theorem mu_stall (s : St p) (i : In p) (O : List MType) (ho : (s.cs2 i).ostall = true)
    (hci : s.t1 ≠ .cacheInit) (hf : s.fsm ≠ .init) : mu (s.next i) O = mu s O := by
  have hst : s.stall i = true := by simp [St.stall, ho]
  have he := next_M1Eq s i ho hci hf
  obtain ⟨g1, g2, g3, g4, g5, g6⟩ := next_hold s i hst
  have hsl := next_slot_stall s i ho hci
  simp only [mu, he.t1, he.evict2, g1, g2, g3, g6, hsl, he.adv_stall, St.mrespVal0, g4]
  cases s.t1 <;> rfl

theorem dec_stall_quiet {s : St p} {i : In p} {O : List MType} (ho : (s.cs2 i).ostall = true)
    (hci : s.t1 ≠ .cacheInit) (hf : s.fsm ≠ .init) (hl : LegalU U s O i) (hO : O = []) : Dec s i O := by
  subst hO
  have hme := no_mresp hl
  refine ⟨?_, ?_⟩
  · rw [out_msgs_stall s i ho, outTail_nil]; exact Nat.le_of_eq (mu_stall s i [] ho hci hf)
  · rintro (h | ⟨h1, h2, _⟩)
    · rw [hme] at h; cases h
    · rw [ostall_ready s i h2 h1] at ho; cases ho

theorem dec_flow {s : St p} {i : In p} {L : L1 p} {rest : List (Msg p)} {O : List MType} (hl : LegalU U s O i)
    (hre : i.reqEn = false) (h : PFlow s L rest O) : Dec s i O := by
  have hO := h.quiet.out
  subst hO
  have hme := no_mresp hl
  have hni : s.fsm ≠ .init := by rw [h.fsm]; simp
  cases ho : (s.cs2 i).ostall
  · obtain ⟨hs1, hs2⟩ := flow_status s h.t1
    have hst : s.stall i = false := by simp [St.stall, ho, hs2]
    have hev : s.status1.evict = false := by rw [hs1]
    have hg := go s i hst hev hni
    have hT : s.trans0 i = .invalid := by
      rw [trans0_ready s i h.fsm h.num h.quiet.mem (by rw [hs1])]; simp [hre]
    have hfn : s.fsmNext i = .ready := by
      rw [fsmNext_ready s i h.fsm h.num h.quiet.mem]; simp [hre]
    have ht1 : (s.next i).t1 = .invalid := by rw [hg.t1, hT]
    have hfs : (s.next i).fsm ≠ .init := by rw [hg.fsm, hfn]; simp
    have hnum : (s.next i).mshrNum = 0 := by
      rw [hg.num, hT, h.num]; simp [hs2, cs0, mshrNumNext]
    have hadv : (s.next i).adv.msgs = [] := adv_nonblocking _ (by rw [ht1]; rfl)
    have hmt : muFlow s.t1 = true := by
      have := h.t1; cases h : s.t1 <;> simp [h, flowT] at this <;> rfl
    have e1 := mu_flow (O := outTail [] i ++ memTypes (s.out i).msgs) hfs (by rw [ht1]; rfl) hnum
    have e2 := mu_flow (O := ([] : List MType)) hni hmt h.num
    rw [hadv, hg.slot] at e1
    simp only [Dec]
    rw [e1, e2]
    by_cases ha : s.adv.msgs = []
    · by_cases hb : s.slot.msgs = [] <;> simp [ha, hb]
    · simp [ha]
  · refine dec_stall_quiet ho ?_ hni hl rfl
    intro hc; rw [ostall_nonblocking s i (h.ci hc)] at ho; cases ho

theorem reqT_ne_ci {s : St p} {ty : MType} (h : s.t1 = reqTrans ty) : s.t1 ≠ .cacheInit := by
  rw [h]; exact reqTrans_ne_ci

theorem dec_req {s : St p} {i : In p} {L : L1 p} {rest : List (Msg p)} {O : List MType} {L0 : L1 p} {q : CReq p}
    (hl : LegalU U s O i) (hre : i.reqEn = false) (h : PReq U s L rest O L0 q) : Dec s i O := by
  have hO := h.quiet.out
  subst hO
  have hme := no_mresp hl
  have hni : s.fsm ≠ .init := by rw [h.fsm]; simp
  have hmu : mu s [] = 9 := by rw [mu_req q.ty hni h.t1, h.evict2]; rfl
  cases ho : (s.cs2 i).ostall
  · apply Dec.of_lt
    rw [hmu]
    by_cases hev : s.status1.evict = true
    · have hci' : (s.t1 == Trans.cacheInit) = false := by simpa using reqT_ne_ci h.t1
      have ht : (s.trans0 i == Trans.cacheInit) = false := by
        have := mt (trans0_cacheInit s i).1 hni; simpa using this
      have ht1 : (s.next i).t1 = reqTrans q.ty := by
        rw [← h.t1]; simp [St.next, hev, ht]
      have he2 : (s.next i).evict2 = true := by
        simp [St.next, ho, hci', hev, bne]
      have hfs : (s.next i).fsm ≠ .init := by
        simp only [St.next]
        split
        · rw [fsmNext_ready s i h.fsm h.num h.quiet.mem]; simp [hre]
        · exact hni
      rw [mu_req q.ty hfs ht1, he2]; decide
    · have hev : s.status1.evict = false := by simpa using hev
      have hos : s.cs1.ostall = false := by
        rcases rw_or_amo h.ty with hq | hq
        · rw [h.cs1_rw hq, hev]; simp; split
          · rfl
          · split <;> rfl
        · rw [h.cs1_amo hq, hev]; rfl
      have hst : s.stall i = false := by simp [St.stall, ho, hos]
      have hg := go s i hst hev hni
      have hT : s.trans0 i = .cleanHit ∨ s.trans0 i = .invalid := by
        cases hc : s.status1.cleanHit
        · right; rw [trans0_ready s i h.fsm h.num h.quiet.mem hc]; simp [hre]
        · left; simp [St.trans0, h.fsm, hc]
      have hfn : (s.next i).fsm ≠ .init := by
        rw [hg.fsm, fsmNext_ready s i h.fsm h.num h.quiet.mem]; simp [hre]
      have hmf : muFlow (s.next i).t1 = true := by rw [hg.t1]; rcases hT with e | e <;> rw [e] <;> rfl
      have hv : (s.next i).mrespVal0 = false := by simp [St.mrespVal0, hg.mrespEn0, hme]
      have hO' : (outTail [] i ++ memTypes (s.out i).msgs) = [] := by
        rw [outTail_nil, out_msgs_adv s i ho, h.quiet.slot]; rfl
      rcases bv1_cases (s.next i).mshrNum with hn | hn
      · have := mu_flow_le (O := outTail [] i ++ memTypes (s.out i).msgs) hfn hmf hn; omega
      · rw [mu_wait hfn hmf hn, hv, hO']
        have := memTypes_slot_le (s.next i).slot
        simp; omega
  · exact dec_stall_quiet ho (reqT_ne_ci h.t1) hni hl rfl

theorem dec_pass2 {s : St p} {i : In p} {L : L1 p} {rest : List (Msg p)} {O : List MType} {q : CReq p}
    (hl : LegalU U s O i) (h : PPass2 s L rest O q) : Dec s i O := by
  have hO := h.out
  subst hO
  have hme := no_mresp hl
  have hni : s.fsm ≠ .init := by rw [h.fsm]; simp
  have hmu : mu s [] = 8 := by rw [mu_req q.ty hni h.t1, h.evict2]; rfl
  obtain ⟨-, -, hs, hcs⟩ := pass2_status s q.ty h.t1 h.evict2
  have hre : i.reqEn = false := no_req hl (by simp [hcs])
  cases ho : (s.cs2 i).ostall
  · apply Dec.of_lt
    rw [hmu]
    have hst : s.stall i = false := by simp [St.stall, ho, hcs]
    have hg := go s i hst (by rw [hs]) hni
    have hT : s.trans0 i = .invalid := by
      rw [trans0_ready s i h.fsm h.num h.mem (by rw [hs])]; simp [hre]
    have hfn : (s.next i).fsm ≠ .init := by
      rw [hg.fsm, fsmNext_ready s i h.fsm h.num h.mem]; simp [hre]
    have hmf : muFlow (s.next i).t1 = true := by rw [hg.t1, hT]; rfl
    have hn : (s.next i).mshrNum = 1 := by rw [hg.num, hT, hcs, h.num]; rfl
    have hv : (s.next i).mrespVal0 = false := by simp [St.mrespVal0, hg.mrespEn0, hme]
    have hO' : (outTail [] i ++ memTypes (s.out i).msgs) = [MT.WRITE] := by
      rw [outTail_nil, out_msgs_adv s i ho, h.slot]; rfl
    rw [mu_wait hfn hmf hn, hv, hO']
    have := memTypes_slot_le (s.next i).slot
    simp; omega
  · exact dec_stall_quiet ho (reqT_ne_ci h.t1) hni hl rfl

theorem dec_wait {s : St p} {i : In p} {L : L1 p} {rest : List (Msg p)} {O : List MType}
    (hl : LegalU U s O i) (h : PWait s L rest O) : Dec s i O := by
  have hni : s.fsm ≠ .init := by rw [h.fsm]; simp
  obtain ⟨hst1, hcs⟩ := invalid_status s h.t1
  have hre : i.reqEn = false := no_req hl (by simp [h.num])
  have hv0 : s.mrespVal0 = false := by
    simp only [St.mrespVal0]
    cases hm : s.mrespEn0
    · rfl
    · simp [h.mem hm]
  have hmu : ∀ O, mu s O = 4 + O.length + 2 * (memTypes s.slot.msgs).length := by
    intro O; rw [mu_wait hni (by rw [h.t1]; rfl) h.num, hv0]; rfl
  have htail : i.mrespEn = true → (outTail O i).length + 1 = O.length := by
    intro hm
    obtain ⟨O', hO'⟩ := hl.mem hm
    rw [hO']; simp [outTail, hm]
  have htail' : (outTail O i).length ≤ O.length := by
    simp only [outTail]; split
    · simp
    · exact Nat.le_refl _
  cases ho : (s.cs2 i).ostall
  · have hemp : s.mshrEmpty = false := by simp [St.mshrEmpty, mshrEmpty, h.num]
    have hT : s.trans0 i = .invalid := by simp [St.trans0, h.fsm, hst1, hv0, hemp]
    have hfn : s.fsmNext i = .ready := by simp [St.fsmNext, h.fsm, hv0, hemp]
    have hadv : s.adv.msgs = [] := adv_nonblocking s (by rw [h.t1]; rfl)
    have hst : s.stall i = false := by simp [St.stall, ho, hcs]
    have hg := go s i hst (by rw [hst1]) hni
    have hfs : (s.next i).fsm ≠ .init := by rw [hg.fsm, hfn]; simp
    have hmf : muFlow (s.next i).t1 = true := by rw [hg.t1, hT]; rfl
    have hn : (s.next i).mshrNum = 1 := by rw [hg.num, hT, hcs, h.num]; rfl
    have hmu' := mu_wait (O := outTail O i ++ memTypes (s.out i).msgs) hfs hmf hn
    rw [hg.slot, hadv, out_msgs_adv s i ho] at hmu'
    simp only [Dec]
    rw [out_msgs_adv s i ho, hmu', hmu]
    have hval : (s.next i).mrespVal0 = true → i.mrespEn = true := by
      simp only [St.mrespVal0, hg.mrespEn0]; intro hh; simp only [Bool.and_eq_true] at hh; exact hh.1
    simp only [List.length_append, memTypes_nil, List.length_nil]
    have hone : memTypes s.slot.msgs = [] → O ≠ [] := by
      intro he hO
      rcases h.out with ⟨_, h3 | h3⟩ | ⟨h3, _⟩
      · rw [hO] at h3; cases h3
      · rw [hO] at h3; cases h3
      · rw [he] at h3; cases h3
    have hpos : Counts O i → i.mrespEn = true ∨ 1 ≤ (memTypes s.slot.msgs).length := by
      rintro (h1 | ⟨_, _, h1⟩)
      · exact .inl h1
      · right
        rcases Nat.eq_zero_or_pos (memTypes s.slot.msgs).length with h2 | h2
        · exact absurd h1 (hone (List.eq_nil_of_length_eq_zero h2))
        · exact h2
    cases hvv : (s.next i).mrespVal0
    · simp only [Bool.false_eq_true, if_false]
      refine ⟨by omega, fun hc _ => ?_⟩
      rcases hpos hc with h1 | h1
      · have := htail h1; omega
      · omega
    · have := htail (hval hvv)
      simp only [if_true]
      exact ⟨by omega, fun _ _ => by omega⟩
  · have hci : s.t1 ≠ .cacheInit := by rw [h.t1]; simp
    have e := mu_stall s i (outTail O i) ho hci hni
    simp only [Dec]
    rw [out_msgs_stall s i ho, memTypes_nil, List.append_nil, e, hmu, hmu]
    refine ⟨by omega, ?_⟩
    rintro (h1 | ⟨h1, h2, _⟩) _
    · have := htail h1; omega
    · rw [ostall_ready s i h2 h1] at ho; cases ho

theorem dec_ans {s : St p} {i : In p} {L : L1 p} {rest : List (Msg p)} {O : List MType} {L0 : L1 p}
    (hl : LegalU U s O i) (h : PAns U s L rest O L0) : Dec s i O := by
  have hO := h.out
  subst hO
  have hme := no_mresp hl
  have hre : i.reqEn = false := no_req hl (by simp [h.num])
  have hni : s.fsm ≠ .init := by rw [h.fsm]; simp
  obtain ⟨hst1, hcs⟩ := invalid_status s h.t1
  have hW := mty_ne_W h.ok.wk h.mshr
  have ho := ostall_nonblocking s i (by rw [h.t2]; rfl)
  have hv0 : s.mrespVal0 = true := by
    have := h.memTy
    simp only [St.mrespVal0, h.mem, this]; simpa using hW
  have hemp : s.mshrEmpty = false := by simp [St.mshrEmpty, mshrEmpty, h.num]
  have hst : s.stall i = false := by simp [St.stall, ho, hcs]
  have hg := go s i hst (by rw [hst1]) hni
  apply Dec.of_lt
  have hmu : mu s [] = 4 := by rw [mu_wait hni (by rw [h.t1]; rfl) h.num, hv0]; rfl
  rw [hmu]
  have hm := h.mshr
  cases hc : L0.cur with
  | idle => rw [hc] at hm; exact hm.elim
  | fill q w d =>
    rw [hc] at hm
    obtain ⟨hwm, hq⟩ := ok_fill h.ok.wk hc
    have hT : s.trans0 i = .refill := by
      simp [St.trans0, h.fsm, hst1, hv0, hemp]
      rcases hq with hq | hq <;> simp [hm.1, hq]
    have hfs : (s.next i).fsm ≠ .init := by
      rw [hg.fsm]; simp only [St.fsmNext, h.fsm, hemp]; simp; split <;> simp
    simp only [mu, if_neg hfs, hg.t1, hT]; decide
  | amo q a w =>
    rw [hc] at hm
    obtain ⟨hwm, hq⟩ := ok_amo h.ok.wk hc
    have hne := isAmo_ne hq
    have hT : s.trans0 i = .replayAmo := by
      simp [St.trans0, h.fsm, hst1, hv0, hemp, hm.1, hne, hq]
    have hfs : (s.next i).fsm ≠ .init := by
      rw [hg.fsm]; simp only [St.fsmNext, h.fsm, hemp]; simp; split <;> simp
    have hn : (s.next i).mshrNum = 0 := by rw [hg.num, hT, hcs, h.num]; rfl
    have := mu_flow_le (O := outTail [] i ++ memTypes (s.out i).msgs) hfs (by rw [hg.t1, hT]; rfl) hn
    omega

theorem dec_refill {s : St p} {i : In p} {L : L1 p} {rest : List (Msg p)} {O : List MType} {L0 : L1 p}
    {q : CReq p} {w : Way} {d : Dty p}
    (hl : LegalU U s O i) (h : PRefill U s L rest O L0 q w d) : Dec s i O := by
  have hO := h.out
  subst hO
  have hni : s.fsm ≠ .init := by rw [h.fsm]; simp
  have hst1 : s.status1 = ⟨false, false, false, false, false, false⟩ := by simp [St.status1, h.t1]
  have hcs : s.cs1 = ⟨.dirty, true, true, false, false, false⟩ := by simp [St.cs1, h.t1, cs1]
  have ho := ostall_nonblocking s i (by rw [h.t2]; rfl)
  have hemp : s.mshrEmpty = false := by simp [St.mshrEmpty, mshrEmpty, h.num]
  have hst : s.stall i = false := by simp [St.stall, ho, hcs]
  have hg := go s i hst (by rw [hst1]) hni
  apply Dec.of_lt
  have hmu : mu s [] = 3 := by simp only [mu, if_neg hni, h.t1]
  rw [hmu]
  have hm := h.mshr
  rw [h.cur] at hm
  obtain ⟨hwm, hq⟩ := ok_fill h.ok.wk h.cur
  have hT : s.trans0 i = .replayRead ∨ s.trans0 i = .replayWrite := by
    rcases hq with hq | hq <;> simp [St.trans0, h.fsm, hst1, hemp, hm.1, hq]
  have hfs : (s.next i).fsm ≠ .init := by
    rw [hg.fsm]; simp only [St.fsmNext, h.fsm, hemp, hm.1]
    rcases hq with hq | hq <;> simp [hq]
  have hn : (s.next i).mshrNum = 0 := by
    rw [hg.num, hcs, h.num]; rcases hT with e | e <;> rw [e] <;> rfl
  have := mu_flow_le (O := outTail [] i ++ memTypes (s.out i).msgs) hfs
    (by rw [hg.t1]; rcases hT with e | e <;> rw [e] <;> rfl) hn
  omega

theorem dec_inv0 (wf : p.WF) {s : St p} {i : In p} {L : L1 p} {rest : List (Msg p)} {O : List MType} {q : CReq p}
    (hl : LegalU U s O i) (h : PInv0 U s L rest O q) : Dec s i O := by
  have hO := h.quiet.out
  subst hO
  have hni : s.fsm ≠ .init := by rw [h.fsm]; simp
  have hst1 : s.status1 = ⟨false, false, false, false, false, false⟩ := by simp [St.status1, h.t1]
  have hcs : s.cs1 = ⟨.none, false, false, false, false, true⟩ := by
    simp [St.cs1, h.t1, hst1, cs1]
  cases ho : (s.cs2 i).ostall
  · have hst : s.stall i = false := by simp [St.stall, ho, hcs]
    have hT : s.trans0 i = .invWrite := by simp [St.trans0, h.fsm, hst1]
    have hg := go s i hst (by rw [hst1]) hni
    have hmx := cntMax_ne_zero wf
    have hfn : s.fsmNext i = .inv := by
      simp only [St.fsmNext, h.fsm, h.cnt]; rw [if_neg hmx]
    have hcnt : (s.next i).cnt = cntMax p - 1 := by
      rw [hg.cnt]
      have : s.cntEn0 (s.trans0 i) = true := by simp [St.cntEn0, h.fsm]
      rw [this]; simp [counterNext, h.cnt]
    have hfs : (s.next i).fsm = .inv := by rw [hg.fsm, hfn]
    have e1 : mu s [] = 4 + (cntMax p).toNat := by simp only [mu, if_neg hni, h.t1, h.cnt]
    have e2 : ∀ O, mu (s.next i) O = 4 + (cntMax p - 1).toNat := by
      intro O
      have hfs' : (s.next i).fsm ≠ .init := by rw [hfs]; simp
      simp only [mu, if_neg hfs', hg.t1, hT]; rw [if_pos hfs, hcnt]
    apply Dec.of_lt
    rw [e1, e2, sub_one_toNat _ hmx]
    have : (cntMax p).toNat ≠ 0 := fun h0 => hmx (BitVec.eq_of_toNat_eq (by simpa using h0))
    omega
  · exact dec_stall_quiet ho (by rw [h.t1]; simp) hni hl rfl

theorem dec_inv1 {s : St p} {i : In p} {L : L1 p} {rest : List (Msg p)} {O : List MType} {q : CReq p}
    (hl : LegalU U s O i) (h : PInv1 U s L rest O q) : Dec s i O := by
  have hO := h.quiet.out
  subst hO
  have hni : s.fsm ≠ .init := by rw [h.fsm]; simp
  obtain ⟨hst1, hcs, hadv⟩ := invWrite_facts s h.t1
  have hT : s.trans0 i = .invWrite := by simp [St.trans0, h.fsm, hst1]
  have ho := ostall_nonblocking s i h.t2
  have hst : s.stall i = false := by simp [St.stall, ho, hcs]
  have hg := go s i hst (by rw [hst1]) hni
  have hcnt : (s.next i).cnt = s.cnt - 1 := by
    rw [hg.cnt]
    have : s.cntEn0 (s.trans0 i) = true := by simp [St.cntEn0, h.fsm]
    rw [this]; simp [counterNext]
  have e1 : mu s [] = 4 + s.cnt.toNat := by simp only [mu, if_neg hni, h.t1, if_pos h.fsm]
  apply Dec.of_lt
  rw [e1]
  by_cases hz : s.cnt = 0
  · have hfn : (s.next i).fsm = .replay := by rw [hg.fsm]; simp [St.fsmNext, h.fsm, hz]
    have h1 : (s.next i).fsm ≠ .init := by rw [hfn]; simp
    have h2 : (s.next i).fsm ≠ .inv := by rw [hfn]; simp
    simp only [mu, if_neg h1, hg.t1, hT, if_neg h2]; omega
  · have hfn : (s.next i).fsm = .inv := by
      rw [hg.fsm]; simp only [St.fsmNext, h.fsm]; rw [if_neg hz]
    have h1 : (s.next i).fsm ≠ .init := by rw [hfn]; simp
    simp only [mu, if_neg h1, hg.t1, hT, if_pos hfn, hcnt, sub_one_toNat _ hz]
    have : s.cnt.toNat ≠ 0 := fun h0 => hz (BitVec.eq_of_toNat_eq (by simpa using h0))
    omega

theorem dec_inv2 {s : St p} {i : In p} {L : L1 p} {rest : List (Msg p)} {O : List MType} {q : CReq p}
    (hl : LegalU U s O i) (h : PInv2 U s L rest O q) : Dec s i O := by
  have hO := h.quiet.out
  subst hO
  have hni : s.fsm ≠ .init := by rw [h.fsm]; simp
  have hnv : s.fsm ≠ .inv := by rw [h.fsm]; simp
  obtain ⟨hst1, hcs, hadv⟩ := invWrite_facts s h.t1
  have hemp : s.mshrEmpty = false := by simp [St.mshrEmpty, mshrEmpty, h.num]
  have hT : s.trans0 i = .replayInv := by
    simp [St.trans0, h.fsm, hst1, hemp, h.mshr.ty, h.qty]
  have ho := ostall_nonblocking s i h.t2
  have hst : s.stall i = false := by simp [St.stall, ho, hcs]
  have hg := go s i hst (by rw [hst1]) hni
  have e1 : mu s [] = 3 := by simp only [mu, if_neg hni, h.t1, if_neg hnv]
  have hfn : (s.next i).fsm ≠ .init := by rw [hg.fsm]; simp [St.fsmNext, h.fsm, h.mshr.ty, h.qty]
  have hn : (s.next i).mshrNum = 0 := by rw [hg.num, hT, hcs, h.num]; rfl
  have := mu_flow_le (O := outTail [] i ++ memTypes (s.out i).msgs) hfn (by rw [hg.t1, hT]; rfl) hn
  apply Dec.of_lt
  omega

theorem sub_add_one_bv {n : Nat} (c : BitVec n) : c - 1 + 1 = c := BitVec.sub_add_cancel _ _

/-- Entering the read of line `c`. -/
theorem mu_to_fl1 {s : St p} {i : In p} {c : Nat} (hlt : c < 2 ^ p.cntBits) (hcnt : s.cnt = lineNo p c)
    (hst1 : s.status1 = ⟨false, false, false, false, false, false⟩) (hst : s.stall i = false)
    (hf : s.fsm = .flush) (hfs : s.flushSent1 = false) (O : List MType) :
    mu (s.next i) O = 7 + 5 * c := by
  have hg := go s i hst (by rw [hst1]) (by rw [hf]; simp)
  have hT : s.trans0 i = .flushRead := by simp [St.trans0, hf, hst1, hfs]
  have hc : (s.next i).cnt + 1 = lineNo p c := by
    have : s.cntEn0 .flushRead = true := by simp [St.cntEn0]
    rw [hg.cnt, hT, this, hcnt]; exact BitVec.sub_add_cancel _ _
  have hfn : (s.next i).fsm ≠ .init := by
    rw [hg.fsm]; simp only [St.fsmNext, hf, hfs]; simp; split <;> simp
  simp only [mu, if_neg hfn, hg.t1, hT, hc, lineNo_toNat hlt]

/-- The end of a flush. -/
theorem mu_to_flow_fl {s : St p} {i : In p} {q : CReq p} (hqty : q.ty = MT.FLUSH)
    (hst1 : s.status1 = ⟨false, false, false, false, false, false⟩) (hal : s.cs1.alloc = false)
    (hst : s.stall i = false) (hf : s.fsm = .replay) (hnum : s.mshrNum = 1) (hm : MshrQ s.mshr q)
    (hfd : s.prevFlushDone = true) (O : List MType) : mu (s.next i) O ≤ 2 := by
  have hg := go s i hst (by rw [hst1]) (by rw [hf]; simp)
  have hemp : s.mshrEmpty = false := by simp [St.mshrEmpty, mshrEmpty, hnum]
  have hT : s.trans0 i = .replayFlush := by
    simp [St.trans0, hf, hst1, hemp, hm.ty, hqty, hfd]
  have hfn : (s.next i).fsm ≠ .init := by
    rw [hg.fsm]; simp [St.fsmNext, hf, hemp, hm.ty, hqty, hfd]
  exact mu_flow_le hfn (by rw [hg.t1, hT]; rfl) (by rw [hg.num, hT, hal, hnum]; rfl)

theorem dec_fl0 {s : St p} {i : In p} {L : L1 p} {rest : List (Msg p)} {O : List MType} {L0 : L1 p} {q : CReq p}
    (hl : LegalU U s O i) (h : PFl0 U s L rest O L0 q) : Dec s i O := by
  have hO := h.quiet.out
  subst hO
  have hni : s.fsm ≠ .init := by rw [h.fsm]; simp
  have hst1 : s.status1 = ⟨false, false, false, false, false, false⟩ := by simp [St.status1, h.t1]
  have hcs : s.cs1 = ⟨.none, false, false, false, false, true⟩ := by
    simp [St.cs1, h.t1, hst1, cs1]
  have hpos := Nat.two_pow_pos p.cntBits
  cases ho : (s.cs2 i).ostall
  · have hst : s.stall i = false := by simp [St.stall, ho, hcs]
    have hfs : s.flushSent1 = false := by simp [St.flushSent1, h.t1]
    have e1 : mu s [] = 3 + 5 * 2 ^ p.cntBits := by simp only [mu, if_neg hni, h.t1]
    have e2 := mu_to_fl1 (c := 2 ^ p.cntBits - 1) (by omega) h.cnt hst1 hst h.fsm hfs
      (outTail [] i ++ memTypes (s.out i).msgs)
    apply Dec.of_lt
    omega
  · exact dec_stall_quiet ho (by rw [h.t1]; simp) hni hl rfl

theorem dec_fl1 {s : St p} {i : In p} {L : L1 p} {rest : List (Msg p)} {O : List MType} {L0 : L1 p} {q : CReq p}
    {c : Nat} (hl : LegalU U s O i) (h : PFl1 U s L rest O L0 q c) : Dec s i O := by
  have hO := h.quiet.out
  subst hO
  have hme := no_mresp hl
  have hni : s.fsm ≠ .init := by rw [h.fsm]; split <;> simp
  have hst1 : s.status1 = ⟨false, false, false, false, false, false⟩ := by simp [St.status1, h.t1]
  have hcs : s.cs1 = ⟨.none, false, s.flushSent1, false, true, false⟩ := by
    simp [St.cs1, h.t1, hst1, cs1]
  have hemp : s.mshrEmpty = false := by simp [St.mshrEmpty, mshrEmpty, h.num]
  have hack : s.wrAck0 = false := by simp [St.wrAck0, h.quiet.mem]
  cases ho : (s.cs2 i).ostall
  · have hst : s.stall i = false := by simp [St.stall, ho, hcs]
    have hg := go s i hst (by rw [hst1]) hni
    have e1 : mu s [] = 7 + 5 * c := by simp only [mu, if_neg hni, h.t1, h.cnt, lineNo_toNat h.lt]
    apply Dec.of_lt
    rw [e1]
    have hO' : (outTail [] i ++ memTypes (s.out i).msgs) = [] := by
      rw [outTail_nil, out_msgs_adv s i ho, h.quiet.slot]; rfl
    cases hfs : s.flushSent1
    · have hnf : s.noFlush1 = true := by
        simp only [St.flushSent1, h.t1, beq_self_eq_true, Bool.true_and] at hfs
        simp [St.noFlush1, h.t1, hfs]
      by_cases hc : c = 0
      · have hf : s.fsm = .replay := by rw [h.fsm, if_pos hc]
        have := mu_to_flow_fl h.qty hst1 (by rw [hcs]) hst hf h.num h.mshr
          (by simp [St.prevFlushDone, hnf]) (outTail [] i ++ memTypes (s.out i).msgs)
        omega
      · obtain ⟨c, rfl⟩ : ∃ c', c = c' + 1 := ⟨c - 1, by omega⟩
        have hf : s.fsm = .flush := by rw [h.fsm, if_neg hc]
        have := h.lt
        rw [mu_to_fl1 (c := c) (by omega) (cnt_of_succ h.cnt) hst1 hst hf hfs]
        omega
    · have hnf : s.noFlush1 = false := by
        simp only [St.flushSent1, h.t1, beq_self_eq_true, Bool.true_and] at hfs
        simp [St.noFlush1, h.t1, hfs]
      have hpf : s.prevFlushDone = false := by simp [St.prevFlushDone, hnf, hack, h.t1]
      have hT : s.trans0 i = .flushWait := by
        by_cases hc : c = 0
        · simp [St.trans0, h.fsm, hc, hst1, hemp, h.mshr.ty, h.qty, hpf]
        · simp [St.trans0, h.fsm, hc, hst1, hfs]
      have hfn : (s.next i).fsm ≠ .init := by
        rw [hg.fsm]
        by_cases hc : c = 0
        · simp [St.fsmNext, h.fsm, hc, hemp, h.mshr.ty, h.qty, hpf]
        · simp [St.fsmNext, h.fsm, hc, hfs]
      have hcnt : (s.next i).cnt = s.cnt := by
        have : s.cntEn0 .flushWait = false := by
          simp only [St.cntEn0, h.fsm]; split <;> rfl
        rw [hg.cnt, hT, this]; rfl
      have hen : (s.next i).mrespEn0 = false := by rw [hg.mrespEn0, hme]
      rw [hO']
      simp only [mu, if_neg hfn, hg.t1, hT, hcnt, h.cnt, lineNo_toNat h.lt, hen]
      simp
      omega
  · exact dec_stall_quiet ho (by rw [h.t1]; simp) hni hl rfl

theorem dec_fl2 {s : St p} {i : In p} {L : L1 p} {rest : List (Msg p)} {O : List MType} {L0 : L1 p} {q : CReq p}
    {c : Nat} (hl : LegalU U s O i) (h : PFl2 U s L rest O L0 q c) : Dec s i O := by
  have hni : s.fsm ≠ .init := by rw [h.fsm]; simp
  have hst1 : s.status1 = ⟨false, false, false, false, false, false⟩ := by simp [St.status1, h.t1]
  have hcs : s.cs1 = ⟨.none, false, false, false, false, false⟩ := by
    simp [St.cs1, h.t1, hst1, cs1]
  have e1 : ∀ O, mu s O = 2 + 5 * c + (if s.mrespEn0 then 2 else if O = [] then 4 else 3) := by
    intro O; simp only [mu, if_neg hni, h.t1, h.cnt, lineNo_toNat h.lt]
  have e2 : (s.cs2 i).ostall = false → s.mrespEn0 = false → ∀ O, mu (s.next i) O =
      2 + 5 * c + (if i.mrespEn then 2 else if O = [] then 4 else 3) := by
    intro ho hm O
    have hst : s.stall i = false := by simp [St.stall, ho, hcs]
    have hg := go s i hst (by rw [hst1]) hni
    have hack : s.wrAck0 = false := by simp [St.wrAck0, hm]
    have hT : s.trans0 i = .flushWait := by simp [St.trans0, h.fsm, hst1, hack]
    have hfn : (s.next i).fsm ≠ .init := by rw [hg.fsm]; simp [St.fsmNext, h.fsm, hack]
    have hcnt : (s.next i).cnt = s.cnt := by
      have : s.cntEn0 .flushWait = false := by simp [St.cntEn0, h.fsm]
      rw [hg.cnt, hT, this]; rfl
    simp only [mu, if_neg hfn, hg.t1, hT, hcnt, h.cnt, lineNo_toNat h.lt, hg.mrespEn0]
  rcases h.out with ⟨hm, hsl, hO⟩ | ⟨hm, ht2, hO⟩ | ⟨hm, hty, ht2, hO⟩
  · subst hO
    have hme := no_mresp hl
    cases ho : (s.cs2 i).ostall
    · apply Dec.of_lt
      rw [e1, e2 ho hm, outTail_nil, out_msgs_adv s i ho, hsl, hm, hme]; simp
    · exact dec_stall_quiet ho (by rw [h.t1]; simp) hni hl rfl
  · subst hO
    have ho := ostall_nonblocking s i (by rw [ht2]; rfl)
    have hs0 : s.slot.msgs = [] := slot_nil (by rw [ht2]; rfl)
    simp only [Dec]
    rw [e1, e2 ho hm, out_msgs_adv s i ho, hs0, hm]
    cases hme : i.mrespEn
    · simp only [outTail, hme]
      refine ⟨by simp, ?_⟩
      rintro (h1 | ⟨_, _, h1⟩)
      · rw [hme] at h1; cases h1
      · cases h1
    · simp
  · subst hO
    have ho := ostall_nonblocking s i (by rw [ht2]; rfl)
    have hst : s.stall i = false := by simp [St.stall, ho, hcs]
    have hg := go s i hst (by rw [hst1]) hni
    have hack : s.wrAck0 = true := by simp [St.wrAck0, hm, hty]
    have hT : s.trans0 i = .flushWrite := by simp [St.trans0, h.fsm, hst1, hack]
    have hfn : (s.next i).fsm ≠ .init := by
      rw [hg.fsm]; simp only [St.fsmNext, h.fsm, hack, if_true]; split <;> simp
    have hcnt : (s.next i).cnt = s.cnt := by
      have : s.cntEn0 .flushWrite = false := by simp [St.cntEn0, h.fsm]
      rw [hg.cnt, hT, this]; rfl
    apply Dec.of_lt
    rw [e1, hm]
    simp only [mu, if_neg hfn, hg.t1, hT, hcnt, h.cnt, lineNo_toNat h.lt]
    simp; omega

theorem dec_fl3 {s : St p} {i : In p} {L : L1 p} {rest : List (Msg p)} {O : List MType} {L0 : L1 p} {q : CReq p}
    {c : Nat} (h : PFl3 U s L rest O L0 q c) : Dec s i O := by
  have hni : s.fsm ≠ .init := by rw [h.fsm]; split <;> simp
  have hst1 : s.status1 = ⟨false, false, false, false, false, false⟩ := by simp [St.status1, h.t1]
  have hcs : s.cs1 = ⟨.none, false, false, false, false, false⟩ := by
    simp [St.cs1, h.t1, hst1, cs1]
  have ho := ostall_nonblocking s i (by rw [h.t2]; rfl)
  have hfs : s.flushSent1 = false := by simp [St.flushSent1, h.t1]
  have hfd : s.prevFlushDone = true := by simp [St.prevFlushDone, h.t1]
  have hst : s.stall i = false := by simp [St.stall, ho, hcs]
  have e1 : mu s O = 3 + 5 * c := by simp only [mu, if_neg hni, h.t1, h.cnt, lineNo_toNat h.lt]
  apply Dec.of_lt
  rw [e1]
  by_cases hc : c = 0
  · have hf : s.fsm = .replay := by rw [h.fsm, if_pos hc]
    have := mu_to_flow_fl h.qty hst1 (by rw [hcs]) hst hf h.num h.mshr hfd
      (outTail O i ++ memTypes (s.out i).msgs)
    omega
  · obtain ⟨c, rfl⟩ : ∃ c', c = c' + 1 := ⟨c - 1, by omega⟩
    have hf : s.fsm = .flush := by rw [h.fsm, if_neg hc]
    have := h.lt
    rw [mu_to_fl1 (c := c) (by omega) (cnt_of_succ h.cnt) hst1 hst hf hfs]
    omega

theorem dec_init {s : St p} {i : In p} (hl : LegalU U s [] i) (h : PInit s) : Dec s i [] := by
  have hme := no_mresp hl
  have hs := step_init (U := True) s i hme h
  have e1 : mu s [] = s.cnt.toNat + 1 := by simp only [mu, if_pos h.fsm]
  apply Dec.of_lt
  rw [e1]
  rcases hs.next with ⟨h1, h2, h3⟩ | ⟨hz, L, _, hR⟩
  · have : ∀ O, mu (s.next i) O = (s.next i).cnt.toNat + 1 := by intro O; simp only [mu, if_pos h1.fsm]
    rw [this, h3, sub_one_toNat _ h2]
    have : s.cnt.toNat ≠ 0 := fun h0 => h2 (BitVec.eq_of_toNat_eq (by simpa using h0))
    omega
  · have hT : s.trans0 i = .cacheInit := by simp [St.trans0, h.fsm]
    have ht1 : (s.next i).t1 = .cacheInit := by simp [St.next, hT]
    have ho := ostall_nonblocking s i h.t2
    have hb1 : blocking s.t1 = false := by
      rcases h.t1 with ⟨h1, _⟩ | ⟨h1, _⟩ <;> rw [h1] <;> rfl
    have hcs : s.cs1.ostall = false ∧ s.cs1.alloc = false := by
      rcases h.t1 with ⟨h1, _⟩ | ⟨h1, _⟩ <;> simp [St.cs1, h1, cs1]
    have hst : s.stall i = false := by simp [St.stall, ho, hcs]
    have hfs : (s.next i).fsm = .ready := by simp [St.next, hst, St.fsmNext, h.fsm, hz]
    have hn : (s.next i).mshrNum = 0 := by
      simp [St.next, hT, cs0, St.allocEn, hcs, mshrNumNext, h.num]
    have hsl : (s.next i).slot.msgs = [] := by rw [next_slot_adv s i ho, adv_nonblocking s hb1]
    have ha : (s.next i).adv.msgs = [] := adv_nonblocking _ (by rw [ht1]; rfl)
    rw [mu_flow (by rw [hfs]; simp) (by rw [ht1]; rfl) hn, hsl, ha]
    simp

/-- A WRITE_INIT in M1. -/
theorem dec_ini {s : St p} {i : In p} {L : L1 p} {rest : List (Msg p)} {O : List MType} (hl : LegalU U s O i)
    (hre : i.reqEn = false) (h : PIni s L rest O) : Dec s i O := by
  have hO := h.quiet.out
  subst hO
  have hni : s.fsm ≠ .init := by rw [h.fsm]; simp
  obtain ⟨hs1, hos, hal⟩ := ini_status s h.t1
  cases ho : (s.cs2 i).ostall
  · have hst : s.stall i = false := by simp [St.stall, ho, hos]
    have hg := go s i hst (by simp [hs1]) hni
    have hT : s.trans0 i = .invalid := by
      rw [trans0_ready s i h.fsm h.num h.quiet.mem (by simp [hs1])]; simp [hre]
    have hfn : s.fsmNext i = .ready := by
      rw [fsmNext_ready s i h.fsm h.num h.quiet.mem]; simp [hre]
    have ht1 : (s.next i).t1 = .invalid := by rw [hg.t1, hT]
    have hfs : (s.next i).fsm ≠ .init := by rw [hg.fsm, hfn]; simp
    have hnum : (s.next i).mshrNum = 0 := by
      rw [hg.num, hT, h.num]; simp [hal, cs0, mshrNumNext]
    have hadv : (s.next i).adv.msgs = [] := adv_nonblocking _ (by rw [ht1]; rfl)
    have e1 := mu_flow (O := outTail [] i ++ memTypes (s.out i).msgs) hfs (by rw [ht1]; rfl) hnum
    have e2 := mu_flow (O := ([] : List MType)) hni (by rw [h.t1]; rfl) h.num
    rw [hadv, hg.slot] at e1
    simp only [Dec]
    rw [e1, e2]
    by_cases ha : s.adv.msgs = []
    · by_cases hb : s.slot.msgs = [] <;> simp [ha, hb]
    · simp [ha]
  · exact dec_stall_quiet ho (by rw [h.t1]; simp) hni hl rfl

/-- **Progress.**  One cycle without a new request. -/
theorem PhU.dec (wf : p.WF) {s : St p} {i : In p} {L : L1 p} {rest : List (Msg p)} {O : List MType}
    (hl : LegalU U s O i) (hre : i.reqEn = false) (h : PhU U s L rest O) : Dec s i O := by
  cases h with
  | flow h => exact dec_flow hl hre h
  | req L0 q h => exact dec_req hl hre h
  | pass2 q h => exact dec_pass2 hl h
  | wait h => exact dec_wait hl h
  | ans L0 h => exact dec_ans hl h
  | refill L0 q w d h => exact dec_refill hl h
  | inv0 q h => exact dec_inv0 wf hl h
  | inv1 q h => exact dec_inv1 hl h
  | inv2 q h => exact dec_inv2 hl h
  | fl0 L0 q h => exact dec_fl0 hl h
  | fl1 L0 q c h => exact dec_fl1 hl h
  | fl2 L0 q c h => exact dec_fl2 hl h
  | fl3 L0 q c h => exact dec_fl3 h
  | ini _ h => exact dec_ini hl hre h

theorem RIU.dec (wf : p.WF) {s : St p} {i : In p} {L : L1 p} {E : List (Msg p)} {O : List MType}
    (hl : LegalU U s O i) (hre : i.reqEn = false) (h : RIU U s L E O) : Dec s i O := by
  cases h with
  | init h hL hE hO => subst hO; exact dec_init hl h
  | run L' he h => obtain ⟨_, rest, _, hph⟩ := h; exact hph.dec wf hl hre

end Verif
