import Verif.PropsLive

set_option linter.unusedSectionVars false

/-!
# A sharp measure for the time to the response (C71)

`mu` (Live.lean) counts edges in which the environment helps, with any readiness of the output
ports.  With both ports ready in every cycle one edge less is needed for a READ, WRITE or AMO:
`nu` is `mu` with that edge removed.
-/

namespace Verif
variable {p : Params} {U : Prop}

/-- The measure. Proof device; not in the source. -/
def nu (s : St p) (O : List MType) : Nat :=
  if s.fsm = .init then mu s O
  else match s.t1 with
  | .readReq | .writeReq | .amoReq => if s.evict2 then 7 else 8
  | t => if muFlow t = true ∧ s.mshrNum = 1 ∧ s.mrespVal0 = false ∧ memTypes s.slot.msgs ≠ [] then 6 else mu s O

theorem nu_req {s : St p} {O : List MType} (ty : MType) (hf : s.fsm ≠ .init) (ht : s.t1 = reqTrans ty) :
    nu s O = if s.evict2 then 7 else 8 := by
  simp only [nu, if_neg hf, ht, reqTrans]
  by_cases h1 : ty = MT.READ
  · simp [h1]
  · by_cases h2 : ty = MT.WRITE
    · simp [h2]
    · simp [h1, h2]

/-- The value of the measure outside the three request transactions. -/
theorem nu_other {s : St p} {O : List MType} (hf : s.fsm ≠ .init)
    (ht : s.t1 ≠ .readReq ∧ s.t1 ≠ .writeReq ∧ s.t1 ≠ .amoReq) :
    nu s O = if muFlow s.t1 = true ∧ s.mshrNum = 1 ∧ s.mrespVal0 = false ∧ memTypes s.slot.msgs ≠ [] then 6
      else mu s O := by
  obtain ⟨h1, h2, h3⟩ := ht
  simp only [nu, if_neg hf]

theorem nu_flow {s : St p} {O : List MType} (hf : s.fsm ≠ .init) (ht : muFlow s.t1 = true) :
    nu s O = if s.mshrNum = 1 ∧ s.mrespVal0 = false ∧ memTypes s.slot.msgs ≠ [] then 6 else mu s O := by
  have h1 : s.t1 ≠ .readReq ∧ s.t1 ≠ .writeReq ∧ s.t1 ≠ .amoReq := by
    refine ⟨?_, ?_, ?_⟩ <;> (intro h; rw [h] at ht; cases ht)
  rw [nu_other hf h1]
  simp only [ht, true_and]

theorem nu_le_mu (s : St p) (O : List MType) : nu s O ≤ mu s O := by
  by_cases hf : s.fsm = .init
  · simp only [nu, if_pos hf]; exact Nat.le_refl _
  · by_cases ht : s.t1 ≠ .readReq ∧ s.t1 ≠ .writeReq ∧ s.t1 ≠ .amoReq
    · rw [nu_other hf ht]
      split
      · rename_i h
        obtain ⟨h1, h2, h3, h4⟩ := h
        rw [mu_wait hf h1 h2, h3]
        have : 1 ≤ (memTypes s.slot.msgs).length := by
          cases h : memTypes s.slot.msgs with
          | nil => exact absurd h h4
          | cons a l => simp
        simp only [Bool.false_eq_true, if_false]; omega
      · exact Nat.le_refl _
    · have : ∃ ty, s.t1 = reqTrans ty := by
        cases h : s.t1 <;> simp [h] at ht
        · exact ⟨MT.READ, by decide⟩
        · exact ⟨MT.WRITE, by decide⟩
        · exact ⟨3, by decide⟩
      obtain ⟨ty, h⟩ := this
      rw [nu_req ty hf h, mu_req ty hf h]; split <;> omega

theorem nu_zero {s : St p} {O : List MType} (h : nu s O = 0) : mu s O = 0 := by
  by_cases hf : s.fsm = .init
  · simpa only [nu, if_pos hf] using h
  · by_cases ht : s.t1 ≠ .readReq ∧ s.t1 ≠ .writeReq ∧ s.t1 ≠ .amoReq
    · rw [nu_other hf ht] at h
      split at h
      · omega
      · exact h
    · exfalso
      have : ∃ ty, s.t1 = reqTrans ty := by
        cases h : s.t1 <;> simp [h] at ht
        · exact ⟨MT.READ, by decide⟩
        · exact ⟨MT.WRITE, by decide⟩
        · exact ⟨3, by decide⟩
      obtain ⟨ty, h1⟩ := this
      rw [nu_req ty hf h1] at h; split at h <;> omega

/-- Outside the request transactions, when no memory request waits in M2. -/
theorem nu_eq_mu {s : St p} {O : List MType} (ht : s.t1 ≠ .readReq ∧ s.t1 ≠ .writeReq ∧ s.t1 ≠ .amoReq)
    (hm : muFlow s.t1 = true → s.mshrNum = 1 → s.mrespVal0 = false → memTypes s.slot.msgs = []) : nu s O = mu s O := by
  by_cases hf : s.fsm = .init
  · simp only [nu, if_pos hf]
  · rw [nu_other hf ht, if_neg]
    rintro ⟨h1, h2, h3, h4⟩
    exact h4 (hm h1 h2 h3)

theorem nu_pos_of_ready {s : St p} {i : In p} {O : List MType}
    (hr : s.reqRdy i = true) (ha : s.adv.msgs ≠ []) : 2 ≤ nu s O := by
  have h2 := mu_pos_of_ready (O := O) hr ha
  obtain ⟨hf, _, _, hn, _⟩ := ready_imp hr
  by_cases ht : s.t1 ≠ .readReq ∧ s.t1 ≠ .writeReq ∧ s.t1 ≠ .amoReq
  · rw [nu_other hf ht]; split <;> omega
  · have : ∃ ty, s.t1 = reqTrans ty := by
      cases h : s.t1 <;> simp [h] at ht
      · exact ⟨MT.READ, by decide⟩
      · exact ⟨MT.WRITE, by decide⟩
      · exact ⟨3, by decide⟩
    obtain ⟨ty, h1⟩ := this
    rw [nu_req ty hf h1]; split <;> omega

/-- With both ports ready the measure does not increase, and decreases unless memory lets the
cache wait. Proof device; not in the source. -/
def DecN (s : St p) (i : In p) (O : List MType) : Prop :=
  let O' := outTail O i ++ memTypes (s.out i).msgs
  nu (s.next i) O' ≤ nu s O ∧ (i.mrespEn = true ∨ O = [] → nu s O ≠ 0 → nu (s.next i) O' < nu s O)

theorem Dec.decN {s : St p} {i : In p} {O : List MType} (h : Dec s i O) (he : nu s O = mu s O)
    (h1 : i.respRdy = true) (h2 : i.mreqRdy = true) : DecN s i O := by
  obtain ⟨d1, d2⟩ := h
  have := nu_le_mu (s.next i) (outTail O i ++ memTypes (s.out i).msgs)
  refine ⟨by omega, fun hc hn => ?_⟩
  have := d2 (hc.elim .inl fun hc => .inr ⟨h1, h2, hc⟩) (by omega)
  omega

theorem decN_req {s : St p} {i : In p} {L : L1 p} {rest : List (Msg p)} {O : List MType} {L0 : L1 p} {q : CReq p}
    (hl : LegalU U s O i) (hre : i.reqEn = false) (hp1 : i.respRdy = true) (hp2 : i.mreqRdy = true)
    (h : PReq U s L rest O L0 q) : DecN s i O := by
  have hO := h.quiet.out
  subst hO
  have hme := no_mresp hl
  have hni : s.fsm ≠ .init := by rw [h.fsm]; simp
  have hmu : nu s [] = 8 := by rw [nu_req q.ty hni h.t1, h.evict2]; rfl
  have ho := ostall_ready s i hp2 hp1
  suffices nu (s.next i) (outTail [] i ++ memTypes (s.out i).msgs) < 8 from
    ⟨by rw [hmu]; omega, fun _ _ => by rw [hmu]; omega⟩
  by_cases hev : s.status1.evict = true
  · have hci' : (s.t1 == Trans.cacheInit) = false := by simpa using reqT_ne_ci h.t1
    have ht : (s.trans0 i == Trans.cacheInit) = false := by
      have := mt (trans0_cacheInit s i).1 hni; simpa using this
    have ht1 : (s.next i).t1 = reqTrans q.ty := by
      rw [← h.t1]; simp [St.next, hev, ht]
    have he2 : (s.next i).evict2 = true := by
      simp [St.next, ho, hci', hev, bne]
    have hfs : (s.next i).fsm ≠ .init := by
      simp only [St.next]
      split
      · rw [fsmNext_ready s i h.fsm h.num h.quiet.mem]; simp [hre]
      · exact hni
    rw [nu_req q.ty hfs ht1, he2]; decide
  · have hev : s.status1.evict = false := by simpa using hev
    have hos : s.cs1.ostall = false := by
      rcases rw_or_amo h.ty with hq | hq
      · rw [h.cs1_rw hq, hev]; simp; split
        · rfl
        · split <;> rfl
      · rw [h.cs1_amo hq, hev]; rfl
    have hst : s.stall i = false := by simp [St.stall, ho, hos]
    have hg := go s i hst hev hni
    have hT : s.trans0 i = .cleanHit ∨ s.trans0 i = .invalid := by
      cases hc : s.status1.cleanHit
      · right; rw [trans0_ready s i h.fsm h.num h.quiet.mem hc]; simp [hre]
      · left; simp [St.trans0, h.fsm, hc]
    have hfn : (s.next i).fsm ≠ .init := by
      rw [hg.fsm, fsmNext_ready s i h.fsm h.num h.quiet.mem]; simp [hre]
    have hmf : muFlow (s.next i).t1 = true := by rw [hg.t1]; rcases hT with e | e <;> rw [e] <;> rfl
    have hv : (s.next i).mrespVal0 = false := by simp [St.mrespVal0, hg.mrespEn0, hme]
    have hO' : (outTail [] i ++ memTypes (s.out i).msgs) = [] := by
      rw [outTail_nil, out_msgs_adv s i ho, h.quiet.slot]; rfl
    rcases bv1_cases (s.next i).mshrNum with hn | hn
    · have := mu_flow_le (O := outTail [] i ++ memTypes (s.out i).msgs) hfn hmf hn
      have := nu_le_mu (s.next i) (outTail [] i ++ memTypes (s.out i).msgs)
      omega
    · rw [nu_flow hfn hmf]
      split
      · omega
      · rename_i hx
        rw [mu_wait hfn hmf hn, hv, hO']
        have : memTypes (s.next i).slot.msgs = [] :=
          Decidable.byContradiction fun h => hx ⟨hn, hv, h⟩
        simp [this]

theorem decN_pass2 {s : St p} {i : In p} {L : L1 p} {rest : List (Msg p)} {O : List MType} {q : CReq p}
    (hl : LegalU U s O i) (hp1 : i.respRdy = true) (hp2 : i.mreqRdy = true) (h : PPass2 s L rest O q) :
    DecN s i O := by
  have hO := h.out
  subst hO
  have hme := no_mresp hl
  have hni : s.fsm ≠ .init := by rw [h.fsm]; simp
  have hmu : nu s [] = 7 := by rw [nu_req q.ty hni h.t1, h.evict2]; rfl
  obtain ⟨-, -, hs, hcs⟩ := pass2_status s q.ty h.t1 h.evict2
  have hre : i.reqEn = false := no_req hl (by simp [hcs])
  have ho := ostall_ready s i hp2 hp1
  suffices nu (s.next i) (outTail [] i ++ memTypes (s.out i).msgs) < 7 from
    ⟨by rw [hmu]; omega, fun _ _ => by rw [hmu]; omega⟩
  have hst : s.stall i = false := by simp [St.stall, ho, hcs]
  have hg := go s i hst (by rw [hs]) hni
  have hT : s.trans0 i = .invalid := by
    rw [trans0_ready s i h.fsm h.num h.mem (by rw [hs])]; simp [hre]
  have hfn : (s.next i).fsm ≠ .init := by
    rw [hg.fsm, fsmNext_ready s i h.fsm h.num h.mem]; simp [hre]
  have hmf : muFlow (s.next i).t1 = true := by rw [hg.t1, hT]; rfl
  have hn : (s.next i).mshrNum = 1 := by rw [hg.num, hT, hcs, h.num]; rfl
  have hv : (s.next i).mrespVal0 = false := by simp [St.mrespVal0, hg.mrespEn0, hme]
  have hO' : (outTail [] i ++ memTypes (s.out i).msgs) = [MT.WRITE] := by
    rw [outTail_nil, out_msgs_adv s i ho, h.slot]; rfl
  rw [nu_flow hfn hmf]
  split
  · omega
  · rename_i hx
    rw [mu_wait hfn hmf hn, hv, hO']
    have : memTypes (s.next i).slot.msgs = [] :=
      Decidable.byContradiction fun h => hx ⟨hn, hv, h⟩
    simp [this]

theorem decN_wait {s : St p} {i : In p} {L : L1 p} {rest : List (Msg p)} {O : List MType}
    (hl : LegalU U s O i) (hp1 : i.respRdy = true) (hp2 : i.mreqRdy = true) (h : PWait s L rest O) :
    DecN s i O := by
  have hni : s.fsm ≠ .init := by rw [h.fsm]; simp
  obtain ⟨hst1, hcs⟩ := invalid_status s h.t1
  have hv0 : s.mrespVal0 = false := by
    simp only [St.mrespVal0]
    cases hm : s.mrespEn0
    · rfl
    · simp [h.mem hm]
  by_cases hs0 : memTypes s.slot.msgs = []
  · refine (dec_wait hl h).decN (nu_eq_mu ?_ fun _ _ _ => hs0) hp1 hp2
    rw [h.t1]; exact ⟨by simp, by simp, by simp⟩
  · have hnu : nu s O = 6 := by
      rw [nu_flow hni (by rw [h.t1]; rfl), if_pos ⟨h.num, hv0, hs0⟩]
    have hs1 : (memTypes s.slot.msgs).length = 1 := by
      have h1 := memTypes_slot_le s.slot
      have h2 : (memTypes s.slot.msgs).length ≠ 0 := fun h => hs0 (List.eq_nil_of_length_eq_zero h)
      omega
    have ho := ostall_ready s i hp2 hp1
    have hemp : s.mshrEmpty = false := by simp [St.mshrEmpty, mshrEmpty, h.num]
    have hT : s.trans0 i = .invalid := by simp [St.trans0, h.fsm, hst1, hv0, hemp]
    have hfn : s.fsmNext i = .ready := by simp [St.fsmNext, h.fsm, hv0, hemp]
    have hadv : s.adv.msgs = [] := adv_nonblocking s (by rw [h.t1]; rfl)
    have hst : s.stall i = false := by simp [St.stall, ho, hcs]
    have hg := go s i hst (by rw [hst1]) hni
    have hfs : (s.next i).fsm ≠ .init := by rw [hg.fsm, hfn]; simp
    have hmf : muFlow (s.next i).t1 = true := by rw [hg.t1, hT]; rfl
    have hn : (s.next i).mshrNum = 1 := by rw [hg.num, hT, hcs, h.num]; rfl
    have hmu' := mu_wait (O := outTail O i ++ memTypes (s.out i).msgs) hfs hmf hn
    rw [hg.slot, hadv, out_msgs_adv s i ho] at hmu'
    have hle := nu_le_mu (s.next i) (outTail O i ++ memTypes s.slot.msgs)
    have hlen : O.length ≤ 1 := by
      rcases h.out with ⟨h3, _⟩ | ⟨_, h3 | h3⟩
      · exact absurd (by rw [slot_nil (by rw [h3]; rfl)]; rfl) hs0
      · rw [h3]; simp
      · rw [h3]; simp
    have hb : mu (s.next i) (outTail O i ++ memTypes s.slot.msgs) ≤ 5 + (outTail O i).length := by
      rw [hmu']; split
      · omega
      · simp only [List.length_append, memTypes_nil, List.length_nil, hs1]; omega
    have htail' : (outTail O i).length ≤ O.length := by
      simp only [outTail]; split
      · simp
      · exact Nat.le_refl _
    simp only [DecN]
    rw [out_msgs_adv s i ho, hnu]
    refine ⟨by omega, fun hc _ => ?_⟩
    rcases hc with hc | hc
    · have : (outTail O i).length = 0 := by
        simp only [outTail, hc, if_true, List.length_tail]; omega
      omega
    · subst hc; rw [outTail_nil] at hb ⊢
      simp only [List.length_nil] at hb; rw [outTail_nil] at hle; omega

/-- One cycle without a new request, both ports ready. -/
theorem RIU.decN (wf : p.WF) {s : St p} {i : In p} {L : L1 p} {E : List (Msg p)} {O : List MType}
    (hl : LegalU U s O i) (hre : i.reqEn = false) (hp1 : i.respRdy = true) (hp2 : i.mreqRdy = true)
    (h : RIU U s L E O) : DecN s i O := by
  have hd := h.dec wf hl hre
  have key : nu s O = mu s O → DecN s i O := fun he => hd.decN he hp1 hp2
  cases h with
  | init h hL hE hO => exact key (by simp only [nu, if_pos h.fsm])
  | run L' he h =>
    obtain ⟨_, rest, _, hph⟩ := h
    cases hph with
    | req L0 q h => exact decN_req hl hre hp1 hp2 h
    | pass2 q h => exact decN_pass2 hl hp1 hp2 h
    | wait h => exact decN_wait hl hp1 hp2 h
    | flow h =>
      refine key (nu_eq_mu ?_ fun _ hn _ => ?_)
      · have := h.t1; refine ⟨?_, ?_, ?_⟩ <;> (intro hx; rw [hx] at this; cases this)
      · rw [h.num] at hn; cases hn
    | ans L0 h =>
      refine key (nu_eq_mu ?_ fun _ _ _ => ?_)
      · rw [h.t1]; exact ⟨by simp, by simp, by simp⟩
      · rw [slot_nil (by rw [h.t2]; rfl)]; rfl
    | ini _ h =>
      refine key (nu_eq_mu ?_ fun _ hn _ => ?_)
      · rw [h.t1]; exact ⟨by simp, by simp, by simp⟩
      · rw [h.num] at hn; cases hn
    | refill L0 q w d h => exact key (nu_eq_mu (by rw [h.t1]; simp) (by rw [h.t1]; intro hx; cases hx))
    | inv0 q h => exact key (nu_eq_mu (by rw [h.t1]; simp) (by rw [h.t1]; intro hx; cases hx))
    | inv1 q h => exact key (nu_eq_mu (by rw [h.t1]; simp) (by rw [h.t1]; intro hx; cases hx))
    | inv2 q h => exact key (nu_eq_mu (by rw [h.t1]; simp) (by rw [h.t1]; intro hx; cases hx))
    | fl0 L0 q h => exact key (nu_eq_mu (by rw [h.t1]; simp) (by rw [h.t1]; intro hx; cases hx))
    | fl1 L0 q c h => exact key (nu_eq_mu (by rw [h.t1]; simp) (by rw [h.t1]; intro hx; cases hx))
    | fl2 L0 q c h => exact key (nu_eq_mu (by rw [h.t1]; simp) (by rw [h.t1]; intro hx; cases hx))
    | fl3 L0 q c h => exact key (nu_eq_mu (by rw [h.t1]; simp) (by rw [h.t1]; intro hx; cases hx))

end Verif
