import Verif.PropsBlocking
import Verif.Lru

/-!
# Timing of hits: the pipeline

State-level lemmas: what the pipeline does in the cycles after a request was
accepted, when both output ports are ready.
-/

namespace Verif
variable {p : Params} {ι : Type} [DecidableEq ι]
set_option linter.unusedSectionVars false

/-- M1 holds an accepted request whose messages are `ms`. Proof device; not in the source. -/
def InM1 (s : St p) (q : CReq p) (ms : List (Msg p)) : Prop := ∃ L O L0, PReq True s L ms O L0 q

theorem rw_resp_hit {L : L1 p} {q : CReq p} {r : CResp p} {ms : List (Msg p)} (h : (L.rw q).2 = .resp r :: ms) :
    (L.lookup q.addr).hit = true := by
  cases hh : (L.lookup q.addr).hit
  · exfalso
    cases hi : (L.lookup q.addr).inval
    · rw [rw_miss hh hi] at h
      simp only at h
      split at h <;> simp [L1.wb] at h
    · rw [rw_inval hh hi] at h; simp at h
  · rfl

theorem amo_no_resp {L : L1 p} {q : CReq p} {r : CResp p} {ms : List (Msg p)} : (L.amo q).2 ≠ .resp r :: ms := by
  intro h
  simp only [L1.amo] at h
  split at h <;> simp [L1.wb] at h

/-- A request whose first message is its response hits. -/
theorem InM1.hit {s : St p} {q : CReq p} {r : CResp p} {ms : List (Msg p)} {L O L0} (h : PReq True s L (.resp r :: ms) O L0 q) :
    (q.ty = MT.READ ∨ q.ty = MT.WRITE) ∧ (L0.lookup q.addr).hit = true ∧ ms = [] := by
  have hacc := snd_eq h.acc
  rcases rw_or_amo h.ty with hq | hq
  · rw [accept_rw hq] at hacc
    have hh := rw_resp_hit hacc.symm
    rw [rw_hit hh] at hacc
    simp only [List.cons.injEq] at hacc
    exact ⟨hq, hh, hacc.2⟩
  · rw [accept_amo hq] at hacc
    exact absurd hacc.symm amo_no_resp

/-- The response of a hit in M1 moves to M2. -/
theorem InM1.adv {s : St p} {q : CReq p} {r : CResp p} {ms : List (Msg p)} (h : InM1 s q (.resp r :: ms)) :
    s.adv.msgs = [.resp r] := by
  obtain ⟨L, O, L0, h⟩ := h
  obtain ⟨hq, hhit, hms⟩ := InM1.hit h
  have hacc := h.acc
  have hst := h.status_rw hq
  rw [accept_rw hq, rw_hit hhit, hms] at hacc
  rw [snd_eq hacc]
  apply h.toReqCore.adv_hit hq hhit
  intro hrd
  have hwr : s.cs1.wr = false := by
    have hev : s.status1.evict = false := by simp [hst, hhit]
    have hh : s.status1.hit = true := by simp [hst, hhit]
    rw [h.cs1_rw hq]; simp [hev, hh, hrd]
  have := h.dat
  rw [dataNext_ram_of_not_wr s hwr] at this
  have hL := fst_eq hacc
  have : L.dat = L0.dat := by rw [hL]; simp [hrd]
  rw [← this]; assumption

/-- What is known of a cache that is ready. Proof device; not in the source. -/
structure ReadyFacts (s : St p) : Prop where
  fsm : s.fsm = .ready
  mem : s.mrespEn0 = false
  evict : s.status1.evict = false

theorem PhU.readyFacts {s : St p} {i : In p} {L : L1 p} {rest : List (Msg p)} {O : List MType}
    (h : PhU True s L rest O) (hr : s.reqRdy i = true) : ReadyFacts s := by
  obtain ⟨hf, hc, hst, hn, hal⟩ := ready_imp hr
  cases h with
  | flow h => exact ⟨h.fsm, h.quiet.mem, by rw [(flow_status s h.t1).1]⟩
  | req L0 q h =>
    refine ⟨h.fsm, h.quiet.mem, ?_⟩
    rcases rw_or_amo h.ty with hq | hq
    · rw [h.cs1_rw hq] at hal
      cases hx : s.status1.evict
      · rfl
      · rw [hx] at hal; simp at hal
    · rw [h.cs1_amo hq] at hal
      split at hal <;> simp at hal
  | pass2 q h =>
    obtain ⟨_, _, _, hcs⟩ := pass2_status s q.ty h.t1 h.evict2
    rw [hcs] at hal; simp at hal
  | wait h => rw [h.num] at hn; cases hn
  | ans L0 h => rw [h.num] at hn; cases hn
  | refill L0 q w d h => rw [h.num] at hn; cases hn
  | inv0 q h => simp [St.cs1, h.t1, cs1, St.status1] at hal
  | inv1 q h => rw [h.num] at hn; cases hn
  | inv2 q h => rw [h.num] at hn; cases hn
  | fl0 L0 q h => simp [St.cs1, h.t1, cs1, St.status1] at hal
  | fl1 L0 q c h => rw [h.num] at hn; cases hn
  | fl2 L0 q c h => rw [h.num] at hn; cases hn
  | fl3 L0 q c h => rw [h.num] at hn; cases hn
  | ini hU _ => exact absurd trivial hU

theorem reqPMsg_inj {q q' : CReq p} (h : reqPMsg q = reqPMsg q') :
    q.ty = q'.ty ∧ q.opq = q'.opq ∧ q.addr = q'.addr ∧ q.len = q'.len := by
  simp only [reqPMsg, PMsg.mk.injEq] at h
  exact ⟨h.1, h.2.1, h.2.2.1, h.2.2.2.1⟩

/-- Acceptance: the request is in M1 with the messages the event-level machine
prescribes, and what was in M1 is in M2. -/
theorem accept_inM1 (wf : p.WF) {s : St p} {i : In p} {L : L1 p} {E : List (Msg p)} {O : List MType}
    (hl : Legal s O i) (h : RI s L E O) (hre : i.reqEn = true)
    (hty : i.req.ty = MT.READ ∨ i.req.ty = MT.WRITE ∨ MT.isAmo i.req.ty = true) :
    (∃ q, reqPMsg q = reqPMsg i.req ∧ InM1 (s.next i) q (L.accept i.req).2) ∧
    (s.next i).slot.msgs = s.adv.msgs := by
  obtain ⟨hr, hni⟩ := hl.req hre
  have hni := hni trivial
  have hE := h.ready_adv hr
  obtain ⟨hf, hcl, hst, hn, hal⟩ := ready_imp hr
  have ho : (s.cs2 i).ostall = false := by
    simp only [St.stall, Bool.or_eq_false_iff] at hst; exact hst.2
  have hslot := next_slot_adv s i ho
  refine ⟨?_, hslot⟩
  cases h with
  | init h hL hE hO => exact absurd h.fsm hf
  | run L' he h =>
    have hfacts : ReadyFacts s := by obtain ⟨hok, rest, _, hph⟩ := h; exact hph.readyFacts hr
    obtain ⟨g1, g2⟩ := he.cyc h.ok.wk s i
    obtain ⟨E', h1, hok', rest', h2, hph⟩ := sim wf hl h
    rw [out_msgs_adv s i ho, hE, h2, hslot, List.append_assoc] at h1
    have h3 := List.append_cancel_left (List.append_cancel_left h1)
    have hcyc : s.cyc L i = L.accept i.req := by
      rw [cyc_cycle hl, L1.cycle, hre]; rfl
    rw [g1, hcyc] at h3
    have hgo := go s i hst hfacts.evict (by rw [hfacts.fsm]; simp)
    have ht := trans0_ready s i hfacts.fsm hn hfacts.mem hcl
    have hreq0 : s.req0 i = i.req := by simp [St.req0, hfacts.fsm, hfacts.mem]
    have ht1 : s.trans0 i = reqTrans i.req.ty := by
      rw [ht]
      simp only [hre, hni, if_true, if_false, reqTrans]
      rcases hty with h | h | h
      · simp [h]
      · simp [h]
      · have := isAmo_ne h; simp [h, this]
    have ht1' : (s.next i).t1 = reqTrans i.req.ty := by rw [hgo.t1, ht1]
    have hreq1 : (s.next i).req1 = reqPMsg i.req := by
      rw [hgo.req1, ht1]
      simp only [St.pmsg0, hreq0, reqPMsg, reqTrans]
      rcases hty with h | h | h
      · simp only [h]; rfl
      · simp only [h]; rfl
      · have := isAmo_ne h; simp only [h, this, cs0, isAmo0]; rfl
    have htt : (s.next i).t1 = .readReq ∨ (s.next i).t1 = .writeReq ∨ (s.next i).t1 = .amoReq := by
      rw [ht1', reqTrans]; split
      · exact .inl rfl
      · split
        · exact .inr (.inl rfl)
        · exact .inr (.inr rfl)
    cases hph with
    | flow h => exfalso; have := h.t1; rcases htt with h | h | h <;> rw [h] at this <;> simp [flowT] at this
    | req L0 q h =>
      refine ⟨q, by rw [← h.req1, hreq1], ?_⟩
      rw [h3]; exact ⟨_, _, L0, h⟩
    | pass2 q h => exfalso; have := h.evict2; rw [hgo.evict2] at this; cases this
    | wait h => exfalso; have := h.t1; rcases htt with h | h | h <;> rw [h] at this <;> simp at this
    | ans L0 h => exfalso; have := h.t1; rcases htt with h | h | h <;> rw [h] at this <;> simp at this
    | refill L0 q w d h => exfalso; have := h.t1; rcases htt with h | h | h <;> rw [h] at this <;> simp at this
    | inv0 q h => exfalso; have := h.t1; rcases htt with h | h | h <;> rw [h] at this <;> simp at this
    | inv1 q h => exfalso; have := h.t1; rcases htt with h | h | h <;> rw [h] at this <;> simp at this
    | inv2 q h => exfalso; have := h.t1; rcases htt with h | h | h <;> rw [h] at this <;> simp at this
    | fl0 L0 q h => exfalso; have := h.t1; rcases htt with h | h | h <;> rw [h] at this <;> simp at this
    | fl1 L0 q c h => exfalso; have := h.t1; rcases htt with h | h | h <;> rw [h] at this <;> simp at this
    | fl2 L0 q c h => exfalso; have := h.t1; rcases htt with h | h | h <;> rw [h] at this <;> simp at this
    | fl3 L0 q c h => exfalso; have := h.t1; rcases htt with h | h | h <;> rw [h] at this <;> simp at this
    | ini hU _ => exact absurd trivial hU

/-- The messages of a request in M1, and the one that moves to M2. -/
theorem InM1.info {s : St p} {q : CReq p} {ms : List (Msg p)} (h : InM1 s q ms) :
    (s.status1.evict = false ∧ (∃ m, ms = [m]) ∧ s.adv.msgs = ms) ∨
    (s.status1.evict = true ∧ ∃ w m, ms = [.mem w, .mem m] ∧ w.ty = MT.WRITE ∧ s.adv.msgs = [.mem w]) := by
  obtain ⟨L, O, L0, h⟩ := h
  have hcore := h.toReqCore
  have hacc := h.acc
  by_cases hev : s.status1.evict = true
  · right
    refine ⟨hev, ?_⟩
    have hcs : s.cs1 = ⟨.none, false, true, true, true, true⟩ := by
      rcases rw_or_amo h.ty with hq | hq
      · rw [hcore.cs1_rw hq, if_pos hev]
      · rw [hcore.cs1_amo hq, if_pos hev]
    have hd0 : L.dat = L0.dat → DatAre s.data.ram L0.dat := by
      intro hLd
      have := h.dat
      rw [dataNext_ram_of_not_wr s (by rw [hcs]), hLd] at this
      exact this
    rcases rw_or_amo h.ty with hq | hq
    · rw [accept_rw hq] at hacc
      have hst1 := hcore.status_rw hq
      have hev' := hev
      rw [hst1] at hev'
      simp only [Bool.and_eq_true, Bool.not_eq_true'] at hev'
      obtain ⟨hi, hhit, hvd⟩ := hev'
      have hwo := hcore.wayOff_rw hq
      simp only [hi, hhit, Bool.or_self, Bool.false_eq_true, if_false] at hwo
      have hrest : ms = [L0.wb (L0.rep q.addr.idx) q.addr.idx, .mem (.rd q.addr.la)] := by
        rw [snd_eq hacc, rw_miss hhit hi]
        show (if (_ != _) = true then _ else _) ++ _ = _
        rw [if_pos hvd]; rfl
      have hadv := hcore.adv_evict hev hcs (by rw [hwo]; exact h.ok.rep q.addr.idx)
        (hd0 (by rw [fst_eq hacc, rw_miss hhit hi]))
      rw [hwo] at hadv
      exact ⟨_, _, hrest, rfl, hadv⟩
    · rw [accept_amo hq] at hacc
      have hst1 := hcore.status_amo hq
      have hev' := hev
      rw [hst1] at hev'
      have hwo := hcore.wayOff_amo hq
      have hrest : ms = [L0.wb (L0.lookup q.addr).way q.addr.idx, .mem (.amo q)] := by
        rw [snd_eq hacc]; simp only [L1.amo]; rw [if_pos hev']; rfl
      have hadv := hcore.adv_evict hev hcs (by rw [hwo]; exact ReqCore.way_mem) (hd0 (by rw [fst_eq hacc]; rfl))
      rw [hwo] at hadv
      exact ⟨_, _, hrest, rfl, hadv⟩
  · have hev : s.status1.evict = false := by simpa using hev
    left
    refine ⟨hev, ?_⟩
    rcases rw_or_amo h.ty with hq | hq
    · have hst1 := hcore.status_rw hq
      cases hhit : (L0.lookup q.addr).hit
      · rw [accept_rw hq] at hacc
        have hhit1 : s.status1.hit = false := by simp [hst1, hhit]
        have hadv := hcore.adv_miss hq hhit1 hev
        have hev' := hev
        simp only [hst1, hhit, Bool.not_false, Bool.true_and] at hev'
        have hrest : ms = [.mem (.rd q.addr.la)] := by
          rw [snd_eq hacc]
          cases hi : (L0.lookup q.addr).inval
          · rw [rw_miss hhit hi]
            simp only [hi, Bool.not_false, Bool.true_and] at hev'
            have hdz : (L0.ent (L0.rep q.addr.idx) q.addr.idx).dty = 0 := by simpa using hev'
            simp [hdz]
          · rw [rw_inval hhit hi]
        rw [hrest, hadv]
        exact ⟨⟨_, rfl⟩, rfl⟩
      · have h1 : ms = [.resp (mkResp q true (if q.ty = MT.WRITE then 0
            else readLine q (L0.dat (L0.lookup q.addr).way q.addr.idx)))] := by
          rw [accept_rw hq, rw_hit hhit] at hacc; exact snd_eq hacc
        subst h1
        exact ⟨⟨_, rfl⟩, InM1.adv ⟨L, O, L0, h⟩⟩
    · rw [accept_amo hq] at hacc
      have hst1 := hcore.status_amo hq
      have hev' := hev
      simp only [hst1] at hev'
      have hrest : ms = [.mem (.amo q)] := by
        rw [snd_eq hacc]; simp only [L1.amo]; rw [hev']; rfl
      rw [hrest, hcore.adv_amo hq hev]
      exact ⟨⟨_, rfl⟩, rfl⟩

theorem InM1.ty {s : St p} {q : CReq p} {ms : List (Msg p)} (h : InM1 s q ms) :
    q.ty = MT.READ ∨ q.ty = MT.WRITE ∨ MT.isAmo q.ty = true := by
  obtain ⟨L, O, L0, h⟩ := h; exact h.ty

/-- The last message of a miss or AMO. -/
theorem InM1.last {s : St p} {q : CReq p} {m : MReq p} {ms : List (Msg p)} (h : InM1 s q ms) (hm : ms.getLast? = some (.mem m)) :
    (m = .rd q.addr.la ∧ (q.ty = MT.READ ∨ q.ty = MT.WRITE)) ∨ (m = .amo q ∧ MT.isAmo q.ty = true) := by
  obtain ⟨L, O, L0, h⟩ := h
  have hacc := h.acc
  rcases rw_or_amo h.ty with hq | hq
  · rw [accept_rw hq] at hacc
    left; refine ⟨?_, hq⟩
    rw [snd_eq hacc] at hm
    cases hhit : (L0.lookup q.addr).hit
    · cases hi : (L0.lookup q.addr).inval
      · rw [rw_miss hhit hi] at hm
        simpa using hm.symm
      · rw [rw_inval hhit hi] at hm
        simpa using hm.symm
    · rw [rw_hit hhit] at hm; simp at hm
  · rw [accept_amo hq] at hacc
    right; refine ⟨?_, hq⟩
    rw [snd_eq hacc] at hm
    simp only [L1.amo] at hm
    simpa using hm.symm

/-- Second pass of an eviction: the message that moves to M2. -/
theorem pass2_adv {s : St p} {L : L1 p} {rest : List (Msg p)} {O : List MType} {q : CReq p} (hok : L.Wk)
    (h : PPass2 s L rest O q) :
    (s.adv.msgs = [.mem (.rd q.addr.la)] ∧ (q.ty = MT.READ ∨ q.ty = MT.WRITE)) ∨
    (s.adv.msgs = [.mem (.amo q)] ∧ MT.isAmo q.ty = true) := by
  obtain ⟨hcmp, hte, hst1, hcs⟩ := pass2_status s q.ty h.t1 h.evict2
  have hev : s.status1.evict = false := by rw [hst1]
  have hhit : s.status1.hit = false := by rw [hst1]
  have ha : s.addr1 = q.addr := by simp [St.addr1, hcs, h.req1, reqPMsg]
  rcases h.cur with ⟨hc, hrep, hrest⟩ | ⟨a, w, hc, hhs, hrep, hrest⟩
  · obtain ⟨hwm, hq⟩ := ok_fill hok hc
    have ht1 : s.t1 = .readReq ∨ s.t1 = .writeReq := by
      rw [h.t1]; rcases hq with hq | hq <;> simp [reqTrans, hq]
    left
    refine ⟨?_, hq⟩
    rcases ht1 with h2 | h2 <;>
    · simp only [M2.msgs, St.adv, hev, hhit, h2, ha, h.req1, reqPMsg, cs2]
      simp [MReq.canon, memreqType, MReq.rd, offLenSel, Addr.la]
  · obtain ⟨hwm, hq⟩ := ok_amo hok hc
    have hne := isAmo_ne hq
    have ht1 : s.t1 = .amoReq := by rw [h.t1]; simp [reqTrans, hne]
    right
    refine ⟨?_, hq⟩
    simp only [M2.msgs, St.adv, hev, hhit, ht1, ha, h.req1, reqPMsg, cs2, hq]
    simp [MReq.canon, memreqType, MReq.amo, offLenSel, replicator, hne]

/-- M1 is in the second pass of the eviction for a request with the fields of `q`. Proof device; not in the source. -/
structure Again (s : St p) (q : CReq p) : Prop where
  t1 : s.t1 = reqTrans q.ty
  req1 : s.req1 = reqPMsg q
  evict2 : s.evict2 = true

/-- An eviction leaves the request in M1 for a second pass. -/
theorem InM1.again {s : St p} {q : CReq p} {ms : List (Msg p)} (h : InM1 s q ms) (hev : s.status1.evict = true)
    {i : In p} {O : List MType} (hl : Legal s O i) (ho : (s.cs2 i).ostall = false) : Again (s.next i) q := by
  obtain ⟨L, O', L0, h⟩ := h
  have hcore := h.toReqCore
  have hcs : s.cs1 = ⟨.none, false, true, true, true, true⟩ := by
    rcases rw_or_amo h.ty with hq | hq
    · rw [hcore.cs1_rw hq, if_pos hev]
    · rw [hcore.cs1_amo hq, if_pos hev]
  have hcl : s.status1.cleanHit = false := by
    rcases rw_or_amo h.ty with hq | hq
    · have := hcore.status_rw hq
      rw [this] at hev ⊢
      simp only [Bool.and_eq_true, Bool.not_eq_true'] at hev
      simp [hev.2.1]
    · rw [hcore.status_amo hq]
  have hst : s.stall i = true := by simp [St.stall, hcs]
  have hre : i.reqEn = false := no_req hl (by simp [hst])
  have hci : s.t1 ≠ .cacheInit := by rw [h.t1]; exact reqTrans_ne_ci
  have hci' : (s.t1 == Trans.cacheInit) = false := by simpa using hci
  have hT := trans0_preq s i h.fsm h.num h.quiet.mem hre
  rw [hcl] at hT
  have hT : s.trans0 i = .invalid := hT
  refine ⟨?_, ?_, ?_⟩
  · rw [← h.t1]; simp [St.next, hst, hT]
  · rw [← h.req1]; simp [St.next, hst]
  · simp [St.next, ho, hci', bne, hev]

/-- In the second pass the fetch, or the AMO, moves to M2. -/
theorem Again.adv {s : St p} {q : CReq p} (h : Again s q) {L : L1 p} {E : List (Msg p)} {O : List MType} (hRI : RI s L E O) :
    ∃ q', reqPMsg q' = reqPMsg q ∧
      ((s.adv.msgs = [.mem (.rd q'.addr.la)] ∧ (q'.ty = MT.READ ∨ q'.ty = MT.WRITE)) ∨
       (s.adv.msgs = [.mem (.amo q')] ∧ MT.isAmo q'.ty = true)) := by
  have htt : s.t1 = .readReq ∨ s.t1 = .writeReq ∨ s.t1 = .amoReq := by
    rw [h.t1, reqTrans]; split
    · exact .inl rfl
    · split
      · exact .inr (.inl rfl)
      · exact .inr (.inr rfl)
  cases hRI with
  | init h hL hE hO => exfalso; rcases h.t1 with ⟨h, _⟩ | ⟨h, _⟩ <;> rcases htt with g | g | g <;> rw [g] at h <;> cases h
  | run L' he hR =>
    obtain ⟨hok, rest, hE, hph⟩ := hR
    cases hph with
    | flow h => exfalso; have := h.t1; rcases htt with h | h | h <;> rw [h] at this <;> simp [flowT] at this
    | req L0 q' g => exfalso; have := h.evict2; rw [g.evict2] at this; cases this
    | pass2 q' g => exact ⟨q', by rw [← g.req1, h.req1], pass2_adv hok.wk g⟩
    | wait h => exfalso; have := h.t1; rcases htt with h | h | h <;> rw [h] at this <;> simp at this
    | ans L0 h => exfalso; have := h.t1; rcases htt with h | h | h <;> rw [h] at this <;> simp at this
    | refill L0 q w d h => exfalso; have := h.t1; rcases htt with h | h | h <;> rw [h] at this <;> simp at this
    | inv0 q h => exfalso; have := h.t1; rcases htt with h | h | h <;> rw [h] at this <;> simp at this
    | inv1 q h => exfalso; have := h.t1; rcases htt with h | h | h <;> rw [h] at this <;> simp at this
    | inv2 q h => exfalso; have := h.t1; rcases htt with h | h | h <;> rw [h] at this <;> simp at this
    | fl0 L0 q h => exfalso; have := h.t1; rcases htt with h | h | h <;> rw [h] at this <;> simp at this
    | fl1 L0 q c h => exfalso; have := h.t1; rcases htt with h | h | h <;> rw [h] at this <;> simp at this
    | fl2 L0 q c h => exfalso; have := h.t1; rcases htt with h | h | h <;> rw [h] at this <;> simp at this
    | fl3 L0 q c h => exfalso; have := h.t1; rcases htt with h | h | h <;> rw [h] at this <;> simp at this
    | ini hU _ => exact absurd trivial hU

/-! ## Readiness of a hit -/

theorem ready_of {s : St p} {i : In p} (hf : s.fsm = .ready) (hn : s.mshrNum = 0) (hcl : s.status1.cleanHit = false)
    (hst : s.stall i = false) (hal : s.cs1.alloc = false) : s.reqRdy i = true := by
  simp [St.reqRdy, hf, hcl, hst, St.mshrEmpty, mshrEmpty, hn, St.allocEn, hal, mshrFull]

/-- A hit in M1 keeps the request port closed only if it has to mark its word. -/
theorem InM1.ready {s : St p} {q : CReq p} {r : CResp p} {ms : List (Msg p)} (h : InM1 s q (.resp r :: ms)) {i : In p}
    (ho : (s.cs2 i).ostall = false) : s.reqRdy i = !s.status1.cleanHit := by
  obtain ⟨L, O, L0, h⟩ := h
  obtain ⟨hq, hhit, hms⟩ := InM1.hit h
  have hst := h.status_rw hq
  have hev : s.status1.evict = false := by simp [hst, hhit]
  have hh : s.status1.hit = true := by simp [hst, hhit]
  have hcs : s.cs1.ostall = false ∧ s.cs1.alloc = false := by
    rw [h.cs1_rw hq]; rcases hq with hq | hq <;> simp [hev, hh, hq]
  have hstall : s.stall i = false := by simp [St.stall, ho, hcs]
  cases hc : s.status1.cleanHit
  · exact ready_of h.fsm h.num hc hstall hcs.2
  · simp [St.reqRdy, hc]

theorem InM1.cleanHit_read {s : St p} {q : CReq p} {ms : List (Msg p)} (h : InM1 s q ms) (hq : q.ty = MT.READ) :
    s.status1.cleanHit = false := by
  obtain ⟨L, O, L0, h⟩ := h
  rw [h.status_rw (.inl hq)]; simp [hq]

/-- The extra cycle of a write hit that marks its word. -/
theorem InM1.bubble {s : St p} {q : CReq p} {r : CResp p} {ms : List (Msg p)} (h : InM1 s q (.resp r :: ms)) {i : In p}
    (ho : (s.cs2 i).ostall = false) (hcl : s.status1.cleanHit = true) : (s.next i).t1 = .cleanHit := by
  obtain ⟨L, O, L0, h⟩ := h
  obtain ⟨hq, hhit, hms⟩ := InM1.hit h
  have hst := h.status_rw hq
  have hev : s.status1.evict = false := by simp [hst, hhit]
  have hh : s.status1.hit = true := by simp [hst, hhit]
  have hcs : s.cs1.ostall = false ∧ s.cs1.alloc = false := by
    rw [h.cs1_rw hq]; rcases hq with hq | hq <;> simp [hev, hh, hq]
  have hstall : s.stall i = false := by simp [St.stall, ho, hcs]
  have hg := go s i hstall hev (by rw [h.fsm]; simp)
  rw [hg.t1]
  simp [St.trans0, h.fsm, hcl]

/-- In the phases in which M1 sends what it holds and is done, the port is ready. -/
theorem flow_ready {s : St p} (ht : flowT s.t1 = true) (hne : s.t1 ≠ .invalid) (hni : s.t1 ≠ .cacheInit) {L : L1 p}
    {E : List (Msg p)} {O : List MType} (hRI : RI s L E O) {i : In p} (ho : (s.cs2 i).ostall = false) : s.reqRdy i = true := by
  cases hRI with
  | init h hL hE hO =>
    exfalso; rcases h.t1 with ⟨h, _⟩ | ⟨h, _⟩
    · exact hne h
    · exact hni h
  | run L' he hR =>
    obtain ⟨hok, rest, hE, hph⟩ := hR
    have kill : ∀ t, flowT t = false ∨ t = .invalid → s.t1 ≠ t := by
      intro t h1 h2; rcases h1 with h1 | h1
      · rw [← h2, ht] at h1; cases h1
      · exact hne (h2.trans h1)
    have hreq : ∀ ty : MType, flowT (reqTrans ty) = false := by
      intro ty; simp only [reqTrans]; split
      · rfl
      · split <;> rfl
    cases hph with
    | flow h =>
      obtain ⟨hs, h1, h2⟩ := flow_status s ht
      exact ready_of h.fsm h.num (by rw [hs]) (by simp [St.stall, ho, h1]) h2
    | req L0 q g => exact absurd g.t1 (kill _ (.inl (hreq _)))
    | pass2 q g => exact absurd g.t1 (kill _ (.inl (hreq _)))
    | wait h => exact absurd h.t1 hne
    | ans L0 h => exact absurd h.t1 hne
    | refill L0 q w d h => exact absurd h.t1 (kill _ (.inl rfl))
    | inv0 q h => exact absurd h.t1 (kill _ (.inl rfl))
    | inv1 q h => exact absurd h.t1 (kill _ (.inl rfl))
    | inv2 q h => exact absurd h.t1 (kill _ (.inl rfl))
    | fl0 L0 q h => exact absurd h.t1 (kill _ (.inl rfl))
    | fl1 L0 q c h => exact absurd h.t1 (kill _ (.inl rfl))
    | fl2 L0 q c h => exact absurd h.t1 (kill _ (.inl rfl))
    | fl3 L0 q c h => exact absurd h.t1 (kill _ (.inl rfl))
    | ini hU _ => exact absurd trivial hU

/-! ## Refill and replay -/

/-- The response of memory has been received. Proof device; not in the source. -/
structure Filled (s : St p) (ty : MType) : Prop where
  t1 : s.t1 = .invalid
  num : s.mshrNum = 1
  mem : s.mrespEn0 = true
  memTy : s.mresp0.ty = ty
  ty : ty ≠ MT.WRITE

theorem deliver {s : St p} {i : In p} {L : L1 p} {E : List (Msg p)} {O : List MType} (hl : Legal s O i) (hRI : RI s L E O)
    (hm : i.mrespEn = true) (hty : i.mresp.ty ≠ MT.WRITE) : Filled (s.next i) i.mresp.ty := by
  obtain ⟨O', hO⟩ := hl.mem hm
  have hq : ∀ {x}, O = [] ∨ O = [MT.WRITE] → x := by
    intro x h; exfalso
    rcases h with h | h <;> rw [h] at hO
    · cases hO
    · exact hty (List.cons.inj hO).1.symm
  cases hRI with
  | init h hL hE hO => exact hq (.inl hO)
  | run L' he hR =>
    obtain ⟨hok, rest, hE, hph⟩ := hR
    cases hph with
    | flow h => exact hq (.inl h.quiet.out)
    | req L0 q h => exact hq (.inl h.quiet.out)
    | pass2 q h => exact hq (.inl h.out)
    | wait h =>
      rcases h.out with ⟨h2, h3⟩ | ⟨h2, h3⟩
      · obtain ⟨hst1, hcs⟩ := invalid_status s h.t1
        have ho := ostall_nonblocking s i (by rw [h2]; rfl)
        have hst : s.stall i = false := by simp [St.stall, ho, hcs]
        have hg := go s i hst (by rw [hst1]) (by rw [h.fsm]; simp)
        have hv0 : s.mrespVal0 = false := by
          simp only [St.mrespVal0]
          cases hm : s.mrespEn0
          · rfl
          · simp [h.mem hm]
        have hemp : s.mshrEmpty = false := by simp [St.mshrEmpty, mshrEmpty, h.num]
        have hT : s.trans0 i = .invalid := by simp [St.trans0, h.fsm, hst1, hv0, hemp]
        exact ⟨by rw [hg.t1, hT], by rw [hg.num, hT, hcs, h.num]; rfl, by rw [hg.mrespEn0, hm], by rw [hg.mresp0], hty⟩
      · exact hq h3
    | ans L0 h => exact hq (.inl h.out)
    | refill L0 q w d h => exact hq (.inl h.out)
    | inv0 q h => exact hq (.inl h.quiet.out)
    | inv1 q h => exact hq (.inl h.quiet.out)
    | inv2 q h => exact hq (.inl h.quiet.out)
    | fl0 L0 q h => exact hq (.inl h.quiet.out)
    | fl1 L0 q c h => exact hq (.inl h.quiet.out)
    | fl2 L0 q c h =>
      rcases h.out with ⟨_, _, h⟩ | ⟨_, _, h⟩ | ⟨_, _, _, h⟩
      · exact hq (.inl h)
      · exact hq (.inr h)
      · exact hq (.inl h)
    | fl3 L0 q c h => exact hq (.inl h.quiet.out)
    | ini hU _ => exact absurd trivial hU

theorem Filled.ans {s : St p} {ty : MType} (h : Filled s ty) {L : L1 p} {E : List (Msg p)} {O : List MType} (hRI : RI s L E O) :
    ∃ L' rest L0, PAns True s L' rest O L0 := by
  have hn : s.mshrNum ≠ 0 := by rw [h.num]; decide
  cases hRI with
  | init g hL hE hO => exact absurd g.num hn
  | run L' he hR =>
    obtain ⟨hok, rest, hE, hph⟩ := hR
    have kill : ∀ t, t ≠ .invalid → s.t1 ≠ t := fun t h1 h2 => h1 (h2.symm.trans h.t1)
    have hmem : s.mrespEn0 ≠ false := by rw [h.mem]; simp
    cases hph with
    | flow g => exact absurd g.num hn
    | req L0 q g => exact absurd g.num hn
    | pass2 q g => exact absurd g.num hn
    | wait g => exact absurd (h.memTy.symm.trans (g.mem h.mem)) h.ty
    | ans L0 g => exact ⟨_, _, L0, g⟩
    | refill L0 q w d g => exact absurd g.t1 (kill _ (by simp))
    | inv0 q g => exact absurd g.num hn
    | inv1 q g => exact absurd g.t1 (kill _ (by simp))
    | inv2 q g => exact absurd g.t1 (kill _ (by simp))
    | fl0 L0 q g => exact absurd g.num hn
    | fl1 L0 q c g => exact absurd g.t1 (kill _ (by simp))
    | fl2 L0 q c g => exact absurd g.t1 (kill _ (by simp))
    | fl3 L0 q c g => exact absurd g.t1 (kill _ (by simp))
    | ini hU _ => exact absurd trivial hU

/-- A received line enters the refill; a received AMO result enters the replay. -/
theorem Filled.step {s : St p} {ty : MType} (h : Filled s ty) {L : L1 p} {E : List (Msg p)} {O : List MType} (hRI : RI s L E O)
    {i : In p} (hl : Legal s O i) :
    (ty = MT.READ → (s.next i).t1 = .refill ∧ (s.next i).mshrNum = 1) ∧
    (ty ≠ MT.READ → (s.next i).t1 = .replayAmo) := by
  obtain ⟨L', rest, L0, g⟩ := h.ans hRI
  have hre : i.reqEn = false := no_req hl (by simp [g.num])
  obtain ⟨hst1, hcs⟩ := invalid_status s g.t1
  have hW := mty_ne_W g.ok.wk g.mshr
  have ho := ostall_nonblocking s i (by rw [g.t2]; rfl)
  have hv0 : s.mrespVal0 = true := by
    have := g.memTy
    simp only [St.mrespVal0, g.mem, this]; simpa using hW
  have hemp : s.mshrEmpty = false := by simp [St.mshrEmpty, mshrEmpty, g.num]
  have hst : s.stall i = false := by simp [St.stall, ho, hcs]
  have hg := go s i hst (by rw [hst1]) (by rw [g.fsm]; simp)
  have hm := g.mshr
  have hty : ty = L0.cur.mty := h.memTy.symm.trans g.memTy
  cases hc : L0.cur with
  | idle => rw [hc] at hm; exact hm.elim
  | fill q w d =>
    rw [hc] at hm hty
    obtain ⟨m1, m2, m3, m4, m5, m6, m7⟩ := hm
    obtain ⟨hwm, hq⟩ := ok_fill g.ok.wk hc
    have hT : s.trans0 i = .refill := by
      simp [St.trans0, g.fsm, hst1, hv0, hemp]
      rcases hq with hq | hq <;> simp [m1, hq]
    exact ⟨fun _ => ⟨by rw [hg.t1, hT], by rw [hg.num, hT, hcs, g.num]; rfl⟩, fun h => absurd hty h⟩
  | amo q a w =>
    rw [hc] at hm hty
    obtain ⟨m1, m2, m3, m4, m5, m6⟩ := hm
    obtain ⟨hwm, hq⟩ := ok_amo g.ok.wk hc
    have hne := isAmo_ne hq
    have hT : s.trans0 i = .replayAmo := by
      simp [St.trans0, g.fsm, hst1, hv0, hemp, m1, hne, hq]
    exact ⟨fun h => absurd (hty.symm.trans h) hne.2.1, fun _ => by rw [hg.t1, hT]⟩

theorem refill_step {s : St p} (h1 : s.t1 = .refill) {L : L1 p} {E : List (Msg p)} {O : List MType} (hRI : RI s L E O)
    {i : In p} : (s.next i).t1 = .replayRead ∨ (s.next i).t1 = .replayWrite := by
  cases hRI with
  | init g hL hE hO => rcases g.t1 with ⟨h, _⟩ | ⟨h, _⟩ <;> rw [h1] at h <;> cases h
  | run L' he hR =>
    obtain ⟨hok, rest, hE, hph⟩ := hR
    have kill : ∀ t, t ≠ .refill → s.t1 ≠ t := fun t h2 h3 => h2 (h3.symm.trans h1)
    have hreq : ∀ ty : MType, reqTrans ty ≠ .refill := by
      intro ty; simp only [reqTrans]; split
      · simp
      · split <;> simp
    cases hph with
    | flow g => have := g.t1; rw [h1] at this; cases this
    | req L0 q g => exact absurd g.t1 (kill _ (hreq _))
    | pass2 q g => exact absurd g.t1 (kill _ (hreq _))
    | wait g => exact absurd g.t1 (kill _ (by simp))
    | ans L0 g => exact absurd g.t1 (kill _ (by simp))
    | refill L0 q w d h =>
      have hst1 : s.status1 = ⟨false, false, false, false, false, false⟩ := by simp [St.status1, h.t1]
      have hcs : s.cs1 = ⟨.dirty, true, true, false, false, false⟩ := by simp [St.cs1, h.t1, cs1]
      have ho := ostall_nonblocking s i (by rw [h.t2]; rfl)
      have hemp : s.mshrEmpty = false := by simp [St.mshrEmpty, mshrEmpty, h.num]
      have hst : s.stall i = false := by simp [St.stall, ho, hcs]
      have hg := go s i hst (by rw [hst1]) (by rw [h.fsm]; simp)
      have hm := h.mshr
      rw [h.cur] at hm
      obtain ⟨m1, m2, m3, m4, m5, m6, m7⟩ := hm
      obtain ⟨hwm, hq⟩ := ok_fill h.ok.wk h.cur
      rw [hg.t1]
      rcases hq with hq | hq
      · left; simp [St.trans0, h.fsm, hst1, hemp, m1, hq]
      · right; simp [St.trans0, h.fsm, hst1, hemp, m1, hq]
    | inv0 q g => exact absurd g.t1 (kill _ (by simp))
    | inv1 q g => exact absurd g.t1 (kill _ (by simp))
    | inv2 q g => exact absurd g.t1 (kill _ (by simp))
    | fl0 L0 q g => exact absurd g.t1 (kill _ (by simp))
    | fl1 L0 q c g => exact absurd g.t1 (kill _ (by simp))
    | fl2 L0 q c g => exact absurd g.t1 (kill _ (by simp))
    | fl3 L0 q c g => exact absurd g.t1 (kill _ (by simp))
    | ini hU _ => exact absurd trivial hU

/-- A replay in M1 sends a response. -/
theorem replay_adv {s : St p} (h : s.t1 = .replayRead ∨ s.t1 = .replayWrite ∨ s.t1 = .replayAmo ∨ s.t1 = .replayInv ∨
    s.t1 = .replayFlush) : ∃ r, s.adv.msgs = [.resp r] := by
  rcases h with h | h | h | h | h
  all_goals
    have hst1 : s.status1 = ⟨false, false, false, false, false, false⟩ := by simp [St.status1, h]
    simp only [M2.msgs, St.adv, hst1, h, cs2]
    exact ⟨_, rfl⟩

/-- Phase flow by transaction: nothing is left to send but what is in M1 and M2. -/
theorem replay_owed {s : St p} (ht : flowT s.t1 = true) (hne : s.t1 ≠ .invalid) (hni : s.t1 ≠ .cacheInit) {L : L1 p}
    {E : List (Msg p)} {O : List MType} (hRI : RI s L E O) : E = s.slot.msgs ++ s.adv.msgs ∧ L.cur = .idle := by
  let i : In p := ⟨false, false, default, true, true, false, default⟩
  have := flow_ready ht hne hni hRI (ostall_ready s i rfl rfl)
  exact ⟨hRI.ready_adv this, (hRI.ready this).1⟩

/-! ## Write hits that mark their word -/

theorem lookup_congr {L L' : L1 p} {a : Addr p} (h : ∀ w ∈ p.ways, (L.ent w a.idx).Eqv (L'.ent w a.idx)) :
    L.lookup a = L'.lookup a := by
  have hf := h false mem_ways_false
  simp only [L1.lookup, comparing, Bool.not_false, Bool.and_true, if_true]
  cases h2 : p.twoWay
  · simp only [Params.ways, h2]
    simp only [Bool.false_eq_true, if_false, List.foldl]
    exact cmpStep_eqv (f := fun w => L.ent w a.idx) (f' := fun w => L'.ent w a.idx) _ _ hf
  · have ht := h true (mem_ways_true.2 h2)
    simp only [Params.ways, h2, if_true, List.foldl]
    rw [cmpStep_eqv (f := fun w => L.ent w a.idx) (f' := fun w => L'.ent w a.idx) _ _ hf,
      cmpStep_eqv (f := fun w => L.ent w a.idx) (f' := fun w => L'.ent w a.idx) _ _ ht]

/-- The tag arrays of a ready cache. -/
theorem PhU.ready_tags {s : St p} {i : In p} {L : L1 p} {rest : List (Msg p)} {O : List MType}
    (h : PhU True s L rest O) (hr : s.reqRdy i = true) : TagsAre s L.ent := by
  obtain ⟨hf, hc, hst, hn, hal⟩ := ready_imp hr
  cases h with
  | flow h => exact h.arr.tags
  | req L0 q h => exact preq_tags_now h i hc
  | pass2 q h =>
    obtain ⟨_, _, _, hcs⟩ := pass2_status s q.ty h.t1 h.evict2
    rw [hcs] at hal; simp at hal
  | wait h => rw [h.num] at hn; cases hn
  | ans L0 h => rw [h.num] at hn; cases hn
  | refill L0 q w d h => rw [h.num] at hn; cases hn
  | inv0 q h => simp [St.cs1, h.t1, cs1, St.status1] at hal
  | inv1 q h => rw [h.num] at hn; cases hn
  | inv2 q h => rw [h.num] at hn; cases hn
  | fl0 L0 q h => simp [St.cs1, h.t1, cs1, St.status1] at hal
  | fl1 L0 q c h => rw [h.num] at hn; cases hn
  | fl2 L0 q c h => rw [h.num] at hn; cases hn
  | fl3 L0 q c h => rw [h.num] at hn; cases hn
  | ini hU _ => exact absurd trivial hU

/-- The clean-hit status of a request in M1 by the tags at its acceptance. -/
theorem accept_cleanHit {s : St p} {i : In p} {L : L1 p} {E : List (Msg p)} {O : List MType}
    (hl : Legal s O i) (h : RI s L E O) (hre : i.reqEn = true) (hty : i.req.ty = MT.READ ∨ i.req.ty = MT.WRITE)
    {q : CReq p} {ms : List (Msg p)} (hq : reqPMsg q = reqPMsg i.req) (hin : InM1 (s.next i) q ms) :
    (s.next i).status1.cleanHit = (!(L.lookup i.req.addr).inval && (L.lookup i.req.addr).hit &&
      !wordDirty p (L.ent (L.lookup i.req.addr).way i.req.addr.idx) i.req.addr.off i.req.len && (i.req.ty == MT.WRITE)) := by
  obtain ⟨hr, hni⟩ := hl.req hre
  have hni := hni trivial
  obtain ⟨hf, hcl, hst, hn, hal⟩ := ready_imp hr
  obtain ⟨e1, e2, e3, e4⟩ := reqPMsg_inj hq
  cases h with
  | init h hL hE hO => exact absurd h.fsm hf
  | run L' he h =>
    obtain ⟨hok, rest, hE, hph⟩ := h
    have hfacts := hph.readyFacts hr
    have htags := hph.ready_tags hr
    have hgo := go s i hst hfacts.evict (by rw [hfacts.fsm]; simp)
    have ht := trans0_ready s i hfacts.fsm hn hfacts.mem hcl
    have hreq0 : s.req0 i = i.req := by simp [St.req0, hfacts.fsm, hfacts.mem]
    obtain ⟨L2, O2, L0, g⟩ := hin
    have hT : s.trans0 i = .readReq ∨ s.trans0 i = .writeReq := by
      rw [ht]; rcases hty with h | h <;> simp [hre, h]
    have hcs : cs0 (s.trans0 i) = ⟨.none, false, false, false, .none, false, false, false⟩ := by
      rcases hT with h | h <;> rw [h] <;> rfl
    have hix : s.tagIdx0 i (s.trans0 i) = i.req.addr.idx := by
      simp [St.tagIdx0, hcs, St.pmsg0, hreq0]
    have hent : ∀ w ∈ p.ways, L0.ent w q.addr.idx = L'.ent w q.addr.idx := by
      intro w hw
      have hv : s.tagVal0 (s.trans0 i) w = true := by
        rcases hT with h | h <;> simp [h, St.tagVal0, hw]
      rw [← g.eff w hw, hgo.effTag, hgo.tagDout, e3, ← htags w hw, hix]
      simp only [hv, hcs, Bool.not_false, Bool.and_self, if_true]
    have hlk : L0.lookup q.addr = L'.lookup q.addr := lookup_congr fun w hw => by rw [hent w hw]; exact .rfl' _
    have hlk2 : L'.lookup q.addr = L.lookup q.addr := he.lookup _
    have hwm := L'.lookup_way_mem q.addr
    rw [g.status_rw (by rw [e1]; exact hty)]
    simp only [hlk, hent _ hwm]
    rw [← e3, ← e4, ← e1, ← hlk2]
    have : wordDirty p (L'.ent (L'.lookup q.addr).way q.addr.idx) q.addr.off q.len =
        wordDirty p (L.ent (L'.lookup q.addr).way q.addr.idx) q.addr.off q.len := by
      simp only [wordDirty, (he.ent _ hwm q.addr.idx).dty]
    rw [this]

end Verif
