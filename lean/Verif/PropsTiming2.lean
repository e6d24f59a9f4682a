import Verif.PropsTiming

/-!
# C61: timing of misses and AMOs
-/

namespace Verif
variable {p : Params} {ι : Type} [DecidableEq ι]
set_option linter.unusedSectionVars false

/-- The request that asks memory for what the processor request `q` needs: the
line, from its first byte, for a read or write; the operation itself for an AMO. -/
def Fetches (q : CReq p) (m : MReq p) : Prop :=
  if MT.isAmo q.ty then m.ty = q.ty ∧ m.addr = q.addr else m.ty = MT.READ ∧ m.addr = ⟨q.addr.tag, q.addr.idx, 0⟩

/-- Blanking the unused fields of a memory request keeps its address. -/
theorem fetch_addr (o : MReq p) : o.canon.addr = o.addr := by simp only [MReq.canon]; split <;> (try split) <;> rfl

theorem fetches_of {q q' : CReq p} (hq : reqPMsg q' = reqPMsg q) {o : MReq p}
    (h : (o.canon = .rd q'.addr.la ∧ (q'.ty = MT.READ ∨ q'.ty = MT.WRITE)) ∨ (o.canon = .amo q' ∧ MT.isAmo q'.ty = true)) :
    Fetches q o := by
  obtain ⟨e1, e2, e3, e4⟩ := reqPMsg_inj hq
  simp only [Fetches]
  rcases h with ⟨h1, h2⟩ | ⟨h1, h2⟩
  · rw [← e1, ReqCore.isAmo_rw h2, ← e3]
    have t := congrArg MReq.ty h1
    have a := congrArg MReq.addr h1
    rw [MReq.canon_ty] at t
    rw [fetch_addr] at a
    exact ⟨t, a⟩
  · rw [← e1, h2, if_pos rfl, ← e3]
    have t := congrArg MReq.ty h1
    have a := congrArg MReq.addr h1
    rw [MReq.canon_ty] at t
    rw [fetch_addr] at a
    exact ⟨t, a⟩

/-- **C61 (a).**  Memory requests of a miss.  After the acceptance of an AMO, or
of a READ or WRITE whose line is not in the cache, the second clock edge sends a
memory request (and no response): either the fetch, or a write-back, and then
the third edge sends the fetch. -/
theorem C61_miss_requests (wf : p.WF) {S S₁ S₂ S₃ : Sys ι p} {tr tr₁ tr₂ : List (Ev ι p)} (h0 : Start S) (h : Run S tr S₁)
    {k : ι} {i : In p} (hc : S₁.CanClock k i) (he : i.reqEn = true)
    (hty : ((i.req.ty = MT.READ ∨ i.req.ty = MT.WRITE) ∧ ¬ Cached k tr i.req.addr) ∨ MT.isAmo i.req.ty = true)
    (ht : Ticks k 1 (S₁.clock k i) tr₁ S₂) (ht' : Ticks k 1 S₂ tr₂ S₃)
    {j : In p} (j1 : j.respRdy = true) (j2 : j.mreqRdy = true) :
    (responses k (tr ++ S₁.clockEvs k i ++ tr₁)).length = (accepted k tr).length ∧
    ((S₂.cache k).out j).respEn = false ∧ ((S₂.cache k).out j).mreqEn = true ∧
    (Fetches i.req ((S₂.cache k).out j).mreq ∨
      ((S₂.cache k).out j).mreq.ty = MT.WRITE ∧ ((S₃.cache k).out j).respEn = false ∧
      ((S₃.cache k).out j).mreqEn = true ∧ Fetches i.req ((S₃.cache k).out j).mreq) := by
  have hty3 : i.req.ty = MT.READ ∨ i.req.ty = MT.WRITE ∨ MT.isAmo i.req.ty = true := by
    rcases hty with ⟨h | h, _⟩ | h <;> simp [h]
  obtain ⟨q, ms, hq, hin, hms, hhit, hcount⟩ := after_accept wf h0 h hc he hty3
  have hnr : ¬ ∃ r, ms = [.resp r] := by
    rw [hhit]
    rintro ⟨h1, h2⟩
    rcases hty with ⟨_, h3⟩ | h3
    · exact h3 h2
    · rw [ReqCore.isAmo_rw h1] at h3; cases h3
  obtain ⟨Sa, ia, ta, tb, g1, g2, g3, g4, g5, g6⟩ := ht.last
  obtain ⟨a1, _, a3, _⟩ := g1.zero rfl
  obtain ⟨b1, _, b3, _⟩ := g5.zero rfl
  have hrun1 := (h.snoc (.clock _ k i hc)).append g1.run
  have hrunA := (h.snoc (.clock _ k i hc)).append ht.run
  rw [← a1] at hin hcount
  obtain ⟨o1, o2⟩ := ready_out (Sa.cache k) g3 g4
  rw [← clock_cache g2, ← b1] at o2
  have o3 := (ready_out (S₂.cache k) j1 j2).1
  rw [o2] at o3
  have hres := responses_clockEvs Sa k ia
  rw [o1] at hres
  refine ⟨?_, ?_⟩
  · rw [g6]
    simp only [responses_append, a3, b3]
    simp only [List.nil_append, List.append_nil, List.length_append, hres]
    rw [← List.length_append, ← responses_append]; exact hcount
  · rcases hin.info with ⟨hev, ⟨m, hm⟩, hadv⟩ | ⟨hev, w, m, hm, hwt, hadv⟩
    · -- no write-back
      subst hm
      rw [hadv] at o3
      rcases hms m (by simp) with ⟨r, rfl, _⟩ | ⟨x, rfl⟩
      · exact absurd ⟨r, rfl⟩ hnr
      · obtain ⟨e1, e2, e3⟩ := out_mem o3
        refine ⟨e3, e1, .inl ?_⟩
        have := hin.last rfl
        rw [← e2] at this
        exact fetches_of hq this
    · rw [hadv] at o3
      obtain ⟨e1, e2, e3⟩ := out_mem o3
      refine ⟨e3, e1, .inr ⟨?_, ?_⟩⟩
      · rw [← hwt, ← e2, MReq.canon_ty]
      · obtain ⟨T1, _, hrel1⟩ := refine wf h0 hrun1
        obtain ⟨T2, _, hrel2⟩ := refine wf h0 hrunA
        have hag := hin.again hev (hrel1.legal g2) (ostall_ready _ ia g4 g3)
        rw [← clock_cache g2, ← b1] at hag
        obtain ⟨q', hq', hadv'⟩ := hag.adv (hrel2.cache k)
        obtain ⟨Sb, ib, tc, td, f1, f2, f3, f4, f5, f6⟩ := ht'.last
        obtain ⟨c1, _⟩ := f1.zero rfl
        obtain ⟨d1, _⟩ := f5.zero rfl
        obtain ⟨_, u2⟩ := ready_out (Sb.cache k) f3 f4
        rw [← clock_cache f2, ← d1, c1] at u2
        have u3 := (ready_out (S₃.cache k) j1 j2).1
        rw [u2] at u3
        rcases hadv' with ⟨hx, hy⟩ | ⟨hx, hy⟩
        · rw [hx] at u3
          obtain ⟨v1, v2, v3⟩ := out_mem u3
          exact ⟨v3, v1, fetches_of (hq'.trans hq) (.inl ⟨v2, hy⟩)⟩
        · rw [hx] at u3
          obtain ⟨v1, v2, v3⟩ := out_mem u3
          exact ⟨v3, v1, fetches_of (hq'.trans hq) (.inr ⟨v2, hy⟩)⟩

/-- A replay in M1: the cache is ready, and the next edge puts the response of
the last accepted request on the port. -/
theorem replay_point (wf : p.WF) {S S₁ S₂ : Sys ι p} {tr tr₁ : List (Ev ι p)} (h0 : Start S) (h : Run S tr S₁) {k : ι}
    (hrp : (S₁.cache k).t1 = .replayRead ∨ (S₁.cache k).t1 = .replayWrite ∨ (S₁.cache k).t1 = .replayAmo ∨
      (S₁.cache k).t1 = .replayInv ∨ (S₁.cache k).t1 = .replayFlush)
    (ht : Ticks k 1 S₁ tr₁ S₂) {j : In p} (j1 : j.respRdy = true) (j2 : j.mreqRdy = true) :
    ((S₁.cache k).out j).reqRdy = true ∧ (accepted k tr).length = (responses k (tr ++ tr₁)).length + 1 ∧
    ((S₂.cache k).out j).respEn = true ∧ ((S₂.cache k).out j).mreqEn = false := by
  obtain ⟨T, hE, hrel⟩ := refine wf h0 h
  have hRI := hrel.cache k
  have hfl : flowT (S₁.cache k).t1 = true ∧ (S₁.cache k).t1 ≠ .invalid ∧ (S₁.cache k).t1 ≠ .cacheInit := by
    rcases hrp with h | h | h | h | h <;> rw [h] <;> simp [flowT]
  have hrd := flow_ready hfl.1 hfl.2.1 hfl.2.2 hRI (ostall_ready _ j j2 j1)
  obtain ⟨r, hadv⟩ := replay_adv hrp
  have ho := owed hE k
  obtain ⟨hcur, _, _⟩ := hRI.ready hrd
  rw [accepted_canon, responses_canon, hRI.ready_adv hrd, nResp_append, hadv, hcur] at ho
  obtain ⟨Sa, ia, ta, tb, g1, g2, g3, g4, g5, g6⟩ := ht.last
  obtain ⟨a1, _, a3, _⟩ := g1.zero rfl
  obtain ⟨b1, _, b3, _⟩ := g5.zero rfl
  obtain ⟨o1, o2⟩ := ready_out (Sa.cache k) g3 g4
  rw [← clock_cache g2, ← b1, a1, hadv] at o2
  have o3 := (ready_out (S₂.cache k) j1 j2).1
  rw [o2] at o3
  obtain ⟨e1, e2, e3⟩ := out_resp o3
  have hres := responses_clockEvs Sa k ia
  rw [o1, a1] at hres
  refine ⟨hrd, ?_, e1, e3⟩
  rw [g6]
  simp only [responses_append, a3, b3]
  simp only [List.nil_append, List.append_nil, List.length_append, hres, ho]
  have : nResp [(.resp r : Msg p)] = 1 := rfl
  rw [this]; simp only [Cur.pend]; omega

/-- **C61 (b).**  Refill latency.  Let a clock edge deliver a line (the answer to
a fetch) to the cache.  In the next two cycles the cache is not ready, in the
third it is; and the fourth edge after the delivery puts the response on the
port: after three edges exactly one of the accepted requests is unanswered. -/
theorem C61_refill_latency (wf : p.WF) {S S₁ Sa Sb Sc Sd : Sys ι p} {tr ta tb tc td : List (Ev ι p)} (h0 : Start S)
    (h : Run S tr S₁) {k : ι} {i : In p} (hc : S₁.CanClock k i) (he : i.mrespEn = true) (hty : i.mresp.ty = MT.READ)
    (hta : Ticks k 0 (S₁.clock k i) ta Sa) (htb : Ticks k 1 Sa tb Sb) (htc : Ticks k 1 Sb tc Sc) (htd : Ticks k 1 Sc td Sd)
    {j : In p} (j1 : j.respRdy = true) (j2 : j.mreqRdy = true) :
    ((Sa.cache k).out j).reqRdy = false ∧ ((Sb.cache k).out j).reqRdy = false ∧ ((Sc.cache k).out j).reqRdy = true ∧
    (accepted k (tr ++ S₁.clockEvs k i ++ ta ++ tb ++ tc)).length =
      (responses k (tr ++ S₁.clockEvs k i ++ ta ++ tb ++ tc ++ td)).length + 1 ∧
    ((Sd.cache k).out j).respEn = true ∧ ((Sd.cache k).out j).mreqEn = false := by
  obtain ⟨T, hE, hrel⟩ := refine wf h0 h
  have hf := deliver (hrel.legal hc) (hrel.cache k) he (by rw [hty]; decide)
  rw [← clock_cache hc, ← (hta.zero rfl).1] at hf
  have runA := (h.snoc (.clock _ k i hc)).append hta.run
  have runB := runA.append htb.run
  have runC := runB.append htc.run
  obtain ⟨TA, _, hrelA⟩ := refine wf h0 runA
  obtain ⟨TB, _, hrelB⟩ := refine wf h0 runB
  have notReady : ∀ {s : St p}, s.mshrNum = 1 → (s.out j).reqRdy = false := by
    intro s hn
    cases hx : (s.out j).reqRdy
    · rfl
    · have := (ready_imp (i := j) hx).2.2.2.1; rw [hn] at this; cases this
  -- first edge
  obtain ⟨S1, i1, t1, t1', g1, g2, g3, g4, g5, g6⟩ := htb.last
  have hS1 := (g1.zero rfl).1
  have run1 := runA.append g1.run
  obtain ⟨T1, _, hrel1⟩ := refine wf h0 run1
  rw [← hS1] at hf
  have hst := (hf.step (hrel1.cache k) (hrel1.legal g2)).1 hty
  rw [← clock_cache g2, ← (g5.zero rfl).1] at hst
  -- second edge
  obtain ⟨S2, i2, t2, t2', f1, f2, f3, f4, f5, f6⟩ := htc.last
  have hS2 := (f1.zero rfl).1
  have run2 := runB.append f1.run
  obtain ⟨T2, _, hrel2⟩ := refine wf h0 run2
  have hrf := refill_step (by rw [hS2]; exact hst.1) (hrel2.cache k) (i := i2)
  rw [← clock_cache f2, ← (f5.zero rfl).1] at hrf
  have hrp := replay_point wf h0 runC (k := k) (by rcases hrf with h | h <;> simp [h]) htd j1 j2
  refine ⟨notReady (by rw [← hS1]; exact hf.num), notReady hst.2, hrp⟩

/-- **C61 (c).**  AMO latency.  The same for the delivery of the result of an AMO,
with one cycle less: not ready in the next cycle, ready in the second, and the
third edge puts the response on the port. -/
theorem C61_amo_latency (wf : p.WF) {S S₁ Sa Sb Sc : Sys ι p} {tr ta tb tc : List (Ev ι p)} (h0 : Start S)
    (h : Run S tr S₁) {k : ι} {i : In p} (hc : S₁.CanClock k i) (he : i.mrespEn = true)
    (hty : i.mresp.ty ≠ MT.READ ∧ i.mresp.ty ≠ MT.WRITE)
    (hta : Ticks k 0 (S₁.clock k i) ta Sa) (htb : Ticks k 1 Sa tb Sb) (htc : Ticks k 1 Sb tc Sc)
    {j : In p} (j1 : j.respRdy = true) (j2 : j.mreqRdy = true) :
    ((Sa.cache k).out j).reqRdy = false ∧ ((Sb.cache k).out j).reqRdy = true ∧
    (accepted k (tr ++ S₁.clockEvs k i ++ ta ++ tb)).length =
      (responses k (tr ++ S₁.clockEvs k i ++ ta ++ tb ++ tc)).length + 1 ∧
    ((Sc.cache k).out j).respEn = true ∧ ((Sc.cache k).out j).mreqEn = false := by
  obtain ⟨T, hE, hrel⟩ := refine wf h0 h
  have hf := deliver (hrel.legal hc) (hrel.cache k) he hty.2
  rw [← clock_cache hc, ← (hta.zero rfl).1] at hf
  have runA := (h.snoc (.clock _ k i hc)).append hta.run
  have runB := runA.append htb.run
  obtain ⟨S1, i1, t1, t1', g1, g2, g3, g4, g5, g6⟩ := htb.last
  have hS1 := (g1.zero rfl).1
  have run1 := runA.append g1.run
  obtain ⟨T1, _, hrel1⟩ := refine wf h0 run1
  rw [← hS1] at hf
  have hst := (hf.step (hrel1.cache k) (hrel1.legal g2)).2 hty.1
  rw [← clock_cache g2, ← (g5.zero rfl).1] at hst
  have hrp := replay_point wf h0 runB (k := k) (by simp [hst]) htc j1 j2
  refine ⟨?_, hrp⟩
  cases hx : ((Sa.cache k).out j).reqRdy
  · rfl
  · have := (ready_imp (i := j) hx).2.2.2.1; rw [← hS1, hf.num] at this; cases this

end Verif
