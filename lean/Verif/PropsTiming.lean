import Verif.Timing
import Verif.SpecTiming
import Verif.PropsDirty
import Verif.Exec

/-!
# C60: timing of hits
-/

namespace Verif
variable {p : Params} {ι : Type} [DecidableEq ι]
set_option linter.unusedSectionVars false

/-! ## Ticks -/

theorem Ticks.run {k : ι} {n : Nat} {S S' : Sys ι p} {tr : List (Ev ι p)} (h : Ticks k n S tr S') : Run S tr S' := by
  induction h with
  | refl => exact .refl _
  | edge h i hc _ _ ih => exact ih.snoc (.clock _ k i hc)
  | other h k' _ i hc ih => exact ih.snoc (.clock _ k' i hc)
  | exec h k' m ms hq ih => exact ih.snoc (.exec _ k' m ms hq)

theorem clockEvs_elsewhere (S : Sys ι p) (k k' : ι) (i : In p) (hk : k' ≠ k) :
    accepted k (S.clockEvs k' i) = [] ∧ responses k (S.clockEvs k' i) = [] ∧ sent k (S.clockEvs k' i) = [] := by
  simp only [Sys.clockEvs, accepted_append, responses_append, sent_append]
  cases i.reqEn <;> cases ((S.cache k').out i).mreqEn <;> cases ((S.cache k').out i).respEn <;>
    simp [accepted, responses, sent, hk]

theorem Ticks.zero {k : ι} {n : Nat} {S S' : Sys ι p} {tr : List (Ev ι p)} (h : Ticks k n S tr S') (hn : n = 0) :
    S'.cache k = S.cache k ∧ accepted k tr = [] ∧ responses k tr = [] ∧ sent k tr = [] := by
  induction h with
  | refl => exact ⟨rfl, rfl, rfl, rfl⟩
  | edge h i hc _ _ ih => cases hn
  | other h k' hk i hc ih =>
    obtain ⟨h1, h2, h3, h4⟩ := ih hn
    obtain ⟨g1, g2, g3⟩ := clockEvs_elsewhere _ k k' i hk
    refine ⟨?_, by rw [accepted_append, h2, g1]; rfl, by rw [responses_append, h3, g2]; rfl, by rw [sent_append, h4, g3]; rfl⟩
    rw [← h1]; simp [Sys.clock, upd, Ne.symm hk]
  | exec h k' m ms hq ih =>
    obtain ⟨h1, h2, h3, h4⟩ := ih hn
    exact ⟨h1, by rw [accepted_append, h2]; rfl, by rw [responses_append, h3]; rfl, by rw [sent_append, h4]; rfl⟩

/-- The last edge of a number of ticks. -/
theorem Ticks.last {k : ι} {n : Nat} {S S' : Sys ι p} {tr : List (Ev ι p)} (h : Ticks k (n + 1) S tr S') :
    ∃ S₁ i tr₁ tr₂, Ticks k n S tr₁ S₁ ∧ S₁.CanClock k i ∧ i.respRdy = true ∧ i.mreqRdy = true ∧
      Ticks k 0 (S₁.clock k i) tr₂ S' ∧ tr = tr₁ ++ S₁.clockEvs k i ++ tr₂ := by
  generalize hm : n + 1 = m at h
  induction h with
  | refl => cases hm
  | @edge n' _ S' tr h i hc h1 h2 ih =>
    have : n' = n := by omega
    subst this
    exact ⟨_, i, _, [], h, hc, h1, h2, .refl _, by simp⟩
  | other h k' hk i hc ih =>
    obtain ⟨S₁, i', tr₁, tr₂, g1, g2, g3, g4, g5, g6⟩ := ih hm
    exact ⟨S₁, i', tr₁, _, g1, g2, g3, g4, g5.other k' hk i hc, by rw [g6]; simp⟩
  | exec h k' m ms hq ih =>
    obtain ⟨S₁, i', tr₁, tr₂, g1, g2, g3, g4, g5, g6⟩ := ih hm
    exact ⟨S₁, i', tr₁, _, g1, g2, g3, g4, g5.exec k' m ms hq, by rw [g6]; simp⟩

theorem Run.append {S S' S'' : Sys ι p} {a b : List (Ev ι p)} (h : Run S a S') (h' : Run S' b S'') : Run S (a ++ b) S'' := by
  induction h' with
  | refl => simpa using h
  | snoc h1 hs ih => rw [← List.append_assoc]; exact ih.snoc hs

theorem clock_cache {S : Sys ι p} {k : ι} {i : In p} (h : S.CanClock k i) : (S.clock k i).cache k = (S.cache k).next i := by
  simp [Sys.clock, St.step, h.noReset]

/-- What leaves at a ready edge. -/
theorem ready_out (s : St p) {i : In p} (h1 : i.respRdy = true) (h2 : i.mreqRdy = true) :
    (s.out i).msgs = s.slot.msgs ∧ (s.next i).slot.msgs = s.adv.msgs :=
  ⟨out_msgs_adv s i (ostall_ready s i h2 h1), next_slot_adv s i (ostall_ready s i h2 h1)⟩

/-- Responses in the list of messages of a cycle. -/
theorem out_resp {o : Out p} {r : CResp p} (h : o.msgs = [.resp r]) : o.respEn = true ∧ o.resp = r ∧ o.mreqEn = false := by
  simp only [Out.msgs] at h
  cases h1 : o.mreqEn <;> cases h2 : o.respEn <;> rw [h1, h2] at h <;> simp at h
  exact ⟨rfl, h, rfl⟩

theorem out_mem {o : Out p} {m : MReq p} (h : o.msgs = [.mem m]) : o.mreqEn = true ∧ o.mreq.canon = m ∧ o.respEn = false := by
  simp only [Out.msgs] at h
  cases h1 : o.mreqEn <;> cases h2 : o.respEn <;> rw [h1, h2] at h <;> simp at h
  exact ⟨rfl, h, rfl⟩

/-! ## The directory -/

theorem hit_iff {L : L1 p} (hok : L.Ok) (a : Addr p) : (L.lookup a).hit = true ↔ a.tag ∈ L.dir a.idx := by
  rw [L1.dir, mem_recF (hok.rep _)]
  have hw := L.lookup_way_mem a
  cases lookup_cases (Ok.uniqAt hok a.idx) with
  | hit h hi hv ht => exact ⟨fun _ => ⟨_, hw, hv, ht⟩, fun _ => h⟩
  | inval h hi hv hd ht =>
    rw [h]
    refine ⟨fun h => (by cases h), ?_⟩
    rintro ⟨w, h1, h2, h3⟩
    have := hok.uniq w h1 _ hw _ (.inl h2) (.inr hd) (by rw [h3, ht])
    rw [this, hv] at h2; cases h2
  | miss h hi hn =>
    rw [h]
    refine ⟨fun h => (by cases h), ?_⟩
    rintro ⟨w, h1, h2, h3⟩
    exact absurd h3 (hn w h1 (.inl h2))

/-- The cache is as the directory says whenever it is ready. -/
theorem cached_hit {M : ByteMem} {T : ESys ι p} {tr : List (Ev ι p)} (h : ERun (ESys.init ι p M) (tr.map Ev.canon) T) (k : ι)
    (hc : (T.L k).cur = .idle) (a : Addr p) : ((T.L k).lookup a).hit = true ↔ Cached k tr a := by
  have hl := (lru_run h k 0).1.dir a.idx
  rw [answer_of_idle hc, accepted_canon] at hl
  rw [hit_iff (EInv.run h k).ok, Cached, hl]

/-- After the acceptance of a read, write or AMO. -/
theorem after_accept (wf : p.WF) {S S₁ : Sys ι p} {tr : List (Ev ι p)} (h0 : Start S) (h : Run S tr S₁) {k : ι} {i : In p}
    (hc : S₁.CanClock k i) (he : i.reqEn = true)
    (hty : i.req.ty = MT.READ ∨ i.req.ty = MT.WRITE ∨ MT.isAmo i.req.ty = true) :
    ∃ q ms, reqPMsg q = reqPMsg i.req ∧ InM1 ((S₁.clock k i).cache k) q ms ∧
      (∀ m ∈ ms, (∃ r, m = .resp r ∧ r.ty = i.req.ty ∧ r.opq = i.req.opq ∧ r.test = 1) ∨ ∃ x, m = .mem x) ∧
      ((∃ r, ms = [.resp r]) ↔ (i.req.ty = MT.READ ∨ i.req.ty = MT.WRITE) ∧ Cached k tr i.req.addr) ∧
      (responses k (tr ++ S₁.clockEvs k i)).length + nResp ((S₁.clock k i).cache k).slot.msgs = (accepted k tr).length := by
  obtain ⟨T, hE, hrel⟩ := refine wf h0 h
  have hRI := hrel.cache k
  have hl := hrel.legal hc
  have hr := (hc.req he).1
  obtain ⟨hcur, hmE, hO⟩ := hRI.ready hr
  obtain ⟨⟨q, hq1, hq2⟩, hsl⟩ := accept_inM1 wf hl hRI he hty
  have hca := clock_cache hc
  rw [hca]
  refine ⟨q, _, hq1, hq2, ?_, ?_, ?_⟩
  · intro m hm
    rcases rw_or_amo hty with ht | ht
    · rw [accept_rw ht] at hm
      cases hh : ((T.L k).lookup i.req.addr).hit
      · cases hi : ((T.L k).lookup i.req.addr).inval
        · rw [rw_miss hh hi] at hm
          simp only [L1.wb] at hm
          split at hm <;> simp at hm
          · rcases hm with rfl | rfl <;> exact .inr ⟨_, rfl⟩
          · subst hm; exact .inr ⟨_, rfl⟩
        · rw [rw_inval hh hi] at hm; simp at hm; subst hm; exact .inr ⟨_, rfl⟩
      · rw [rw_hit hh] at hm; simp at hm; subst hm; exact .inl ⟨_, rfl, rfl, rfl, rfl⟩
    · rw [accept_amo ht] at hm
      simp only [L1.amo, L1.wb] at hm
      split at hm <;> simp at hm
      · rcases hm with rfl | rfl <;> exact .inr ⟨_, rfl⟩
      · subst hm; exact .inr ⟨_, rfl⟩
  · rw [← cached_hit hE k hcur]
    constructor
    · rintro ⟨r, hr⟩
      rcases rw_or_amo hty with ht | ht
      · rw [accept_rw ht] at hr
        exact ⟨ht, rw_resp_hit hr⟩
      · rw [accept_amo ht] at hr; exact absurd hr amo_no_resp
    · rintro ⟨ht, hh⟩
      rw [accept_rw ht, rw_hit hh]; exact ⟨_, rfl⟩
  · have ho := owed hE k
    rw [accepted_canon, responses_canon, hRI.ready_adv hr, nResp_append, hcur] at ho
    have hos : ((S₁.cache k).cs2 i).ostall = false := by
      have := (ready_imp hr).2.2.1
      simp only [St.stall, Bool.or_eq_false_iff] at this; exact this.2
    have g1 := responses_clockEvs S₁ k i
    rw [out_msgs_adv _ _ hos] at g1
    rw [responses_append, List.length_append, g1, hsl, ho]
    simp only [Cur.pend]; omega

/-! ## C60 -/

/-- **C60 (a).**  Hit latency.  A READ or WRITE whose line is in the cache is
answered at the second clock edge after the edge that accepted it: not earlier
(after one edge exactly the requests accepted before it have been answered), and
at the second edge the response is on the port, with its type and opaque fields
and the hit flag, and no memory request. -/
theorem C60_hit_latency (wf : p.WF) {S S₁ S₂ : Sys ι p} {tr tr₁ : List (Ev ι p)} (h0 : Start S) (h : Run S tr S₁) {k : ι}
    {i : In p} (hc : S₁.CanClock k i) (he : i.reqEn = true) (hty : i.req.ty = MT.READ ∨ i.req.ty = MT.WRITE)
    (hit : Cached k tr i.req.addr) (ht : Ticks k 1 (S₁.clock k i) tr₁ S₂)
    {j : In p} (j1 : j.respRdy = true) (j2 : j.mreqRdy = true) :
    (responses k (tr ++ S₁.clockEvs k i ++ tr₁)).length = (accepted k tr).length ∧
    ((S₂.cache k).out j).respEn = true ∧ ((S₂.cache k).out j).mreqEn = false ∧
    ((S₂.cache k).out j).resp.ty = i.req.ty ∧ ((S₂.cache k).out j).resp.opq = i.req.opq ∧
    ((S₂.cache k).out j).resp.test = 1 := by
  obtain ⟨q, ms, hq, hin, hms, hhit, hcount⟩ := after_accept wf h0 h hc he (by rcases hty with h | h <;> simp [h])
  obtain ⟨r, hr⟩ := hhit.2 ⟨hty, hit⟩
  subst hr
  obtain ⟨Sa, ia, ta, tb, g1, g2, g3, g4, g5, g6⟩ := ht.last
  obtain ⟨a1, a2, a3, _⟩ := g1.zero rfl
  obtain ⟨b1, b2, b3, _⟩ := g5.zero rfl
  rw [← a1] at hin
  obtain ⟨o1, o2⟩ := ready_out (Sa.cache k) g3 g4
  rw [hin.adv, ← clock_cache g2, ← b1] at o2
  have o3 := (ready_out (S₂.cache k) j1 j2).1
  rw [o2] at o3
  obtain ⟨e1, e2, e3⟩ := out_resp o3
  have hres := responses_clockEvs Sa k ia
  rw [o1, a1] at hres
  refine ⟨?_, e1, e3, ?_⟩
  · rw [g6]
    simp only [responses_append, a3, b3]
    simp only [List.nil_append, List.append_nil, List.length_append, hres]
    rw [← List.length_append, ← responses_append]; exact hcount
  · rw [e2]
    rcases hms (.resp r) (by simp) with ⟨r', h1, h2⟩ | ⟨x, h1⟩
    · cases h1; exact h2
    · cases h1

/-- **C60 (b).**  Reads that hit do not close the request port: in the cycle
after the acceptance of a READ whose line is in the cache, the cache is ready
for the next request. -/
theorem C60_read_hit_ready (wf : p.WF) {S S₁ S₂ : Sys ι p} {tr tr₁ : List (Ev ι p)} (h0 : Start S) (h : Run S tr S₁) {k : ι}
    {i : In p} (hc : S₁.CanClock k i) (he : i.reqEn = true) (hty : i.req.ty = MT.READ)
    (hit : Cached k tr i.req.addr) (ht : Ticks k 0 (S₁.clock k i) tr₁ S₂)
    {j : In p} (j1 : j.respRdy = true) (j2 : j.mreqRdy = true) : ((S₂.cache k).out j).reqRdy = true := by
  obtain ⟨q, ms, hq, hin, hms, hhit, hcount⟩ := after_accept wf h0 h hc he (.inl hty)
  obtain ⟨r, hr⟩ := hhit.2 ⟨.inl hty, hit⟩
  subst hr
  obtain ⟨a1, _⟩ := ht.zero rfl
  rw [← a1] at hin
  have hqt : q.ty = MT.READ := by rw [(reqPMsg_inj hq).1, hty]
  have := hin.ready (ostall_ready (S₂.cache k) j j2 j1)
  rw [hin.cleanHit_read hqt] at this
  exact this

/-- The dirty test of a valid store looks at the words it writes. -/
theorem wordDirty_iff (wf : p.WF) {q : CReq p} (hv : q.Valid) (ty : q.ty = MT.WRITE) (e : Entry p) :
    wordDirty p e q.addr.off q.len = true ↔
      ∀ b, b < p.nWords → q.writesWord (q.addr.la.num * 2 ^ p.nwBits + b) → e.dty.getLsbD b = true := by
  constructor
  · intro h b hb hw
    obtain ⟨b', hb', hn, _, hd⟩ := store_marks wf hv ty hw
    obtain ⟨_, rfl⟩ := num_line_ext hb' hb hn
    exact hd e h
  · intro h
    have hm : ∀ b, b < p.nWords → (markDirty p 0 q.addr.off q.len).getLsbD b = true → e.dty.getLsbD b = true := by
      intro b hb hm
      rcases mark_writes wf hv ty 0 b hm with h1 | h1
      · simp at h1
      · exact h b hb h1
    have hlt : ∀ x : BitVec p.nwBits, x.toNat < p.nWords := fun x => x.isLt
    simp only [wordDirty]
    split
    · rename_i h3
      rw [Bool.and_eq_true]
      refine ⟨hm _ (hlt _) ?_, hm _ (hlt _) ?_⟩ <;>
        simp only [markDirty, h3, if_true, getLsbD_setBit, Bool.or_eq_true, Bool.and_eq_true, decide_eq_true_eq]
      · exact .inl (.inr ⟨hlt _, trivial⟩)
      · exact .inr ⟨hlt _, trivial⟩
    · rename_i h3
      refine hm _ (hlt _) ?_
      simp only [markDirty, h3, if_false, getLsbD_setBit, Bool.or_eq_true, Bool.and_eq_true, decide_eq_true_eq]
      exact .inr ⟨hlt _, trivial⟩

/-- Whether the words of a store that hits are dirty. -/
theorem hit_dirty_iff (wf : p.WF) {M : ByteMem} {T : ESys ι p} {tr : List (Ev ι p)}
    (h : ERun (ESys.init ι p M) (tr.map Ev.canon) T) (k : ι) (hc : (T.L k).cur = .idle) (hE : memTypes (T.E k) = [])
    (hv : ∀ q ∈ accepted k tr, q.Valid) {q : CReq p} (hq : q.Valid) (ty : q.ty = MT.WRITE)
    (hh : ((T.L k).lookup q.addr).hit = true) :
    wordDirty p ((T.L k).ent ((T.L k).lookup q.addr).way q.addr.idx) q.addr.off q.len = true ↔
      ∀ W, q.writesWord W → Unsaved k W tr := by
  have hok := (EInv.run h k).ok
  have hw := (T.L k).lookup_way_mem q.addr
  have hv' : ∀ q ∈ accepted k (tr.map Ev.canon), q.Valid := by rwa [accepted_canon]
  have hdi := dirty_inv wf h k hv'
  have htag : ((T.L k).ent ((T.L k).lookup q.addr).way q.addr.idx).val = true ∧
      ((T.L k).ent ((T.L k).lookup q.addr).way q.addr.idx).tag = q.addr.tag := by
    cases lookup_cases (Ok.uniqAt hok q.addr.idx) with
    | hit h hi hv ht => exact ⟨hv, ht⟩
    | inval h hi hv hd ht => rw [h] at hh; cases hh
    | miss h hi hn => rw [h] at hh; cases hh
  have hmE : memMsgs (T.E k) = [] := by
    rw [memTypes_eq] at hE; simpa using hE
  rw [wordDirty_iff wf hq ty]
  constructor
  · intro hd W hW
    obtain ⟨b, hb, hn, _, _⟩ := store_marks wf hq ty hW
    subst hn
    rw [← Unsaved.canon]
    refine (hdi.dirty _ ?_).1
    rw [post_idle hc]
    intro hnd
    have := hnd _ hw q.addr.idx b hb (by rw [htag.2]; rfl)
    rw [hd b hb hW] at this; cases this
  · intro hu b hb hW
    have h1 := hu _ hW
    rw [← Unsaved.canon] at h1
    rcases kept_inv wf h k hv' h1 with h2 | ⟨m, hm, _⟩
    · rw [post_idle hc] at h2
      simp only [NotDirty] at h2
      apply Decidable.byContradiction
      intro hx
      apply h2
      intro w hw' j b' hb' hn
      obtain ⟨e1, e2⟩ := num_line_ext hb' hb hn
      apply Decidable.byContradiction
      intro hy
      have hy : ((T.L k).ent w j).dty.getLsbD b' = true := by simpa using hy
      have ej : j = q.addr.idx := congrArg LAddr.idx e1
      have et : ((T.L k).ent w j).tag = q.addr.tag := congrArg LAddr.tag e1
      subst ej
      have := hok.uniq w hw' _ hw _ (.inr (dty_ne_zero hy)) (.inl htag.1) (by rw [et, htag.2])
      rw [this, e2] at hy
      exact hx hy
    · rw [hmE] at hm; cases hm

/-- **C60 (c).**  Writes that hit (of valid requests): if every word the write
changes was written before and has not been sent to memory since, the cache is
ready for the next request in the cycle after the acceptance; otherwise it is
not ready in that cycle, and is in the one after it. -/
theorem C60_write_hit_ready (wf : p.WF) {S S₁ S₂ S₃ : Sys ι p} {tr tr₁ tr₂ : List (Ev ι p)} (h0 : Start S) (h : Run S tr S₁)
    {k : ι} (hv : ∀ q ∈ accepted k tr, q.Valid) {i : In p} (hc : S₁.CanClock k i) (he : i.reqEn = true)
    (hq : i.req.Valid) (hty : i.req.ty = MT.WRITE) (hit : Cached k tr i.req.addr)
    (ht : Ticks k 0 (S₁.clock k i) tr₁ S₂) (ht' : Ticks k 1 (S₁.clock k i) tr₂ S₃)
    {j : In p} (j1 : j.respRdy = true) (j2 : j.mreqRdy = true) :
    (((S₂.cache k).out j).reqRdy = true ↔ ∀ W, i.req.writesWord W → Unsaved k W tr) ∧
    (((S₂.cache k).out j).reqRdy = false → ((S₃.cache k).out j).reqRdy = true) := by
  obtain ⟨q, ms, hqq, hin, hms, hhit, hcount⟩ := after_accept wf h0 h hc he (.inr (.inl hty))
  obtain ⟨r, hr⟩ := hhit.2 ⟨.inr hty, hit⟩
  subst hr
  obtain ⟨T, hE, hrel⟩ := refine wf h0 h
  have hRI := hrel.cache k
  have hl := hrel.legal hc
  obtain ⟨hcur, hmE, _⟩ := hRI.ready (hc.req he).1
  have hh := (cached_hit hE k hcur i.req.addr).2 hit
  rw [clock_cache hc] at hin
  have hcl := accept_cleanHit hl hRI he (.inr hty) hqq hin
  have hinv : ((T.L k).lookup i.req.addr).inval = false := by
    cases lookup_cases (Ok.uniqAt (EInv.run hE k).ok i.req.addr.idx) with
    | hit h hi hv ht => exact hi
    | inval h hi hv hd ht => rw [h] at hh; cases hh
    | miss h hi hn => exact hi
  rw [hh, hinv, hty] at hcl
  simp only [Bool.not_false, Bool.true_and, beq_self_eq_true, Bool.and_true] at hcl
  have hiff := hit_dirty_iff wf hE k hcur hmE hv hq hty hh
  obtain ⟨a1, _⟩ := ht.zero rfl
  rw [clock_cache hc] at a1
  have hrdy : ((S₂.cache k).out j).reqRdy = !(((S₁.cache k).next i).status1.cleanHit) := by
    rw [a1]; exact hin.ready (ostall_ready _ j j2 j1)
  refine ⟨?_, ?_⟩
  · rw [hrdy, hcl, Bool.not_not]; exact hiff
  · intro hn
    rw [hrdy] at hn
    have hct : ((S₁.cache k).next i).status1.cleanHit = true := by simpa using hn
    obtain ⟨Sa, ia, ta, tb, g1, g2, g3, g4, g5, g6⟩ := ht'.last
    obtain ⟨b1, _⟩ := g1.zero rfl
    obtain ⟨c1, _⟩ := g5.zero rfl
    rw [clock_cache hc] at b1
    have hrun : Run S (tr ++ S₁.clockEvs k i ++ tr₂) S₃ := (h.snoc (.clock _ k i hc)).append ht'.run
    obtain ⟨T3, _, hrel3⟩ := refine wf h0 hrun
    have ht1 : (S₃.cache k).t1 = .cleanHit := by
      rw [c1, clock_cache g2, b1]
      exact hin.bubble (ostall_ready _ ia g4 g3) hct
    exact flow_ready (by rw [ht1]; rfl) (by rw [ht1]; simp) (by rw [ht1]; simp) (hrel3.cache k) (ostall_ready _ j j2 j1)

/-- Executions in which the client of cache `k` offers a READ of a line in the
cache in each of `n` cycles, with the output ports ready. -/
inductive Stream (k : ι) (tr₀ : List (Ev ι p)) : Nat → Sys ι p → List (Ev ι p) → Sys ι p → Prop
  | refl (S : Sys ι p) : Stream k tr₀ 0 S [] S
  | step {n : Nat} {S S' S'' : Sys ι p} {tr tr' : List (Ev ι p)} (h : Stream k tr₀ n S tr S') (i : In p) (hc : S'.CanClock k i)
      (h1 : i.respRdy = true) (h2 : i.mreqRdy = true) (hq : i.req.ty = MT.READ)
      (hit : Cached k (tr₀ ++ tr) i.req.addr) (he : i.reqEn = ((S'.cache k).out i).reqRdy)
      (ht : Ticks k 0 (S'.clock k i) tr' S'') : Stream k tr₀ (n + 1) S (tr ++ S'.clockEvs k i ++ tr') S''

theorem rdy_congr (s : St p) {i j : In p} (i1 : i.respRdy = true) (i2 : i.mreqRdy = true) (j1 : j.respRdy = true)
    (j2 : j.mreqRdy = true) : (s.out i).reqRdy = (s.out j).reqRdy :=
  out_rdy_congr s i j (by rw [i2, j2]) (by rw [i1, j1])

/-- **C60 (d).**  Full throughput.  If the cache is ready and READs of cached
lines are offered in every cycle, then one is accepted in every cycle: after `n`
cycles `n` requests have been accepted, and the cache is still ready; and all but
the last two of them (and everything accepted before) have been answered. -/
theorem C60_stream (wf : p.WF) {S S₁ S₂ : Sys ι p} {tr tr' : List (Ev ι p)} (h0 : Start S) (h : Run S tr S₁) {k : ι}
    {j : In p} (j1 : j.respRdy = true) (j2 : j.mreqRdy = true) (hr : ((S₁.cache k).out j).reqRdy = true) {n : Nat}
    (hs : Stream k tr n S₁ tr' S₂) :
    (accepted k tr').length = n ∧ ((S₂.cache k).out j).reqRdy = true ∧
    (accepted k (tr ++ tr')).length ≤ (responses k (tr ++ tr')).length + 2 := by
  have key : Run S (tr ++ tr') S₂ ∧ (accepted k tr').length = n ∧ ((S₂.cache k).out j).reqRdy = true := by
    induction hs with
    | refl => exact ⟨by simpa using h, rfl, hr⟩
    | @step n Sx S' S'' trx trx' hs i hc h1 h2 hq hit he ht ih =>
      obtain ⟨r1, r2, r3⟩ := ih h hr
      have hen : i.reqEn = true := by rw [he, rdy_congr _ h1 h2 j1 j2, r3]
      have hrun := (r1.snoc (.clock _ k i hc)).append ht.run
      refine ⟨by simpa [List.append_assoc] using hrun, ?_, ?_⟩
      · have e1 : accepted k (S'.clockEvs k i) = [i.req] := by
          simp only [Sys.clockEvs, accepted_append, hen]
          cases ((S'.cache k).out i).mreqEn <;> cases ((S'.cache k).out i).respEn <;> simp [accepted]
        rw [accepted_append, accepted_append, e1, (ht.zero rfl).2.1]
        simp [r2]
      · exact C60_read_hit_ready wf h0 r1 hc hen hq hit ht j1 j2
  obtain ⟨k1, k2, k3⟩ := key
  refine ⟨k2, k3, ?_⟩
  obtain ⟨T, hE, hrel⟩ := refine wf h0 k1
  have ho := owed hE k
  obtain ⟨hcur, _, _⟩ := (hrel.cache k).ready k3
  rw [accepted_canon, responses_canon, (hrel.cache k).ready_adv k3, nResp_append, hcur] at ho
  have := nResp_slot (S₂.cache k).slot
  have := nResp_slot (S₂.cache k).adv
  simp only [Cur.pend] at ho
  omega

end Verif
