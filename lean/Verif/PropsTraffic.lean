import Verif.SpecTraffic
import Verif.PropsDirty
import Verif.PropsTiming

/-!
# C63: lines are written back exactly when needed
-/

set_option linter.unusedSectionVars false

namespace Verif
variable {p : Params} {ι : Type} [DecidableEq ι]

theorem flat_word_num (t : Tag p) (j : Idx p) (b : Nat) :
    (⟨t, j, 0⟩ : Addr p).flat / 4 + b = LAddr.num ⟨t, j⟩ * 2 ^ p.nwBits + b := by
  have h := flat_off0 (⟨t, j⟩ : LAddr p)
  rw [offBits_pow, ← Nat.mul_assoc, Nat.mul_comm _ 4, Nat.mul_assoc] at h
  rw [h]; omega

/-- What is known of the cache when a request is accepted. Proof device; not in the source. -/
structure Accepting (k : ι) (a : List (Ev ι p)) (L : L1 p) : Prop where
  ok : L.Ok
  idle : L.cur = .idle
  unsaved : ∀ t j, LineUnsaved k a t j ↔ ∃ w ∈ p.ways, (L.ent w j).tag = t ∧ (L.ent w j).dty ≠ 0
  lru : LruInv L (lruRun p.ways.length (accepted k a)).1

theorem accepting (wf : p.WF) {M : ByteMem} {a : List (Ev ι p)} {k : ι} {q : CReq p} {T0 T1 : ESys ι p}
    (h2 : ERun (ESys.init ι p M) (a.map Ev.canon) T0) (hst : EStep T0 [.acc k q] T1)
    (hv : ∀ q ∈ accepted k a, q.Valid) : Accepting k a (T0.L k) := by
  have hv' : ∀ q ∈ accepted k (a.map Ev.canon), q.Valid := by rw [accepted_canon]; exact hv
  have hidle : (T0.L k).cur = .idle ∧ memMsgs (T0.E k) = [] := by
    cases hst with
    | acc _ _ hc hE hr hs hq => exact ⟨hc, by rw [memTypes_eq] at hE; simpa using hE⟩
  have hdi := dirty_inv wf h2 k hv'
  refine ⟨(EInv.run h2 k).ok, hidle.1, ?_, ?_⟩
  · intro t j
    constructor
    · rintro ⟨n, hn, hu⟩
      rw [← Unsaved.canon] at hu
      rcases kept_inv wf h2 k hv' hu with hd | ⟨m, hm, _⟩
      · rw [post_idle hidle.1] at hd
        apply Decidable.byContradiction
        intro hne
        apply hd
        intro w hw j' b' hb' hW
        rw [flat_word_num] at hW
        have hx := num_line_ext hb' hn hW
        have hj : j' = j := congrArg LAddr.idx hx.1
        subst hj
        have ht := congrArg LAddr.tag hx.1
        by_cases hz : ((T0.L k).ent w j').dty = 0
        · rw [hz]; simp
        · exact absurd ⟨w, hw, ht, hz⟩ hne
      · rw [hidle.2] at hm; simp at hm
    · rintro ⟨w, hw, rfl, hd⟩
      have : ∃ n, n < p.nWords ∧ ((T0.L k).ent w j).dty.getLsbD n = true := by
        apply Decidable.byContradiction
        intro hne
        apply hd
        apply BitVec.eq_of_getLsbD_eq
        intro i hi
        have := fun h => hne ⟨i, hi, h⟩
        simpa using this
      obtain ⟨n, hn, hbit⟩ := this
      refine ⟨n, hn, ?_⟩
      rw [← Unsaved.canon]
      refine (hdi.dirty _ ?_).1
      rw [post_idle hidle.1]
      intro hnd
      have := hnd w hw j n hn (flat_word_num _ _ _).symm
      rw [hbit] at this; cases this
  · have hl := (lru_run h2 k 0).1
    rw [answer_of_idle hidle.1, accepted_canon] at hl
    exact hl

/-- The event-level run of an execution, cut at the acceptance of a request. -/
theorem cut_accept (wf : p.WF) {S S' : Sys ι p} {a b : List (Ev ι p)} {k : ι} {q : CReq p} (h0 : Start S)
    (h : Run S (a ++ .acc k q :: b) S') :
    ∃ T0 T1 T, ERun (ESys.init ι p S.mem) (a.map Ev.canon) T0 ∧ EStep T0 [.acc k q] T1 ∧ ERun T1 (b.map Ev.canon) T := by
  obtain ⟨T, he, _⟩ := refine wf h0 h
  have e : (a ++ .acc k q :: b).map Ev.canon = a.map Ev.canon ++ .acc k q :: b.map Ev.canon := by simp [Ev.canon]
  rw [e] at he
  obtain ⟨X, ha, hX⟩ := he.split _ _ rfl
  obtain ⟨T0, T1, hX0, hst, h1⟩ := hX.head
  exact ⟨T0, T1, T, by simpa using ha.trans hX0, hst, h1⟩

/-- What is known when the request is answered, or the next one accepted. Proof device; not in the source. -/
structure AtAccept (k : ι) (a b : List (Ev ι p)) (q : CReq p) (L : L1 p) : Prop extends Accepting k a L where
  msgs : (sent k b).map MReq.canon = memMsgs (L.accept q).2

theorem at_accept (wf : p.WF) {S S' : Sys ι p} {a b c : List (Ev ι p)} {k : ι} {q : CReq p} (h0 : Start S)
    (h : Run S (a ++ .acc k q :: (b ++ c)) S') (hw : Window k b c) (hv : ∀ q ∈ accepted k a, q.Valid)
    (hr : (accepted k a).length < (responses k (a ++ .acc k q :: (b ++ c))).length) :
    ∃ L, AtAccept k a b q L := by
  obtain ⟨hb, hc⟩ := hw
  obtain ⟨T0, T1, T, h2, hst, h1⟩ := cut_accept wf h0 h
  have hb' : accepted k (b.map Ev.canon) = [] := by rw [accepted_canon]; exact hb
  refine ⟨T0.L k, accepting wf h2 hst hv, ?_⟩
  rw [← sent_canon]
  rcases hc with rfl | ⟨q', c', rfl⟩
  · rw [List.append_nil] at h1 hr
    have hm := window_msgs h2 hst h1 hb'
    have e' : (a ++ .acc k q :: b).map Ev.canon = a.map Ev.canon ++ .acc k q :: b.map Ev.canon := by simp [Ev.canon]
    have he' : ERun (ESys.init ι p S.mem) (a.map Ev.canon ++ .acc k q :: b.map Ev.canon) T := by
      simpa using (h2.snoc hst).trans h1
    have how := owed he' k
    rw [← e', accepted_canon, responses_canon] at how
    have : accepted k (a ++ .acc k q :: b) = accepted k a ++ (q :: accepted k b) := by simp [accepted]
    rw [this, hb, List.length_append] at how
    simp only [List.length_singleton] at how
    have hcur : (T.L k).cur = .idle := by
      cases hcc : (T.L k).cur with
      | idle => rfl
      | fill _ _ _ => rw [hcc] at how; simp only [Cur.pend] at how; omega
      | amo _ _ _ => rw [hcc] at how; simp only [Cur.pend] at how; omega
    rcases rest_inv he' k hcur with h3 | ⟨E', r', h3⟩
    · rw [h3.1] at hm; simpa using hm
    · rw [h3, nResp_append, nResp_resp] at how; omega
  · rw [List.map_append, List.map_cons] at h1
    obtain ⟨Y, hY, hY'⟩ := h1.split _ _ rfl
    obtain ⟨T2, T3, hY0, hst', _⟩ := hY'.head
    have h3 : ERun T1 (b.map Ev.canon) T2 := by simpa using hY.trans hY0
    have hm := window_msgs h2 hst h3 hb'
    cases hst' with
    | acc _ _ hc hE hr hs hq => rw [memTypes_eq] at hE; simp at hE; rw [hE] at hm; simpa using hm

theorem AtAccept.cached {k : ι} {a b : List (Ev ι p)} {q : CReq p} {L : L1 p} (h : AtAccept k a b q L) (x : Addr p) :
    (L.lookup x).hit = true ↔ Cached k a x := by
  rw [hit_iff h.ok, Cached, h.lru.dir]

/-- **C63, hits.**  A READ or WRITE of a cached line sends nothing to memory; neither
does INV. -/
theorem C63_silent (wf : p.WF) {S S' : Sys ι p} {a b c : List (Ev ι p)} {k : ι} {q : CReq p} (h0 : Start S)
    (h : Run S (a ++ .acc k q :: (b ++ c)) S') (hw : Window k b c) (hv : ∀ q ∈ accepted k a, q.Valid)
    (hr : (accepted k a).length < (responses k (a ++ .acc k q :: (b ++ c))).length)
    (hq : ((q.ty = MT.READ ∨ q.ty = MT.WRITE) ∧ Cached k a q.addr) ∨ q.ty = MT.INV) : sent k b = [] := by
  obtain ⟨L, hL⟩ := at_accept wf h0 h hw hv hr
  have hm := hL.msgs
  rw [← List.map_eq_nil_iff (f := MReq.canon), hm]
  rcases hq with ⟨h1, h2⟩ | h1
  · rw [← hL.cached] at h2
    simp only [L1.accept, if_pos h1, rw_hit h2]; simp
  · simp [L1.accept, h1, MT.isAmo, MT.READ, MT.WRITE, MT.INV]

/-- The victim according to the replacement bit. -/
theorem AtAccept.victim {k : ι} {a b : List (Ev ι p)} {q : CReq p} {L : L1 p} (h : AtAccept k a b q L) (j : Idx p) :
    lruVictim k a j = if (L.ent (L.rep j) j).val then some (L.ent (L.rep j) j).tag else none := by
  have hd := h.lru.dir j
  have ho := h.lru.ord j
  have hr := h.ok.rep j
  simp only [lruVictim, hd, L1.dir]
  cases h2 : p.twoWay
  · have er : L.rep j = false := by
      cases hx : L.rep j
      · rfl
      · rw [hx, mem_ways_true, h2] at hr; cases hr
    rw [er, recF_one h2]
    have hl : p.ways.length = 1 := by simp [Params.ways, h2]
    rw [hl]
    cases (L.ent false j).val <;> simp
  · have ho := ho h2
    rw [recF_two h2]
    have hl : p.ways.length = 2 := by simp [Params.ways, h2]
    rw [hl]
    cases h3 : (L.ent (L.rep j) j).val
    · cases (L.ent (!L.rep j) j).val <;> simp
    · rw [ho h3]; simp

/-- **C63, misses.**  A READ or WRITE of a line that is not cached sends one read of
the line, preceded by at most one write-back.  The line written back is another line
of the same set with a word that memory has not seen, and if it is a cached line then
it is the least recently used line of a full set.  That line is written back if it has
a word that memory has not seen; if the missing line itself has such a word
(an INV left it behind) nothing is written back. -/
theorem C63_miss (wf : p.WF) {S S' : Sys ι p} {a b c : List (Ev ι p)} {k : ι} {q : CReq p} (h0 : Start S)
    (h : Run S (a ++ .acc k q :: (b ++ c)) S') (hw : Window k b c) (hv : ∀ q ∈ accepted k a, q.Valid)
    (hr : (accepted k a).length < (responses k (a ++ .acc k q :: (b ++ c))).length)
    (hq : q.ty = MT.READ ∨ q.ty = MT.WRITE) (hn : ¬ Cached k a q.addr) :
    ∃ m ws, sent k b = ws ++ [m] ∧ m.ReadsLine q.addr ∧ ws.length ≤ 1 ∧
      (∀ w ∈ ws, ∃ t, w.WritesBack t q.addr.idx ∧ t ≠ q.addr.tag ∧ LineUnsaved k a t q.addr.idx ∧
        (t ∈ (lruRun p.ways.length (accepted k a)).1 q.addr.idx → lruVictim k a q.addr.idx = some t)) ∧
      (∀ t, lruVictim k a q.addr.idx = some t → LineUnsaved k a t q.addr.idx → ∃ w ∈ ws, w.WritesBack t q.addr.idx) ∧
      (LineUnsaved k a q.addr.tag q.addr.idx → ws = []) := by
  obtain ⟨L, hL⟩ := at_accept wf h0 h hw hv hr
  have hm := hL.msgs
  have hvic := hL.victim q.addr.idx
  rw [← hL.cached] at hn
  have hu := Ok.uniqAt hL.ok q.addr.idx
  simp only [L1.accept, if_pos hq] at hm
  have hwm := L.lookup_way_mem q.addr
  have hrep := hL.ok.rep q.addr.idx
  cases lookup_cases hu with
  | hit h' => exact absurd h' hn
  | inval hh hi hval hd ht =>
    rw [rw_inval hh hi] at hm
    simp only [memMsgs_mem, memMsgs_nil] at hm
    obtain ⟨m, l, hs, hm', hl⟩ := List.map_eq_cons_iff.1 hm
    rw [List.map_eq_nil_iff] at hl; subst hl
    refine ⟨m, [], hs, canon_readsLine (by rw [hm']; exact rd_reads q), by simp, by simp, ?_, fun _ => rfl⟩
    intro t hvt _
    exfalso
    rw [hvic] at hvt
    split at hvt
    · rename_i hvr
      by_cases hrw : L.rep q.addr.idx = (L.lookup q.addr).way
      · rw [hrw, hval] at hvr; cases hvr
      · have hne : (L.lookup q.addr).way = !L.rep q.addr.idx := by
          cases h1 : L.rep q.addr.idx <;> cases h2 : (L.lookup q.addr).way <;> simp [h1, h2] at hrw ⊢
        have h2 : p.twoWay = true := by
          have := mem_ways.1 hrep
          have h3 := mem_ways.1 hwm
          cases hx : L.rep q.addr.idx
          · rw [hne, hx] at h3; exact h3 rfl
          · exact this hx
        have := hL.lru.ord q.addr.idx h2 hvr
        rw [← hne, hval] at this; cases this
    · cases hvt
  | miss hh hi hno =>
    rw [rw_miss hh hi] at hm
    simp only [memMsgs_append, memMsgs_mem, memMsgs_nil] at hm
    have hown : LineUnsaved k a q.addr.tag q.addr.idx → False := by
      rw [hL.unsaved]
      rintro ⟨w, h1, h2, h3⟩
      exact hno w h1 (.inr h3) h2
    by_cases hd : (L.ent (L.rep q.addr.idx) q.addr.idx).dty = 0
    · rw [if_neg (by simpa using hd)] at hm
      obtain ⟨m, l, hs, hm', hl⟩ := List.map_eq_cons_iff.1 hm
      rw [List.map_eq_nil_iff] at hl; subst hl
      refine ⟨m, [], hs, canon_readsLine (by rw [hm']; exact rd_reads q), by simp, by simp, ?_, fun _ => rfl⟩
      intro t hvt hut
      exfalso
      rw [hvic] at hvt
      split at hvt
      · rename_i hvr
        obtain ⟨w, h1, h2, h3⟩ := (hL.unsaved _ _).1 hut
        have := hu w h1 _ hrep (.inr h3) (.inl hvr) (h2.trans (Option.some.inj hvt).symm)
        rw [this] at h3; exact h3 hd
      · cases hvt
    · rw [if_pos (by simpa using hd)] at hm
      simp only [L1.wb, memMsgs_mem, memMsgs_nil, List.cons_append, List.nil_append] at hm
      obtain ⟨w, l, hs, hw', hl⟩ := List.map_eq_cons_iff.1 hm
      obtain ⟨m, l', rfl, hm', hl⟩ := List.map_eq_cons_iff.1 hl
      rw [List.map_eq_nil_iff] at hl; subst hl
      have hwb : w.WritesBack (L.ent (L.rep q.addr.idx) q.addr.idx).tag q.addr.idx :=
        canon_writesBack (by rw [hw']; exact wr_writesBack hd)
      refine ⟨m, [w], hs, canon_readsLine (by rw [hm']; exact rd_reads q), by simp, ?_, ?_, fun h => (hown h).elim⟩
      · intro w' hw'
        rw [List.mem_singleton] at hw'; subst hw'
        refine ⟨_, hwb, hno _ hrep (.inr hd), (hL.unsaved _ _).2 ⟨_, hrep, rfl, hd⟩, ?_⟩
        intro hin
        rw [hL.lru.dir, L1.dir, mem_recF hrep] at hin
        obtain ⟨w2, h1, h2, h3⟩ := hin
        have := hu w2 h1 _ hrep (.inl h2) (.inr hd) h3
        rw [this] at h2
        rw [hvic, if_pos h2]
      · intro t hvt _
        rw [hvic] at hvt
        split at hvt
        · cases hvt; exact ⟨w, by simp, hwb⟩
        · cases hvt

/-- **C63, AMOs.**  An AMO sends the operation, preceded by the write-back of its own
line if and only if that has a word memory has not seen. -/
theorem C63_amo (wf : p.WF) {S S' : Sys ι p} {a b c : List (Ev ι p)} {k : ι} {q : CReq p} (h0 : Start S)
    (h : Run S (a ++ .acc k q :: (b ++ c)) S') (hw : Window k b c) (hv : ∀ q ∈ accepted k a, q.Valid)
    (hr : (accepted k a).length < (responses k (a ++ .acc k q :: (b ++ c))).length)
    (hq : MT.isAmo q.ty = true) :
    ∃ m, m.Performs q ∧ (¬ LineUnsaved k a q.addr.tag q.addr.idx → sent k b = [m]) ∧
      (LineUnsaved k a q.addr.tag q.addr.idx → ∃ w, w.WritesBack q.addr.tag q.addr.idx ∧ sent k b = [w, m]) := by
  obtain ⟨L, hL⟩ := at_accept wf h0 h hw hv hr
  have hm := hL.msgs
  have hu := Ok.uniqAt hL.ok q.addr.idx
  have t1 : ¬ (q.ty = MT.READ ∨ q.ty = MT.WRITE) := by
    rintro (h | h) <;> (rw [h] at hq; cases hq)
  simp only [L1.accept, if_neg t1, if_pos hq, L1.amo, memMsgs_append, memMsgs_mem, memMsgs_nil] at hm
  have hwm := L.lookup_way_mem q.addr
  have hiff : LineUnsaved k a q.addr.tag q.addr.idx ↔
      (((L.ent (L.lookup q.addr).way q.addr.idx).dty != 0) && ((L.lookup q.addr).hit || (L.lookup q.addr).inval)) = true := by
    rw [hL.unsaved, Bool.and_eq_true, bne_iff_ne]
    cases lookup_cases hu with
    | hit hh hi hval ht =>
      rw [hh, Bool.true_or]
      constructor
      · rintro ⟨w, h1, h2, h3⟩
        have := hu w h1 _ hwm (.inr h3) (.inl hval) (h2.trans ht.symm)
        rw [← this]; exact ⟨h3, rfl⟩
      · rintro ⟨h1, _⟩; exact ⟨_, hwm, ht, h1⟩
    | inval hh hi hval hd ht =>
      rw [hi, Bool.or_true]
      exact ⟨fun _ => ⟨hd, rfl⟩, fun _ => ⟨_, hwm, ht, hd⟩⟩
    | miss hh hi hno =>
      rw [hh, hi]
      constructor
      · rintro ⟨w, h1, h2, h3⟩; exact absurd h2 (hno w h1 (.inr h3))
      · rintro ⟨_, h1⟩; cases h1
  have hperf : (MReq.amo q).Performs q := by
    refine ⟨rfl, rfl, rfl, ?_⟩
    simp only [MReq.amo, offLenSel]
    split <;> simp_all
  by_cases hun : LineUnsaved k a q.addr.tag q.addr.idx
  · rw [if_pos (hiff.1 hun)] at hm
    simp only [L1.wb, memMsgs_mem, memMsgs_nil, List.cons_append, List.nil_append] at hm
    obtain ⟨w, l, hs, hw', hl⟩ := List.map_eq_cons_iff.1 hm
    obtain ⟨m, l', rfl, hm', hl⟩ := List.map_eq_cons_iff.1 hl
    rw [List.map_eq_nil_iff] at hl; subst hl
    refine ⟨m, canon_performs hq (by rw [hm']; exact hperf), fun h => absurd hun h, fun _ => ⟨w, ?_, hs⟩⟩
    have h1 := hiff.1 hun
    rw [Bool.and_eq_true, bne_iff_ne] at h1
    have := wr_writesBack (a := ⟨(L.ent (L.lookup q.addr).way q.addr.idx).tag, q.addr.idx⟩)
      (l := L.dat (L.lookup q.addr).way q.addr.idx) h1.1
    rw [← hw'] at this
    have ht : (L.ent (L.lookup q.addr).way q.addr.idx).tag = q.addr.tag := by
      cases lookup_cases hu with
      | hit hh hi hval ht => exact ht
      | inval hh hi hval hd ht => exact ht
      | miss hh hi hno => rw [hh, hi] at h1; cases h1.2
    rw [ht] at this
    exact canon_writesBack this
  · rw [if_neg (fun h => hun (hiff.2 h))] at hm
    obtain ⟨m, l, hs, hm', hl⟩ := List.map_eq_cons_iff.1 hm
    rw [List.map_eq_nil_iff] at hl; subst hl
    exact ⟨m, canon_performs hq (by rw [hm']; exact hperf), fun _ => hs, fun h => absurd h hun⟩

theorem line_exists {w : Way} (hw : w ∈ p.ways) (j : Idx p) :
    ∃ i, i < 2 ^ p.cntBits ∧ cntWay p (lineNo p i) = w ∧ cntIdx p (lineNo p i) = j := by
  refine ⟨(numOf p w j).toNat, (numOf p w j).isLt, ?_, ?_⟩ <;> rw [show lineNo p (numOf p w j).toNat = numOf p w j by simp [lineNo]]
  · exact cntWay_numOf w j hw
  · exact cntIdx_numOf w j hw

theorem mem_flush (L : L1 p) {i n : Nat} (hi : i < n)
    (hd : (L.ent (cntWay p (lineNo p i)) (cntIdx p (lineNo p i))).dty ≠ 0) :
    MReq.wr ⟨(L.ent (cntWay p (lineNo p i)) (cntIdx p (lineNo p i))).tag, cntIdx p (lineNo p i)⟩
      (L.ent (cntWay p (lineNo p i)) (cntIdx p (lineNo p i))).dty
      (L.dat (cntWay p (lineNo p i)) (cntIdx p (lineNo p i))) ∈ memMsgs (L.flushMsgs n) := by
  induction n with
  | zero => omega
  | succ n ih =>
    simp only [L1.flushMsgs, memMsgs_append, List.mem_append]
    by_cases h : i = n
    · subst h
      left
      rw [if_pos (by simpa using hd)]
      simp [L1.wb]
    · exact .inr (ih (by omega))

theorem flush_order (L : L1 p) (n : Nat) (hn : n ≤ 2 ^ p.cntBits) :
    (memMsgs (L.flushMsgs n)).Pairwise fun m m' => m'.addr.idx.toNat ≤ m.addr.idx.toNat := by
  have hto : ∀ i, i < 2 ^ p.cntBits → (cntIdx p (lineNo p i)).toNat = i / 2 ^ p.wayBits := by
    intro i hi
    rw [cntIdx_toNat]; simp only [lineNo, BitVec.toNat_ofNat]; rw [Nat.mod_eq_of_lt hi]
  induction n with
  | zero => exact List.Pairwise.nil
  | succ n ih =>
    simp only [L1.flushMsgs, memMsgs_append]
    rw [List.pairwise_append]
    refine ⟨?_, ih (by omega), ?_⟩
    · split
      · simp [L1.wb]
      · exact List.Pairwise.nil
    · intro m hm m' hm'
      obtain ⟨i, hi, hd', rfl⟩ := flush_mem L n hm'
      split at hm
      · simp only [L1.wb, memMsgs_mem, memMsgs_nil, List.mem_singleton] at hm
        subst hm
        simp only [MReq.wr]
        rw [hto i (by omega), hto n (by omega)]
        exact Nat.div_le_div_right (by omega)
      · simp at hm

/-- **C63, FLUSH.**  A FLUSH sends exactly one write-back per line that has a word
memory has not seen, and nothing else; the set indices descend. -/
theorem C63_flush (wf : p.WF) {S S' : Sys ι p} {a b c : List (Ev ι p)} {k : ι} {q : CReq p} (h0 : Start S)
    (h : Run S (a ++ .acc k q :: (b ++ c)) S') (hw : Window k b c) (hv : ∀ q ∈ accepted k a, q.Valid)
    (hr : (accepted k a).length < (responses k (a ++ .acc k q :: (b ++ c))).length)
    (hq : q.ty = MT.FLUSH) :
    (∀ m ∈ sent k b, ∃ t j, m.WritesBack t j ∧ LineUnsaved k a t j) ∧
    (∀ t j, LineUnsaved k a t j → ∃ m ∈ sent k b, m.WritesBack t j) ∧
    ((sent k b).map (·.addr)).Nodup ∧
    (sent k b).Pairwise fun m m' => m'.addr.idx.toNat ≤ m.addr.idx.toNat := by
  obtain ⟨L, hL⟩ := at_accept wf h0 h hw hv hr
  have hm := hL.msgs
  have t1 : ¬ (q.ty = MT.READ ∨ q.ty = MT.WRITE) := by
    rintro (h | h) <;> (rw [h] at hq; cases hq)
  have t2 : ¬ MT.isAmo q.ty = true := by rw [hq]; decide
  have t3 : ¬ q.ty = MT.INV := by rw [hq]; decide
  simp only [L1.accept, if_neg t1, if_neg t2, if_neg t3, if_pos hq, memMsgs_append, memMsgs_resp, memMsgs_nil,
    List.append_nil] at hm
  have hwb : ∀ m ∈ sent k b, ∃ t j, m.WritesBack t j ∧ LineUnsaved k a t j := by
    intro m hm'
    have : m.canon ∈ memMsgs (L.flushMsgs (2 ^ p.cntBits)) := by rw [← hm]; exact List.mem_map_of_mem hm'
    obtain ⟨i, _, hd, he⟩ := flush_mem L _ this
    refine ⟨_, _, canon_writesBack (by rw [he]; exact wr_writesBack hd), (hL.unsaved _ _).2 ⟨_, cntWay_mem _, rfl, hd⟩⟩
  refine ⟨hwb, ?_, ?_, ?_⟩
  · intro t j hu
    obtain ⟨w, h1, h2, h3⟩ := (hL.unsaved _ _).1 hu
    obtain ⟨i, hi, rfl, rfl⟩ := line_exists h1 j
    have : MReq.wr ⟨t, cntIdx p (lineNo p i)⟩ (L.ent (cntWay p (lineNo p i)) (cntIdx p (lineNo p i))).dty
      (L.dat (cntWay p (lineNo p i)) (cntIdx p (lineNo p i))) ∈ memMsgs (L.flushMsgs (2 ^ p.cntBits)) := by
      rw [← h2]; exact mem_flush L hi h3
    rw [← hm] at this
    obtain ⟨m, hm1, hm2⟩ := List.mem_map.1 this
    exact ⟨m, hm1, canon_writesBack (by rw [hm2]; exact wr_writesBack h3)⟩
  · rw [List.nodup_iff_pairwise_ne, List.pairwise_map]
    have hd := flush_disj hL.ok _ (Nat.le_refl (2 ^ p.cntBits))
    rw [← hm, List.pairwise_map] at hd
    refine hd.imp_of_mem ?_
    intro m m' h1 h2 hdis hne
    obtain ⟨_, _, w1, _⟩ := hwb m h1
    obtain ⟨_, _, w2, _⟩ := hwb m' h2
    have hp : 0 < p.nWords := Nat.two_pow_pos _
    refine hdis (by rw [MReq.canon_ty]; exact w1.1) (by rw [MReq.canon_ty]; exact w2.1) (m.addr.flat / 4) ?_ ?_
    · exact canon_inLine.2 ⟨0, hp, rfl⟩
    · exact canon_inLine.2 ⟨0, hp, by rw [hne]; rfl⟩
  · have hd := flush_order L _ (Nat.le_refl (2 ^ p.cntBits))
    rw [← hm, List.pairwise_map] at hd
    simpa only [canon_addr] using hd

theorem length_le_of_nodup {α : Type} [DecidableEq α] : ∀ {l m : List α}, l.Nodup → l ⊆ m → l.length ≤ m.length
  | [], _, _, _ => by simp
  | x :: l, m, hn, hs => by
    rw [List.nodup_cons] at hn
    have hx : x ∈ m := hs (by simp)
    have : l ⊆ m.erase x := by
      intro y hy
      refine (List.mem_erase_of_ne ?_).2 (hs (by simp [hy]))
      rintro rfl; exact hn.1 hy
    have := length_le_of_nodup hn.2 this
    rw [List.length_erase_of_mem hx] at this
    have : 0 < m.length := List.length_pos_of_mem hx
    simp only [List.length_cons]; omega

/-- **C63, bound.**  Whenever a request is accepted, each set has at most as many lines
with a word memory has not seen as there are ways. -/
theorem C63_bounded (wf : p.WF) {S S' : Sys ι p} {a b : List (Ev ι p)} {k : ι} {q : CReq p} (h0 : Start S)
    (h : Run S (a ++ .acc k q :: b) S') (hv : ∀ q ∈ accepted k a, q.Valid) (j : Idx p) (ts : List (Tag p))
    (hn : ts.Nodup) (ht : ∀ t ∈ ts, LineUnsaved k a t j) : ts.length ≤ p.ways.length := by
  obtain ⟨T0, T1, T, h2, hst, h1⟩ := cut_accept wf h0 h
  have hL := accepting wf h2 hst hv
  have hsub : ts ⊆ p.ways.map fun w => ((T0.L k).ent w j).tag := by
    intro t h1
    obtain ⟨w, hw, he, _⟩ := (hL.unsaved t j).1 (ht t h1)
    exact List.mem_map.2 ⟨w, hw, he⟩
  have := length_le_of_nodup hn hsub
  simpa using this

/-- **C63, direct mapped.**  In a direct-mapped cache a miss writes back the line of
the set that has a word memory has not seen, whether it is cached or was left behind by
an INV, unless it is the missing line itself. -/
theorem C63_direct (wf : p.WF) (h1 : p.twoWay = false) {S S' : Sys ι p} {a b c : List (Ev ι p)} {k : ι} {q : CReq p} (h0 : Start S)
    (h : Run S (a ++ .acc k q :: (b ++ c)) S') (hw : Window k b c) (hv : ∀ q ∈ accepted k a, q.Valid)
    (hr : (accepted k a).length < (responses k (a ++ .acc k q :: (b ++ c))).length)
    (hq : q.ty = MT.READ ∨ q.ty = MT.WRITE) (hn : ¬ Cached k a q.addr) {t : Tag p} (ht : t ≠ q.addr.tag)
    (hu : LineUnsaved k a t q.addr.idx) :
    ∃ m w, sent k b = [w, m] ∧ m.ReadsLine q.addr ∧ w.WritesBack t q.addr.idx := by
  obtain ⟨L, hL⟩ := at_accept wf h0 h hw hv hr
  have hm := hL.msgs
  rw [← hL.cached] at hn
  have hun := Ok.uniqAt hL.ok q.addr.idx
  simp only [L1.accept, if_pos hq] at hm
  have only : ∀ w ∈ p.ways, w = false := by
    intro w hw
    cases w
    · rfl
    · rw [mem_ways_true, h1] at hw; cases hw
  have hwm := only _ (L.lookup_way_mem q.addr)
  have hrep := only _ (hL.ok.rep q.addr.idx)
  obtain ⟨w, hw1, hw2, hd⟩ := (hL.unsaved _ _).1 hu
  have := only w hw1
  subst this
  cases lookup_cases hun with
  | hit h' => exact absurd h' hn
  | inval hh hi hval hd ht' => rw [hwm, hw2] at ht'; exact absurd ht' ht
  | miss hh hi hno =>
    rw [rw_miss hh hi] at hm
    simp only [memMsgs_append, memMsgs_mem, memMsgs_nil] at hm
    rw [hrep, if_pos (by simpa using hd)] at hm
    simp only [L1.wb, memMsgs_mem, memMsgs_nil, List.cons_append, List.nil_append] at hm
    obtain ⟨w, l, hs, hw', hl⟩ := List.map_eq_cons_iff.1 hm
    obtain ⟨m, l', rfl, hm', hl⟩ := List.map_eq_cons_iff.1 hl
    rw [List.map_eq_nil_iff] at hl; subst hl
    refine ⟨m, w, hs, canon_readsLine (by rw [hm']; exact rd_reads q), ?_⟩
    have := wr_writesBack (a := ⟨(L.ent false q.addr.idx).tag, q.addr.idx⟩) (l := L.dat false q.addr.idx) hd
    rw [← hw', hw2] at this
    exact canon_writesBack this

end Verif
