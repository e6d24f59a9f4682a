import Verif.Life
import Verif.PropsShared
import Verif.PropsLru
import Verif.PropsBlocking

/-!
# What one request causes: C02, C09, C11

The statements quantify over runs of the RTL system with any number of caches.
A run's events are split as `a ++ .acc k q :: (b ++ c)`: `q` is the request in
question, `b` the events up to the next acceptance of the same cache (`Window`).
The response of `q` is the response number `(accepted k a).length` of cache `k`.
-/

set_option linter.unusedSectionVars false

namespace Verif
variable {p : Params} {ι : Type} [DecidableEq ι]

/-- `b` ends where cache `k` accepts its next request (or at the end of the run). Proof device; not in the source. -/
structure Window (k : ι) (b c : List (Ev ι p)) : Prop where
  none : accepted k b = []
  next : c = [] ∨ ∃ q c', c = .acc k q :: c'

/-- Every continuation has a window. -/
theorem Window.exists (k : ι) (l : List (Ev ι p)) : ∃ b c, l = b ++ c ∧ Window k b c := by
  induction l with
  | nil => exact ⟨[], [], rfl, rfl, .inl rfl⟩
  | cons e l ih =>
    obtain ⟨b, c, rfl, h1, h2⟩ := ih
    by_cases he : accepted k [e] = []
    · refine ⟨e :: b, c, rfl, ?_, h2⟩
      have : accepted k (e :: b) = accepted k [e] ++ accepted k b := by rw [← accepted_append]; rfl
      rw [this, he, h1]; rfl
    · cases e with
      | acc k' q =>
        by_cases hk : k' = k
        · subst hk
          exact ⟨[], .acc k' q :: (b ++ c), rfl, rfl, .inr ⟨_, _, rfl⟩⟩
        · exact absurd (by simp [accepted, hk]) he
      | mreq k' m => exact absurd rfl he
      | resp k' m => exact absurd rfl he
      | exec k' m r => exact absurd rfl he

/-! ## Canonical messages -/

theorem canon_addr (m : MReq p) : m.canon.addr = m.addr := by simp only [MReq.canon]; split <;> (try split) <;> rfl
theorem canon_len (m : MReq p) : m.canon.len = m.len := by simp only [MReq.canon]; split <;> (try split) <;> rfl

theorem canon_readsLine {m : MReq p} {a : Addr p} (h : m.canon.ReadsLine a) : m.ReadsLine a := by
  obtain ⟨h1, h2, h3⟩ := h
  rw [MReq.canon_ty] at h1; rw [canon_addr] at h2; rw [canon_len] at h3
  exact ⟨h1, h2, h3⟩

theorem canon_writesBack {m : MReq p} {t : Tag p} {j : Idx p} (h : m.canon.WritesBack t j) : m.WritesBack t j := by
  obtain ⟨h1, h2, h3, h4⟩ := h
  rw [MReq.canon_ty] at h1; rw [canon_addr] at h2; rw [canon_len] at h3
  refine ⟨h1, h2, h3, ?_⟩
  have : ¬ m.ty = MT.READ := by rw [h1]; decide
  simp only [MReq.canon, if_neg this, if_pos h1] at h4
  exact h4

theorem canon_performs {m : MReq p} {q : CReq p} (ha : MT.isAmo q.ty = true) (h : m.canon.Performs q) : m.Performs q := by
  obtain ⟨h1, h2, h3, h4⟩ := h
  rw [MReq.canon_ty] at h1; rw [canon_addr] at h2; rw [canon_len] at h4
  have t1 : ¬ m.ty = MT.READ := by rw [h1]; intro h; rw [h] at ha; cases ha
  have t2 : ¬ m.ty = MT.WRITE := by rw [h1]; intro h; rw [h] at ha; cases ha
  simp only [MReq.canon, if_neg t1, if_neg t2] at h3
  exact ⟨h1, h2, h3, h4⟩

theorem canon_missTraffic {q : CReq p} {ms : List (MReq p)} (h : MissTraffic q (ms.map MReq.canon)) : MissTraffic q ms := by
  obtain ⟨m, h1, h2 | ⟨w, t, h2, h3⟩⟩ := h
  · obtain ⟨m', l, rfl, rfl, hl⟩ := List.map_eq_cons_iff.1 h2
    rw [List.map_eq_nil_iff] at hl; subst hl
    exact ⟨m', canon_readsLine h1, .inl rfl⟩
  · obtain ⟨w', l, rfl, rfl, hl⟩ := List.map_eq_cons_iff.1 h3
    obtain ⟨m', l', rfl, rfl, hl'⟩ := List.map_eq_cons_iff.1 hl
    rw [List.map_eq_nil_iff] at hl'; subst hl'
    exact ⟨m', canon_readsLine h1, .inr ⟨w', t, canon_writesBack h2, rfl⟩⟩

theorem canon_amoTraffic {q : CReq p} (ha : MT.isAmo q.ty = true) {ms : List (MReq p)}
    (h : AmoTraffic q (ms.map MReq.canon)) : AmoTraffic q ms := by
  obtain ⟨m, h1, h2 | ⟨w, h2, h3⟩⟩ := h
  · obtain ⟨m', l, rfl, rfl, hl⟩ := List.map_eq_cons_iff.1 h2
    rw [List.map_eq_nil_iff] at hl; subst hl
    exact ⟨m', canon_performs ha h1, .inl rfl⟩
  · obtain ⟨w', l, rfl, rfl, hl⟩ := List.map_eq_cons_iff.1 h3
    obtain ⟨m', l', rfl, rfl, hl'⟩ := List.map_eq_cons_iff.1 hl
    rw [List.map_eq_nil_iff] at hl'; subst hl'
    exact ⟨m', canon_performs ha h1, .inr ⟨w', canon_writesBack h2, rfl⟩⟩

theorem canon_serves {q : CReq p} {ms : List (MReq p)} {r : CResp p} (h : Serves q (ms.map MReq.canon) r) : Serves q ms r := by
  refine ⟨h.ty, h.opq, h.len, ?_, ?_, ?_, ?_⟩
  · intro ht
    rcases h.rw ht with ⟨h1, h2⟩ | ⟨h1, h2⟩
    · exact .inl ⟨h1, List.map_eq_nil_iff.1 h2⟩
    · exact .inr ⟨h1, canon_missTraffic h2⟩
  · intro ht; exact ⟨(h.amo ht).1, canon_amoTraffic ht (h.amo ht).2⟩
  · intro ht; exact ⟨(h.inv ht).1, List.map_eq_nil_iff.1 (h.inv ht).2⟩
  · intro ht
    refine ⟨(h.flush ht).1, ?_⟩
    intro m hm
    obtain ⟨t, j, h1⟩ := (h.flush ht).2 m.canon (List.mem_map_of_mem hm)
    exact ⟨t, j, canon_writesBack h1⟩

theorem execd_canon (k : ι) (tr : List (Ev ι p)) :
    execd k (tr.map Ev.canon) = (execd k tr).map fun e => (e.1.canon, e.2.strip) := by
  simp only [execd, List.filterMap_map, List.map_filterMap]
  congr 1; funext e
  cases e <;> simp [Ev.canon]

/-- **The traffic of one request.**  The memory requests the cache sends, and
those memory executes, between the acceptance of `q` and the next acceptance are
exactly those of `Serves`; data of AMOs and of missing reads come from the last
memory response. -/
theorem request_served (wf : p.WF) {S S' : Sys ι p} {a b c : List (Ev ι p)} {k : ι} {q : CReq p} {r : CResp p}
    (h0 : Start S) (h : Run S (a ++ .acc k q :: (b ++ c)) S') (hw : Window k b c)
    (hr : (responses k (a ++ .acc k q :: (b ++ c)))[(accepted k a).length]? = some r) :
    Serves q (sent k b) r ∧ Serves q ((execd k b).map (·.1)) r ∧
    DataOf (fun W => (∀ q ∈ accepted k a, q.Valid) ∧ Published k W a) q (execd k b) r := by
  obtain ⟨T, he, _⟩ := refine wf h0 h
  have e : (a ++ .acc k q :: (b ++ c)).map Ev.canon =
      a.map Ev.canon ++ .acc k q :: (b.map Ev.canon ++ c.map Ev.canon) := by simp [Ev.canon]
  rw [e] at he
  have hr' : (responses k (a.map Ev.canon ++ .acc k q :: (b.map Ev.canon ++ c.map Ev.canon)))[(accepted k (a.map Ev.canon)).length]? =
      some r := by
    rw [← e, responses_canon, accepted_canon]; exact hr
  have han := anatomy wf he (by rw [accepted_canon]; exact hw.none) (by
    rcases hw.next with rfl | ⟨q', c', rfl⟩
    · exact .inl rfl
    · exact .inr ⟨q', c'.map Ev.canon, rfl⟩) hr'
  have hs := han.serves
  have hx := han.execs
  rw [sent_canon] at hs hx
  have hx' : ((execd k b).map (·.1)).map MReq.canon = (sent k b).map MReq.canon := by
    rw [← hx, execd_canon, List.map_map, List.map_map]; rfl
  refine ⟨canon_serves hs, canon_serves (by rw [hx']; exact hs), ?_, ?_⟩
  · intro ht
    obtain ⟨e, h1, h2⟩ := han.data.amo ht
    rw [execd_canon, List.getLast?_map] at h1
    cases hl : (execd k b).getLast? with
    | none => rw [hl] at h1; cases h1
    | some e' => rw [hl] at h1; cases h1; exact ⟨e', rfl, h2⟩
  · intro ht htest
    obtain ⟨e, l, h1, h2, h3⟩ := han.data.read ht htest
    rw [execd_canon, List.getLast?_map] at h1
    cases hl : (execd k b).getLast? with
    | none => rw [hl] at h1; cases h1
    | some e' =>
      rw [hl] at h1; cases h1
      refine ⟨e', l, rfl, h2, ?_⟩
      intro i hi ⟨g1, g2⟩
      exact h3 i hi ⟨by intro q hq; rw [accepted_canon] at hq; exact g1 q hq, g2.canon⟩

/-! ## Splitting a run where memory executes a request -/

theorem clockEvs_noExec (S : Sys ι p) (k : ι) (i : In p) (k' : ι) (m : MReq p) (r : MResp p) :
    .exec k' m r ∉ S.clockEvs k i := by
  simp only [Sys.clockEvs, List.mem_append, not_or]
  refine ⟨⟨?_, ?_⟩, ?_⟩ <;> split <;> simp

theorem Run.split_exec {S S' : Sys ι p} {tr : List (Ev ι p)} (h : Run S tr S') :
    ∀ x k m r y, tr = x ++ .exec k m r :: y →
      ∃ S₁, Run S x S₁ ∧ r = (memExec S₁.mem m).2 ∧ Run (S₁.exec k m) y S' := by
  induction h with
  | refl => intro x k m r y h; simp at h
  | @snoc S1 S2 tr ev h hs ih =>
    intro x k m r y he
    rcases List.append_eq_append_iff.1 he with ⟨e, h1, h2⟩ | ⟨e, h1, h2⟩
    · -- the event is in the last step
      cases hs with
      | clock k' i hc =>
        exfalso
        exact clockEvs_noExec _ _ _ k m r (by rw [h2]; simp)
      | exec k' m' ms hm =>
        cases e with
        | nil =>
          simp only [List.nil_append, List.cons.injEq, Ev.exec.injEq] at h2
          obtain ⟨⟨rfl, rfl, rfl⟩, rfl⟩ := h2
          rw [List.append_nil] at h1
          rw [h1]
          exact ⟨S1, h, rfl, .refl _⟩
        | cons z e => simp at h2
    · cases e with
      | nil =>
        simp only [List.nil_append, List.append_nil] at h1 h2
        cases hs with
        | clock k' i hc =>
          exfalso
          exact clockEvs_noExec _ _ _ k m r (by rw [← h2]; simp)
        | exec k' m' ms hm =>
          simp only [List.cons.injEq, Ev.exec.injEq] at h2
          obtain ⟨⟨rfl, rfl, rfl⟩, rfl⟩ := h2
          rw [← h1]
          exact ⟨S1, h, rfl, .refl _⟩
      | cons z e =>
        simp only [List.cons_append, List.cons.injEq] at h2
        obtain ⟨rfl, rfl⟩ := h2
        obtain ⟨S₁, g1, g2, g3⟩ := ih x k m r e h1
        exact ⟨S₁, g1, g2, g3.snoc hs⟩

theorem execd_mem {k : ι} {l : List (Ev ι p)} {e : MReq p × MResp p} (h : e ∈ execd k l) :
    ∃ x y, l = x ++ .exec k e.1 e.2 :: y := by
  simp only [execd, List.mem_filterMap] at h
  obtain ⟨ev, h1, h2⟩ := h
  cases ev with
  | acc => cases h2
  | mreq => cases h2
  | resp => cases h2
  | exec k' m r =>
    simp only at h2
    split at h2
    · rename_i hk
      subst hk
      cases h2
      obtain ⟨x, y, hxy⟩ := List.append_of_mem h1
      exact ⟨x, y, hxy⟩
    · cases h2

theorem acc_nth {k : ι} {q : CReq p} : ∀ {tr : List (Ev ι p)} {n : Nat}, (accepted k tr)[n]? = some q →
    ∃ a b, tr = a ++ .acc k q :: b ∧ (accepted k a).length = n := by
  intro tr
  induction tr with
  | nil => intro n h; simp [accepted] at h
  | cons e tr ih =>
    intro n h
    have hcons : accepted k (e :: tr) = accepted k [e] ++ accepted k tr := by rw [← accepted_append]; rfl
    by_cases he : accepted k [e] = []
    · rw [hcons, he, List.nil_append] at h
      obtain ⟨a, b, rfl, h2⟩ := ih h
      refine ⟨e :: a, b, rfl, ?_⟩
      have : accepted k (e :: a) = accepted k [e] ++ accepted k a := by rw [← accepted_append]; rfl
      rw [this, he, List.nil_append, h2]
    · cases e with
      | acc k' q' =>
        by_cases hk : k' = k
        · subst hk
          have e1 : accepted k' [(.acc k' q' : Ev ι p)] = [q'] := by simp [accepted]
          rw [hcons, e1] at h
          cases n with
          | zero => simp at h; subst h; exact ⟨[], tr, rfl, rfl⟩
          | succ n =>
            simp at h
            obtain ⟨a, b, rfl, h2⟩ := ih h
            refine ⟨.acc k' q' :: a, b, rfl, ?_⟩
            have : accepted k' (.acc k' q' :: a) = [q'] ++ accepted k' a := by rw [← e1, ← accepted_append]; rfl
            rw [this, List.length_append, h2]; simp; omega
        · exact absurd (by simp [accepted, hk]) he
      | mreq k' m => exact absurd rfl he
      | resp k' m => exact absurd rfl he
      | exec k' m r => exact absurd rfl he

/-! ## C02 for any number of caches -/

/-- **C02.**  Each cache answers its accepted requests in order, one response per
request with the type, opaque and length of the request, at most two requests
being unanswered at any time. -/
theorem C02_multi (wf : p.WF) {S S' : Sys ι p} {tr : List (Ev ι p)} (h0 : Start S) (h : Run S tr S') (k : ι) :
    (responses k tr).map (fun r => (r.ty, r.opq, r.len)) <+: (accepted k tr).map (fun q => (q.ty, q.opq, q.len)) ∧
    (accepted k tr).length ≤ (responses k tr).length + 2 := by
  refine ⟨?_, (C06_at_most_two_unanswered wf h0 h k).2⟩
  rw [List.prefix_iff_getElem?]
  intro n hn
  rw [List.length_map] at hn
  have hn' : n < (accepted k tr).length := Nat.lt_of_lt_of_le hn (C06_at_most_two_unanswered wf h0 h k).1
  rw [List.getElem_map, List.getElem?_map]
  have hq : (accepted k tr)[n]? = some (accepted k tr)[n] := List.getElem?_eq_getElem hn'
  have hr : (responses k tr)[n]? = some (responses k tr)[n] := List.getElem?_eq_getElem hn
  rw [hq]
  generalize (accepted k tr)[n] = q at hq ⊢
  generalize (responses k tr)[n] = r at hr ⊢
  obtain ⟨a, l, rfl, rfl⟩ := acc_nth hq
  obtain ⟨b, c, rfl, hw⟩ := Window.exists k l
  have hsv := (request_served wf h0 h hw hr).1
  simp only [Option.map_some, hsv.ty, hsv.opq, hsv.len]

/-! ## Misses after INV and AMO -/

theorem snoc_induct {α : Type} {P : List α → Prop} (h0 : P []) (h1 : ∀ l x, P l → P (l ++ [x])) (l : List α) : P l := by
  have : ∀ l : List α, P l.reverse := by
    intro l
    induction l with
    | nil => exact h0
    | cons x l ih => rw [List.reverse_cons]; exact h1 _ _ ih
  have := this l.reverse
  rwa [List.reverse_reverse] at this

theorem lruRun_length (ways : Nat) (qs : List (CReq p)) : (lruRun ways qs).2.length = qs.length := by
  induction qs using snoc_induct with
  | h0 => rfl
  | h1 qs q ih => rw [lruRun_snoc]; simp [ih]

theorem lruRun_hits_append (ways : Nat) (a b : List (CReq p)) :
    ∃ l, (lruRun ways (a ++ b)).2 = (lruRun ways a).2 ++ l := by
  induction b using snoc_induct with
  | h0 => exact ⟨[], by simp⟩
  | h1 b q ih =>
    obtain ⟨l, hl⟩ := ih
    rw [← List.append_assoc, lruRun_snoc, hl]
    exact ⟨_, List.append_assoc _ _ _⟩

theorem lru_nodup (ways : Nat) (xs : List (CReq p)) (j : Idx p) : ((lruRun ways xs).1 j).Nodup := by
  induction xs using snoc_induct with
  | h0 => simp [lruRun]
  | h1 xs q ih =>
    rw [lruRun_snoc]
    simp only [lruStep]
    split
    · dsimp only
      split
      · rename_i hj
        subst hj
        exact List.Nodup.sublist (List.take_sublist _ _) (List.nodup_cons.2 ⟨ih.not_mem_erase, ih.erase _⟩)
      · exact ih
    · split
      · dsimp only
        split
        · rename_i hj
          subst hj
          exact ih.erase _
        · exact ih
      · split
        · simp
        · exact ih

/-- A line that is not cached stays so until it is read or written. -/
theorem lru_absent (ways : Nat) (xs ys : List (CReq p)) (a : Addr p)
    (h : a.tag ∉ (lruRun ways xs).1 a.idx)
    (hy : ∀ y ∈ ys, (y.ty = MT.READ ∨ y.ty = MT.WRITE) → y.addr.la ≠ a.la) :
    a.tag ∉ (lruRun ways (xs ++ ys)).1 a.idx := by
  induction ys using snoc_induct with
  | h0 => simpa using h
  | h1 ys y ih =>
    have ih := ih (fun y' hy' => hy y' (by simp [hy']))
    rw [← List.append_assoc, lruRun_snoc]
    simp only [lruStep]
    split
    · rename_i ht
      dsimp only
      split
      · rename_i hj
        have hne := hy y (by simp) ht
        have htag : a.tag ≠ y.addr.tag := by
          intro h1; apply hne; simp only [Addr.la, h1, hj]
        intro hm
        have hm := List.mem_of_mem_take hm
        rcases List.mem_cons.1 hm with h1 | h1
        · exact htag h1
        · apply ih; rw [hj]; exact List.mem_of_mem_erase h1
      · exact ih
    · split
      · dsimp only
        split
        · rename_i hj
          intro hm
          apply ih; rw [hj]; exact List.mem_of_mem_erase hm
        · exact ih
      · split
        · simp
        · exact ih

/-- A read or write of a line that is not cached misses. -/
theorem absent_test (wf : p.WF) {S S' : Sys ι p} {tr : List (Ev ι p)} (h0 : Start S) (h : Run S tr S') {k : ι}
    {xs zs : List (CReq p)} {q : CReq p} (hacc : accepted k tr = xs ++ q :: zs)
    (hq : q.addr.tag ∉ (lruRun p.ways.length xs).1 q.addr.idx)
    {r : CResp p} (hr : (responses k tr)[xs.length]? = some r) (hrw : q.ty = MT.READ ∨ q.ty = MT.WRITE) : r.test = 0 := by
  have hp := C03_test_is_lru_hit wf h0 h k
  rw [List.prefix_iff_getElem?] at hp
  obtain ⟨hlt, hre⟩ := List.getElem?_eq_some_iff.1 hr
  have := hp xs.length (by simpa using hlt)
  rw [List.getElem_map, hre, List.getElem?_map, hacc] at this
  have e : xs ++ q :: zs = (xs ++ [q]) ++ zs := by simp
  obtain ⟨l, hl⟩ := lruRun_hits_append p.ways.length (xs ++ [q]) zs
  rw [e, hl, lruRun_snoc] at this
  rw [List.append_assoc, List.getElem?_append_right (by rw [lruRun_length]; exact Nat.le_refl _), lruRun_length] at this
  simp only [Nat.sub_self, List.singleton_append, List.getElem?_cons_zero, Option.map_some, Option.some.injEq] at this
  rw [← this]
  have : (lruStep p.ways.length (lruRun p.ways.length xs).1 q).2 = false := by
    simp only [lruStep, if_pos hrw, decide_eq_false_iff_not]; exact hq
  rw [this]; rfl

/-- **C09 (misses).**  After an INV, the next read or write of any line misses. -/
theorem C09_next_access_misses (wf : p.WF) {S S' : Sys ι p} {tr : List (Ev ι p)} (h0 : Start S) (h : Run S tr S') {k : ι}
    {xs ys zs : List (CReq p)} {i q : CReq p} (hacc : accepted k tr = xs ++ i :: (ys ++ q :: zs))
    (hi : i.ty = MT.INV) (hq : q.ty = MT.READ ∨ q.ty = MT.WRITE)
    (hy : ∀ y ∈ ys, (y.ty = MT.READ ∨ y.ty = MT.WRITE) → y.addr.la ≠ q.addr.la)
    {r : CResp p} (hr : (responses k tr)[xs.length + 1 + ys.length]? = some r) : r.test = 0 := by
  refine absent_test (k := k) (xs := xs ++ [i] ++ ys) (zs := zs) wf h0 h (by simp [hacc]) ?_ (by simpa [Nat.add_assoc, Nat.add_comm, Nat.add_left_comm] using hr) hq
  apply lru_absent _ _ _ _ _ hy
  rw [lruRun_snoc]
  simp [lruStep, hi]

/-- **C11 (line dropped).**  After an AMO, the next read or write of its line misses. -/
theorem C11_next_access_misses (wf : p.WF) {S S' : Sys ι p} {tr : List (Ev ι p)} (h0 : Start S) (h : Run S tr S') {k : ι}
    {xs ys zs : List (CReq p)} {i q : CReq p} (hacc : accepted k tr = xs ++ i :: (ys ++ q :: zs))
    (hi : MT.isAmo i.ty = true) (hl : i.addr.la = q.addr.la) (hq : q.ty = MT.READ ∨ q.ty = MT.WRITE)
    (hy : ∀ y ∈ ys, (y.ty = MT.READ ∨ y.ty = MT.WRITE) → y.addr.la ≠ q.addr.la)
    {r : CResp p} (hr : (responses k tr)[xs.length + 1 + ys.length]? = some r) : r.test = 0 := by
  refine absent_test (k := k) (xs := xs ++ [i] ++ ys) (zs := zs) wf h0 h (by simp [hacc]) ?_ (by simpa [Nat.add_assoc, Nat.add_comm, Nat.add_left_comm] using hr) hq
  apply lru_absent _ _ _ _ _ hy
  rw [lruRun_snoc]
  have t0 : ¬ (i.ty = MT.READ ∨ i.ty = MT.WRITE) := by rintro (h | h) <;> rw [h] at hi <;> cases hi
  have h1 : q.addr.idx = i.addr.idx := by have := congrArg LAddr.idx hl; exact this.symm
  have h2 : q.addr.tag = i.addr.tag := by have := congrArg LAddr.tag hl; exact this.symm
  simp only [lruStep, if_neg t0, hi, if_true, h1, h2]
  exact (lru_nodup _ _ _).not_mem_erase

/-! ## C09: clean words are fetched again -/

/-- The data memory returns for a read of the line of `q`. -/
theorem exec_readsLine {M : ByteMem} {m : MReq p} {a : Addr p} (h : m.ReadsLine a) :
    (memExec M m).2.data = view M a.la := by
  obtain ⟨h1, h2, h3⟩ := h
  simp only [memExec, h1, if_true, h2, MReq.bytes, h3, view]
  rw [show (⟨a.tag, a.idx, 0⟩ : Addr p) = ⟨a.la.tag, a.la.idx, 0⟩ from rfl, flat_off0]
  simp

/-- The last of the messages of a miss is the read of the line. -/
theorem MissTraffic.last {q : CReq p} {ms : List (MReq p)} (h : MissTraffic q ms) :
    ∃ m, ms.getLast? = some m ∧ m.ReadsLine q.addr := by
  obtain ⟨m, h1, rfl | ⟨w, t, h2, rfl⟩⟩ := h
  · exact ⟨m, rfl, h1⟩
  · exact ⟨m, rfl, h1⟩

theorem AmoTraffic.last {q : CReq p} {ms : List (MReq p)} (h : AmoTraffic q ms) :
    ∃ m, ms.getLast? = some m ∧ m.Performs q := by
  obtain ⟨m, h1, rfl | ⟨w, h2, rfl⟩⟩ := h
  · exact ⟨m, rfl, h1⟩
  · exact ⟨m, rfl, h1⟩

/-- **C09.**  After an INV, the next read or write of a line misses and memory
executes a read of that line after the request was accepted.  A read returns,
if the words it reads were all published (written back by a completed FLUSH, or
never written through this cache), the contents of memory in a state after the
acceptance of the read, hence after the INV. -/
theorem C09_refetched (wf : p.WF) {S S' : Sys ι p} {a b c : List (Ev ι p)} {k : ι} {i q : CReq p} {r : CResp p}
    (h0 : Start S) (h : Run S (a ++ .acc k i :: (b ++ .acc k q :: c)) S') (hi : i.ty = MT.INV)
    (hq : q.ty = MT.READ ∨ q.ty = MT.WRITE)
    (hy : ∀ y ∈ accepted k b, (y.ty = MT.READ ∨ y.ty = MT.WRITE) → y.addr.la ≠ q.addr.la)
    (hr : (responses k (a ++ .acc k i :: (b ++ .acc k q :: c)))[(accepted k (a ++ .acc k i :: b)).length]? = some r) :
    r.test = 0 ∧
    ∃ c₁ m x c₂ S₁, c = c₁ ++ .exec k m x :: c₂ ∧ m.ReadsLine q.addr ∧
      Run S (a ++ .acc k i :: (b ++ .acc k q :: c₁)) S₁ ∧ Run (S₁.exec k m) c₂ S' ∧
      (q.ty = MT.READ → q.Valid → (∀ q ∈ accepted k (a ++ .acc k i :: b), q.Valid) →
        (∀ W, q.readsWord W → Published k W (a ++ .acc k i :: b)) → r.data = (flatStep S₁.mem q).2) := by
  have htest : r.test = 0 := by
    refine C09_next_access_misses (k := k) (xs := accepted k a) (ys := accepted k b) (zs := accepted k c) wf h0 h ?_ hi hq hy ?_
    · simp [accepted]
    · rw [← hr]
      congr 1
      simp [accepted]; omega
  refine ⟨htest, ?_⟩
  obtain ⟨c', c'', rfl, hw⟩ := Window.exists k c
  have e : a ++ .acc k i :: (b ++ .acc k q :: (c' ++ c'')) = (a ++ .acc k i :: b) ++ .acc k q :: (c' ++ c'') := by simp
  rw [e] at h hr
  obtain ⟨_, hs, hd⟩ := request_served wf h0 h hw hr
  have hmt : MissTraffic q ((execd k c').map (·.1)) := by
    rcases hs.rw hq with ⟨h1, _⟩ | ⟨_, h1⟩
    · rw [htest] at h1; cases h1
    · exact h1
  obtain ⟨m, hm1, hm2⟩ := hmt.last
  rw [List.getLast?_map] at hm1
  obtain ⟨ex, hex, rfl⟩ : ∃ ex, (execd k c').getLast? = some ex ∧ ex.1 = m := by
    cases hg : (execd k c').getLast? with
    | none => rw [hg] at hm1; cases hm1
    | some ex => rw [hg] at hm1; cases hm1; exact ⟨ex, rfl, rfl⟩
  obtain ⟨x1, y1, hxy⟩ := execd_mem (List.mem_of_getLast? hex)
  have e2 : (a ++ .acc k i :: b) ++ .acc k q :: (c' ++ c'') =
      (a ++ .acc k i :: (b ++ .acc k q :: x1)) ++ .exec k ex.1 ex.2 :: (y1 ++ c'') := by
    rw [hxy]; simp
  obtain ⟨S₁, g1, g2, g3⟩ := h.split_exec _ k ex.1 ex.2 _ e2
  refine ⟨x1, ex.1, ex.2, y1 ++ c'', S₁, by rw [hxy]; simp, hm2, g1, g3, ?_⟩
  intro ty hqv hv hpub
  obtain ⟨ex', l, k1, k2, k3⟩ := hd.read ty htest
  rw [hex] at k1
  cases k1
  obtain ⟨n, hn, al⟩ := valid_read hqv ty
  have hl : Agree (fun la j => la = q.addr.la → ∃ W, q.readsWord W ∧ wordBits p W la j) q (readLine q l) (flatStep S₁.mem q).2 := by
    refine read_spec wf hn al ty S₁.mem l ?_
    intro j hj hP
    obtain ⟨W, hW, hb⟩ := hP rfl
    rw [wordBits_eq] at hb
    rw [k3 j hj ⟨hv, by rw [hb]; exact hpub W hW⟩, g2, exec_readsLine hm2]
  rw [k2]
  apply BitVec.eq_of_getLsbD_eq
  intro j hj
  refine hl.1 ty j hj ?_
  intro hjb _
  exact ⟨_, ⟨_, rfl, .inl ⟨ty, by omega, by omega⟩⟩, word_of_bit⟩

/-! ## C11: an AMO is executed once, at memory -/

theorem performs_flat {M : ByteMem} {m : MReq p} {q : CReq p} (ha : MT.isAmo q.ty = true) (h : m.Performs q) :
    (memExec M m).1 = (flatStep M q).1 ∧
    (((memExec M m).2.data.setWidth 32).setWidth p.dataBits : Data p) = (flatStep M q).2 := by
  obtain ⟨h1, h2, h3, _⟩ := h
  have t1 : ¬ q.ty = MT.READ := by intro h; rw [h] at ha; cases ha
  have t2 : ¬ q.ty = MT.WRITE := by intro h; rw [h] at ha; cases ha
  have hl : 32 ≤ p.lineBits := by
    have := Nat.two_pow_pos p.nwBits
    simp only [Params.lineBits, Params.nWords]; omega
  have e : ∀ {n : Nat} (x : BitVec n), (x.setWidth p.lineBits).setWidth 32 = x.setWidth 32 := by
    intro n x
    apply BitVec.eq_of_getLsbD_eq
    intro i hi
    have : i < p.lineBits := by omega
    simp [hi, this]
  simp only [memExec, flatStep, h1, h2, h3, if_neg t1, if_neg t2, ha, if_true]
  rw [e]
  exact ⟨rfl, by rw [e]; simp⟩

/-- A memory request that performs a valid AMO asks for exactly four bytes (test/MemoryCL.py:70-71,
98 would otherwise combine operands of different widths). -/
theorem MReq.Performs.word (wf : p.WF) {m : MReq p} {q : CReq p} (h : m.Performs q) (ha : MT.isAmo q.ty = true)
    (hv : q.Valid) : m.len.toNat = 4 ∧ m.bytes = 4 := by
  have hl : m.len.toNat = 4 := by
    obtain ⟨-, -, -, h4⟩ := h
    have hw := wf.nw
    have hf := wf.fits
    have ho : 8 ≤ 2 ^ p.offBits := by
      have : 3 ≤ p.offBits := by simp only [Params.offBits]; omega
      calc 8 = 2 ^ 3 := rfl
        _ ≤ _ := Nat.pow_le_pow_right (by decide) this
    by_cases h2 : p.lenBits = 2
    · rw [h4, if_pos h2]
      change (BitVec.ofNat _ 4).toNat = 4
      rw [BitVec.toNat_ofNat]
      exact Nat.mod_eq_of_lt (by omega)
    · rw [h4, if_neg h2, BitVec.toNat_setWidth]
      have h5 : q.len.toNat = 4 := by
        cases hv with
        | read ty => rw [ty] at ha; cases ha
        | write ty => rw [ty] at ha; cases ha
        | dword ty => rw [ty] at ha; cases ha
        | inv ty => rw [ty] at ha; cases ha
        | flush ty => rw [ty] at ha; cases ha
        | amo ty len al => exact len.resolve_left h2
      rw [h5]; exact Nat.mod_eq_of_lt (by omega)
  exact ⟨hl, by simp [MReq.bytes, hl]⟩

/-- **C11.**  For an accepted AMO exactly one AMO message is sent to memory and
executed, preceded only by the write-back of its own line if that was dirty; the
response carries the old word and memory holds the combined word after the
execution. -/
theorem C11_amo_executed_once (wf : p.WF) {S S' : Sys ι p} {a b c : List (Ev ι p)} {k : ι} {q : CReq p} {r : CResp p}
    (h0 : Start S) (h : Run S (a ++ .acc k q :: (b ++ c)) S') (hw : Window k b c) (hq : MT.isAmo q.ty = true)
    (hr : (responses k (a ++ .acc k q :: (b ++ c)))[(accepted k a).length]? = some r) :
    r.test = 0 ∧ AmoTraffic q (sent k b) ∧ AmoTraffic q ((execd k b).map (·.1)) ∧
    ∃ b₁ m x b₂ S₁, b = b₁ ++ .exec k m x :: b₂ ∧ m.Performs q ∧
      Run S (a ++ .acc k q :: b₁) S₁ ∧ Run (S₁.exec k m) (b₂ ++ c) S' ∧
      r.data = (flatStep S₁.mem q).2 ∧ (S₁.exec k m).mem = (flatStep S₁.mem q).1 := by
  obtain ⟨hs1, hs2, hd⟩ := request_served wf h0 h hw hr
  refine ⟨(hs1.amo hq).1, (hs1.amo hq).2, (hs2.amo hq).2, ?_⟩
  obtain ⟨m, hm1, hm2⟩ := (hs2.amo hq).2.last
  rw [List.getLast?_map] at hm1
  obtain ⟨ex, hex, rfl⟩ : ∃ ex, (execd k b).getLast? = some ex ∧ ex.1 = m := by
    cases hg : (execd k b).getLast? with
    | none => rw [hg] at hm1; cases hm1
    | some ex => rw [hg] at hm1; cases hm1; exact ⟨ex, rfl, rfl⟩
  obtain ⟨x1, y1, hxy⟩ := execd_mem (List.mem_of_getLast? hex)
  have e2 : a ++ .acc k q :: (b ++ c) = (a ++ .acc k q :: x1) ++ .exec k ex.1 ex.2 :: (y1 ++ c) := by
    rw [hxy]; simp
  obtain ⟨S₁, g1, g2, g3⟩ := h.split_exec _ k ex.1 ex.2 _ e2
  obtain ⟨ex', k1, k2⟩ := hd.amo hq
  rw [hex] at k1
  cases k1
  obtain ⟨f1, f2⟩ := performs_flat (M := S₁.mem) hq hm2
  refine ⟨x1, ex.1, ex.2, y1, S₁, hxy, hm2, g1, g3, ?_, f1⟩
  rw [k2, g2, f2]

/-- **C11.**  The AMO message of a valid AMO asks memory for one word: the only other
message of its window is a write-back. -/
theorem C11_amo_word (wf : p.WF) {S S' : Sys ι p} {a b c : List (Ev ι p)} {k : ι} {q : CReq p} {r : CResp p}
    (h0 : Start S) (h : Run S (a ++ .acc k q :: (b ++ c)) S') (hw : Window k b c) (hq : MT.isAmo q.ty = true)
    (hv : q.Valid) (hr : (responses k (a ++ .acc k q :: (b ++ c)))[(accepted k a).length]? = some r)
    {m : MReq p} (hm : m ∈ sent k b) :
    (m.ty = MT.WRITE ∧ m.addr.la = q.addr.la ∧ m.addr.off = 0 ∧ m.wmask ≠ 0) ∨
    (m.ty = q.ty ∧ m.addr = q.addr ∧ m.data = q.data.setWidth _ ∧ m.len.toNat = 4 ∧ m.bytes = 4) := by
  obtain ⟨-, ht, -⟩ := C11_amo_executed_once wf h0 h hw hq hr
  obtain ⟨m', g, e | ⟨w, g', e⟩⟩ := ht
  · rw [e] at hm
    cases List.mem_singleton.1 hm
    exact .inr ⟨g.1, g.2.1, g.2.2.1, g.word wf hq hv⟩
  · rw [e] at hm
    rcases List.mem_cons.1 hm with rfl | hm
    · refine .inl ⟨g'.1, ?_, ?_, g'.2.2.2⟩ <;> rw [g'.2.1] <;> rfl
    · cases List.mem_singleton.1 hm
      exact .inr ⟨g.1, g.2.1, g.2.2.1, g.word wf hq hv⟩

/-! ## A concrete execution -/

namespace ExL
/-- Store 5, add 7, read the other word, INV, read again: all on one line. -/
def w : CReq p1 := ⟨MT.WRITE, 1, ⟨1, 0, 4⟩, 0, 5⟩
/-- Proof device; not in the source. -/
def am : CReq p1 := ⟨3, 1, ⟨1, 0, 4⟩, 0, 7⟩
/-- Proof device; not in the source. -/
def i : CReq p1 := ⟨MT.INV, 1, ⟨0, 0, 0⟩, 0, 0⟩
/-- Proof device; not in the source. -/
def q : CReq p1 := ⟨MT.READ, 1, ⟨1, 0, 0⟩, 0, 0⟩
/-- Proof device; not in the source. -/
def run : Sys Bool p1 × List (Ev Bool p1) := driveK false 34 (start2 p1) [w, am, q, i, q]
/-- Proof device; not in the source. -/
def tr : List (Ev Bool p1) := run.2
theorem isRun : Run (start2 p1) tr run.1 := driveK_run _ _ _ _

/-- Before the AMO, its window, and the rest. Proof device; not in the source. -/
def a : List (Ev Bool p1) := tr.take 3
/-- Proof device; not in the source. -/
def b : List (Ev Bool p1) := (tr.drop 4).take 5
/-- Proof device; not in the source. -/
def c : List (Ev Bool p1) := tr.drop 9
theorem shape : tr = a ++ .acc false am :: (b ++ c) := by decide +kernel
theorem win : Window false b c := ⟨by decide +kernel, .inr ⟨q, c.tail, by decide +kernel⟩⟩

/-- The AMO follows the write-back of its line and returns the stored 5. -/
example : ∃ r : CResp p1, r.data = 5 ∧ AmoTraffic am (sent false b) ∧ (sent false b).length = 2 ∧
    ∃ S₁ : Sys Bool p1, r.data = (flatStep S₁.mem am).2 :=
  have hr : (responses false tr)[(accepted false a).length]? = some ⟨3, 1, 0, 0, 5⟩ := by decide +kernel
  have h := C11_amo_executed_once p1_wf (start2_start p1) (shape ▸ isRun) win rfl (shape ▸ hr)
  ⟨_, rfl, h.2.1, by decide +kernel, h.2.2.2.choose_spec.choose_spec.choose_spec.choose_spec.choose,
    h.2.2.2.choose_spec.choose_spec.choose_spec.choose_spec.choose_spec.2.2.2.2.1⟩

/-- The two messages of the window: the write-back and the AMO of length 4, although the
processor sent length 0. -/
example : (sent false b).map (fun m => (m.ty.toNat, m.len.toNat)) = [(1, 0), (3, 4)] := by decide +kernel
example : am.Valid := .amo (by decide) (.inl rfl) (by decide)

/-- Before the INV, between INV and read, after the read. Proof device; not in the source. -/
def a' : List (Ev Bool p1) := tr.take 13
/-- Proof device; not in the source. -/
def b' : List (Ev Bool p1) := (tr.drop 14).take 1
/-- Proof device; not in the source. -/
def c' : List (Ev Bool p1) := tr.drop 16
theorem shape' : tr = a' ++ .acc false i :: (b' ++ .acc false q :: c') := by decide +kernel

theorem nostore (x : CReq p1) (hx : x ∈ [w, am, q, i]) {W : Nat} (h : x.writesWord W) : W ≠ 4 := by
  simp only [List.mem_cons, List.not_mem_nil, or_false] at hx
  have e1 : w.addr.flat = 20 := by decide
  have e2 : am.addr.flat = 20 := by decide
  have e3 : w.bytes = 4 := by decide
  have e4 : w.len.toNat = 0 := by decide
  obtain ⟨y, h1, h | h⟩ := h <;> rcases hx with rfl | rfl | rfl | rfl
  · rw [e4] at h; simp only [Nat.zero_ne_add_one, if_false] at h; omega
  · exact absurd h.1 (by decide)
  · exact absurd h.1 (by decide)
  · exact absurd h.1 (by decide)
  · exact absurd h.1 (by decide)
  · omega
  · exact absurd h.1 (by decide)
  · exact absurd h.1 (by decide)

theorem acc' : accepted false (a' ++ .acc false i :: b') = [w, am, q, i] := by decide +kernel

/-- The words of the read were not written, so they are published. -/
theorem pub (W : Nat) (h : q.readsWord W) : Published false W (a' ++ .acc false i :: b') := by
  have hW : W = 4 := by
    obtain ⟨x, h1, h | h⟩ := h
    · have e1 : q.addr.flat = 16 := by decide
      have e2 : q.bytes = 4 := by decide
      omega
    · exact absurd h.1 (by decide)
  intro t x t' he hw
  refine absurd hW (nostore x ?_ hw)
  rw [← acc', he, accepted_append]; simp [accepted]

theorem valid' : ∀ q ∈ accepted false (a' ++ .acc false i :: b'), q.Valid := by
  rw [acc']
  intro x hx
  simp only [List.mem_cons, List.not_mem_nil, or_false] at hx
  rcases hx with rfl | rfl | rfl | rfl
  · exact .write rfl 2 (by decide) (by decide) (by decide)
  · exact .amo (by decide) (.inl rfl) (by decide)
  · exact .read rfl 2 (by decide) (by decide)
  · exact .inv rfl

/-- The read after the INV misses although its line was cached. -/
example : ∃ r : CResp p1, r.test = 0 ∧ r.data = 0x14131211 ∧
    ∃ S₁ : Sys Bool p1, r.data = (flatStep S₁.mem q).2 := by
  have hr : (responses false tr)[(accepted false (a' ++ .acc false i :: b')).length]? = some ⟨0, 1, 0, 0, 0x14131211⟩ := by
    decide +kernel
  obtain ⟨h1, _, _, _, _, S₁, _, _, _, _, h2⟩ := C09_refetched p1_wf (start2_start p1) (shape' ▸ isRun) rfl (.inl rfl)
    (by intro y hy; rw [show accepted false b' = [] by decide +kernel] at hy; cases hy) (shape' ▸ hr)
  exact ⟨_, h1, rfl, S₁, h2 rfl (.read rfl 2 (by decide) (by decide)) valid' pub⟩

/-- All five responses carry type, opaque and length of their requests. -/
example : (responses false tr).map (fun r => (r.ty, r.opq, r.len)) = [w, am, q, i, q].map (fun q => (q.ty, q.opq, q.len)) := by
  decide +kernel
end ExL

end Verif
