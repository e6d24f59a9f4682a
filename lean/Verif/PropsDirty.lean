import Verif.Dirty
import Verif.PropsShared
import Verif.PropsLife

/-!
# C07, C08: what the caches write back

The statements use the RTL system (`Start`, `Run`) and the predicates of
`Verif/SpecDirty.lean`.
-/

set_option linter.unusedSectionVars false

namespace Verif
variable {p : Params} {ι : Type} [DecidableEq ι]

theorem canon_carries {m : MReq p} {W : Nat} : m.canon.carries W ↔ m.carries W := by
  by_cases ht : m.ty = MT.WRITE
  · have : m.canon = { m with opq := 0 } := by simp [MReq.canon, ht]
    rw [this]; rfl
  · constructor
    · intro h; exact absurd (by rw [← m.canon_ty]; exact h.1) ht
    · intro h; exact absurd h.1 ht

theorem canon_inLine {m : MReq p} {W : Nat} : m.canon.inLine W ↔ m.inLine W := by
  simp only [MReq.inLine, canon_addr]

theorem Unsaved.canon {k : ι} {W : Nat} {tr : List (Ev ι p)} : Unsaved k W (tr.map Ev.canon) ↔ Unsaved k W tr := by
  constructor
  · rintro ⟨a, q, b, he, h1, h2, h3⟩
    obtain ⟨a', b', rfl, rfl, rfl⟩ := canon_split he
    refine ⟨a', q, b', rfl, h1, h2, ?_⟩
    intro m hm hW
    exact h3 m.canon (by rw [sent_canon]; exact List.mem_map_of_mem hm) (canon_carries.2 hW)
  · rintro ⟨a, q, b, rfl, h1, h2, h3⟩
    refine ⟨a.map Ev.canon, q, b.map Ev.canon, by simp [Ev.canon], h1, h2, ?_⟩
    intro m hm hW
    rw [sent_canon] at hm
    obtain ⟨m', hm', rfl⟩ := List.mem_map.1 hm
    exact h3 m' hm' (canon_carries.1 hW)

/-- **C07.**  A memory write sent by cache `k` is line aligned, covers a whole
line, its mask is not empty and selects exactly those words of the line that were
stored to through `k` and not written back since. -/
theorem C07_writeback_exact (wf : p.WF) {S S' : Sys ι p} {a b : List (Ev ι p)} {k : ι} {m : MReq p} (h0 : Start S)
    (h : Run S (a ++ .mreq k m :: b) S') (hv : ∀ q ∈ accepted k a, q.Valid) (ht : m.ty = MT.WRITE) :
    m.addr.off = 0 ∧ m.len = 0 ∧ m.wmask ≠ 0 ∧ ∀ W, m.inLine W → (m.carries W ↔ Unsaved k W a) := by
  obtain ⟨T, he, _⟩ := refine wf h0 h
  rw [List.map_append, List.map_cons] at he
  obtain ⟨X, ha, hX⟩ := he.split _ _ rfl
  obtain ⟨T0, T1, hX0, hst, h1⟩ := hX.head
  have h2 : ERun (ESys.init ι p S.mem) (a.map Ev.canon) T0 := by simpa using ha.trans hX0
  have hv' : ∀ q ∈ accepted k (a.map Ev.canon), q.Valid := by
    intro q hq; rw [accepted_canon] at hq; exact hv q hq
  have hdi := dirty_inv wf h2 k hv'
  have htc : m.canon.ty = MT.WRITE := by rw [m.canon_ty]; exact ht
  cases hst with
  | emitMem _ _ E' hE =>
    have hmem : memMsgs (T0.E k) = m.canon :: memMsgs E' := by rw [hE]; rfl
    have hin : m.canon ∈ memMsgs (T0.E k) := by rw [hmem]; simp
    obtain ⟨t, j, hw⟩ := shape_inv h2 k m.canon hin htc
    have hw := canon_writesBack hw
    refine ⟨by rw [hw.2.1], hw.2.2.1, hw.2.2.2, ?_⟩
    intro W hW
    rw [← canon_carries, ← Unsaved.canon]
    constructor
    · exact hdi.pend _ hin W
    · intro hu
      rcases kept_inv wf h2 k hv' hu with hd | ⟨m', hm', hc⟩
      · exact absurd (canon_inLine.2 hW) ((hdi.dirty W hd).2 _ hin htc)
      · rw [hmem] at hm'
        rcases List.mem_cons.1 hm' with rfl | hm'
        · exact hc
        · have := hdi.disj
          rw [hmem, List.pairwise_cons] at this
          exact absurd hc.inLine (this.1 m' hm' htc hc.1 W (canon_inLine.2 hW))

/-- **C07, values.**  Let `q` be the request of cache `k` that causes the write
`m` (the last one accepted before it).  If word `W` was stored to in a
synchronised way, `m` carries the latest value of `W` at the time `q` was
accepted. -/
theorem C07_writeback_value (wf : p.WF) {S S' : Sys ι p} {a b c : List (Ev ι p)} {k : ι} {q : CReq p} {m : MReq p}
    (h0 : Start S) (h : Run S (a ++ .acc k q :: (b ++ .mreq k m :: c)) S') (hb : accepted k b = [])
    (hv : ∀ k, ∀ q ∈ accepted k a, q.Valid) {W : Nat} (hm : m.carries W)
    (hs : WritesSynced W a) (hu : UpToDate k W a) {x : Nat} (hx : x / 4 = W) :
    m.addr.flat ≤ x ∧ Line.byte m.data (x - m.addr.flat) = latest S.mem a x := by
  obtain ⟨T, he, _⟩ := refine wf h0 h
  have e : (a ++ .acc k q :: (b ++ .mreq k m :: c)).map Ev.canon =
      a.map Ev.canon ++ .acc k q :: (b.map Ev.canon ++ .mreq k m.canon :: c.map Ev.canon) := by simp [Ev.canon]
  rw [e] at he
  obtain ⟨X, ha, hX⟩ := he.split _ _ rfl
  obtain ⟨T0, T1, hX0, hst, h1⟩ := hX.head
  have h2 : ERun (ESys.init ι p S.mem) (a.map Ev.canon) T0 := by simpa using ha.trans hX0
  obtain ⟨Y, hY, hY'⟩ := h1.split _ _ rfl
  obtain ⟨T2, T3, hY0, hst', _⟩ := hY'.head
  have h3 : ERun T1 (b.map Ev.canon) T2 := by simpa using hY.trans hY0
  have hwin := window_msgs h2 hst h3 (by rw [accepted_canon]; exact hb)
  have hin : m.canon ∈ memMsgs ((T0.L k).accept q).2 := by
    cases hst' with
    | emitMem _ _ E' hE => rw [← hwin, hE]; simp
  have hcoh := (shared wf h2 (by intro k q hq; rw [accepted_canon] at hq; exact hv k q hq) W hs.canon).up k hu.canon
  have hfin : T0.fin k (a.map Ev.canon) = (T0.L k, T0.mem, emitted k (a.map Ev.canon) ++ T0.E k) := by
    cases hst with
    | acc _ _ hc hE hr hs hq =>
      have hmE : memMsgs (T0.E k) = [] := by rw [memTypes_eq] at hE; simpa using hE
      simp only [ESys.fin, answer_of_idle hc, hr, hmE, List.append_nil, memRun]
  rw [hfin, latest_canon] at hcoh
  have hmc := canon_carries.2 hm
  obtain ⟨w, hw, j, hd, hmeq⟩ := accept_writes (EInv.run h2 k).ok hin hmc.1
  rw [hmeq] at hmc
  obtain ⟨i, hi, hdi, hWi⟩ := wr_touches (wr_carries.1 hmc)
  have haddr : m.addr.flat = 4 * (LAddr.num ⟨((T0.L k).ent w j).tag, j⟩ * 2 ^ p.nwBits) := by
    have := congrArg MReq.addr hmeq
    rw [canon_addr] at this
    rw [this, MReq.wr, flat_off0, offBits_pow, ← Nat.mul_assoc, Nat.mul_comm _ 4, Nat.mul_assoc]
  have hdata : m.data = (T0.L k).dat w j := by
    have h4 : m.canon.data = m.data := by simp [MReq.canon, hm.1]
    rw [← h4, hmeq]; rfl
  have hle : m.addr.flat ≤ x := by omega
  refine ⟨hle, ?_⟩
  rw [hdata]
  apply BitVec.eq_of_getLsbD_eq
  intro n hn
  have hnw : i < 2 ^ p.nwBits := hi
  have hbit : 8 * (x - m.addr.flat) + n < p.lineBits := by
    rw [lineBits_eq (p := p), offBits_pow]; omega
  have h32 : (8 * (x - m.addr.flat) + n) / 32 = i := by omega
  have h8 : (8 * (x - m.addr.flat) + n) / 8 = x - m.addr.flat := by omega
  have h9 : (8 * (x - m.addr.flat) + n) % 8 = n := by omega
  have := hcoh.hitc w hw j (8 * (x - m.addr.flat) + n) hbit (by rw [wordBits_eq, h32]; exact hWi)
    (.inr (by rw [h32]; exact hdi))
  simp only [Line.byte, BitVec.getLsbD_extractLsb', hn, decide_true, Bool.true_and]
  rw [this, getLsbD_view _ _ _ hbit, h8, h9]
  have : LAddr.num ⟨((T0.L k).ent w j).tag, j⟩ * 2 ^ p.offBits = m.addr.flat := by
    rw [haddr, offBits_pow, ← Nat.mul_assoc, Nat.mul_comm _ 4, Nat.mul_assoc]
  rw [this]
  congr 2; omega

/-- The words only cache `k` stores to need no synchronisation. -/
theorem C07_writeback_value_private (wf : p.WF) {S S' : Sys ι p} {a b c : List (Ev ι p)} {k : ι} {q : CReq p} {m : MReq p}
    (h0 : Start S) (h : Run S (a ++ .acc k q :: (b ++ .mreq k m :: c)) S') (hb : accepted k b = [])
    (hv : ∀ k, ∀ q ∈ accepted k a, q.Valid) {W : Nat} (hm : m.carries W)
    (ho : OnlyWriter k W a) {x : Nat} (hx : x / 4 = W) :
    m.addr.flat ≤ x ∧ Line.byte m.data (x - m.addr.flat) = latest S.mem a x :=
  C07_writeback_value wf h0 h hb hv hm ho.synced ho.upToDate hx

/-- After a FLUSH, once all its messages have left and before the next request,
no word is unsaved. -/
theorem flush_saves (wf : p.WF) {M : ByteMem} {T0 T1 T : ESys ι p} {a b : List (Ev ι p)} {k : ι} {f : CReq p}
    (h2 : ERun (ESys.init ι p M) a T0) (hst : EStep T0 [.acc k f] T1) (h1 : ERun T1 b T)
    (hv : ∀ q ∈ accepted k a, q.Valid) (hf : f.ty = MT.FLUSH)
    (hb : accepted k b = []) (hE : memMsgs (T.E k) = []) (W : Nat) : ¬ Unsaved k W (a ++ .acc k f :: b) := by
  intro hu
  have he : ERun (ESys.init ι p M) (a ++ .acc k f :: b) T := by
    have := (h2.snoc hst).trans h1; simpa using this
  have hv' : ∀ q ∈ accepted k (a ++ .acc k f :: b), q.Valid := by
    intro q hq
    rw [accepted_append] at hq
    rcases List.mem_append.1 hq with hq | hq
    · exact hv q hq
    · have : accepted k (.acc k f :: b) = f :: accepted k b := by simp [accepted]
      rw [this, hb, List.mem_singleton] at hq
      subst hq; exact .flush hf
  have hpost : ∀ {b : List (Ev ι p)} {T : ESys ι p}, ERun T1 b T → accepted k b = [] → (T.L k).post = (T1.L k).post := by
    intro b T hr
    induction hr with
    | refl => intro _; rfl
    | @snoc T2 T3 b1 ev hb1 hs ih =>
      intro hb
      rw [accepted_append, List.append_eq_nil_iff] at hb
      rw [← ih hb.1]
      cases hs with
      | acc k' q' hc hE hr hs hq =>
        by_cases hk : k = k'
        · subst hk; have := hb.2; simp [accepted] at this
        · simp only [upd_other _ hk]
      | deliver k' r l hl =>
        by_cases hk : k = k'
        · subst hk
          simp only [upd_same, L1.deliver]
          split
          · rw [post_idle (answer_idle _ _), answer_ent]
          · rfl
        · simp only [upd_other _ hk]
      | emitMem k' m E' hE => rfl
      | emitResp k' r E' hE hr hs => rfl
      | exec k' m ms hm => rfl
  rcases kept_inv wf he k hv' hu with hd | ⟨m, hm, _⟩
  · rw [hpost h1 hb] at hd
    apply hd
    cases hst with
    | acc _ _ hc hE hr hs hq =>
      simp only [upd_same]
      exact NotDirty.of_flush W hc hf
  · rw [hE] at hm; simp at hm

/-- **C08, dirty lines.**  Let the FLUSH `f` be answered; `b` is anything after its
acceptance up to the next accepted request (or the end).  After `b` no word is
unsaved: everything that was stored through the cache before has been sent to
memory.  By `C07_writeback_exact` no write-back of such a word follows before it is
stored to again. -/
theorem C08_nothing_unsaved (wf : p.WF) {S S' : Sys ι p} {a b c : List (Ev ι p)} {k : ι} {f : CReq p} (h0 : Start S)
    (h : Run S (a ++ .acc k f :: (b ++ c)) S') (hw : Window k b c) (hv : ∀ q ∈ accepted k a, q.Valid)
    (hf : f.ty = MT.FLUSH)
    (hr : (accepted k a).length < (responses k (a ++ .acc k f :: (b ++ c))).length) (W : Nat) :
    ¬ Unsaved k W (a ++ .acc k f :: b) := by
  obtain ⟨T, he, _⟩ := refine wf h0 h
  obtain ⟨hb, hc⟩ := hw
  rw [← Unsaved.canon]
  have e : (a ++ .acc k f :: (b ++ c)).map Ev.canon =
    a.map Ev.canon ++ .acc k f :: (b.map Ev.canon ++ c.map Ev.canon) := by simp [Ev.canon]
  have e' : (a ++ .acc k f :: b).map Ev.canon = a.map Ev.canon ++ .acc k f :: b.map Ev.canon := by simp [Ev.canon]
  rw [e'] 
  rw [e] at he
  obtain ⟨X, ha, hX⟩ := he.split _ _ rfl
  obtain ⟨T0, T1, hX0, hst, h1⟩ := hX.head
  have h2 : ERun (ESys.init ι p S.mem) (a.map Ev.canon) T0 := by simpa using ha.trans hX0
  have hb' : accepted k (b.map Ev.canon) = [] := by rw [accepted_canon]; exact hb
  have hv' : ∀ q ∈ accepted k (a.map Ev.canon), q.Valid := by rw [accepted_canon]; exact hv
  rcases hc with rfl | ⟨q', c', rfl⟩
  · rw [List.map_nil, List.append_nil] at h1
    refine flush_saves wf h2 hst h1 hv' hf hb' ?_ W
    have he' : ERun (ESys.init ι p S.mem) (a.map Ev.canon ++ .acc k f :: b.map Ev.canon) T := by
      simpa using he
    have how := owed he' k
    rw [← e', accepted_canon, responses_canon] at how
    have : accepted k (a ++ .acc k f :: b) = accepted k a ++ (f :: accepted k b) := by simp [accepted]
    rw [this, hb, List.length_append] at how
    rw [List.append_nil] at hr
    simp only [List.length_singleton] at how
    have hcur : (T.L k).cur = .idle := by
      cases hcc : (T.L k).cur with
      | idle => rfl
      | fill _ _ _ => rw [hcc] at how; simp only [Cur.pend] at how; omega
      | amo _ _ _ => rw [hcc] at how; simp only [Cur.pend] at how; omega
    rcases rest_inv he' k hcur with h3 | ⟨E', r', h3⟩
    · rw [h3.1]; rfl
    · rw [h3, nResp_append, nResp_resp] at how; omega
  · rw [List.map_cons] at h1
    obtain ⟨Y, hY, hY'⟩ := h1.split _ _ rfl
    obtain ⟨T2, T3, hY0, hst', _⟩ := hY'.head
    have h3 : ERun T1 (b.map Ev.canon) T2 := by simpa using hY.trans hY0
    refine flush_saves wf h2 hst h3 hv' hf hb' ?_ W
    cases hst' with
    | acc _ _ hc hE hr hs hq => rw [memTypes_eq] at hE; simpa using hE

/-- Every word that is unsaved when a FLUSH is accepted is carried by a memory
write before the FLUSH is answered and before the next request is accepted. -/
theorem C08_flush_carries (wf : p.WF) {S S' : Sys ι p} {a b c : List (Ev ι p)} {k : ι} {f : CReq p} (h0 : Start S)
    (h : Run S (a ++ .acc k f :: (b ++ c)) S') (hw : Window k b c) (hv : ∀ q ∈ accepted k a, q.Valid)
    (hf : f.ty = MT.FLUSH)
    (hr : (accepted k a).length < (responses k (a ++ .acc k f :: (b ++ c))).length) {W : Nat}
    (hu : Unsaved k W a) : ∃ m ∈ sent k b, m.carries W := by
  apply Classical.byContradiction
  intro hne
  refine C08_nothing_unsaved wf h0 h hw hv hf hr W (hu.snoc _ ?_)
  intro m hm hW
  have : sent k (.acc k f :: b) = sent k b := by simp [sent]
  rw [this] at hm
  exact hne ⟨m, hm, hW⟩

/-! ## C08: lines stay valid -/

/-- The hit bit of one request in terms of the requests before it. -/
theorem test_at (wf : p.WF) {S S' : Sys ι p} {tr : List (Ev ι p)} (h0 : Start S) (h : Run S tr S') {k : ι}
    {xs zs : List (CReq p)} {q : CReq p} (hacc : accepted k tr = xs ++ q :: zs)
    {r : CResp p} (hr : (responses k tr)[xs.length]? = some r) :
    r.test = if (lruStep p.ways.length (lruRun p.ways.length xs).1 q).2 then 1 else 0 := by
  have hp := C03_test_is_lru_hit wf h0 h k
  rw [List.prefix_iff_getElem?] at hp
  obtain ⟨hlt, hre⟩ := List.getElem?_eq_some_iff.1 hr
  have := hp xs.length (by simpa using hlt)
  rw [List.getElem_map, hre, List.getElem?_map, hacc] at this
  have e : xs ++ q :: zs = (xs ++ [q]) ++ zs := by simp
  obtain ⟨l, hl⟩ := lruRun_hits_append p.ways.length (xs ++ [q]) zs
  rw [e, hl, lruRun_snoc] at this
  rw [List.append_assoc, List.getElem?_append_right (by rw [lruRun_length]; exact Nat.le_refl _), lruRun_length] at this
  simp only [Nat.sub_self, List.singleton_append, List.getElem?_cons_zero, Option.map_some, Option.some.injEq] at this
  rw [← this]

theorem lruRun_fst_append (n : Nat) (a b : List (CReq p)) :
    (lruRun n (a ++ b)).1 = b.foldl (fun s q => (lruStep n s q).1) (lruRun n a).1 := by
  induction b using snoc_induct with
  | h0 => simp
  | h1 l x ih => rw [← List.append_assoc, lruRun_snoc, List.foldl_append, ← ih]; rfl

/-- **C08, lines stay valid.**  A FLUSH has no influence on hits and misses: the
hit bits of all later requests are those of the history without the FLUSH. -/
theorem C08_flush_keeps_lines (wf : p.WF) {S S' : Sys ι p} {tr : List (Ev ι p)} (h0 : Start S) (h : Run S tr S') {k : ι}
    {xs ys zs : List (CReq p)} {f q : CReq p} (hacc : accepted k tr = xs ++ f :: (ys ++ q :: zs)) (hf : f.ty = MT.FLUSH)
    {r : CResp p} (hr : (responses k tr)[xs.length + 1 + ys.length]? = some r) :
    r.test = if (lruStep p.ways.length (lruRun p.ways.length (xs ++ ys)).1 q).2 then 1 else 0 := by
  have := test_at (k := k) (xs := xs ++ [f] ++ ys) (zs := zs) (q := q) wf h0 h (by simp [hacc])
    (by simpa [Nat.add_assoc, Nat.add_comm, Nat.add_left_comm] using hr)
  rw [this, lruRun_fst_append, lruRun_snoc, lruRun_fst_append]
  have e : (lruStep p.ways.length (lruRun p.ways.length xs).1 f).1 = (lruRun p.ways.length xs).1 := by
    simp [lruStep, hf]
  rw [e]

/-- In particular a line accessed right before the FLUSH is hit right after it. -/
theorem C08_hit_after_flush (wf : p.WF) {S S' : Sys ι p} {tr : List (Ev ι p)} (h0 : Start S) (h : Run S tr S') {k : ι}
    {xs zs : List (CReq p)} {x f q : CReq p} (hacc : accepted k tr = xs ++ x :: f :: q :: zs) (hf : f.ty = MT.FLUSH)
    (hx : x.ty = MT.READ ∨ x.ty = MT.WRITE) (hq : q.ty = MT.READ ∨ q.ty = MT.WRITE) (hl : x.addr.la = q.addr.la)
    {r : CResp p} (hr : (responses k tr)[xs.length + 2]? = some r) : r.test = 1 := by
  have := C08_flush_keeps_lines (k := k) (xs := xs ++ [x]) (ys := []) (zs := zs) (q := q) wf h0 h (by simp [hacc]) hf
    (by simpa using hr)
  rw [this, List.append_nil, lruRun_snoc]
  have h1 : q.addr.idx = x.addr.idx := by have := congrArg LAddr.idx hl; exact this.symm
  have h2 : q.addr.tag = x.addr.tag := by have := congrArg LAddr.tag hl; exact this.symm
  have hn : 0 < p.ways.length := by
    simp only [Params.ways]; split <;> decide
  obtain ⟨n, hn⟩ : ∃ n, p.ways.length = n + 1 := ⟨p.ways.length - 1, by omega⟩
  simp only [lruStep, if_pos hx, if_pos hq, h1, h2, if_true, hn]
  simp

/-! ## C10 -/

theorem flatRun_length (M : ByteMem) (qs : List (CReq p)) : (flatRun M qs).2.length = qs.length := by
  induction qs generalizing M with
  | nil => rfl
  | cons q qs ih => simp [flatRun, ih]

theorem flatRun_filter (M : ByteMem) (qs : List (CReq p)) :
    ((qs.zip (flatRun M qs).2).filter fun x => decide (x.1.ty ≠ MT.INV)) =
      (qs.filter fun q => decide (q.ty ≠ MT.INV)).zip (flatRun M (qs.filter fun q => decide (q.ty ≠ MT.INV))).2 := by
  induction qs generalizing M with
  | nil => rfl
  | cons q qs ih =>
    simp only [flatRun, List.zip_cons_cons, List.filter_cons]
    by_cases h : q.ty = MT.INV
    · have e : (flatStep M q).1 = M := by simp [flatStep, h]
      simp only [h, ne_eq, not_true, decide_false, Bool.false_eq_true, if_false, e]
      exact ih M
    · simp only [h, ne_eq, not_false_eq_true, decide_true, if_true, flatRun, List.zip_cons_cons]
      rw [ih]

theorem zip_prefix {α β : Type} (qs : List α) (ds t : List β) : qs.zip ds <+: qs.zip (ds ++ t) := by
  induction ds generalizing qs with
  | nil => simp
  | cons d ds ih =>
    cases qs with
    | nil => simp
    | cons q qs =>
      simp only [List.zip_cons_cons, List.cons_append, List.cons_prefix_cons, true_and]
      exact ih qs

/-- **C10.**  INVs are invisible to the data of all other requests: the data of the
responses to the other requests are those of a flat memory on which the INVs are
not executed at all.  In particular nothing stored before an INV is lost. -/
theorem C10_inv_invisible (wf : p.WF) {S S' : Sys Unit p} {tr : List (Ev Unit p)}
    (h0 : Start S) (h : Run S tr S') (hv : ∀ q ∈ accepted () tr, q.Valid) :
    (((accepted () tr).zip ((responses () tr).map (·.data))).filter fun x => decide (x.1.ty ≠ MT.INV)) <+:
      ((accepted () tr).filter fun q => decide (q.ty ≠ MT.INV)).zip
        (flatRun S.mem ((accepted () tr).filter fun q => decide (q.ty ≠ MT.INV))).2 := by
  rw [← flatRun_filter]
  apply List.IsPrefix.filter
  have hp := C01_responses_equal_flat_memory wf h0 h hv
  obtain ⟨t, ht⟩ := hp
  rw [← ht]
  exact zip_prefix _ _ _

/-- **C10, several caches.**  Cache `k` stores `w`, accepts an INV and later reads
a byte of `w` that was not stored to in between: the read returns the stored byte. -/
theorem C10_store_inv_read (wf : p.WF) {S S' : Sys ι p} {tr t₀ t₁ t₂ t₃ : List (Ev ι p)} (h0 : Start S)
    (h : Run S tr S') (hv : ∀ k, ∀ q ∈ accepted k tr, q.Valid) {k : ι} {w i q : CReq p}
    (hsp : tr = t₀ ++ .acc k w :: (t₁ ++ .acc k i :: (t₂ ++ .acc k q :: t₃)))
    (hw : w.ty = MT.WRITE) (hi : i.ty = MT.INV) (hq : q.ty = MT.READ)
    (hA : ∀ W, q.readsWord W → OnlyWriter k W tr)
    {r : CResp p}
    (hr : (responses k tr)[(accepted k (t₀ ++ .acc k w :: (t₁ ++ .acc k i :: t₂))).length]? = some r)
    {x : Nat} (hx : w.writesByte x) (hx1 : q.addr.flat ≤ x) (hx2 : x < q.addr.flat + q.bytes)
    (hl : ∀ q' ∈ accepted k (t₁ ++ t₂), ¬ q'.writesWord (x / 4)) :
    r.data.toNat / 256 ^ (x - q.addr.flat) % 256 = w.data.toNat / 256 ^ (x - w.addr.flat) % 256 := by
  have hsp' : tr = (t₀ ++ .acc k w :: (t₁ ++ .acc k i :: t₂)) ++ .acc k q :: t₃ := by rw [hsp]; simp
  have key := C19_private_response wf h0 h hv hsp' hA hr
  rw [key, flatStep_read_byte hq hx1 hx2]
  have hW : q.readsWord (x / 4) := ⟨x, rfl, .inl ⟨hq, hx1, hx2⟩⟩
  have hacc : ∀ q' ∈ acceptedAll (t₁ ++ .acc k i :: t₂), ¬ q'.writesWord (x / 4) := by
    intro q' hq'
    have : ∃ k', q' = i ∨ q' ∈ accepted k' (t₁ ++ t₂) := by
      simp only [acceptedAll, List.filterMap_append, List.mem_append, List.mem_filterMap, List.filterMap_cons,
        List.mem_cons] at hq'
      rcases hq' with ⟨e, he, h1⟩ | h1 | ⟨e, he, h1⟩
      · cases e <;> simp at h1
        subst h1
        rename_i k' _
        exact ⟨k', .inr (by rw [accepted_append, List.mem_append]; left; simp only [accepted, List.mem_filterMap]; exact ⟨_, he, by simp⟩)⟩
      · exact ⟨k, .inl h1⟩
      · cases e <;> simp at h1
        subst h1
        rename_i k' _
        exact ⟨k', .inr (by rw [accepted_append, List.mem_append]; right; simp only [accepted, List.mem_filterMap]; exact ⟨_, he, by simp⟩)⟩
    obtain ⟨k', rfl | h1⟩ := this
    · rintro ⟨x, _, h | h⟩
      · rw [hi] at h; exact absurd h.1 (by decide)
      · rw [hi] at h; exact absurd h.1 (by decide)
    · by_cases hk : k' = k
      · subst hk; exact hl q' h1
      · refine hA _ hW k' hk q' ?_
        rw [hsp]
        rw [← List.singleton_append (x := Ev.acc k w), ← List.singleton_append (x := Ev.acc k i),
          ← List.singleton_append (x := Ev.acc k q)]
        simp only [accepted_append, List.mem_append] at h1 ⊢
        rcases h1 with h1 | h1
        · exact .inr (.inr (.inl h1))
        · exact .inr (.inr (.inr (.inr (.inl h1))))
  have e : t₀ ++ .acc k w :: (t₁ ++ .acc k i :: t₂) = t₀ ++ ([.acc k w] ++ (t₁ ++ .acc k i :: t₂)) := by simp
  rw [e, latest_append, latest_append, latest_acc]
  rw [latest_noW _ hacc x rfl]
  have hr' : w.addr.flat ≤ x ∧ x < w.addr.flat + if w.len.toNat = 3 then 8 else w.bytes := by
    rcases hx with hx | hx
    · exact hx.2
    · rw [hw] at hx; exact absurd hx.1 (by decide)
  have ew : (flatStep (latest S.mem t₀) w).1 x = BitVec.ofNat 8 (w.data.toNat / 256 ^ (x - w.addr.flat)) := by
    simp only [flatStep, hw, MT.WRITE_ne_READ, if_false, if_true, writeLE]
    rw [if_pos hr']
  rw [ew]; simp

/-! ## C35 -/

/-- The word write of the data at the address of `q`. Proof device; not in the source. -/
def CReq.lo (q : CReq p) : CReq p := { q with len := 0 }
/-- The word write of zero four bytes further. Proof device; not in the source. -/
def CReq.hi (q : CReq p) : CReq p := { q with len := 0, addr := { q.addr with off := q.addr.off + 4 }, data := 0 }

/-- Replace a double-word write (length 3) by the two word writes. Proof device; not in the source. -/
def CReq.split (q : CReq p) : List (CReq p) :=
  if q.ty = MT.WRITE ∧ q.len.toNat = 3 then [q.lo, q.hi] else [q]

theorem hi_flat (wf : p.WF) {q : CReq p} (al : 8 ∣ q.addr.flat) : q.hi.addr.flat = q.addr.flat + 4 := by
  have hko : 3 ≤ p.offBits := by have := wf.nw; simp only [Params.offBits]; omega
  have al' : 2 ^ 3 ∣ q.addr.off.toNat := dvd_off hko al
  have hf : q.addr.off.toNat + 2 ^ 3 ≤ 2 ^ p.offBits := fits_line hko al'
  simp only [CReq.hi, Addr.flat]
  have h4 : (4 : Off p).toNat = 4 := by
    have : 4 < 2 ^ p.offBits := by omega
    show (BitVec.ofNat _ 4).toNat = 4
    rw [BitVec.toNat_ofNat, Nat.mod_eq_of_lt this]
  rw [BitVec.toNat_add, h4, Nat.mod_eq_of_lt (by omega)]
  omega

theorem flatStep_split (wf : p.WF) {q : CReq p} (hv : q.Valid) (M : ByteMem) :
    (flatRun M q.split).1 = (flatStep M q).1 := by
  simp only [CReq.split]
  split
  · rename_i h
    obtain ⟨ty, h3⟩ := h
    have hd : p.lenBits = 2 ∧ 8 ∣ q.addr.flat := by
      cases hv with
      | read ty' => rw [ty] at ty'; simp at ty'
      | write _ k hk hk2 al =>
        exfalso
        rcases bytes_cases hk with ⟨h1, _⟩ | ⟨h1, _⟩
        · omega
        · rw [h1] at h3
          have : k = 0 ∨ k = 1 ∨ k = 2 := by omega
          rcases this with rfl | rfl | rfl <;> simp at h3
      | dword _ len hp al => exact ⟨hp, al⟩
      | amo ty' => exact absurd ty (amo_ty ty').2.1
      | inv ty' => rw [ty] at ty'; simp at ty'
      | flush ty' => rw [ty] at ty'; simp at ty'
    have e1 : q.lo.bytes = 4 := by simp [CReq.bytes, CReq.lo, hd.1]
    have e2 : q.hi.bytes = 4 := by simp [CReq.bytes, CReq.hi, hd.1]
    have e3 := hi_flat wf hd.2
    have e4 : q.lo.addr.flat = q.addr.flat := rfl
    have t1 : q.lo.ty = MT.WRITE := ty
    have t2 : q.hi.ty = MT.WRITE := ty
    have l1 : ¬ q.lo.len.toNat = 3 := by simp [CReq.lo]
    have l2 : ¬ q.hi.len.toNat = 3 := by simp [CReq.hi]
    have hdat : q.data.toNat < 2 ^ 32 := by
      have := q.data.isLt
      simp only [Params.dataBits, hd.1] at this
      exact this
    funext x
    simp only [flatRun, flatStep, ty, t1, t2, MT.WRITE_ne_READ, if_false, if_true, writeLE, l1, l2, h3, e1, e2, e3, e4]
    by_cases h1 : q.addr.flat + 4 ≤ x ∧ x < q.addr.flat + 4 + 4
    · rw [if_pos h1, if_pos ⟨by omega, by omega⟩]
      have hz : q.data.toNat / 256 ^ (x - q.addr.flat) = 0 := by
        apply Nat.div_eq_of_lt
        refine Nat.lt_of_lt_of_le hdat ?_
        rw [show (2 : Nat) ^ 32 = 256 ^ 4 from by decide]
        exact Nat.pow_le_pow_right (by decide) (by omega)
      rw [hz]
      simp [CReq.hi]
    · rw [if_neg h1]
      by_cases h2 : q.addr.flat ≤ x ∧ x < q.addr.flat + 4
      · rw [if_pos h2, if_pos ⟨by omega, by omega⟩]; rfl
      · rw [if_neg h2, if_neg (by omega)]
  · rfl

theorem flatRun_split (wf : p.WF) {qs : List (CReq p)} (hv : ∀ q ∈ qs, q.Valid) (M : ByteMem) :
    (flatRun M (qs.flatMap CReq.split)).1 = (flatRun M qs).1 := by
  induction qs generalizing M with
  | nil => rfl
  | cons q qs ih =>
    rw [List.flatMap_cons, flatRun_append, flatStep_split wf (hv q (by simp)), ih (fun q' hq' => hv q' (by simp [hq']))]
    rfl

theorem flatRun_data (M : ByteMem) (qs : List (CReq p)) (n : Nat) (h : n < qs.length) :
    (flatRun M qs).2[n]? = some (flatStep (flatRun M (qs.take n)).1 qs[n]).2 := by
  induction qs generalizing M n with
  | nil => simp at h
  | cons q qs ih =>
    cases n with
    | zero => simp [flatRun]
    | succ n => simp only [flatRun, List.getElem?_cons_succ, List.take_succ_cons, List.getElem_cons_succ]; exact ih _ _ _

/-- **C35.**  In any history a double-word write acts as two word writes (its data
and zero): every response carries the data of a flat memory on which the preceding
requests were executed with every double-word write replaced by the two word
writes. -/
theorem C35_dword_is_two_words (wf : p.WF) {S S' : Sys Unit p} {tr : List (Ev Unit p)}
    (h0 : Start S) (h : Run S tr S') (hv : ∀ q ∈ accepted () tr, q.Valid) {n : Nat} {q : CReq p} {r : CResp p}
    (hq : (accepted () tr)[n]? = some q) (hr : (responses () tr)[n]? = some r) :
    r.data = (flatStep (flatRun S.mem (((accepted () tr).take n).flatMap CReq.split)).1 q).2 := by
  rw [flatRun_split wf (fun q' hq' => hv q' (List.mem_of_mem_take hq'))]
  have hp := C01_responses_equal_flat_memory wf h0 h hv
  rw [List.prefix_iff_getElem?] at hp
  obtain ⟨hlt, hre⟩ := List.getElem?_eq_some_iff.1 hr
  obtain ⟨hlt', hqe⟩ := List.getElem?_eq_some_iff.1 hq
  have := hp n (by simpa using hlt)
  rw [List.getElem_map, hre, flatRun_data _ _ _ hlt', hqe] at this
  exact (Option.some.inj this).symm

/-- **C35, memory.**  When a FLUSH is answered, memory holds both words of every
double-word write before it (unless stored to later). -/
theorem C35_dword_flushed (wf : p.WF) {S S₁ S₂ : Sys Unit p} {tr ev : List (Ev Unit p)} {r : CResp p}
    (h0 : Start S) (h : Run S tr S₁) (hs : Step S₁ ev S₂) (hr : .resp () r ∈ ev)
    (hv : ∀ q ∈ accepted () (tr ++ ev), q.Valid) {n : Nat} (hn : n = (responses () tr).length) {f : CReq p}
    (hf : (accepted () (tr ++ ev))[n]? = some f) (ty : f.ty = MT.FLUSH) (x : Nat)
    (hx : x < 2 ^ p.addrBits) :
    S₂.mem x = (flatRun S.mem (((accepted () (tr ++ ev)).take n).flatMap CReq.split)).1 x := by
  rw [flatRun_split wf (fun q' hq' => hv q' (List.mem_of_mem_take hq'))]
  exact C08_flush_publishes wf h0 h hs hr hv hn hf ty x hx

/-! ## A concrete execution -/

namespace ExD
/-- Store 5, INV, read it back, evict it, store a double word, FLUSH, store again. Proof device; not in the source. -/
def w : CReq p1 := ⟨MT.WRITE, 1, ⟨1, 0, 4⟩, 0, 5⟩
/-- Proof device; not in the source. -/
def iv : CReq p1 := ⟨MT.INV, 1, ⟨0, 0, 0⟩, 0, 0⟩
/-- Proof device; not in the source. -/
def q : CReq p1 := ⟨MT.READ, 1, ⟨1, 0, 4⟩, 0, 0⟩
/-- Proof device; not in the source. -/
def q2 : CReq p1 := ⟨MT.READ, 1, ⟨2, 0, 0⟩, 0, 0⟩
/-- Proof device; not in the source. -/
def w2 : CReq p1 := ⟨MT.WRITE, 0, ⟨3, 1, 0⟩, 3, 9⟩
/-- Proof device; not in the source. -/
def fl : CReq p1 := ⟨MT.FLUSH, 1, ⟨0, 0, 0⟩, 0, 0⟩
/-- Proof device; not in the source. -/
def run : Sys Bool p1 × List (Ev Bool p1) := driveK false 70 (start2 p1) [w, iv, q, q2, w2, fl, w2, q]
/-- Proof device; not in the source. -/
def tr : List (Ev Bool p1) := run.2
theorem isRun : Run (start2 p1) tr run.1 := driveK_run _ _ _ _

theorem valid : ∀ x ∈ [w, iv, q, q2, w2, fl, w2, q], CReq.Valid x := by
  intro x hx
  simp only [List.mem_cons, List.not_mem_nil, or_false] at hx
  have h1 : w.Valid := .write rfl 2 (by decide) (by decide) (by decide)
  have h2 : iv.Valid := .inv rfl
  have h3 : q.Valid := .read rfl 2 (by decide) (by decide)
  have h4 : q2.Valid := .read rfl 2 (by decide) (by decide)
  have h5 : w2.Valid := .dword rfl rfl rfl (by decide)
  have h6 : fl.Valid := .flush rfl
  rcases hx with rfl | rfl | rfl | rfl | rfl | rfl | rfl | rfl <;> assumption

theorem acc : accepted false tr = [w, iv, q, q2, w2, fl, w2, q] := by decide +kernel

theorem valid_of {t : List (Ev Bool p1)} (h : ∀ x ∈ accepted false t, x ∈ accepted false tr) :
    ∀ x ∈ accepted false t, x.Valid := fun x hx => valid x (acc ▸ h x hx)

/-- The eviction of the line of `w`: its mask selects the upper word only. -/
def wb : MReq p1 := ⟨MT.WRITE, 1, ⟨1, 0, 0⟩, 0, 2, 0x0000000514131211⟩
/-- Proof device; not in the source. -/
def a : List (Ev Bool p1) := tr.take 11
/-- Proof device; not in the source. -/
def c : List (Ev Bool p1) := tr.drop 12
theorem shape : tr = a ++ .mreq false wb :: c := by decide +kernel

example : wb.carries 5 ∧ ¬ wb.carries 4 ∧ Unsaved false 5 a ∧ ¬ Unsaved false 4 a := by
  have h := C07_writeback_exact p1_wf (start2_start p1) (shape ▸ isRun)
    (valid_of (by decide +kernel)) rfl
  have f5 : wb.carries 5 := ⟨rfl, 1, by decide, by decide, by decide⟩
  have f4 : ¬ wb.carries 4 := by
    rintro ⟨_, b, hb, h1, h2⟩
    have : wb.addr.flat / 4 = 4 := by decide
    have : b = 0 := by omega
    subst this; exact absurd h1 (by decide)
  exact ⟨f5, f4, (h.2.2.2 5 ⟨1, by decide, by decide⟩).1 f5, fun hu => f4 ((h.2.2.2 4 ⟨0, by decide, by decide⟩).2 hu)⟩

theorem other (t : List (Ev Bool p1)) (h : accepted true t = []) (W : Nat) : OnlyWriter false W t := by
  intro k' hk x hx
  cases k' with
  | false => exact absurd rfl hk
  | true => rw [h] at hx; cases hx

theorem validK {t : List (Ev Bool p1)} (h : ∀ x ∈ accepted false t, x ∈ accepted false tr) (h' : accepted true t = []) :
    ∀ k, ∀ x ∈ accepted k t, x.Valid := by
  intro k x hx
  cases k with
  | false => exact valid_of h x hx
  | true => rw [h'] at hx; cases hx

/-- The eviction carries the stored 5: byte 20 is byte 4 of the line. -/
example : Line.byte wb.data (20 - wb.addr.flat) = latest (start2 p1).mem (tr.take 9) 20 ∧
    latest (start2 p1).mem (tr.take 9) 20 = 5 := by
  have e : tr = tr.take 9 ++ .acc false q2 :: ([tr[10]'(by decide +kernel)] ++ .mreq false wb :: c) := by decide +kernel
  refine ⟨(C07_writeback_value_private (x := 20) (W := 5) p1_wf (start2_start p1) (e ▸ isRun) (by decide +kernel)
    (validK (by decide +kernel) (by decide +kernel)) ⟨rfl, 1, by decide, by decide, by decide⟩
    (other _ (by decide +kernel) _) (by decide)).2, by decide +kernel⟩

/-- The FLUSH: before it, its window, and the rest. Proof device; not in the source. -/
def a' : List (Ev Bool p1) := tr.take 19
/-- Proof device; not in the source. -/
def b' : List (Ev Bool p1) := (tr.drop 20).take 3
/-- Proof device; not in the source. -/
def c' : List (Ev Bool p1) := tr.drop 23
theorem shape' : tr = a' ++ .acc false fl :: (b' ++ c') := by decide +kernel
theorem win' : Window false b' c' := ⟨by decide +kernel, .inr ⟨w2, c'.tail, by decide +kernel⟩⟩

/-- The double-word store (words 14 and 15) is unsaved before the FLUSH. -/
theorem unsaved' {W : Nat} (hW : w2.writesWord W) : Unsaved false W a' := by
  refine ⟨tr.take 15, w2, (tr.drop 16).take 3, by decide +kernel, rfl, hW, ?_⟩
  intro m hm hc
  have : ∀ m ∈ sent false ((tr.drop 16).take 3), m.ty = MT.READ := by decide +kernel
  have h1 := hc.1
  rw [this m hm] at h1
  exact absurd h1 (by decide)

example : (∃ m ∈ sent false b', m.carries 14) ∧ (∃ m ∈ sent false b', m.carries 15) :=
  have h := @C08_flush_carries _ _ _ p1_wf _ _ _ _ _ _ _ (start2_start p1) (shape' ▸ isRun) win' (valid_of (by decide +kernel)) rfl
    (by decide +kernel)
  ⟨h (unsaved' ⟨56, rfl, .inl (by decide)⟩), h (unsaved' ⟨60, rfl, .inl (by decide)⟩)⟩

/-- After the FLUSH the store to the same line hits. -/
example : ∃ r, (responses false tr)[6]? = some r ∧ r.test = 1 :=
  have hr : (responses false tr)[6]? = some ⟨1, 0, 1, 3, 0⟩ := by decide +kernel
  ⟨_, hr, C08_hit_after_flush (xs := [w, iv, q, q2]) (zs := [q]) p1_wf (start2_start p1) isRun acc rfl (.inr rfl) (.inr rfl) rfl hr⟩

/-- The read behind the INV returns the stored 5. -/
example : ∃ r, (responses false tr)[2]? = some r ∧ r.data.toNat % 256 = 5 := by
  have hr : (responses false tr)[2]? = some ⟨0, 1, 0, 0, 5⟩ := by decide +kernel
  have e : tr = [] ++ .acc false w :: ((tr.drop 1).take 2 ++ .acc false iv :: (((tr.drop 4).take 1) ++ .acc false q :: tr.drop 6)) := by
    decide +kernel
  refine ⟨_, hr, ?_⟩
  have := C10_store_inv_read (x := 20) p1_wf (start2_start p1) isRun (validK (by decide +kernel) (by decide +kernel)) e rfl rfl rfl
    (fun W _ => other _ (by decide +kernel) W) (by rw [show (accepted false _).length = 2 by decide +kernel]; exact hr) (.inl (by decide))
    (by decide) (by decide) (by
      intro q' hq'
      rw [show accepted false (List.take 2 (List.drop 1 tr) ++ List.take 1 (List.drop 4 tr)) = [] by decide +kernel] at hq'
      cases hq')
  exact this.trans (by decide)

/-- One cache: the same requests. Proof device; not in the source. -/
def run1 : Sys Unit p1 × List (Ev Unit p1) := drive 70 (start0 p1) [w, iv, q, q2, w2, fl, w2, q]
theorem isRun1 : Run (start0 p1) run1.2 run1.1 := drive_run _ _ _
theorem acc1 : accepted () run1.2 = [w, iv, q, q2, w2, fl, w2, q] := by decide +kernel
theorem valid1 : ∀ x ∈ accepted () run1.2, x.Valid := by rw [acc1]; exact valid

example : (((accepted () run1.2).zip ((responses () run1.2).map (·.data))).filter fun x => decide (x.1.ty ≠ MT.INV)).length = 7 ∧
    (((accepted () run1.2).zip ((responses () run1.2).map (·.data))).filter fun x => decide (x.1.ty ≠ MT.INV)) <+:
      ((accepted () run1.2).filter fun q => decide (q.ty ≠ MT.INV)).zip
        (flatRun (start0 p1).mem ((accepted () run1.2).filter fun q => decide (q.ty ≠ MT.INV))).2 :=
  ⟨by decide +kernel, C10_inv_invisible p1_wf (start0_start p1) isRun1 valid1⟩

example : ∃ r, (responses () run1.2)[7]? = some r ∧ r.data = 5 ∧
    r.data = (flatStep (flatRun (start0 p1).mem (((accepted () run1.2).take 7).flatMap CReq.split)).1 q).2 :=
  have hr : (responses () run1.2)[7]? = some ⟨0, 1, 0, 0, 5⟩ := by decide +kernel
  ⟨_, hr, rfl, C35_dword_is_two_words (n := 7) p1_wf (start0_start p1) isRun1 valid1 (by rw [acc1]; rfl) hr⟩
end ExD

end Verif
