import Verif.SpecConf
import Verif.PropsTraffic
import Verif.MemCL
import Verif.PropsTag

set_option linter.unusedSectionVars false

/-!
# The cache touches no memory it was not asked to touch (C74)
-/

namespace Verif
variable {p : Params} {ι : Type} [DecidableEq ι]

theorem MReq.AskedFor.mono {m : MReq p} {qs qs' : List (CReq p)} (h : m.AskedFor qs) (hs : ∀ q ∈ qs, q ∈ qs') :
    m.AskedFor qs' := by
  rcases h with ⟨q, h1, h2⟩ | ⟨q, h1, h2⟩ | ⟨q, h1, h2⟩
  · exact .inl ⟨q, hs q h1, h2⟩
  · exact .inr (.inl ⟨q, hs q h1, h2⟩)
  · exact .inr (.inr ⟨q, hs q h1, h2⟩)

/-- A WRITE among `qs` addressed the line with tag `t` in set `j`. -/
def Stored (qs : List (CReq p)) (t : Tag p) (j : Idx p) : Prop :=
  ∃ q ∈ qs, q.ty = MT.WRITE ∧ q.addr.tag = t ∧ q.addr.idx = j

theorem Stored.mono {qs qs' : List (CReq p)} {t : Tag p} {j : Idx p} (h : Stored qs t j) (hs : ∀ q ∈ qs, q ∈ qs') :
    Stored qs' t j := by
  obtain ⟨q, h1, h2⟩ := h
  exact ⟨q, hs q h1, h2⟩

/-- Invariant of one cache. Proof device; not in the source. -/
structure Conf (L : L1 p) (E : List (Msg p)) (R : List (MReq p)) (qs : List (CReq p)) : Prop where
  ent : ∀ w j, (L.ent w j).dty ≠ 0 → Stored qs (L.ent w j).tag j
  cur : ∀ q w d, L.cur = .fill q w d → q ∈ qs ∧ (d ≠ 0 → Stored qs q.addr.tag q.addr.idx)
  msgs : ∀ m ∈ memMsgs E, m.AskedFor qs
  queue : ∀ m ∈ R, m.AskedFor qs

theorem wb_asked {qs : List (CReq p)} {t : Tag p} {j : Idx p} {d : Dty p} {l : Line p} (h : Stored qs t j) (hd : d ≠ 0) :
    (MReq.wr ⟨t, j⟩ d l).AskedFor qs := by
  obtain ⟨q, h1, h2, rfl, rfl⟩ := h
  exact .inr (.inl ⟨q, h1, h2, rfl, rfl, rfl, hd⟩)

theorem amo_performs (q : CReq p) : (MReq.amo q).Performs q := by
  refine ⟨rfl, rfl, rfl, ?_⟩
  simp only [MReq.amo, offLenSel]
  split <;> simp_all

/-- The way found by a look-up holds the tag. -/
theorem lookup_tag {L : L1 p} {a : Addr p} (h : (L.lookup a).hit = true ∨ (L.lookup a).inval = true) :
    (L.ent (L.lookup a).way a.idx).tag = a.tag := by
  rcases (C44_way a.tag (fun w => L.ent w a.idx) h).2 with h | h
  · exact h.2
  · exact h.2.1

theorem Conf.accept {L : L1 p} {E : List (Msg p)} {R : List (MReq p)} {qs : List (CReq p)} (h : Conf L E R qs) (q : CReq p) :
    Conf (L.accept q).1 (E ++ (L.accept q).2) R (qs ++ [q]) := by
  have hm : ∀ x ∈ qs, x ∈ qs ++ [q] := fun x hx => by simp [hx]
  have hq : q ∈ qs ++ [q] := by simp
  have hE : ∀ m ∈ memMsgs E, m.AskedFor (qs ++ [q]) := fun m hx => (h.msgs m hx).mono hm
  have hR : ∀ m ∈ R, m.AskedFor (qs ++ [q]) := fun m hx => (h.queue m hx).mono hm
  have hent : ∀ w j, (L.ent w j).dty ≠ 0 → Stored (qs ++ [q]) (L.ent w j).tag j := fun w j hd => (h.ent w j hd).mono hm
  have hcur : ∀ q' w d, L.cur = .fill q' w d → q' ∈ qs ++ [q] ∧ (d ≠ 0 → Stored (qs ++ [q]) q'.addr.tag q'.addr.idx) :=
    fun q' w d e => ⟨hm _ (h.cur q' w d e).1, fun hd => ((h.cur q' w d e).2 hd).mono hm⟩
  have app : ∀ l : List (Msg p), (∀ m ∈ memMsgs l, m.AskedFor (qs ++ [q])) → ∀ m ∈ memMsgs (E ++ l), m.AskedFor (qs ++ [q]) := by
    intro l hl m hx
    rw [memMsgs_append, List.mem_append] at hx
    rcases hx with hx | hx
    · exact hE m hx
    · exact hl m hx
  by_cases t1 : q.ty = MT.READ ∨ q.ty = MT.WRITE
  · have hrd : (MReq.rd q.addr.la).AskedFor (qs ++ [q]) := .inl ⟨q, hq, t1, rfl, rfl, rfl⟩
    simp only [L1.accept, if_pos t1]
    cases hh : (L.lookup q.addr).hit with
    | true =>
      rw [rw_hit hh]
      refine ⟨?_, hcur, app _ (by simp), hR⟩
      intro w j hd
      dsimp only at hd ⊢
      split
      · rename_i hw
        rw [if_pos hw] at hd
        simp only [setAt] at hd ⊢
        split
        · rename_i hwj
          exact ⟨q, hq, by simp_all, rfl, hwj.2.symm⟩
        · rename_i hwj
          rw [if_neg hwj] at hd
          exact hent w j hd
      · rename_i hw
        rw [if_neg hw] at hd
        exact hent w j hd
    | false =>
      cases hi : (L.lookup q.addr).inval with
      | true =>
        rw [rw_inval hh hi]
        refine ⟨hent, ?_, app _ ?_, hR⟩
        · intro q' w d e
          cases e
          refine ⟨hq, fun hd => ?_⟩
          have := hent _ _ hd
          rwa [lookup_tag (.inr hi)] at this
        · intro m hx
          simp only [memMsgs_mem, memMsgs_nil, List.mem_singleton] at hx
          rw [hx]; exact hrd
      | false =>
        rw [rw_miss hh hi]
        refine ⟨hent, ?_, app _ ?_, hR⟩
        · intro q' w d e
          cases e
          exact ⟨hq, fun hd => absurd rfl hd⟩
        · intro m hx
          simp only [memMsgs_append, memMsgs_mem, memMsgs_nil, List.mem_append, List.mem_singleton] at hx
          rcases hx with hx | rfl
          · split at hx
            · rename_i hd
              simp only [L1.wb, memMsgs_mem, memMsgs_nil, List.mem_singleton] at hx
              rw [bne_iff_ne] at hd
              rw [hx]; exact wb_asked (hent _ _ hd) hd
            · cases hx
          · exact hrd
  by_cases t2 : MT.isAmo q.ty = true
  · simp only [L1.accept, if_neg t1, if_pos t2, L1.amo]
    refine ⟨hent, (fun q' w d e => by cases e), app _ ?_, hR⟩
    intro m hx
    simp only [memMsgs_append, memMsgs_mem, memMsgs_nil, List.mem_append, List.mem_singleton] at hx
    rcases hx with hx | rfl
    · split at hx
      · rename_i hd
        simp only [L1.wb, memMsgs_mem, memMsgs_nil, List.mem_singleton] at hx
        rw [Bool.and_eq_true, bne_iff_ne] at hd
        rw [hx]; exact wb_asked (hent _ _ hd.1) hd.1
      · cases hx
    · exact .inr (.inr ⟨q, hq, t2, amo_performs q⟩)
  by_cases t3 : q.ty = MT.INV
  · simp only [L1.accept, if_neg t1, if_neg t2, if_pos t3]
    exact ⟨hent, hcur, app _ (by simp), hR⟩
  by_cases t4 : q.ty = MT.FLUSH
  · simp only [L1.accept, if_neg t1, if_neg t2, if_neg t3, if_pos t4]
    refine ⟨fun w j hd => absurd rfl hd, hcur, app _ ?_, hR⟩
    intro m hx
    simp only [memMsgs_append, memMsgs_resp, memMsgs_nil, List.append_nil] at hx
    obtain ⟨i, _, hd, rfl⟩ := flush_mem L _ hx
    exact wb_asked (hent _ _ hd) hd
  · simp only [L1.accept, if_neg t1, if_neg t2, if_neg t3, if_neg t4]
    exact ⟨hent, hcur, app _ (by simp), hR⟩

theorem Conf.answer {L : L1 p} {E : List (Msg p)} {R : List (MReq p)} {qs : List (CReq p)} (h : Conf L E R qs) (l : Line p) :
    Conf (L.answer l).1 (E ++ (L.answer l).2) R qs := by
  cases hc : L.cur with
  | idle =>
    simp only [L1.answer, hc]
    exact ⟨h.ent, fun q w d e => h.cur q w d e, by simpa using h.msgs, h.queue⟩
  | fill q w d =>
    obtain ⟨h1, h2⟩ := h.cur q w d hc
    by_cases hw : q.ty = MT.WRITE
    · simp only [L1.answer, hc, if_pos hw]
      refine ⟨fun w' j hd => ?_, (fun _ _ _ e => by cases e), by simpa using h.msgs, h.queue⟩
      dsimp only at hd ⊢
      simp only [setAt] at hd ⊢
      split
      · rename_i hwj; exact ⟨q, h1, hw, rfl, hwj.2.symm⟩
      · rename_i hwj; rw [if_neg hwj] at hd; exact h.ent w' j hd
    · simp only [L1.answer, hc, if_neg hw]
      refine ⟨fun w' j hd => ?_, (fun _ _ _ e => by cases e), by simpa using h.msgs, h.queue⟩
      dsimp only at hd ⊢
      simp only [setAt] at hd ⊢
      split
      · rename_i hwj; rw [if_pos hwj] at hd; rw [hwj.2]; exact h2 hd
      · rename_i hwj; rw [if_neg hwj] at hd; exact h.ent w' j hd
  | amo q ht w =>
    simp only [L1.answer, hc]
    refine ⟨fun w' j hd => ?_, (fun _ _ _ e => by cases e), by simpa using h.msgs, h.queue⟩
    dsimp only at hd ⊢
    cases ht with
    | false => exact h.ent w' j hd
    | true =>
      simp only [if_true, setAt] at hd ⊢
      split
      · rename_i hwj; rw [if_pos hwj] at hd; exact absurd rfl hd
      · rename_i hwj; rw [if_neg hwj] at hd; exact h.ent w' j hd

theorem Conf.step {T T' : ESys ι p} {ev : List (Ev ι p)} {qs : ι → List (CReq p)}
    (h : ∀ k, Conf (T.L k) (T.E k) (T.reqQ k) (qs k)) (hs : EStep T ev T') :
    ∀ k, Conf (T'.L k) (T'.E k) (T'.reqQ k) (qs k ++ accepted k ev) := by
  intro k'
  cases hs with
  | acc k q =>
    by_cases hk : k' = k
    · subst hk
      simp only [upd_same, accepted, List.filterMap_cons, List.filterMap_nil, if_true]
      exact (h k').accept q
    · have : ¬ k = k' := fun e => hk e.symm
      simp only [upd_other _ hk, accepted, List.filterMap_cons, List.filterMap_nil, if_neg this, List.append_nil]
      exact h k'
  | deliver k r l =>
    simp only [accepted, List.filterMap_nil, List.append_nil]
    by_cases hk : k' = k
    · subst hk
      simp only [upd_same, L1.deliver]
      split
      · exact (h k').answer _
      · simpa using h k'
    · simp only [upd_other _ hk]; exact h k'
  | emitMem k m E' he =>
    simp only [accepted, List.filterMap_cons, List.filterMap_nil, List.append_nil]
    by_cases hk : k' = k
    · subst hk
      simp only [upd_same]
      have hh := h k'
      refine ⟨hh.ent, hh.cur, fun x hx => hh.msgs x ?_, fun x hx => ?_⟩
      · rw [he]; simp [hx]
      · rw [List.mem_append, List.mem_singleton] at hx
        rcases hx with hx | rfl
        · exact hh.queue x hx
        · exact hh.msgs x (by rw [he]; simp)
    · simp only [upd_other _ hk]; exact h k'
  | emitResp k r E' he =>
    simp only [accepted, List.filterMap_cons, List.filterMap_nil, List.append_nil]
    by_cases hk : k' = k
    · subst hk
      simp only [upd_same]
      have hh := h k'
      exact ⟨hh.ent, hh.cur, fun x hx => hh.msgs x (by rw [he]; simpa using hx), hh.queue⟩
    · simp only [upd_other _ hk]; exact h k'
  | exec k m ms he =>
    simp only [accepted, List.filterMap_cons, List.filterMap_nil, List.append_nil]
    by_cases hk : k' = k
    · subst hk
      simp only [upd_same]
      have hh := h k'
      exact ⟨hh.ent, hh.cur, hh.msgs, fun x hx => hh.queue x (by rw [he]; simp [hx])⟩
    · simp only [upd_other _ hk]; exact h k'

theorem Conf.run {M : ByteMem} {T : ESys ι p} {tr : List (Ev ι p)} (h : ERun (ESys.init ι p M) tr T) :
    ∀ k, Conf (T.L k) (T.E k) (T.reqQ k) (accepted k tr) := by
  generalize e0 : ESys.init ι p M = T0 at h
  induction h with
  | refl =>
    subst e0
    intro k
    exact ⟨fun w j hd => absurd rfl hd, (fun _ _ _ e => by cases e), (fun m hm => by cases hm), (fun m hm => by cases hm)⟩
  | snoc h hs ih =>
    intro k
    have := Conf.step ih hs k
    rwa [show accepted k (_ ++ _) = accepted k _ ++ accepted k _ from List.filterMap_append ..]

theorem canon_asked {m : MReq p} {qs : List (CReq p)} (h : m.canon.AskedFor qs) : m.AskedFor qs := by
  rcases h with ⟨q, h1, h2, h3⟩ | ⟨q, h1, h2, h3⟩ | ⟨q, h1, h2, h3⟩
  · exact .inl ⟨q, h1, h2, canon_readsLine h3⟩
  · exact .inr (.inl ⟨q, h1, h2, canon_writesBack h3⟩)
  · exact .inr (.inr ⟨q, h1, h2, canon_performs h2 h3⟩)

/-- **C74, every memory request has a cause.**  Whatever the processors ask for (any requests but WRITE_INIT, however
malformed), every request a cache sends to memory is accounted for by the requests this cache accepted before: it
reads the line of a READ or WRITE, or writes words of a line addressed by a WRITE, or is an atomic operation,
forwarded as it is. -/
theorem C74_traffic_has_cause (wf : p.WF) {S S' : Sys ι p} {a b : List (Ev ι p)} {k : ι} {m : MReq p} (h0 : Start S)
    (h : Run S (a ++ .mreq k m :: b) S') : m.AskedFor (accepted k a) := by
  obtain ⟨T, h1, -⟩ := refine wf h0 h
  rw [List.map_append, List.map_cons] at h1
  obtain ⟨T1, ha, hb⟩ := h1.split _ _ rfl
  obtain ⟨T2, T3, hr, hst, -⟩ := hb.head
  have h2 := ha.trans hr
  rw [List.append_nil] at h2
  have hc := Conf.run h2 k
  rw [accepted_canon] at hc
  cases hst with
  | emitMem _ _ E' he => exact canon_asked (hc.msgs _ (by rw [he]; simp))

theorem exec_cause (wf : p.WF) {S S' : Sys ι p} {a b : List (Ev ι p)} {k : ι} {m : MReq p} {r : MResp p} (h0 : Start S)
    (h : Run S (a ++ .exec k m r :: b) S') : m.AskedFor (accepted k a) := by
  obtain ⟨T, h1, -⟩ := refine wf h0 h
  rw [List.map_append, List.map_cons] at h1
  obtain ⟨T1, ha, hb⟩ := h1.split _ _ rfl
  obtain ⟨T2, T3, hr, hst, -⟩ := hb.head
  have h2 := ha.trans hr
  rw [List.append_nil] at h2
  have hc := Conf.run h2 k
  rw [accepted_canon] at hc
  generalize he : Ev.canon (Ev.exec k m r) = e at hst
  cases hst with
  | exec k' m' ms hq =>
    simp only [Ev.canon, Ev.exec.injEq] at he
    obtain ⟨rfl, rfl, -⟩ := he
    exact canon_asked (hc.queue _ (by rw [hq]; simp))
  | _ => cases he

/-- What one request changes. -/
theorem exec_unchanged {m : MReq p} {qs : List (CReq p)} (h : m.AskedFor qs) (M : ByteMem) (x : Nat)
    (hx : ∀ q ∈ qs, ¬ q.MayChange x) : (memExec M m).1 x = M x := by
  rcases h with ⟨q, h1, -, h3, -⟩ | ⟨q, h1, h2, h3, h4, -⟩ | ⟨q, h1, h2, h3, h4, -⟩
  · simp [memExec, h3]
  · have t : m.ty ≠ MT.READ := by rw [h3]; decide
    simp only [memExec, if_neg t, if_pos h3]
    rw [portMaskedWrite_byte, if_neg]
    rintro ⟨g1, g2, -⟩
    refine hx q h1 (.inl ⟨h2, ?_⟩)
    have hp := Nat.two_pow_pos p.offBits
    have e : m.addr.flat = q.addr.la.num * 2 ^ p.offBits := by rw [h4]; exact flat_off0 q.addr.la
    rw [e] at g1 g2
    have hn : 4 * p.nWords = 2 ^ p.offBits := by
      simp only [Params.nWords, Params.offBits, Nat.pow_add]; omega
    rw [hn] at g2
    rw [Addr.flat_div, Nat.div_eq_of_lt_le g1 (by rw [Nat.succ_mul]; exact g2)]
  · have t1 : ¬ m.ty = MT.READ := by rw [h3]; intro e; rw [e] at h2; cases h2
    have t2 : ¬ m.ty = MT.WRITE := by rw [h3]; intro e; rw [e] at h2; cases h2
    simp only [memExec, if_neg t1, if_neg t2, writeLE]
    rw [if_neg]
    rw [h4]
    exact fun g => hx q h1 (.inr ⟨h2, g⟩)

/-- **C74, what nobody stores to stays as it is.**  If no cache accepts a WRITE to the line of byte `x` or an atomic
operation on the word of byte `x`, memory keeps byte `x`, whatever READs, INVs, FLUSHes, and other WRITEs and
atomic operations there are (WRITE_INIT excepted). -/
theorem C74_rest_of_memory_unchanged (wf : p.WF) {S S' : Sys ι p} {tr : List (Ev ι p)} (h0 : Start S) (h : Run S tr S')
    (x : Nat) (hx : ∀ k, ∀ q ∈ accepted k tr, ¬ q.MayChange x) : S'.mem x = S.mem x := by
  obtain ⟨T, h1, hrel⟩ := refine wf h0 h
  rw [← hrel.mem]
  have hx' : ∀ k, ∀ q ∈ accepted k (tr.map Ev.canon), ¬ q.MayChange x := by
    intro k; rw [accepted_canon]; exact hx k
  generalize tr.map Ev.canon = tr' at h1 hx'
  clear hrel h
  generalize e0 : ESys.init ι p S.mem = T0 at h1
  induction h1 with
  | refl => subst e0; rfl
  | @snoc T1 T2 l ev h hs ih =>
    have hc := Conf.run (e0 ▸ h)
    have hpre : ∀ k, ∀ q ∈ accepted k l, ¬ q.MayChange x := fun k q hq => hx' k q (by
      rw [show accepted k (l ++ ev) = accepted k l ++ accepted k ev from List.filterMap_append ..]; simp [hq])
    have h2 := ih hpre
    cases hs with
    | exec k m ms he =>
      dsimp only
      rw [exec_unchanged ((hc k).queue m (by rw [he]; simp)) _ x (hpre k)]
      exact h2
    | _ => exact h2

/-- **C74, the test memory can execute everything.**  If all accepted requests are valid, every memory request is one
that the test memory (a port with write masks) executes without an exception (`C28_runs`): a READ or WRITE, or an
atomic operation of type ADD to XOR on 4 bytes. -/
theorem C74_memory_never_raises (wf : p.WF) {S S' : Sys ι p} {a b : List (Ev ι p)} {k : ι} {m : MReq p} (h0 : Start S)
    (h : Run S (a ++ .mreq k m :: b) S') (hv : ∀ q ∈ accepted k a, q.Valid) :
    m.ty = MT.READ ∨ m.ty = MT.WRITE ∨ (3 ≤ m.ty.toNat ∧ m.ty.toNat ≤ 11 ∧ m.bytes = 4) := by
  rcases C74_traffic_has_cause wf h0 h with ⟨q, h1, -, h3, -⟩ | ⟨q, h1, -, h3, -⟩ | ⟨q, h1, h2, h3, h4, -, h5⟩
  · exact .inl h3
  · exact .inr (.inl h3)
  · refine .inr (.inr ?_)
    have hf := wf.fits
    have hl := wf.len.1
    have ho : 4 < 2 ^ p.offBits := by
      have h1 := wf.nw
      calc 4 < 2 ^ 3 := by decide
        _ ≤ 2 ^ p.offBits := Nat.pow_le_pow_right (by decide) (by simp only [Params.offBits]; omega)
    cases hv q h1 with
    | amo ty len al =>
      refine ⟨by rw [h3]; exact ty.1, by rw [h3]; exact ty.2, ?_⟩
      have e : m.len.toNat = 4 := by
        rw [h5]
        split
        · exact Nat.mod_eq_of_lt ho
        · rename_i hn
          rcases len with h | h
          · exact absurd h hn
          · rw [BitVec.toNat_setWidth, h, Nat.mod_eq_of_lt ho]
      rw [MReq.bytes, e]; rfl
    | read ty => rw [ty] at h2; cases h2
    | write ty => rw [ty] at h2; cases h2
    | dword ty => rw [ty] at h2; cases h2
    | inv ty => rw [ty] at h2; cases h2
    | flush ty => rw [ty] at h2; cases h2

/-- **C74, no address out of range.**  If all accepted requests are valid and address bytes below `N`, a multiple of
the line size, every memory request stays below `N`. -/
theorem C74_in_range (wf : p.WF) {S S' : Sys ι p} {a b : List (Ev ι p)} {k : ι} {m : MReq p} (h0 : Start S)
    (h : Run S (a ++ .mreq k m :: b) S') (hv : ∀ q ∈ accepted k a, q.Valid) (N : Nat) (hN : 2 ^ p.offBits ∣ N)
    (hq : ∀ q ∈ accepted k a, q.addr.flat < N) : m.addr.flat + m.bytes ≤ N := by
  have hline : ∀ q ∈ accepted k a, m.addr = ⟨q.addr.tag, q.addr.idx, 0⟩ → m.len = 0 → m.addr.flat + m.bytes ≤ N := by
    intro q h1 h2 h3
    have e : m.addr.flat = q.addr.la.num * 2 ^ p.offBits := by rw [h2]; exact flat_off0 q.addr.la
    have e2 : m.bytes = 2 ^ p.offBits := by simp [MReq.bytes, h3]
    obtain ⟨c, rfl⟩ := hN
    have := hq q h1
    rw [Nat.mul_comm] at this
    have := (Nat.div_lt_iff_lt_mul (Nat.two_pow_pos _)).2 this
    rw [Addr.flat_div] at this
    rw [e, e2, ← Nat.succ_mul, Nat.mul_comm]
    exact Nat.mul_le_mul_left _ this
  have hr := C74_memory_never_raises wf h0 h hv
  rcases C74_traffic_has_cause wf h0 h with ⟨q, h1, -, h3, h4, h5⟩ | ⟨q, h1, -, h3, h4, h5, -⟩ | ⟨q, h1, h2, h3, h4, -, -⟩
  · exact hline q h1 h4 h5
  · exact hline q h1 h4 h5
  · have t1 : ¬ m.ty = MT.READ := by rw [h3]; intro e; rw [e] at h2; cases h2
    have t2 : ¬ m.ty = MT.WRITE := by rw [h3]; intro e; rw [e] at h2; cases h2
    rcases hr with hr | hr | ⟨-, -, hr⟩
    · exact absurd hr t1
    · exact absurd hr t2
    rw [hr, h4]
    have hlt := hq q h1
    have hal : 4 ∣ q.addr.flat := by
      cases hv q h1 with
      | amo ty len al => exact al
      | read ty => rw [ty] at h2; cases h2
      | write ty => rw [ty] at h2; cases h2
      | dword ty => rw [ty] at h2; cases h2
      | inv ty => rw [ty] at h2; cases h2
      | flush ty => rw [ty] at h2; cases h2
    have h4N : 4 ∣ N := Nat.dvd_trans ⟨2 ^ p.nwBits, by simp only [Params.offBits, Nat.pow_add]; omega⟩ hN
    omega

end Verif
