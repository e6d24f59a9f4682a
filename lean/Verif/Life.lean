import Verif.SpecSeg
import Verif.Drf

/-!
# The life of a request

Everything that happens between the acceptance of a request by cache `k` and the
acceptance of the next one.
-/

set_option linter.unusedSectionVars false

namespace Verif
variable {p : Params} {ι : Type} [DecidableEq ι]

@[simp] theorem execd_append (k : ι) (a b : List (Ev ι p)) : execd k (a ++ b) = execd k a ++ execd k b := by
  simp [execd]

/-- A run can be cut anywhere between two events. -/
theorem ERun.split {T T' : ESys ι p} {tr : List (Ev ι p)} (h : ERun T tr T') :
    ∀ a b, tr = a ++ b → ∃ T1, ERun T a T1 ∧ ERun T1 b T' := by
  induction h with
  | refl =>
    intro a b hab
    have := List.append_eq_nil_iff.1 hab.symm
    rw [this.1, this.2]
    exact ⟨T, .refl _, .refl _⟩
  | @snoc T1 T2 tr1 ev h hs ih =>
    intro a b hab
    rcases estep_evs hs with rfl | ⟨e, rfl⟩
    · rw [List.append_nil] at hab
      obtain ⟨T3, h1, h2⟩ := ih a b hab
      exact ⟨T3, h1, by have := h2.snoc hs; rwa [List.append_nil] at this⟩
    · rcases List.eq_nil_or_concat b with rfl | ⟨b', y, rfl⟩
      · rw [List.append_nil] at hab
        rw [← hab]
        exact ⟨T2, h.snoc hs, .refl _⟩
      · rw [List.concat_eq_append, ← List.append_assoc] at hab
        have := List.append_inj' hab rfl
        obtain ⟨T3, h1, h2⟩ := ih a b' this.1
        refine ⟨T3, h1, ?_⟩
        rw [List.concat_eq_append, ← this.2]
        exact h2.snoc hs

/-- The message log only grows at its end. -/
theorem log_mono {T T' : ESys ι p} {tr : List (Ev ι p)} (h : ERun T tr T') (k : ι) :
    ∃ N, emitted k tr ++ T'.E k = T.E k ++ N := by
  induction h with
  | refl => exact ⟨[], by simp [emitted]⟩
  | @snoc T1 T2 tr1 ev h hs ih =>
    obtain ⟨N, ih⟩ := ih
    have key : ∃ N', emitted k ev ++ T2.E k = T1.E k ++ N' := by
      cases hs with
      | acc k' q hc hE hr hs hq =>
        by_cases hk : k = k'
        · subst hk; exact ⟨_, by simp [emitted]; rfl⟩
        · exact ⟨[], by simp [emitted, upd_other _ hk]⟩
      | deliver k' r l hl =>
        by_cases hk : k = k'
        · subst hk; exact ⟨_, by simp [emitted]; rfl⟩
        · exact ⟨[], by simp [emitted, upd_other _ hk]⟩
      | emitMem k' m E' hE =>
        by_cases hk : k = k'
        · subst hk; exact ⟨[], by simp [emitted, hE]⟩
        · have hk' : ¬ k' = k := fun h => hk h.symm
          exact ⟨[], by simp [emitted, hk', upd_other _ hk]⟩
      | emitResp k' r E' hE hr hs =>
        by_cases hk : k = k'
        · subst hk; exact ⟨[], by simp [emitted, hE]⟩
        · have hk' : ¬ k' = k := fun h => hk h.symm
          exact ⟨[], by simp [emitted, hk', upd_other _ hk]⟩
      | exec k' m ms hm => exact ⟨[], by simp [emitted]⟩
    obtain ⟨N', key⟩ := key
    refine ⟨N ++ N', ?_⟩
    rw [emitted_append, List.append_assoc, key, ← List.append_assoc, ih, List.append_assoc]

/-- The queues of cache `k` are empty unless a response is still to come. -/
theorem rest_inv {M : ByteMem} {T : ESys ι p} {tr : List (Ev ι p)} (h : ERun (ESys.init ι p M) tr T) (k : ι)
    (hc : (T.L k).cur = .idle) :
    (T.E k = [] ∧ T.reqQ k = [] ∧ T.respQ k = []) ∨ ∃ E' r, T.E k = E' ++ [.resp r] := by
  generalize hT : ESys.init ι p M = T0 at h
  induction h with
  | refl => subst hT; exact .inl ⟨rfl, rfl, rfl⟩
  | @snoc T1 T2 tr1 ev h hs ih =>
    subst hT
    cases hs with
    | acc k' q hc' hE hr hs hq =>
      by_cases hk : k = k'
      · subst hk
        right
        simp only [upd_same] at hc ⊢
        have := accept_nResp (T1.L k) q hc' hq
        rw [hc] at this
        have h2 : (Cur.idle : Cur p).pend = 0 := rfl
        -- the last message of an immediately completed request is its response
        have hlast : ∃ E' r, ((T1.L k).accept q).2 = E' ++ [.resp r] := by
          simp only [L1.accept] at hc ⊢
          split
          · rename_i hx
            rw [if_pos hx] at hc
            cases hh : ((T1.L k).lookup q.addr).hit
            · cases hi : ((T1.L k).lookup q.addr).inval
              · rw [rw_miss hh hi] at hc; cases hc
              · rw [rw_inval hh hi] at hc; cases hc
            · rw [rw_hit hh]; exact ⟨[], _, rfl⟩
          rename_i hx
          rw [if_neg hx] at hc
          split
          · rename_i ha
            rw [if_pos ha] at hc; simp [L1.amo] at hc
          rename_i ha
          rw [if_neg ha] at hc
          split
          · exact ⟨[], _, rfl⟩
          rename_i hi
          rw [if_neg hi] at hc
          split
          · exact ⟨_, _, rfl⟩
          · rename_i hf
            exfalso
            have : ((T1.L k).accept q).2 = [] := by simp only [L1.accept, if_neg hx, if_neg ha, if_neg hi, if_neg hf]
            have h3 : ((T1.L k).accept q).1.cur = .idle := by
              simp only [L1.accept, if_neg hx, if_neg ha, if_neg hi, if_neg hf]; exact hc'
            have h4 := accept_nResp (T1.L k) q hc' hq
            rw [this, h3, h2] at h4
            simp at h4
        obtain ⟨E', r, he⟩ := hlast
        exact ⟨T1.E k ++ E', r, by rw [he]; simp⟩
      · simp only [upd_other _ hk] at hc ⊢; exact ih hc
    | deliver k' r l hl =>
      by_cases hk : k = k'
      · subst hk
        simp only [upd_same] at hc ⊢
        right
        by_cases hi : (T1.L k).cur = .idle
        · rcases ih hi with h1 | ⟨E', r', h1⟩
          · rw [h1.2.2] at hl; cases hl
          · have hd : ((T1.L k).deliver r).2 = [] := by
              simp only [L1.deliver]; split
              · rw [answer_of_idle hi]
              · rfl
            exact ⟨E', r', by rw [hd, h1]; simp⟩
        · simp only [L1.deliver] at hc ⊢
          split
          · have h1 := answer_nResp (T1.L k) r.data
            have : ∃ r', ((T1.L k).answer r.data).2 = [.resp r'] := by
              simp only [L1.answer]
              split
              · rename_i hx; exact absurd hx hi
              · split <;> exact ⟨_, rfl⟩
              · exact ⟨_, rfl⟩
            obtain ⟨r', he⟩ := this
            exact ⟨T1.E k, r', by rw [he]⟩
          · rename_i hw
            rw [if_neg hw] at hc; exact absurd hc hi
      · simp only [upd_other _ hk] at hc ⊢; exact ih hc
    | emitMem k' m E' hE =>
      by_cases hk : k = k'
      · subst hk
        right
        simp only [upd_same]
        rcases ih hc with h1 | ⟨E1, r', h1⟩
        · rw [h1.1] at hE; cases hE
        · rw [hE] at h1
          cases E1 with
          | nil => simp at h1
          | cons x E1 => simp only [List.cons_append, List.cons.injEq] at h1; exact ⟨E1, r', h1.2⟩
      · simp only [upd_other _ hk]; exact ih hc
    | emitResp k' r E' hE hr hs =>
      by_cases hk : k = k'
      · subst hk
        simp only [upd_same]
        rcases ih hc with h1 | ⟨E1, r', h1⟩
        · rw [h1.1] at hE; cases hE
        · rw [hE] at h1
          cases E1 with
          | nil =>
            simp only [List.nil_append, List.cons.injEq] at h1
            exact .inl ⟨h1.2, hr, hs⟩
          | cons x E1 => simp only [List.cons_append, List.cons.injEq] at h1; exact .inr ⟨E1, r', h1.2⟩
      · simp only [upd_other _ hk]; exact ih hc
    | exec k' m ms hm =>
      by_cases hk : k = k'
      · subst hk
        rcases ih hc with h1 | h1
        · rw [h1.2.1] at hm; cases hm
        · exact .inr h1
      · simp only [upd_other _ hk]; exact ih hc

/-! ## Acceptance -/

theorem rd_reads (q : CReq p) : (MReq.rd q.addr.la).ReadsLine q.addr := ⟨rfl, rfl, rfl⟩

theorem wr_writesBack {a : LAddr p} {d : Dty p} {l : Line p} (h : d ≠ 0) : (MReq.wr a d l).WritesBack a.tag a.idx :=
  ⟨rfl, rfl, rfl, h⟩

theorem flush_writesBack (L : L1 p) (n : Nat) : ∀ m ∈ memMsgs (L.flushMsgs n), ∃ t j, m.WritesBack t j := by
  induction n with
  | zero => simp [L1.flushMsgs]
  | succ n ih =>
    simp only [L1.flushMsgs, L1.wb, memMsgs_append, List.mem_append]
    rintro m (hm | hm)
    · split at hm
      · rename_i hd
        simp only [memMsgs_mem, memMsgs_nil, List.mem_singleton] at hm
        subst hm
        exact ⟨_, _, wr_writesBack (by simpa using hd)⟩
      · simp at hm
    · exact ih m hm

theorem flush_respMsgs (L : L1 p) (n : Nat) : respMsgs (L.flushMsgs n) = [] := by
  have := nResp_flush L n
  rw [nResp_eq] at this
  exact List.length_eq_zero_iff.1 this

/-- Proof device; not in the source. -/
inductive AcceptCases (L : L1 p) (q : CReq p) : Prop
  | done (r : CResp p) (hc : (L.accept q).1.cur = .idle) (hr : respMsgs (L.accept q).2 = [r])
      (hs : Serves q (memMsgs (L.accept q).2) r) (ht : q.ty = MT.READ → r.test = 1) (ha : MT.isAmo q.ty = false)
  | fill (w : Way) (d : Dty p) (hc : (L.accept q).1.cur = .fill q w d) (ht : q.ty = MT.READ ∨ q.ty = MT.WRITE)
      (hr : respMsgs (L.accept q).2 = []) (hm : MissTraffic q (memMsgs (L.accept q).2))
      (hd : ∀ W, NotDirty W L.ent → ∀ b, b < p.nWords → q.addr.la.num * 2 ^ p.nwBits + b = W → d.getLsbD b = false)
  | amo (h : Bool) (w : Way) (hc : (L.accept q).1.cur = .amo q h w) (ht : MT.isAmo q.ty = true)
      (hr : respMsgs (L.accept q).2 = []) (hm : AmoTraffic q (memMsgs (L.accept q).2))

theorem accept_cases {L : L1 p} (hok : L.Ok) (hc : L.cur = .idle) {q : CReq p} (hq : q.ty ≠ MT.INIT) :
    AcceptCases L q := by
  have hw := L.lookup_way_mem q.addr
  have hu : L.UniqAt q.addr.idx := fun w hw w' hw' h1 h2 h3 => hok.uniq w hw w' hw' q.addr.idx h1 h2 h3
  by_cases hrw : q.ty = MT.READ ∨ q.ty = MT.WRITE
  · have hacc : L.accept q = L.rw q := by simp only [L1.accept]; rw [if_pos hrw]
    have hna : MT.isAmo q.ty = false := by rcases hrw with h | h <;> rw [h] <;> rfl
    have t1 : q.ty ≠ MT.INV := by rcases hrw with h | h <;> rw [h] <;> decide
    have t2 : q.ty ≠ MT.FLUSH := by rcases hrw with h | h <;> rw [h] <;> decide
    cases lookup_cases hu with
    | hit hh hi hval ht =>
      refine .done (mkResp q true (if q.ty = MT.WRITE then 0
        else readLine q (L.dat (L.lookup q.addr).way q.addr.idx))) ?_ ?_ ⟨rfl, rfl, rfl, fun _ => .inl ⟨rfl, ?_⟩, ?_, ?_, ?_⟩
        (fun _ => rfl) hna
      · rw [hacc, rw_hit hh]; exact hc
      · rw [hacc, rw_hit hh]; rfl
      · rw [hacc, rw_hit hh]; rfl
      · intro h; rw [hna] at h; cases h
      · intro h; exact absurd h t1
      · intro h; exact absurd h t2
    | inval hh hi hval hd ht =>
      refine .fill (L.lookup q.addr).way (L.ent (L.lookup q.addr).way q.addr.idx).dty ?_ hrw ?_ ?_ ?_
      · rw [hacc, rw_inval hh hi]
      · rw [hacc, rw_inval hh hi]; rfl
      · rw [hacc, rw_inval hh hi]; exact ⟨_, rd_reads q, .inl rfl⟩
      · intro W hW b hb he
        exact hW _ hw q.addr.idx b hb (by rw [ht]; exact he)
    | miss hh hi hn =>
      refine .fill (L.rep q.addr.idx) 0 ?_ hrw ?_ ?_ ?_
      · rw [hacc, rw_miss hh hi]
      · rw [hacc, rw_miss hh hi]; simp only [respMsgs_append]
        split <;> rfl
      · rw [hacc, rw_miss hh hi]
        refine ⟨_, rd_reads q, ?_⟩
        simp only [memMsgs_append, memMsgs_mem, memMsgs_nil]
        split
        · rename_i hd
          exact .inr ⟨_, _, wr_writesBack (a := ⟨(L.ent (L.rep q.addr.idx) q.addr.idx).tag, q.addr.idx⟩) (by simpa using hd), rfl⟩
        · exact .inl rfl
      · intro W hW b hb he; simp
  · by_cases ha : MT.isAmo q.ty = true
    · have hacc : L.accept q = L.amo q := by simp only [L1.accept]; rw [if_neg hrw, if_pos ha]
      refine .amo ((L.lookup q.addr).hit || (L.lookup q.addr).inval) (L.lookup q.addr).way ?_ ha ?_ ?_
      · rw [hacc]; rfl
      · rw [hacc]; simp only [L1.amo, respMsgs_append]; split <;> rfl
      · rw [hacc]
        refine ⟨MReq.amo q, ⟨rfl, rfl, rfl, rfl⟩, ?_⟩
        simp only [L1.amo, memMsgs_append, memMsgs_mem, memMsgs_nil]
        split
        · rename_i hd
          simp only [Bool.and_eq_true, bne_iff_ne, Bool.or_eq_true] at hd
          right
          have ht : (L.ent (L.lookup q.addr).way q.addr.idx).tag = q.addr.tag := by
            cases lookup_cases hu with
            | hit hh hi hval ht => exact ht
            | inval hh hi hval hd ht => exact ht
            | miss hh hi hn => rw [hh, hi] at hd; rcases hd.2 with h | h <;> cases h
          refine ⟨_, ?_, rfl⟩
          have := wr_writesBack (a := ⟨(L.ent (L.lookup q.addr).way q.addr.idx).tag, q.addr.idx⟩)
            (l := L.dat (L.lookup q.addr).way q.addr.idx) hd.1
          rw [ht] at this ⊢
          exact this
        · exact .inl rfl
    · have ha' : MT.isAmo q.ty = false := by simpa using ha
      by_cases hi : q.ty = MT.INV
      · have hacc : L.accept q = ({ L with ent := fun w j => { L.ent w j with val := false } },
            [.resp (mkResp q false 0)]) := by
          simp [L1.accept, hi]
        refine .done (mkResp q false 0) (by rw [hacc]; exact hc) (by rw [hacc]; rfl)
          ⟨rfl, rfl, rfl, fun h => absurd h hrw, ?_, fun _ => ⟨rfl, by rw [hacc]; rfl⟩, ?_⟩
          (fun h => absurd (.inl h) hrw) ha'
        · intro h; rw [ha'] at h; cases h
        · intro h; rw [hi] at h; cases h
      · by_cases hf : q.ty = MT.FLUSH
        · have hacc : L.accept q = ({ L with ent := fun w j => { L.ent w j with dty := 0 } },
              L.flushMsgs (2 ^ p.cntBits) ++ [.resp (mkResp q false 0)]) := by
            simp [L1.accept, hf]
          refine .done (mkResp q false 0) (by rw [hacc]; exact hc) ?_
            ⟨rfl, rfl, rfl, fun h => absurd h hrw, ?_, fun h => absurd h hi, ?_⟩
            (fun h => absurd (.inl h) hrw) ha'
          · rw [hacc, respMsgs_append, flush_respMsgs]; rfl
          · intro h; rw [ha'] at h; cases h
          · intro _
            refine ⟨rfl, ?_⟩
            rw [hacc]
            simp only [memMsgs_append, memMsgs_resp, memMsgs_nil, List.append_nil]
            exact flush_writesBack _ _
        · exfalso
          have hacc : L.accept q = (L, []) := by
            simp only [L1.accept]; rw [if_neg hrw, if_neg ha, if_neg hi, if_neg hf]
          have h4 := accept_nResp L q hc hq
          rw [hacc, hc] at h4
          have h2 : (Cur.idle : Cur p).pend = 0 := rfl
          rw [h2] at h4
          simp at h4

/-! ## The invariant -/

/-- The data of a response comes from the last memory response: for an atomic
operation entirely, for a missing read on the words that satisfy `C`. Proof device; not in the source. -/
structure DataOf (C : Nat → Prop) (q : CReq p) (ex : List (MReq p × MResp p)) (r : CResp p) : Prop where
  amo : MT.isAmo q.ty = true → ∃ e, ex.getLast? = some e ∧ r.data = (e.2.data.setWidth 32).setWidth _
  read : q.ty = MT.READ → r.test = 0 → ∃ e l, ex.getLast? = some e ∧ r.data = readLine q l ∧
    ∀ i, i < p.lineBits → C (q.addr.la.num * 2 ^ p.nwBits + i / 32) → l.getLsbD i = e.2.data.getLsbD i

/-- Proof device; not in the source. -/
inductive LifeSt (C : Nat → Prop) (k : ι) (q : CReq p) (n : Nat) (tr b : List (Ev ι p)) (T : ESys ι p) : Prop
  | fill (w : Way) (d : Dty p) (hc : (T.L k).cur = .fill q w d) (ht : q.ty = MT.READ ∨ q.ty = MT.WRITE)
      (hm : MissTraffic q (sent k b ++ memMsgs (T.E k)))
      (hd : ∀ j, j < p.nWords → C (q.addr.la.num * 2 ^ p.nwBits + j) → d.getLsbD j = false)
  | amo (h : Bool) (w : Way) (hc : (T.L k).cur = .amo q h w) (ht : MT.isAmo q.ty = true)
      (hm : AmoTraffic q (sent k b ++ memMsgs (T.E k)))
  | done (r : CResp p) (hc : (T.L k).cur = .idle) (hr : (responses k tr ++ respMsgs (T.E k))[n]? = some r)
      (hs : Serves q (sent k b ++ memMsgs (T.E k)) r)
      (hx : (MT.isAmo q.ty = true ∨ (q.ty = MT.READ ∧ r.test = 0)) →
        (execd k b).map (·.1) = sent k b ++ memMsgs (T.E k) ∧ DataOf C q (execd k b) r)

/-- Proof device; not in the source. -/
structure Life (C : Nat → Prop) (k : ι) (q : CReq p) (n : Nat) (tr b : List (Ev ι p)) (T : ESys ι p) : Prop where
  execs : (execd k b).map (·.1) ++ T.reqQ k = sent k b
  resps : ∃ d, d ++ T.respQ k = (execd k b).map (·.2)
  st : LifeSt C k q n tr b T

theorem life {M : ByteMem} {T0 T1 T : ESys ι p} {a b : List (Ev ι p)} {k : ι} {q : CReq p}
    (h0 : ERun (ESys.init ι p M) a T0) (h1 : EStep T0 [.acc k q] T1) (h : ERun T1 b T) (hb : accepted k b = []) :
    Life (fun W => NotDirty W (T0.L k).ent) k q (accepted k a).length (a ++ .acc k q :: b) b T := by
  have hall : ∀ {b T}, ERun T1 b T → ERun (ESys.init ι p M) (a ++ .acc k q :: b) T := by
    intro b T hb
    have := (h0.snoc h1).trans hb
    simpa using this
  induction h with
  | refl =>
    have hok := (EInv.run h0 k).ok
    have how := owed h0 k
    cases h1 with
    | acc _ _ hc hE hr hs hq =>
      rw [hc] at how
      have h2 : (Cur.idle : Cur p).pend = 0 := rfl
      rw [h2, nResp_eq] at how
      have hmE : memMsgs (T0.E k) = [] := by rw [memTypes_eq] at hE; simpa using hE
      refine ⟨by simp [hr, execd, sent], ⟨[], by simp [hs, execd]⟩, ?_⟩
      cases accept_cases hok hc hq with
      | done r g1 g2 g3 g4 g5 =>
        refine .done r (by simpa using g1) ?_ ?_ ?_
        · have : responses k (a ++ [.acc k q]) = responses k a := by simp [responses]
          simp only [upd_same, respMsgs_append, g2, this]
          rw [← List.append_assoc, List.getElem?_append_right (by rw [List.length_append]; omega),
            List.length_append]
          have : (accepted k a).length - ((responses k a).length + (respMsgs (T0.E k)).length) = 0 := by omega
          rw [this]; rfl
        · simpa [sent, hmE] using g3
        · rintro (h | ⟨h, h'⟩)
          · rw [g5] at h; cases h
          · rw [g4 h] at h'; cases h'
      | fill w d g1 g2 g3 g4 g5 =>
        refine .fill w d (by simpa using g1) g2 (by simpa [sent, hmE] using g4) ?_
        intro j hj hC
        exact g5 _ hC j hj rfl
      | amo h w g1 g2 g3 g4 =>
        exact .amo h w (by simpa using g1) g2 (by simpa [sent, hmE] using g4)
  | @snoc T2 T3 b1 ev hb1 hs ih =>
    rw [accepted_append, List.append_eq_nil_iff] at hb
    have ih := ih hb.1
    have hei := EInv.run (hall hb1) k
    have how := owed (hall hb1) k
    have hacc : (accepted k (a ++ .acc k q :: b1)).length = (accepted k a).length + 1 := by
      have : accepted k (a ++ .acc k q :: b1) = accepted k a ++ (q :: accepted k b1) := by
        simp [accepted]
      rw [this, hb.1, List.length_append]; rfl
    have eqtr : a ++ .acc k q :: (b1 ++ ev) = (a ++ .acc k q :: b1) ++ ev := by simp
    rw [eqtr]
    generalize htr : a ++ .acc k q :: b1 = tr at *
    cases hs with
    | acc k' q' hc hE hr hs hq =>
      by_cases hk : k = k'
      · subst hk
        have := hb.2
        simp [accepted] at this
      · have hk' : ¬ k' = k := fun h => hk h.symm
        have e1 : execd k (b1 ++ [.acc k' q']) = execd k b1 := by simp [execd]
        have e2 : sent k (b1 ++ [.acc k' q']) = sent k b1 := by simp [sent]
        have e3 : responses k (tr ++ [.acc k' q']) = responses k tr := by simp [responses]
        refine ⟨by rw [e1, e2]; exact ih.execs, by rw [e1]; exact ih.resps, ?_⟩
        cases ih.st with
        | fill w d hc ht hm hd => exact .fill w d (by simpa [upd_other _ hk] using hc) ht (by simpa [upd_other _ hk, e2] using hm) hd
        | amo h w hc ht hm => exact .amo h w (by simpa [upd_other _ hk] using hc) ht (by simpa [upd_other _ hk, e2] using hm)
        | done r hc hr hs hx =>
          exact .done r (by simpa [upd_other _ hk] using hc) (by simpa [upd_other _ hk, e3] using hr)
            (by simpa [upd_other _ hk, e2] using hs) (by simpa [upd_other _ hk, e2, e1] using hx)
    | deliver k' r l hl =>
      rw [List.append_nil, List.append_nil]
      by_cases hk : k = k'
      · subst hk
        obtain ⟨d, hd⟩ := ih.resps
        rw [hl] at hd
        refine ⟨ih.execs, ⟨d ++ [r], by simp [← hd]⟩, ?_⟩
        by_cases hr : r.ty = MT.WRITE
        · have hdl : (T2.L k).deliver r = (T2.L k, []) := by simp [L1.deliver, hr]
          rw [hdl]
          simp only [List.append_nil]
          cases ih.st with
          | fill w d hc ht hm hd => exact .fill w d (by simpa using hc) ht (by simpa using hm) hd
          | amo h w hc ht hm => exact .amo h w (by simpa using hc) ht (by simpa using hm)
          | done r hc hr hs hx => exact .done r (by simpa using hc) (by simpa using hr) (by simpa using hs) (by simpa using hx)
        · have hdl : (T2.L k).deliver r = (T2.L k).answer r.data := by simp [L1.deliver, hr]
          have hp := hei.pend
          rw [hl] at hp
          simp only [outTys, List.map_cons, List.cons_append] at hp
          obtain ⟨hne, h2, _⟩ := hp.deliver_ans hr
          simp only [List.append_eq_nil_iff, List.map_eq_nil_iff] at h2
          obtain ⟨⟨h3, h4⟩, h5⟩ := h2
          have h5 : memMsgs (T2.E k) = [] := by rw [memTypes_eq] at h5; simpa using h5
          have hex := ih.execs
          rw [h4, List.append_nil] at hex
          rw [h3] at hd
          have hlast : ∃ e, (execd k b1).getLast? = some e ∧ e.2 = r := by
            have := congrArg List.getLast? hd
            rw [List.getLast?_append, List.getLast?_map] at this
            cases he : (execd k b1).getLast? with
            | none => rw [he] at this; simp at this
            | some e => rw [he] at this; simp at this; exact ⟨e, rfl, this.symm⟩
          obtain ⟨e, he, her⟩ := hlast
          -- the position of the new response
          have hpos : ∀ r' : CResp p, (responses k tr ++ (respMsgs (T2.E k) ++ [r']))[(accepted k a).length]? = some r' := by
            intro r'
            have hpd : (T2.L k).cur.pend = 1 := by
              cases hcc : (T2.L k).cur with
              | idle => exact absurd hcc hne
              | fill _ _ _ => rfl
              | amo _ _ _ => rfl
            rw [hpd, nResp_eq, hacc] at how
            rw [← List.append_assoc, List.getElem?_append_right (by rw [List.length_append]; omega), List.length_append]
            have : (accepted k a).length - ((responses k tr).length + (respMsgs (T2.E k)).length) = 0 := by omega
            rw [this]; rfl
          cases ih.st with
          | fill w dd hc ht hm hdd =>
            rw [h5, List.append_nil] at hm
            have hna : MT.isAmo q.ty = false := by rcases ht with h | h <;> rw [h] <;> rfl
            have t1 : q.ty ≠ MT.INV := by rcases ht with h | h <;> rw [h] <;> decide
            have t2 : q.ty ≠ MT.FLUSH := by rcases ht with h | h <;> rw [h] <;> decide
            refine .done (mkResp q false (if q.ty = MT.WRITE then 0
              else readLine q (merge (~~~ expand p dd) ((T2.L k).dat w q.addr.idx) r.data))) ?_ ?_ ?_ ?_
            · simp only [upd_same, hdl]; exact answer_idle _ _
            · simp only [upd_same, hdl, respMsgs_append]
              have : respMsgs ((T2.L k).answer r.data).2 = [mkResp q false (if q.ty = MT.WRITE then 0
                  else readLine q (merge (~~~ expand p dd) ((T2.L k).dat w q.addr.idx) r.data))] := by
                simp only [L1.answer, hc]; split <;> rfl
              rw [this]; exact hpos _
            · simp only [upd_same, hdl, memMsgs_append, answer_noMem, h5, List.append_nil]
              refine ⟨rfl, rfl, rfl, fun _ => .inr ⟨rfl, hm⟩, ?_, fun h => absurd h t1, fun h => absurd h t2⟩
              intro h; rw [hna] at h; cases h
            · intro _
              simp only [upd_same, hdl, memMsgs_append, answer_noMem, h5, List.append_nil]
              refine ⟨hex, ?_, ?_⟩
              · intro h; rw [hna] at h; cases h
              · intro hrd _
                have hnw : ¬ q.ty = MT.WRITE := by rw [hrd]; decide
                refine ⟨e, _, he, by rw [if_neg hnw]; rfl, ?_⟩
                intro i hi hC
                have hi' : i / 32 < p.nWords := by
                  simp only [Params.lineBits] at hi; omega
                have := hdd (i / 32) hi' hC
                rw [getLsbD_merge, BitVec.getLsbD_not, getLsbD_expand, this, her]
                simp [hi]
          | amo h w hc ht hm =>
            rw [h5, List.append_nil] at hm
            have t0 : ¬ (q.ty = MT.READ ∨ q.ty = MT.WRITE) := by
              rintro (h | h) <;> rw [h] at ht <;> cases ht
            have t1 : q.ty ≠ MT.INV := by intro h; rw [h] at ht; cases ht
            have t2 : q.ty ≠ MT.FLUSH := by intro h; rw [h] at ht; cases ht
            refine .done (mkResp q false ((r.data.setWidth 32).setWidth _)) ?_ ?_ ?_ ?_
            · simp only [upd_same, hdl]; exact answer_idle _ _
            · simp only [upd_same, hdl, respMsgs_append]
              have : respMsgs ((T2.L k).answer r.data).2 = [mkResp q false ((r.data.setWidth 32).setWidth _)] := by
                simp only [L1.answer, hc]; rfl
              rw [this]; exact hpos _
            · simp only [upd_same, hdl, memMsgs_append, answer_noMem, h5, List.append_nil]
              exact ⟨rfl, rfl, rfl, fun h => absurd h t0, fun _ => ⟨rfl, hm⟩, fun h => absurd h t1, fun h => absurd h t2⟩
            · intro _
              simp only [upd_same, hdl, memMsgs_append, answer_noMem, h5, List.append_nil]
              refine ⟨hex, ?_, ?_⟩
              · intro _; exact ⟨e, he, by rw [her]; rfl⟩
              · intro h; exact absurd (.inl h) t0
          | done r' hc hr hs hx => exact absurd hc hne
      · refine ⟨ih.execs, by simpa [upd_other _ hk] using ih.resps, ?_⟩
        cases ih.st with
        | fill w d hc ht hm hd => exact .fill w d (by simpa [upd_other _ hk] using hc) ht (by simpa [upd_other _ hk] using hm) hd
        | amo h w hc ht hm => exact .amo h w (by simpa [upd_other _ hk] using hc) ht (by simpa [upd_other _ hk] using hm)
        | done r hc hr hs hx =>
          exact .done r (by simpa [upd_other _ hk] using hc) (by simpa [upd_other _ hk] using hr)
            (by simpa [upd_other _ hk] using hs) (by simpa [upd_other _ hk] using hx)
    | emitMem k' m E' hE =>
      have e1 : execd k (b1 ++ [.mreq k' m]) = execd k b1 := by simp [execd]
      have e3 : responses k (tr ++ [.mreq k' m]) = responses k tr := by simp [responses]
      by_cases hk : k = k'
      · subst hk
        have e2 : sent k (b1 ++ [.mreq k m]) = sent k b1 ++ [m] := by simp [sent]
        have e4 : sent k b1 ++ memMsgs (T2.E k) = sent k b1 ++ [m] ++ memMsgs E' := by rw [hE]; simp
        have e5 : respMsgs (T2.E k) = respMsgs E' := by rw [hE]; simp
        refine ⟨?_, by rw [e1]; exact ih.resps, ?_⟩
        · simp only [e1, e2, upd_same]; rw [← List.append_assoc, ih.execs]
        · cases ih.st with
          | fill w d hc ht hm hd => rw [e4] at hm; exact .fill w d hc ht (by simpa only [upd_same, e2] using hm) hd
          | amo h w hc ht hm => rw [e4] at hm; exact .amo h w hc ht (by simpa only [upd_same, e2] using hm)
          | done r hc hr hs hx =>
            rw [e4] at hs hx; rw [e5] at hr
            exact .done r hc (by simpa only [upd_same, e3] using hr)
              (by simpa only [upd_same, e2] using hs) (by simpa only [upd_same, e2, e1] using hx)
      · have hk' : ¬ k' = k := fun h => hk h.symm
        have e2 : sent k (b1 ++ [.mreq k' m]) = sent k b1 := by simp [sent, hk']
        refine ⟨by simpa [e1, e2, upd_other _ hk] using ih.execs, by rw [e1]; exact ih.resps, ?_⟩
        cases ih.st with
        | fill w d hc ht hm hd => exact .fill w d hc ht (by simpa [upd_other _ hk, e2] using hm) hd
        | amo h w hc ht hm => exact .amo h w hc ht (by simpa [upd_other _ hk, e2] using hm)
        | done r hc hr hs hx =>
          exact .done r hc (by simpa [upd_other _ hk, e3] using hr)
            (by simpa [upd_other _ hk, e2] using hs) (by simpa [upd_other _ hk, e2, e1] using hx)
    | emitResp k' r' E' hE hr hs =>
      have e1 : execd k (b1 ++ [.resp k' r']) = execd k b1 := by simp [execd]
      have e2 : sent k (b1 ++ [.resp k' r']) = sent k b1 := by simp [sent]
      refine ⟨by rw [e1, e2]; exact ih.execs, by rw [e1]; exact ih.resps, ?_⟩
      by_cases hk : k = k'
      · subst hk
        have e3 : responses k (tr ++ [.resp k r']) = responses k tr ++ [r'] := by simp [responses]
        have e4 : memMsgs (T2.E k) = memMsgs E' := by rw [hE]; simp
        have e5 : responses k tr ++ respMsgs (T2.E k) = responses k tr ++ [r'] ++ respMsgs E' := by rw [hE]; simp
        cases ih.st with
        | fill w d hc ht hm hd => rw [e4] at hm; exact .fill w d hc ht (by simpa only [upd_same, e2] using hm) hd
        | amo h w hc ht hm => rw [e4] at hm; exact .amo h w hc ht (by simpa only [upd_same, e2] using hm)
        | done r hc hr hs hx =>
          rw [e4] at hs hx; rw [e5] at hr
          exact .done r hc (by simpa only [upd_same, e3] using hr)
            (by simpa only [upd_same, e2] using hs) (by simpa only [upd_same, e2, e1] using hx)
      · have hk' : ¬ k' = k := fun h => hk h.symm
        have e3 : responses k (tr ++ [.resp k' r']) = responses k tr := by simp [responses, hk']
        cases ih.st with
        | fill w d hc ht hm hd => exact .fill w d hc ht (by simpa [upd_other _ hk, e2] using hm) hd
        | amo h w hc ht hm => exact .amo h w hc ht (by simpa [upd_other _ hk, e2] using hm)
        | done r hc hr hs hx =>
          exact .done r hc (by simpa [upd_other _ hk, e3] using hr)
            (by simpa [upd_other _ hk, e2] using hs) (by simpa [upd_other _ hk, e2, e1] using hx)
    | exec k' m ms hm' =>
      have e2 : ∀ r, sent k (b1 ++ [.exec k' m r]) = sent k b1 := by intro r; simp [sent]
      have e3 : ∀ r, responses k (tr ++ [.exec k' m r]) = responses k tr := by intro r; simp [responses]
      by_cases hk : k = k'
      · subst hk
        have e1 : ∀ r, execd k (b1 ++ [.exec k m r]) = execd k b1 ++ [(m, r)] := by intro r; simp [execd]
        refine ⟨?_, ?_, ?_⟩
        · have := ih.execs
          rw [hm'] at this
          simp only [e1, e2, upd_same, List.map_append, List.map_cons, List.map_nil, List.append_assoc]
          exact this
        · obtain ⟨d, hd⟩ := ih.resps
          refine ⟨d, ?_⟩
          simp only [e1, upd_same, List.map_append, List.map_cons, List.map_nil]
          rw [← List.append_assoc, hd]
        · cases ih.st with
          | fill w d hc ht hm hd => exact .fill w d hc ht (by simpa only [e2] using hm) hd
          | amo h w hc ht hm => exact .amo h w hc ht (by simpa only [e2] using hm)
          | done r hc hr hs hx =>
            refine .done r hc (by simpa only [e3] using hr) (by simpa only [e2] using hs) ?_
            intro hh
            exfalso
            have h6 := (hx hh).1
            have h7 := ih.execs
            rw [h6, hm'] at h7
            have := congrArg List.length h7
            simp at this
      · have hk' : ¬ k' = k := fun h => hk h.symm
        have e1 : ∀ r, execd k (b1 ++ [.exec k' m r]) = execd k b1 := by intro r; simp [execd, hk']
        refine ⟨by simpa [e1, e2, upd_other _ hk] using ih.execs, by simpa [e1, upd_other _ hk] using ih.resps, ?_⟩
        cases ih.st with
        | fill w d hc ht hm hd => exact .fill w d hc ht (by simpa [e2] using hm) hd
        | amo h w hc ht hm => exact .amo h w hc ht (by simpa [e2] using hm)
        | done r hc hr hs hx =>
          exact .done r hc (by simpa [e3] using hr) (by simpa [e2] using hs) (by simpa [e2, e1] using hx)

/-! ## Anatomy -/

theorem ERun.head {T T' : ESys ι p} {e : Ev ι p} {c : List (Ev ι p)} (h : ERun T (e :: c) T') :
    ∃ T2 T3, ERun T [] T2 ∧ EStep T2 [e] T3 ∧ ERun T3 c T' := by
  obtain ⟨X, h1, h2⟩ := h.split [e] c rfl
  clear h
  have key : ∀ {l}, ERun T l X → l = [e] → ∃ T2 T3, ERun T [] T2 ∧ EStep T2 [e] T3 ∧ ERun T3 [] X := by
    intro l hl
    clear h1 h2
    induction hl with
    | refl => intro h; cases h
    | @snoc Y Z l ev hY hs ih =>
      intro hle
      rcases estep_evs hs with rfl | ⟨e', rfl⟩
      · rw [List.append_nil] at hle
        obtain ⟨T2, T3, g1, g2, g3⟩ := ih hle
        exact ⟨T2, T3, g1, g2, by simpa using g3.snoc hs⟩
      · have := List.append_inj' (show l ++ [e'] = [] ++ [e] from hle) rfl
        rw [this.1] at hY
        rw [this.2] at hs
        exact ⟨Y, Z, hY, hs, .refl _⟩
  obtain ⟨T2, T3, g1, g2, g3⟩ := key h1 rfl
  exact ⟨T2, T3, g1, g2, by simpa using g3.trans h2⟩

/-- The memory traffic, the memory responses and the response of one request. Proof device; not in the source. -/
structure Anatomy (C : Nat → Prop) (q : CReq p) (ms : List (MReq p)) (ex : List (MReq p × MResp p)) (r : CResp p) : Prop where
  serves : Serves q ms r
  execs : ex.map (·.1) = ms
  data : DataOf C q ex r

theorem LifeSt.anatomy {C : Nat → Prop} {k : ι} {q : CReq p} {n : Nat} {tr b : List (Ev ι p)} {T : ESys ι p}
    (h : Life C k q n tr b T) (hc : (T.L k).cur = .idle) (hE : memMsgs (T.E k) = []) (hr : T.reqQ k = []) :
    ∃ r, (responses k tr ++ respMsgs (T.E k))[n]? = some r ∧ Anatomy C q (sent k b) (execd k b) r := by
  have hex := h.execs
  rw [hr, List.append_nil] at hex
  cases h.st with
  | fill w d hc' => rw [hc] at hc'; cases hc'
  | amo h w hc' => rw [hc] at hc'; cases hc'
  | done r _ hr hs hx =>
    rw [hE, List.append_nil] at hs
    refine ⟨r, hr, hs, hex, ?_, ?_⟩
    · intro ha; exact (hx (.inl ha)).2.amo ha
    · intro ha hb; exact (hx (.inr ⟨ha, hb⟩)).2.read ha hb

theorem anatomy (wf : p.WF) {M : ByteMem} {T : ESys ι p} {a b c : List (Ev ι p)} {k : ι} {q : CReq p} {r : CResp p}
    (h : ERun (ESys.init ι p M) (a ++ .acc k q :: (b ++ c)) T) (hb : accepted k b = [])
    (hc : c = [] ∨ ∃ q' c', c = .acc k q' :: c')
    (hr : (responses k (a ++ .acc k q :: (b ++ c)))[(accepted k a).length]? = some r) :
    Anatomy (fun W => (∀ q ∈ accepted k a, q.Valid) ∧ Published k W a) q (sent k b) (execd k b) r := by
  obtain ⟨X, ha, hX⟩ := h.split a _ rfl
  obtain ⟨T0, T1, hX0, hacc, h1⟩ := hX.head
  have h0 : ERun (ESys.init ι p M) a T0 := by simpa using ha.trans hX0
  have hC : ∀ W, (∀ q ∈ accepted k a, q.Valid) ∧ Published k W a → NotDirty W (T0.L k).ent := by
    intro W ⟨hv, hp⟩
    have := (quiet_published wf h0 hv hp).post
    cases hacc with
    | acc _ _ hc _ _ _ _ => rwa [post_idle hc] at this
  have key : ∃ r', (responses k (a ++ .acc k q :: (b ++ c)))[(accepted k a).length]? = some r' ∧
      Anatomy (fun W => NotDirty W (T0.L k).ent) q (sent k b) (execd k b) r' := by
    rcases hc with rfl | ⟨q', c', rfl⟩
    · rw [List.append_nil] at *
      have hl := life h0 hacc h1 hb
      have how := owed h k
      have hn : (accepted k a).length < (responses k (a ++ .acc k q :: b)).length :=
        (List.getElem?_eq_some_iff.1 hr).1
      have hacc : (accepted k (a ++ .acc k q :: b)).length = (accepted k a).length + 1 := by
        have : accepted k (a ++ .acc k q :: b) = accepted k a ++ (q :: accepted k b) := by
          simp [accepted]
        rw [this, hb, List.length_append]; rfl
      have hcur : (T.L k).cur = .idle := by
        cases hcc : (T.L k).cur with
        | idle => rfl
        | fill _ _ _ => rw [hcc] at how; simp only [Cur.pend] at how; omega
        | amo _ _ _ => rw [hcc] at how; simp only [Cur.pend] at how; omega
      have hE : T.E k = [] ∧ T.reqQ k = [] ∧ T.respQ k = [] := by
        rcases rest_inv h k hcur with h2 | ⟨E', r', h2⟩
        · exact h2
        · rw [h2, nResp_append, nResp_resp] at how; omega
      obtain ⟨r', g1, g2⟩ := LifeSt.anatomy hl hcur (by rw [hE.1]; rfl) hE.2.1
      exact ⟨r', by simpa [hE.1] using g1, g2⟩
    · obtain ⟨Y, hY1, hY2⟩ := h1.split b _ rfl
      obtain ⟨T2, T3, g1, g2, g3⟩ := hY2.head
      have hT2 : ERun T1 b T2 := by simpa using hY1.trans g1
      have hl := life h0 hacc hT2 hb
      have hmono := (ERun.one g2).trans g3
      obtain ⟨N, hN⟩ := log_mono hmono k
      cases g2 with
      | acc _ _ hcur hE hrq hrs hq =>
        have hmE : memMsgs (T2.E k) = [] := by rw [memTypes_eq] at hE; simpa using hE
        obtain ⟨r', g4, g5⟩ := LifeSt.anatomy hl hcur hmE hrq
        refine ⟨r', ?_, g5⟩
        have hN := congrArg respMsgs hN
        rw [respMsgs_append, respMsgs_append, respMsgs_emitted] at hN
        have hlt := (List.getElem?_eq_some_iff.1 hr).1
        rw [← List.getElem?_append_left (l₂ := respMsgs (T.E k)) hlt]
        have e : a ++ .acc k q :: (b ++ .acc k q' :: c') = (a ++ .acc k q :: b) ++ ([.acc k q'] ++ c') := by simp
        rw [e, responses_append, List.append_assoc, hN, ← List.append_assoc]
        rw [List.getElem?_append_left (List.getElem?_eq_some_iff.1 g4).1]
        exact g4
  obtain ⟨r', g1, g2⟩ := key
  rw [hr] at g1
  cases g1
  refine ⟨g2.serves, g2.execs, g2.data.amo, ?_⟩
  intro h1 h2
  obtain ⟨e, l, k1, k2, k3⟩ := g2.data.read h1 h2
  exact ⟨e, l, k1, k2, fun i hi hp => k3 i hi (hC _ hp)⟩

end Verif
