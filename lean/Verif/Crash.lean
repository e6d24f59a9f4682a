import Verif.Segs
import Verif.Word

/-!
# What the memory holds in the middle of an execution (one cache)

The memory of a single-cache system lags behind the accepted requests.  This
file shows that every aligned word of it is, at every moment, the word of the
flat memory after some prefix of the accepted requests, and that this prefix
only grows.
-/

namespace Verif
variable {p : Params}

/-- The cache holds a newer value of word `wi` of line `la` than memory may. -/
def L1.dirtyAt (A : L1 p) (la : LAddr p) (wi : Nat) : Prop :=
  ∃ w ∈ p.ways, (A.ent w la.idx).tag = la.tag ∧ (A.ent w la.idx).dty.getLsbD wi = true

/-- Two memories agree on word `wi` of line `la`. -/
def SameW (la : LAddr p) (wi : Nat) (M M' : ByteMem) : Prop :=
  ∀ i, i < p.lineBits → i / 32 = wi → (view M la).getLsbD i = (view M' la).getLsbD i

theorem SameW.refl (la : LAddr p) (wi : Nat) (M : ByteMem) : SameW la wi M M := fun _ _ _ => rfl
theorem SameW.trans {la : LAddr p} {wi : Nat} {M M' M'' : ByteMem} (h : SameW la wi M M')
    (h' : SameW la wi M' M'') : SameW la wi M M'' := fun i hi hw => (h i hi hw).trans (h' i hi hw)

/-! ## Write-backs -/

/-- The write-back of an entry as a memory request. Proof device; not in the source. -/
def L1.wbReq (A : L1 p) (w : Way) (j : Idx p) : MReq p := .wr ⟨(A.ent w j).tag, j⟩ (A.ent w j).dty (A.dat w j)

theorem wb_eq (A : L1 p) (w : Way) (j : Idx p) : A.wb w j = .mem (A.wbReq w j) := rfl

/-- A list of write-backs of entries of `A`. Proof device; not in the source. -/
def Wbs (A : L1 p) (l : List (MReq p)) : Prop := ∀ m ∈ l, ∃ w ∈ p.ways, ∃ j, m = A.wbReq w j

/-- One of the write-backs in the list contains the word. Proof device; not in the source. -/
def Touched (A : L1 p) (la : LAddr p) (wi : Nat) (l : List (MReq p)) : Prop :=
  ∃ w ∈ p.ways, (A.ent w la.idx).tag = la.tag ∧ (A.ent w la.idx).dty.getLsbD wi = true ∧ A.wbReq w la.idx ∈ l

theorem Touched.mono {A : L1 p} {la : LAddr p} {wi : Nat} {l l' : List (MReq p)} (h : Touched A la wi l)
    (hs : ∀ m ∈ l, m ∈ l') : Touched A la wi l' := by
  obtain ⟨w, h1, h2, h3, h4⟩ := h
  exact ⟨w, h1, h2, h3, hs _ h4⟩

theorem wbReq_same {A : L1 p} {M S : ByteMem} {V : LAddr p → Line p} (h : Coh (Bits.all p) A V (view S))
    (la : LAddr p) (wi : Nat) {w : Way} (hw : w ∈ p.ways) (j : Idx p) :
    (((A.ent w j).tag = la.tag ∧ j = la.idx ∧ (A.ent w j).dty.getLsbD wi = true) →
      SameW la wi (memExec M (A.wbReq w j)).1 S) ∧
    (¬ ((A.ent w j).tag = la.tag ∧ j = la.idx ∧ (A.ent w j).dty.getLsbD wi = true) →
      SameW la wi (memExec M (A.wbReq w j)).1 M) := by
  constructor
  · rintro ⟨h1, h2, h3⟩ i hi hwi
    subst h2
    have hla : la = ⟨(A.ent w la.idx).tag, la.idx⟩ := by cases la; simp_all
    rw [L1.wbReq, exec_wr_view, if_pos hla, getLsbD_merge, getLsbD_expand]
    simp only [hi, decide_true, Bool.true_and, hwi, h3, if_true]
    have := h.hitc w hw la.idx i hi trivial (.inr (by rw [hwi]; exact h3))
    rw [this]; congr 2; exact hla.symm
  · intro hn i hi hwi
    rw [L1.wbReq, exec_wr_view]
    split
    · rename_i hla
      rw [getLsbD_merge, getLsbD_expand]
      have : (A.ent w j).dty.getLsbD wi = false := by
        cases hb : (A.ent w j).dty.getLsbD wi
        · rfl
        · exact absurd ⟨by rw [hla], by rw [hla], hb⟩ hn
      simp only [hwi, this, Bool.and_false, Bool.false_eq_true, if_false]
    · rfl

/-- Write-backs leave the word alone or make it the word of the specification. -/
theorem wbs_same {A : L1 p} {S : ByteMem} {V : LAddr p → Line p} (h : Coh (Bits.all p) A V (view S))
    (la : LAddr p) (wi : Nat) {l : List (MReq p)} (hl : Wbs A l) (M : ByteMem) :
    (Touched A la wi l → SameW la wi (memRun M l).1 S) ∧
    (¬ Touched A la wi l → SameW la wi (memRun M l).1 M) := by
  induction l generalizing M with
  | nil => exact ⟨fun ⟨_, _, _, _, h4⟩ => by simp at h4, fun _ => SameW.refl _ _ _⟩
  | cons m ms ih =>
    obtain ⟨w, hw, j, rfl⟩ := hl m (by simp)
    have ih := ih (fun m hm => hl m (by simp [hm])) (memExec M (A.wbReq w j)).1
    have hm := wbReq_same (M := M) h la wi hw j
    simp only [memRun]
    constructor
    · intro ht
      by_cases h1 : Touched A la wi ms
      · exact ih.1 h1
      · refine (ih.2 h1).trans (hm.1 ?_)
        obtain ⟨w', hw', h2, h3, h4⟩ := ht
        simp only [List.mem_cons] at h4
        rcases h4 with h4 | h4
        · have h5 := congrArg MReq.addr h4
          have h6 := congrArg MReq.wmask h4
          simp only [L1.wbReq, MReq.wr] at h5 h6
          simp only [Addr.mk.injEq] at h5
          refine ⟨by rw [← h5.1, h2], h5.2.1.symm, ?_⟩
          rw [← h6]; exact h3
        · exact absurd ⟨w', hw', h2, h3, h4⟩ h1
    · intro ht
      have h1 : ¬ Touched A la wi ms := fun hx => ht (hx.mono (by intro m hm; simp [hm]))
      refine (ih.2 h1).trans (hm.2 ?_)
      rintro ⟨h2, rfl, h3⟩
      exact ht ⟨w, hw, h2, h3, by simp⟩

/-! ## One request -/

/-- The messages of a request: write-backs, then a message `t`, then messages
that are not for memory; if a word is still dirty afterwards `t` did not change
it. Proof device; not in the source. -/
structure Split (A : L1 p) (M : ByteMem) (q : CReq p) (G : List (MReq p)) (t : Msg p) (rest : List (Msg p)) : Prop where
  eq : (A.op M q).2.2 = G.map Msg.mem ++ t :: rest
  rest : memMsgs rest = []
  wbs : Wbs A G
  keep : ∀ la wi, (A.op M q).1.dirtyAt la wi → SameW la wi (A.op M q).2.1 (memRun M G).1

theorem wbIf (A : L1 p) {w : Way} (hw : w ∈ p.ways) (j : Idx p) (b : Bool) :
    ∃ G, (if b then [A.wb w j] else []) = G.map Msg.mem ∧ Wbs A G := by
  cases b
  · exact ⟨[], rfl, by simp [Wbs]⟩
  · refine ⟨[A.wbReq w j], rfl, ?_⟩
    intro m hm
    simp only [List.mem_singleton] at hm
    exact ⟨w, hw, j, hm⟩

theorem wbs_flush (A : L1 p) (n : Nat) : ∃ G, A.flushMsgs n = G.map Msg.mem ∧ Wbs A G := by
  induction n with
  | zero => exact ⟨[], rfl, by simp [Wbs]⟩
  | succ n ih =>
    obtain ⟨G, h1, h2⟩ := ih
    obtain ⟨G', h3, h4⟩ := wbIf A (cntWay_mem (lineNo p n)) (cntIdx p (lineNo p n))
      ((A.ent (cntWay p (lineNo p n)) (cntIdx p (lineNo p n))).dty != 0)
    refine ⟨G' ++ G, ?_, ?_⟩
    · simp only [L1.flushMsgs]
      rw [h3, h1, List.map_append]
    · intro m hm
      rw [List.mem_append] at hm
      exact hm.elim (h4 m) (h2 m)

theorem split_of_quiet {A : L1 p} {M : ByteMem} {q : CReq p} {G : List (MReq p)} {t : Msg p} {rest : List (Msg p)}
    (eq : (A.op M q).2.2 = G.map Msg.mem ++ t :: rest) (hr : memMsgs rest = []) (hw : Wbs A G)
    (ht : ∀ M', (memRun M' (memMsgs [t])).1 = M') : Split A M q G t rest := by
  refine ⟨eq, hr, hw, fun la wi _ => ?_⟩
  have h1 : (A.op M q).2.1 = (memRun M (memMsgs (A.op M q).2.2)).1 := by
    simp only [L1.op, memMsgs_append, answer_noMem, List.append_nil]
  have h2 : memMsgs (t :: rest) = memMsgs [t] := by
    rw [← List.singleton_append, memMsgs_append, hr, List.append_nil]
  rw [h1, eq, memMsgs_append, h2, memMsgs_map_mem, memRun_append, ht]
  exact SameW.refl _ _ _

/-- After an AMO no word of its line is dirty. -/
theorem amo_clean {A : L1 p} {M : ByteMem} {q : CReq p} {wi : Nat} (hu : A.UniqAt q.addr.idx) (t1 : q.ty ≠ MT.READ)
    (t2 : q.ty ≠ MT.WRITE) (ha : MT.isAmo q.ty = true) : ¬ (A.op M q).1.dirtyAt q.addr.la wi := by
  intro hd
  have hacc : A.accept q = A.amo q := by simp [L1.accept, t1, t2, ha]
  have hw := A.lookup_way_mem q.addr
  obtain ⟨w', hw', h2, h3⟩ := hd
  rw [show q.addr.la.idx = q.addr.idx from rfl] at h2 h3
  simp only [L1.op, hacc, L1.amo, L1.answer] at h2 h3
  cases lookup_cases hu with
  | hit hh hi hval ht =>
    simp only [hh, Bool.true_or, if_true] at h2 h3
    by_cases hww : w' = (A.lookup q.addr).way
    · rw [hww] at h3; simp [setAt_same] at h3
    · rw [setAt_ne _ _ (fun hx => hww hx.1)] at h2 h3
      exact hww (hu w' hw' _ hw (.inr (fun h0 => by rw [h0] at h3; simp at h3)) (.inl hval) (h2.trans ht.symm))
  | inval hh hi hval hd ht =>
    simp only [hi, Bool.or_true, if_true] at h2 h3
    by_cases hww : w' = (A.lookup q.addr).way
    · rw [hww] at h3; simp [setAt_same] at h3
    · rw [setAt_ne _ _ (fun hx => hww hx.1)] at h2 h3
      exact hww (hu w' hw' _ hw (.inr (fun h0 => by rw [h0] at h3; simp at h3)) (.inr hd) (h2.trans ht.symm))
  | miss hh hi hn =>
    simp only [hh, hi, Bool.or_false, Bool.false_eq_true, if_false] at h2 h3
    exact hn w' hw' (.inr (fun h0 => by rw [h0] at h3; simp at h3)) h2

/-- After a FLUSH no word is dirty. -/
theorem flush_clean {A : L1 p} {M : ByteMem} {q : CReq p} {la : LAddr p} {wi : Nat} (hc : A.cur = .idle)
    (ty : q.ty = MT.FLUSH) : ¬ (A.op M q).1.dirtyAt la wi := by
  rintro ⟨w, _, _, h⟩
  have hacc : A.accept q = ({ A with ent := fun w j => { A.ent w j with dty := 0 } },
      A.flushMsgs (2 ^ p.cntBits) ++ [.resp (mkResp q false 0)]) := by
    simp [L1.accept, ty]
  simp only [L1.op, hacc] at h
  rw [answer_of_idle (by exact hc)] at h
  simp at h

theorem op_split {A : L1 p} {M : ByteMem} {q : CReq p} (hok : A.Ok) (hu : A.UniqAt q.addr.idx)
    (hc : A.cur = .idle) (hv : q.Valid) :
    ∃ G t rest, Split A M q G t rest := by
  have hq : q.ty ≠ MT.INIT := by
    intro ty
    cases hv with
    | read h => rw [ty] at h; simp at h
    | write h => rw [ty] at h; simp at h
    | dword h => rw [ty] at h; simp at h
    | amo h => rw [ty] at h; simp at h
    | inv h => rw [ty] at h; simp at h
    | flush h => rw [ty] at h; simp at h
  by_cases hrw : q.ty = MT.READ ∨ q.ty = MT.WRITE
  · have hacc : A.accept q = A.rw q := by simp only [L1.accept]; rw [if_pos hrw]
    have rd : ∀ (M' : ByteMem), (memRun M' (memMsgs [(.mem (.rd q.addr.la) : Msg p)])).1 = M' := by
      intro M'; simp [memRun, exec_rd]
    have hno := answer_noMem (A.accept q).1 (lastData (memRun M (memMsgs (A.accept q).2)).2)
    rw [hacc] at hno
    cases hh : (A.lookup q.addr).hit
    · cases hi : (A.lookup q.addr).inval
      · obtain ⟨G, hG, hW⟩ := wbIf A (hok.rep q.addr.idx) q.addr.idx ((A.ent (A.rep q.addr.idx) q.addr.idx).dty != 0)
        refine ⟨G, _, _, split_of_quiet ?_ hno hW rd⟩
        simp only [L1.op, hacc]
        rw [rw_miss hh hi]
        simp only [hG, List.append_assoc]
        rfl
      · refine ⟨[], _, _, split_of_quiet ?_ hno (by simp [Wbs]) rd⟩
        simp only [L1.op, hacc]
        rw [rw_inval hh hi]
        rfl
    · obtain ⟨X, r, hX, hXc⟩ : ∃ X r, A.rw q = (X, [.resp r]) ∧ X.cur = A.cur := by
        rw [rw_hit hh]; exact ⟨_, _, rfl, rfl⟩
      refine ⟨[], .resp r, [], split_of_quiet ?_ rfl (by simp [Wbs]) (fun _ => rfl)⟩
      simp only [L1.op, hacc, hX]
      rw [answer_of_idle (by rw [hXc]; exact hc)]
      rfl
  cases ha : MT.isAmo q.ty
  · by_cases hi : q.ty = MT.INV
    · refine ⟨[], .resp (mkResp q false 0), [], split_of_quiet ?_ rfl (by simp [Wbs]) (fun _ => rfl)⟩
      have hacc : A.accept q = ({ A with ent := fun w j => { A.ent w j with val := false } },
          [.resp (mkResp q false 0)]) := by simp [L1.accept, hi]
      simp only [L1.op, hacc]
      rw [answer_of_idle (by exact hc)]; rfl
    · by_cases hf : q.ty = MT.FLUSH
      · obtain ⟨G, hG, hW⟩ := wbs_flush A (2 ^ p.cntBits)
        refine ⟨G, .resp (mkResp q false 0), [], split_of_quiet ?_ rfl hW (fun _ => rfl)⟩
        have hacc : A.accept q = ({ A with ent := fun w j => { A.ent w j with dty := 0 } },
            A.flushMsgs (2 ^ p.cntBits) ++ [.resp (mkResp q false 0)]) := by simp [L1.accept, hf]
        simp only [L1.op, hacc]
        rw [answer_of_idle (by exact hc), hG]; simp
      · exfalso
        obtain ⟨ms, h, d, hm⟩ := op_shape hc M hq
        have : A.accept q = (A, []) := by simp only [L1.accept, hrw, ha, hi, hf]; simp
        simp only [L1.op, this] at hm
        rw [answer_of_idle (by exact hc)] at hm
        have := congrArg List.length hm
        simp at this
  · have t1 : q.ty ≠ MT.READ := fun h => hrw (.inl h)
    have t2 : q.ty ≠ MT.WRITE := fun h => hrw (.inr h)
    have hacc : A.accept q = A.amo q := by simp [L1.accept, t1, t2, ha]
    have hw := A.lookup_way_mem q.addr
    obtain ⟨G, hG, hW⟩ := wbIf A hw q.addr.idx
      (((A.ent (A.lookup q.addr).way q.addr.idx).dty != 0) && ((A.lookup q.addr).hit || (A.lookup q.addr).inval))
    have heq : (A.op M q).2.2 = G.map Msg.mem ++ .mem (.amo q) ::
        ((A.amo q).1.answer (lastData (memRun M (memMsgs (A.amo q).2)).2)).2 := by
      simp only [L1.op, hacc]
      simp only [L1.amo, hG, List.append_assoc]
      rfl
    refine ⟨G, _, _, heq, answer_noMem _ _, hW, ?_⟩
    have hfit : q.addr.off.toNat + 4 ≤ 2 ^ p.offBits := by
      cases hv with
      | amo _ _ al =>
        have hko : 2 ≤ p.offBits := by simp only [Params.offBits]; omega
        exact fits_line hko (dvd_off hko al)
      | read ty => exact absurd ty t1
      | write ty => exact absurd ty t2
      | dword ty => exact absurd ty t2
      | inv ty => rw [ty] at ha; simp [MT.isAmo] at ha
      | flush ty => rw [ty] at ha; simp [MT.isAmo] at ha
    have hmem : (A.op M q).2.1 = (memExec (memRun M G).1 (.amo q)).1 := by
      have h1 : (A.op M q).2.1 = (memRun M (memMsgs (A.op M q).2.2)).1 := by
        simp only [L1.op, memMsgs_append, answer_noMem, List.append_nil]
      rw [h1, heq, memMsgs_append, memMsgs_map_mem, memMsgs_mem, answer_noMem, memRun_append]
      rfl
    intro la wi hd
    by_cases hla : la = q.addr.la
    · exfalso
      subst hla
      exact amo_clean hu t1 t2 ha hd
    · intro i hi _
      rw [hmem]
      simp only [memExec, MReq.amo, t1, t2, if_false]
      rw [view_putBytes _ _ _ _ hfit, putView, if_neg hla]

/-- Memory during one request: word `wi` of line `la` is first the old one
(stage 0), then that of the specification before the request (stage 1), then
that after it (stage 2); stages may be skipped but never go back. -/
theorem op_hist (wf : p.WF) {A : L1 p} {M S : ByteMem} {q : CReq p} (h : Coh (Bits.all p) A (view M) (view S))
    (hok : A.Ok) (hc : A.cur = .idle) (hv : q.Valid) (la : LAddr p) (wi : Nat) :
    ∃ st : Nat → Nat, st 0 = 0 ∧ (∀ i j, i ≤ j → st i ≤ st j) ∧
      (∀ i, i ≤ (A.op M q).2.2.length →
        (st i = 0 → SameW la wi (memRun M (memMsgs ((A.op M q).2.2.take i))).1 M) ∧
        (st i = 1 → SameW la wi (memRun M (memMsgs ((A.op M q).2.2.take i))).1 S) ∧
        (2 ≤ st i → SameW la wi (memRun M (memMsgs ((A.op M q).2.2.take i))).1 (flatStep S q).1)) ∧
      (¬ (A.op M q).1.dirtyAt la wi → 2 ≤ st (A.op M q).2.2.length) := by
  classical
  obtain ⟨G, t, rest, hs⟩ := op_split (M := M) hok (h.uniqAt q.addr.idx) hc hv
  have hS := (op_spec wf Bits.all_words h hok hc hv).1
  have hmem : (A.op M q).2.1 = (memRun M (memMsgs (A.op M q).2.2)).1 := by
    simp only [L1.op, memMsgs_append, answer_noMem, List.append_nil]
  have tmono : ∀ i j, i ≤ j → Touched A la wi (G.take i) → Touched A la wi (G.take j) := by
    intro i j hij ht
    refine ht.mono fun m hm => ?_
    have : G.take i = (G.take j).take i := by rw [List.take_take, Nat.min_eq_left hij]
    rw [this] at hm
    exact List.mem_of_mem_take hm
  have hlen : (A.op M q).2.2.length = G.length + 1 + rest.length := by rw [hs.eq]; simp; omega
  let st : Nat → Nat := fun i =>
    if G.length < i ∧ ¬ (A.op M q).1.dirtyAt la wi then 2
    else if Touched A la wi (G.take i) then 1 else 0
  have st_def : ∀ i, st i = if G.length < i ∧ ¬ (A.op M q).1.dirtyAt la wi then 2
    else if Touched A la wi (G.take i) then 1 else 0 := fun _ => rfl
  have st_le : ∀ i, st i ≤ 2 := by
    intro i; rw [st_def]
    repeat' split
    all_goals omega
  refine ⟨st, ?_, ?_, ?_, ?_⟩
  · rw [st_def, if_neg (by omega), if_neg]
    rintro ⟨_, _, _, _, hx⟩; simp at hx
  · intro i j hij
    by_cases hj : G.length < j ∧ ¬ (A.op M q).1.dirtyAt la wi
    · have : st j = 2 := by rw [st_def, if_pos hj]
      rw [this]; exact st_le i
    · have hi : ¬ (G.length < i ∧ ¬ (A.op M q).1.dirtyAt la wi) := fun hx => hj ⟨by omega, hx.2⟩
      rw [st_def, st_def, if_neg hi, if_neg hj]
      by_cases ht : Touched A la wi (G.take i)
      · rw [if_pos ht, if_pos (tmono i j hij ht)]; omega
      · rw [if_neg ht]; omega
  · intro i hi
    by_cases hG : i ≤ G.length
    · have e : memMsgs ((A.op M q).2.2.take i) = G.take i := by
        rw [hs.eq, List.take_append_of_le_length (by simpa using hG), ← List.map_take, memMsgs_map_mem]
      have hw : Wbs A (G.take i) := fun m hm => hs.wbs m (List.mem_of_mem_take hm)
      have := wbs_same h la wi hw M
      rw [e, st_def, if_neg (by omega)]
      by_cases ht : Touched A la wi (G.take i)
      · rw [if_pos ht]
        exact ⟨fun hx => absurd hx (by omega), fun _ => this.1 ht, fun hx => absurd hx (by omega)⟩
      · rw [if_neg ht]
        exact ⟨fun _ => this.2 ht, fun hx => absurd hx (by omega), fun hx => absurd hx (by omega)⟩
    · have e : (memRun M (memMsgs ((A.op M q).2.2.take i))).1 = (A.op M q).2.1 := by
        rw [hmem, hs.eq]
        have e2 : i = G.length + 1 + (i - G.length - 1) := by omega
        have e3 : (G.map Msg.mem ++ t :: rest).take i = G.map Msg.mem ++ t :: rest.take (i - G.length - 1) := by
          conv => lhs; rw [e2]
          rw [show G.map Msg.mem ++ t :: rest = (G.map Msg.mem ++ [t]) ++ rest by simp,
            List.take_append, List.take_of_length_le (by simp)]
          simp only [List.length_append, List.length_map, List.length_cons, List.length_nil]
          rw [show G.length + 1 + (i - G.length - 1) - (G.length + (0 + 1)) = i - G.length - 1 by omega]
          simp
        have e4 : memMsgs (rest.take (i - G.length - 1)) = [] := by
          have := hs.rest
          rw [← List.take_append_drop (i - G.length - 1) rest, memMsgs_append] at this
          exact (List.append_eq_nil_iff.1 this).1
        rw [e3]
        have e5 : ∀ l : List (Msg p), memMsgs (t :: l) = memMsgs [t] ++ memMsgs l := by
          intro l; rw [← memMsgs_append]; rfl
        rw [memMsgs_append, memMsgs_append, e5, e5 rest, e4, hs.rest]
      rw [e]
      have hf := wbs_same h la wi hs.wbs M
      have hGi : G.take i = G := List.take_of_length_le (by omega)
      by_cases hd : (A.op M q).1.dirtyAt la wi
      · rw [st_def, if_neg (by simp [hd]), hGi]
        have hk := hs.keep la wi hd
        by_cases ht : Touched A la wi G
        · rw [if_pos ht]
          exact ⟨fun hx => absurd hx (by omega), fun _ => hk.trans (hf.1 ht), fun hx => absurd hx (by omega)⟩
        · rw [if_neg ht]
          exact ⟨fun _ => hk.trans (hf.2 ht), fun hx => absurd hx (by omega), fun hx => absurd hx (by omega)⟩
      · rw [st_def, if_pos ⟨by omega, hd⟩]
        refine ⟨fun hx => absurd hx (by omega), fun hx => absurd hx (by omega), fun _ => ?_⟩
        intro b hb hbw
        refine hS.memc la b hb trivial ?_
        intro w hw ht
        rw [hbw]
        cases hx : ((A.op M q).1.ent w la.idx).dty.getLsbD wi
        · rfl
        · exact absurd ⟨w, hw, ht, hx⟩ hd
  · intro hd
    rw [st_def, if_pos ⟨by omega, hd⟩]; omega

/-! ## Request sequences -/

/-- The log of the first `n` requests. Proof device; not in the source. -/
def logN (M : ByteMem) (qs : List (CReq p)) (n : Nat) : List (Msg p) := ((L1.init p).ops M (qs.take n)).2.2

/-- Time stamps of word `wi` of line `la` along the log of `qs`. -/
structure Stamps (M : ByteMem) (qs : List (CReq p)) (la : LAddr p) (wi n : Nat) (f : Nat → Nat) : Prop where
  mono : ∀ i j, i ≤ j → f i ≤ f j
  upper : ∀ m, m ≤ n → f (logN M qs m).length ≤ m
  same : ∀ i, i ≤ (logN M qs n).length →
    SameW la wi (memRun M (memMsgs ((logN M qs n).take i))).1 (flatRun M (qs.take (f i))).1
  lower : ∀ m, m < n → ¬ ((L1.init p).ops M (qs.take (m + 1))).1.dirtyAt la wi → m + 1 ≤ f (logN M qs (m + 1)).length

theorem logN_succ (M : ByteMem) (qs : List (CReq p)) {n : Nat} (hn : n < qs.length) :
    logN M qs (n + 1) = logN M qs n ++
      (((L1.init p).ops M (qs.take n)).1.op ((L1.init p).ops M (qs.take n)).2.1 qs[n]).2.2 := by
  simp only [logN]
  rw [List.take_succ_eq_append_getElem hn, ops_snoc]

theorem logN_mono (M : ByteMem) (qs : List (CReq p)) {m n : Nat} (h : m ≤ n) (hn : n ≤ qs.length) :
    logN M qs m <+: logN M qs n := by
  induction n with
  | zero => have : m = 0 := by omega
            subst this; exact List.prefix_rfl
  | succ n ih =>
    by_cases hm : m = n + 1
    · subst hm; exact List.prefix_rfl
    · refine (ih (by omega) (by omega)).trans ?_
      rw [logN_succ M qs (by omega)]
      exact List.prefix_append _ _

theorem stamps (wf : p.WF) (M : ByteMem) {qs : List (CReq p)} (hv : ∀ q ∈ qs, q.Valid) (la : LAddr p) (wi : Nat)
    (n : Nat) (hn : n ≤ qs.length) : ∃ f, Stamps M qs la wi n f := by
  induction n with
  | zero =>
    refine ⟨fun _ => 0, fun _ _ _ => Nat.le_refl _, fun m hm => Nat.zero_le _, ?_, fun m hm => by omega⟩
    intro i hi
    have : i = 0 := by simpa [logN, L1.ops] using hi
    subst this
    exact SameW.refl _ _ _
  | succ n ih =>
    obtain ⟨f, hf⟩ := ih (by omega)
    have hvt : ∀ q ∈ qs.take n, q.Valid := fun q hq => hv q (List.mem_of_mem_take hq)
    obtain ⟨c1, c2, c3, _⟩ := ops_spec wf (coh_init M) init_ok rfl hvt
    have hom := ops_mem (L1.init p) M rfl (qs.take n)
    obtain ⟨st, s0, smono, ssame, slow⟩ := op_hist wf c1 c3 c2 (hv qs[n] (List.getElem_mem _)) la wi
    have hL := logN_succ M qs (n := n) (by omega)
    have hops := ops_snoc (L1.init p) M (qs.take n) qs[n]
    rw [← List.take_succ_eq_append_getElem (by omega : n < qs.length)] at hops
    generalize hx : (((L1.init p).ops M (qs.take n)).1.op ((L1.init p).ops M (qs.take n)).2.1 qs[n]) = x at *
    let g : Nat → Nat := fun i => if i = 0 then f (logN M qs n).length else if i = 1 then n else n + 1
    have hgl : f (logN M qs n).length ≤ n := hf.upper n (Nat.le_refl _)
    have gm : ∀ a b, a ≤ b → g a ≤ g b := by
      intro a b hab
      simp only [g]
      repeat' split
      all_goals omega
    let f' : Nat → Nat := fun i => if i ≤ (logN M qs n).length then f i else g (st (i - (logN M qs n).length))
    have f'_lo : ∀ i, i ≤ (logN M qs n).length → f' i = f i := fun i hi => if_pos hi
    have f'_hi : ∀ i, (logN M qs n).length ≤ i → f' i = g (st (i - (logN M qs n).length)) := by
      intro i hi
      by_cases he : i = (logN M qs n).length
      · rw [f'_lo i (by omega), he, Nat.sub_self, s0]; simp [g]
      · exact if_neg (by omega)
    have hfl : (flatRun M (qs.take (n + 1))).1 = (flatStep (flatRun M (qs.take n)).1 qs[n]).1 := by
      rw [List.take_succ_eq_append_getElem (by omega : n < qs.length), flatRun_append]; rfl
    have hle : ∀ m, m ≤ n → (logN M qs m).length ≤ (logN M qs n).length := fun m hm =>
      (logN_mono M qs hm (by omega)).length_le
    refine ⟨f', ?_, ?_, ?_, ?_⟩
    · intro i j hij
      by_cases hj : j ≤ (logN M qs n).length
      · rw [f'_lo i (by omega), f'_lo j hj]; exact hf.mono i j hij
      · rw [f'_hi j (by omega)]
        by_cases hi : i ≤ (logN M qs n).length
        · rw [f'_lo i hi]
          refine Nat.le_trans (hf.mono i _ hi) ?_
          have := gm 0 (st (j - (logN M qs n).length)) (Nat.zero_le _)
          simpa [g] using this
        · rw [f'_hi i (by omega)]
          exact gm _ _ (smono _ _ (by omega))
    · intro m hm
      by_cases hmn : m ≤ n
      · rw [f'_lo _ (hle m hmn)]; exact hf.upper m hmn
      · have : m = n + 1 := by omega
        subst this
        rw [f'_hi _ (by rw [hL]; simp)]
        simp only [g]
        repeat' split
        all_goals omega
    · intro i hi
      by_cases hin : i ≤ (logN M qs n).length
      · rw [f'_lo i hin, hL, List.take_append_of_le_length hin]
        exact hf.same i hin
      · have hi2 : i - (logN M qs n).length ≤ x.2.2.length := by
          rw [hL, List.length_append] at hi; omega
        have e : (memRun M (memMsgs ((logN M qs (n + 1)).take i))).1 =
            (memRun ((L1.init p).ops M (qs.take n)).2.1 (memMsgs (x.2.2.take (i - (logN M qs n).length)))).1 := by
          rw [hL, List.take_append, List.take_of_length_le (by omega), memMsgs_append, memRun_append, hom]
          rfl
        rw [e, f'_hi i (by omega)]
        obtain ⟨h0, h1, h2⟩ := ssame _ hi2
        generalize st (i - (logN M qs n).length) = s at *
        by_cases hs0 : s = 0
        · have hg : g s = f (logN M qs n).length := by simp [g, hs0]
          rw [hg]
          refine (h0 hs0).trans ?_
          have := hf.same (logN M qs n).length (Nat.le_refl _)
          rw [List.take_length] at this
          rw [hom]; exact this
        · by_cases hs1 : s = 1
          · have hg : g s = n := by simp [g, hs1]
            rw [hg]; exact h1 hs1
          · have hg : g s = n + 1 := by simp [g, hs0, hs1]
            rw [hg, hfl]; exact h2 (by omega)
    · intro m hm hd
      by_cases hmn : m < n
      · rw [f'_lo _ (hle (m + 1) hmn)]; exact hf.lower m hmn hd
      · have : m = n := by omega
        subst this
        rw [hops] at hd
        have := slow hd
        rw [f'_hi _ (by rw [hL]; simp)]
        have e : (logN M qs (m + 1)).length - (logN M qs m).length = x.2.2.length := by
          rw [hL, List.length_append]; omega
        rw [e]
        simp only [g]
        rw [if_neg (by omega), if_neg (by omega)]; omega

/-! ## Executions -/

/-- The part of the log that memory has executed (responses count as executed
when they are emitted). Proof device; not in the source. -/
structure Done (M0 : ByteMem) (T : ESys Unit p) (tr : List (Ev Unit p)) (D : List (Msg p)) : Prop where
  eq : emitted () tr = D ++ (T.reqQ ()).map Msg.mem
  mem : T.mem = (memRun M0 (memMsgs D)).1

theorem Done.step {M0 : ByteMem} {T T' : ESys Unit p} {tr ev : List (Ev Unit p)} {D : List (Msg p)}
    (h : Done M0 T tr D) (hs : EStep T ev T') : ∃ D', D <+: D' ∧ Done M0 T' (tr ++ ev) D' := by
  obtain ⟨he, hm⟩ := h
  cases hs with
  | acc k q => exact ⟨D, List.prefix_rfl, by simpa [emitted] using he, hm⟩
  | deliver k r l hl => exact ⟨D, List.prefix_rfl, by simpa using he, hm⟩
  | emitMem k m E' hE =>
    refine ⟨D, List.prefix_rfl, ?_, hm⟩
    have e2 : emitted () [(.mreq k m : Ev Unit p)] = [.mem m] := rfl
    rw [emitted_append, he, e2]; simp
  | emitResp k r E' hE hr hs =>
    refine ⟨D ++ [.resp r], List.prefix_append _ _, ?_, ?_⟩
    · have e2 : emitted () [(.resp k r : Ev Unit p)] = [.resp r] := rfl
      have hr : T.reqQ () = [] := hr
      rw [emitted_append, he, e2]; simp [hr]
    · simpa using hm
  | exec k m ms hq =>
    refine ⟨D ++ [.mem m], List.prefix_append _ _, ?_, ?_⟩
    · have e2 : ∀ r, emitted () [(.exec k m r : Ev Unit p)] = [] := fun _ => rfl
      have hq : T.reqQ () = m :: ms := hq
      rw [emitted_append, he, e2]; simp [hq]
    · simp only [memMsgs_append, memRun_append, hm, memMsgs_mem, memMsgs_nil, memRun]

theorem Done.run {M0 : ByteMem} {T T' : ESys Unit p} {tr tr' : List (Ev Unit p)} {D : List (Msg p)}
    (h : Done M0 T tr D) (hs : ERun T tr' T') : ∃ D', D <+: D' ∧ Done M0 T' (tr ++ tr') D' := by
  induction hs with
  | refl => exact ⟨D, List.prefix_rfl, by simpa using h⟩
  | snoc _ hs ih =>
    obtain ⟨D', h1, h2⟩ := ih
    obtain ⟨D'', h3, h4⟩ := h2.step hs
    exact ⟨D'', h1.trans h3, by rw [← List.append_assoc]; exact h4⟩

end Verif
