import Verif.Segs
import Verif.Addr
import Verif.Word

/-!
# Malformed requests do not harm other lines

Requests that are not `CReq.Valid` (unaligned, odd length, multi-word write,
unaligned AMO) are accepted by the hardware.  This file proves that coherence of
every line they do not address survives them.
-/

namespace Verif
variable {p : Params} {P : Bits p}

/-- An arbitrary change of a valid entry of a line outside `P`. -/
theorem Coh.other {L : L1 p} {V SV} (h : Coh P L V SV) {w : Way} (hw : w ∈ p.ways) (j : Idx p)
    (hv : (L.ent w j).val = true) (hP : ∀ i, ¬ P ⟨(L.ent w j).tag, j⟩ i) (d : Dty p) (l : Line p) :
    Coh P { L with
        ent := setAt L.ent w j ⟨true, d, (L.ent w j).tag⟩
        dat := setAt L.dat w j l } V SV := by
  refine ⟨?_, ?_, ?_⟩
  · intro w' hw' j' i hi hP' hp
    by_cases hwj : w' = w ∧ j' = j
    · obtain ⟨rfl, rfl⟩ := hwj
      simp only [setAt_same] at hP'
      exact absurd hP' (hP i)
    · simp only [setAt_ne _ _ hwj] at hp hP' ⊢
      exact h.hitc w' hw' j' i hi hP' hp
  · intro la i hi hP' hc
    apply h.memc la i hi hP'
    intro w' hw' ht
    by_cases hwj : w' = w ∧ la.idx = j
    · obtain ⟨rfl, hj⟩ := hwj
      exfalso
      have : la = ⟨(L.ent w' j).tag, j⟩ := by
        cases la; simp only at hj ht; subst hj; rw [ht]
      rw [this] at hP'
      exact hP i hP'
    · have := hc w' hw'
      simp only [setAt_ne _ _ hwj] at this
      exact this ht
  · intro w1 hw1 w2 hw2 j' h1 h2 ht
    have key : ∀ w', (setAt L.ent w j ⟨true, d, (L.ent w j).tag⟩ w' j').Present →
        (L.ent w' j').Present ∧
        (setAt L.ent w j ⟨true, d, (L.ent w j).tag⟩ w' j').tag = (L.ent w' j').tag := by
      intro w' hp
      by_cases hwj : w' = w ∧ j' = j
      · obtain ⟨rfl, rfl⟩ := hwj
        rw [setAt_same]; exact ⟨.inl hv, rfl⟩
      · rw [setAt_ne _ _ hwj] at hp ⊢
        exact ⟨hp, rfl⟩
    have k1 := key w1 h1
    have k2 := key w2 h2
    simp only at ht
    rw [k1.2, k2.2] at ht
    exact h.uniq w1 hw1 w2 hw2 j' k1.1 k2.1 ht

/-- Completion of a refill for a read, or for a write of a line outside `P`. -/
theorem fill_other {L : L1 p} {V SV : LAddr p → Line p} {q : CReq p} {w : Way} {d : Dty p}
    (hw : w ∈ p.ways) (hc : L.cur = .fill q w d)
    (h : Coh P { L with ent := setAt L.ent w q.addr.idx ⟨false, d, q.addr.tag⟩ } V SV)
    (hoth : ∀ w' ∈ p.ways, w' ≠ w → (L.ent w' q.addr.idx).Present → (L.ent w' q.addr.idx).tag ≠ q.addr.tag)
    (hP : q.ty = MT.WRITE → ∀ i, ¬ P q.addr.la i) :
    Coh P (L.answer (V q.addr.la)).1 V SV := by
  have hf := h.fill hw q.addr.idx (by
    intro w' hw' hne
    simp only [setAt_same, setAt_ne _ _ (fun hx : w' = w ∧ q.addr.idx = q.addr.idx => hne hx.1)]
    exact hoth w' hw' hne)
  simp only [setAt_same, setAt_setAt] at hf
  by_cases ty : q.ty = MT.WRITE
  · have hs := hf.other hw q.addr.idx (by simp only [setAt_same])
      (by simp only [setAt_same]; exact hP ty) (markDirty p d q.addr.off q.len)
      (writeLine q (merge (~~~ expand p d) (L.dat w q.addr.idx) (V q.addr.la)))
    simp only [setAt_same, setAt_setAt] at hs
    simp only [L1.answer, hc, ty, if_true]
    exact hs.congr rfl rfl
  · simp only [L1.answer, hc, ty, if_false]
    exact hf.congr rfl rfl

/-- A read of any shape, or a write of any shape to a line outside `P`. -/
theorem op_rw_other {A : L1 p} {M : ByteMem} {SV : LAddr p → Line p} {q : CReq p}
    (h : Coh P A (view M) SV) (hok : A.Ok)
    (hc : A.cur = .idle) (hrw : q.ty = MT.READ ∨ q.ty = MT.WRITE)
    (hP : q.ty = MT.WRITE → ∀ i, ¬ P q.addr.la i) :
    Coh P (A.op M q).1 (view (A.op M q).2.1) SV := by
  have hw := A.lookup_way_mem q.addr
  have hacc : A.accept q = A.rw q := by simp only [L1.accept]; rw [if_pos hrw]
  simp only [L1.op, hacc]
  cases lookup_cases (h.uniqAt q.addr.idx) with
  | hit hh hi hval ht =>
    rw [rw_hit hh]
    simp only [memMsgs_resp, memMsgs_nil, memRun]
    rw [answer_of_idle (by exact hc)]
    by_cases ty : q.ty = MT.WRITE
    · have hs := h.other hw q.addr.idx hval (by rw [ht]; exact hP ty)
      rw [ht] at hs
      cases hwd : wordDirty p (A.ent (A.lookup q.addr).way q.addr.idx) q.addr.off q.len
      · refine (hs (markDirty p (A.ent (A.lookup q.addr).way q.addr.idx).dty q.addr.off q.len)
          (writeLine q (A.dat (A.lookup q.addr).way q.addr.idx))).congr ?_ ?_
        · simp only [ty, hi, hval, true_and, if_true]
        · simp only [ty, if_true]
      · refine (hs (A.ent (A.lookup q.addr).way q.addr.idx).dty
          (writeLine q (A.dat (A.lookup q.addr).way q.addr.idx))).congr ?_ ?_
        · simp only [Bool.true_eq_false, and_false, if_false]
          rw [setAt_self]
          cases he : A.ent (A.lookup q.addr).way q.addr.idx
          rw [he] at hval ht
          simp only at hval ht ⊢
          rw [hval, ht]
        · simp only [ty, if_true]
    · exact h.congr (by simp [ty]) (by simp [ty])
  | inval hh hi hval hd ht =>
    rw [rw_inval hh hi]
    simp only [memMsgs_mem, memMsgs_nil, memRun, exec_rd, lastData, List.getLast?_singleton, Option.map_some,
      Option.getD_some]
    exact fill_other (L := { A with
        rep := setRep A.rep q.addr.idx
          (replPolicy p true true (A.lookup q.addr).way (A.rep q.addr.idx))
        cur := .fill q (A.lookup q.addr).way (A.ent (A.lookup q.addr).way q.addr.idx).dty })
      (V := view M) hw rfl (by
        refine h.congr ?_ rfl
        simp only
        rw [setAt_self]
        cases he : A.ent (A.lookup q.addr).way q.addr.idx
        rw [he] at hval ht
        simp only at hval ht ⊢
        rw [hval, ht]) (by
        intro w' hw' hne hp ht'
        exact hne (h.uniq w' hw' _ hw _ hp (.inr hd) (by simp only at ht'; rw [ht', ht]))) hP
  | miss hh hi hn =>
    rw [rw_miss hh hi]
    simp only [memMsgs_append, memMsgs_mem, memMsgs_nil, memRun_append]
    have hev := h.evict (hok.rep q.addr.idx) q.addr.idx ⟨false, 0, q.addr.tag⟩ rfl (by simp)
    rw [← view_wb] at hev
    generalize hM' : (memRun M (memMsgs (if (A.ent (A.rep q.addr.idx) q.addr.idx).dty != 0 then
        [A.wb (A.rep q.addr.idx) q.addr.idx] else []))).1 = M' at hev ⊢
    have hf := fill_other (L := { A with
        rep := setRep A.rep q.addr.idx
          (replPolicy p true false (A.lookup q.addr).way (A.rep q.addr.idx))
        cur := .fill q (A.rep q.addr.idx) 0 })
      (V := view M') (hok.rep q.addr.idx) rfl (hev.congr rfl rfl)
      (fun w' hw' _ => hn w' hw') hP
    simp only [memRun, exec_rd]
    rw [lastData_append_ne (by simp)]
    simp only [lastData, List.getLast?_singleton, Option.map_some, Option.getD_some]
    exact hf

/-- A store leaves the lines it does not overlap unchanged. -/
theorem view_write_other (M : ByteMem) (a n v : Nat) (la : LAddr p)
    (h : ∀ x, a ≤ x → x < a + n → x / 2 ^ p.offBits ≠ la.num) : view (writeLE M a n v) la = view M la := by
  apply BitVec.eq_of_getLsbD_eq
  intro i hi
  have hb : i / 8 < 2 ^ p.offBits := by rw [lineBits_eq] at hi; omega
  rw [getLsbD_view _ _ _ hi, getLsbD_view _ _ _ hi]
  simp only [writeLE]
  split
  · rename_i hx
    exfalso
    apply h _ hx.1 hx.2
    rw [Nat.add_comm, Nat.add_mul_div_right _ _ (Nat.two_pow_pos _), Nat.div_eq_of_lt hb, Nat.zero_add]
  · rfl

/-- An AMO of any shape that does not touch a line of `P`. -/
theorem op_amo_other {A : L1 p} {M : ByteMem} {SV : LAddr p → Line p} {q : CReq p}
    (h : Coh P A (view M) SV) (ty : MT.isAmo q.ty = true)
    (hP : ∀ la i, P la i → ∀ x, q.addr.flat ≤ x → x < q.addr.flat + 4 → x / 2 ^ p.offBits ≠ la.num) :
    Coh P (A.op M q).1 (view (A.op M q).2.1) SV := by
  have t1 : q.ty ≠ MT.READ := by intro h; rw [h] at ty; simp [MT.isAmo] at ty
  have t2 : q.ty ≠ MT.WRITE := by intro h; rw [h] at ty; simp [MT.isAmo] at ty
  have hacc : A.accept q = A.amo q := by simp [L1.accept, t1, t2, ty]
  have hw := A.lookup_way_mem q.addr
  have hcoh : ∃ M', (memRun M (memMsgs (A.amo q).2)).1 = (memExec M' (.amo q)).1 ∧
      Coh P ((A.amo q).1.answer (lastData (memRun M (memMsgs (A.amo q).2)).2)).1 (view M') SV := by
    simp only [L1.amo, L1.answer, memMsgs_append, memMsgs_mem, memMsgs_nil, memRun_append, memRun]
    cases lookup_cases (h.uniqAt q.addr.idx) with
    | hit hh hi hval ht =>
      refine ⟨_, rfl, ?_⟩
      simp only [hh, Bool.true_or, Bool.and_true, if_true]
      rw [view_wb]
      exact (h.evict hw q.addr.idx ⟨false, 0, q.addr.tag⟩ rfl (by simp)).congr rfl rfl
    | inval hh hi hval hd ht =>
      refine ⟨_, rfl, ?_⟩
      simp only [hi, Bool.or_true, Bool.and_true, if_true]
      rw [view_wb]
      exact (h.evict hw q.addr.idx ⟨false, 0, q.addr.tag⟩ rfl (by simp)).congr rfl rfl
    | miss hh hi hn =>
      refine ⟨_, rfl, ?_⟩
      simp only [hh, hi, Bool.or_false, Bool.and_false, Bool.false_eq_true, if_false, memMsgs_nil, memRun]
      exact h.congr rfl rfl
  obtain ⟨M', hM, hC⟩ := hcoh
  simp only [L1.op, hacc]
  rw [hM]
  refine hC.congr_bits rfl (fun _ _ _ _ _ _ _ => rfl) ?_ (fun _ _ _ _ => rfl)
  intro la i hi hp
  simp only [memExec, MReq.amo, t1, t2, if_false]
  rw [view_write_other _ _ _ _ _ (hP la i hp)]

/-- Byte `x` lies in a line that the malformed request `q` may corrupt: a write
of a shape outside `CReq.Valid` may corrupt its own line, such an atomic
operation the one or two lines its four bytes lie in.  Reads, INV and FLUSH
harm nothing whatever their length and alignment. -/
def Harms (q : CReq p) (x : Nat) : Prop :=
  ¬ q.Valid ∧
  (q.ty = MT.WRITE ∧ x / 2 ^ p.offBits = q.addr.flat / 2 ^ p.offBits ∨
   MT.isAmo q.ty = true ∧ ∃ y, q.addr.flat ≤ y ∧ y < q.addr.flat + 4 ∧
     x / 2 ^ p.offBits = y / 2 ^ p.offBits)

/-- Bits of the lines that none of the requests harms. -/
def safeBits (qs : List (CReq p)) : Bits p :=
  fun la _ => ∀ q ∈ qs, ¬ Harms q (la.num * 2 ^ p.offBits)

theorem safeBits_words (qs : List (CReq p)) : (safeBits qs).Words := fun _ _ _ _ h => h

/-- Only the line matters. -/
theorem Harms.line {q : CReq p} {x y : Nat} (h : Harms q x) (hxy : x / 2 ^ p.offBits = y / 2 ^ p.offBits) :
    Harms q y := by
  obtain ⟨h1, h2⟩ := h
  rw [hxy] at h2
  exact ⟨h1, h2⟩

theorem safe_of_flat {qs : List (CReq p)} {a : Addr p} (h : ∀ q ∈ qs, ¬ Harms q a.flat) (i : Nat) :
    safeBits qs a.la i := fun q hq hx =>
  h q hq (hx.line (by rw [a.flat_div, Nat.mul_div_cancel _ (Nat.two_pow_pos _)]))

theorem mul_pow_div (n : Nat) : n * 2 ^ p.offBits / 2 ^ p.offBits = n :=
  Nat.mul_div_cancel _ (Nat.two_pow_pos _)

open Classical in
/-- The valid requests among `qs`. Proof device; not in the source. -/
noncomputable def validOf (qs : List (CReq p)) : List (CReq p) := qs.filter (fun q => decide q.Valid)

/-- **One request of any shape** and the lines it does not harm. -/
theorem op_any_on (wf : p.WF) {A : L1 p} {M S : ByteMem} {q : CReq p} (hW : P.Words)
    (hH : ∀ la i, P la i → ¬ Harms q (la.num * 2 ^ p.offBits))
    (h : Coh P A (view M) (view S))
    (hok : A.Ok) (hc : A.cur = .idle) (hi : q.ty ≠ MT.INIT) :
    Coh P (A.op M q).1 (view (A.op M q).2.1) (view (flatRun S (validOf [q])).1) := by
  by_cases hv : q.Valid
  · have : validOf [q] = [q] := by simp [validOf, hv]
    rw [this]
    exact (op_spec wf hW h hok hc hv).1
  · have : validOf [q] = [] := by simp [validOf, hv]
    rw [this]
    simp only [flatRun]
    by_cases t1 : q.ty = MT.READ
    · exact op_rw_other h hok hc (.inl t1) (by rw [t1]; simp)
    by_cases t2 : q.ty = MT.WRITE
    · refine op_rw_other h hok hc (.inr t2) (fun _ i hP => hH _ i hP ⟨hv, .inl ⟨t2, ?_⟩⟩)
      rw [mul_pow_div, q.addr.flat_div]
    by_cases t3 : MT.isAmo q.ty = true
    · refine op_amo_other h t3 (fun la i hP x h1 h2 h3 => hH la i hP ⟨hv, .inr ⟨t3, x, h1, h2, ?_⟩⟩)
      rw [mul_pow_div, h3]
    · exfalso
      have hlt := q.ty.isLt
      simp only [MT.isAmo, Bool.and_eq_true, decide_eq_true_eq, not_and] at t3
      have e : ∀ n, q.ty.toNat = n → q.ty = BitVec.ofNat 4 n := by
        intro n hn; rw [← hn]; simp
      have h0 : q.ty.toNat ≠ 0 := fun h => t1 (e 0 h)
      have h1 : q.ty.toNat ≠ 1 := fun h => t2 (e 1 h)
      have h2 : q.ty.toNat ≠ 2 := fun h => hi (e 2 h)
      have h14 : q.ty.toNat ≠ 14 := fun h => hv (.inv (e 14 h))
      have h15 : q.ty.toNat ≠ 15 := fun h => hv (.flush (e 15 h))
      omega

/-- **One request of any shape.** -/
theorem op_any (wf : p.WF) {A : L1 p} {M S : ByteMem} {q : CReq p} {qs : List (CReq p)} (hq : q ∈ qs)
    (h : Coh (safeBits qs) A (view M) (view S))
    (hok : A.Ok) (hc : A.cur = .idle) (hi : q.ty ≠ MT.INIT) :
    Coh (safeBits qs) (A.op M q).1 (view (A.op M q).2.1) (view (flatRun S (validOf [q])).1) :=
  op_any_on wf (safeBits_words qs) (fun _ _ hP => hP q hq) h hok hc hi

theorem validOf_cons (q : CReq p) (l : List (CReq p)) : validOf (q :: l) = validOf [q] ++ validOf l := by
  simp only [validOf]
  rw [show q :: l = [q] ++ l from rfl, List.filter_append]

/-- **Request sequences of any shape.** -/
theorem ops_any (wf : p.WF) {A : L1 p} {M S : ByteMem} {qs l : List (CReq p)} (hl : ∀ q ∈ l, q ∈ qs)
    (h : Coh (safeBits qs) A (view M) (view S))
    (hok : A.Ok) (hc : A.cur = .idle) (hi : ∀ q ∈ l, q.ty ≠ MT.INIT) :
    Coh (safeBits qs) (A.ops M l).1 (view (A.ops M l).2.1) (view (flatRun S (validOf l)).1) ∧
    (A.ops M l).1.cur = .idle ∧ (A.ops M l).1.Ok := by
  induction l generalizing A M S with
  | nil => exact ⟨by simpa [validOf, flatRun, L1.ops] using h, hc, hok⟩
  | cons q l ih =>
    have h1 := op_any wf (hl q (by simp)) h hok hc (hi q (by simp))
    rw [validOf_cons, flatRun_append]
    exact ih (fun q hq => hl q (by simp [hq])) h1 (ok_op hok M q) (op_cur _ _ _)
      (fun q hq => hi q (by simp [hq]))

end Verif
