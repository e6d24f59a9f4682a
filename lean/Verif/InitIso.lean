import Verif.InitRefine
import Verif.Isolate

/-!
# WRITE_INIT corrupts at most its own set

`L1.mask` forgets the sets a WRITE_INIT may have corrupted.  Requests to other
sets commute with it, requests to those sets do not change the masked machine.
-/

namespace Verif
variable {p : Params} {P : Bits p}

/-! ## Masking sets -/

/-- The machine without the sets in `B`. Proof device; not in the source. -/
def L1.mask (A : L1 p) (B : Idx p → Bool) : L1 p :=
  { A with
    ent := fun w j => if B j then Entry.zero p else A.ent w j
    dat := fun w j => if B j then 0 else A.dat w j
    rep := fun j => if B j then false else A.rep j }

section
variable {B : Idx p → Bool}

theorem mask_setAt_good {α : Type} (z : α) (f : Way → Idx p → α) (w : Way) {j : Idx p} (hj : B j = false) (a : α) :
    (fun w' j' => if B j' then z else setAt f w j a w' j') = setAt (fun w' j' => if B j' then z else f w' j') w j a := by
  funext w' j'
  simp only [setAt]
  by_cases h : w' = w ∧ j' = j
  · rw [if_pos h, if_pos h, h.2, hj]; rfl
  · rw [if_neg h, if_neg h]

theorem mask_setAt_bad {α : Type} (z : α) (f : Way → Idx p → α) (w : Way) {j : Idx p} (hj : B j = true) (a : α) :
    (fun w' j' => if B j' then z else setAt f w j a w' j') = fun w' j' => if B j' then z else f w' j' := by
  funext w' j'
  simp only [setAt]
  by_cases h : w' = w ∧ j' = j
  · rw [h.2, hj]; rfl
  · rw [if_neg h]

theorem mask_setRep_good (f : Idx p → Way) {j : Idx p} (hj : B j = false) (a : Way) :
    (fun j' => if B j' then false else setRep f j a j') = setRep (fun j' => if B j' then false else f j') j a := by
  funext j'
  simp only [setRep]
  by_cases h : j' = j
  · rw [if_pos h, if_pos h, h, hj]; rfl
  · rw [if_neg h, if_neg h]

theorem mask_setRep_bad (f : Idx p → Way) {j : Idx p} (hj : B j = true) (a : Way) :
    (fun j' => if B j' then false else setRep f j a j') = fun j' => if B j' then false else f j' := by
  funext j'
  simp only [setRep]
  by_cases h : j' = j
  · rw [h, hj]; rfl
  · rw [if_neg h]

theorem mask_lookup (A : L1 p) {a : Addr p} (hj : B a.idx = false) : (A.mask B).lookup a = A.lookup a := by
  simp only [L1.lookup, L1.mask, hj]; rfl

theorem mask_ent (A : L1 p) (w : Way) {j : Idx p} (hj : B j = false) : (A.mask B).ent w j = A.ent w j := by
  simp [L1.mask, hj]
theorem mask_dat (A : L1 p) (w : Way) {j : Idx p} (hj : B j = false) : (A.mask B).dat w j = A.dat w j := by
  simp [L1.mask, hj]
theorem mask_rep (A : L1 p) {j : Idx p} (hj : B j = false) : (A.mask B).rep j = A.rep j := by
  simp [L1.mask, hj]
theorem mask_wb (A : L1 p) (w : Way) {j : Idx p} (hj : B j = false) : (A.mask B).wb w j = A.wb w j := by
  simp [L1.wb, mask_ent, mask_dat, hj]
theorem mask_cur (A : L1 p) : (A.mask B).cur = A.cur := rfl

/-! ## Requests to other sets -/

theorem mask_rw_good (A : L1 p) {q : CReq p} (hj : B q.addr.idx = false) :
    (A.mask B).rw q = ((A.rw q).1.mask B, (A.rw q).2) := by
  have hl := mask_lookup (B := B) A hj
  cases hh : (A.lookup q.addr).hit
  · cases hi : (A.lookup q.addr).inval
    · rw [rw_miss hh hi, rw_miss (by rw [hl]; exact hh) (by rw [hl]; exact hi), hl]
      simp only [mask_ent _ _ hj, mask_rep _ hj, mask_wb _ _ hj]
      simp only [L1.mask, mask_setRep_good _ hj]
    · rw [rw_inval hh hi, rw_inval (by rw [hl]; exact hh) (by rw [hl]; exact hi), hl]
      simp only [mask_ent _ _ hj, mask_rep _ hj]
      simp only [L1.mask, mask_setRep_good _ hj]
  · rw [rw_hit hh, rw_hit (by rw [hl]; exact hh), hl]
    simp only [mask_ent _ _ hj, mask_dat _ _ hj, mask_rep _ hj]
    simp only [L1.mask, mask_setRep_good _ hj]
    congr 2
    · split
      · rw [mask_setAt_good _ _ _ hj]
      · rfl
    · split
      · rw [mask_setAt_good _ _ _ hj]
      · rfl

theorem mask_amo_good (A : L1 p) {q : CReq p} (hj : B q.addr.idx = false) :
    (A.mask B).amo q = ((A.amo q).1.mask B, (A.amo q).2) := by
  have hl := mask_lookup (B := B) A hj
  simp only [L1.amo, hl, mask_ent _ _ hj, mask_rep _ hj, mask_wb _ _ hj]
  simp only [L1.mask]
  congr 2
  split
  · rw [mask_setRep_good _ hj]
  · rfl

theorem mask_answer_good (A : L1 p) (l : Line p) (hc : ∀ q w d, A.cur = .fill q w d → B q.addr.idx = false)
    (hc' : ∀ q h w, A.cur = .amo q h w → B q.addr.idx = false) :
    (A.mask B).answer l = ((A.answer l).1.mask B, (A.answer l).2) := by
  simp only [L1.answer, mask_cur]
  cases h : A.cur with
  | idle => rfl
  | fill q w d =>
    have hj := hc q w d h
    simp only [mask_dat _ _ hj]
    split
    · simp only [L1.mask, mask_setAt_good _ _ _ hj]
    · simp only [L1.mask, mask_setAt_good _ _ _ hj]
  | amo q hh w =>
    have hj := hc' q hh w h
    simp only [L1.mask]
    congr 2
    split
    · rw [mask_setAt_good _ _ _ hj]
    · rfl

/-- The pending request is the accepted one. -/
theorem accept_cur_fill {A : L1 p} (hc : A.cur = .idle) {q q' : CReq p} {w : Way} {d : Dty p}
    (h : (A.accept q).1.cur = .fill q' w d) : q' = q := by
  simp only [L1.accept] at h
  split at h
  · cases hh : (A.lookup q.addr).hit
    · cases hi : (A.lookup q.addr).inval
      · rw [rw_miss hh hi] at h; cases h; rfl
      · rw [rw_inval hh hi] at h; cases h; rfl
    · rw [rw_hit hh] at h; simp only [hc] at h; cases h
  split at h
  · simp only [L1.amo] at h; cases h
  split at h
  · simp only [hc] at h; cases h
  split at h
  · simp only [hc] at h; cases h
  · rw [hc] at h; cases h

theorem accept_cur_amo {A : L1 p} (hc : A.cur = .idle) {q q' : CReq p} {x : Bool} {w : Way}
    (h : (A.accept q).1.cur = .amo q' x w) : q' = q := by
  simp only [L1.accept] at h
  split at h
  · cases hh : (A.lookup q.addr).hit
    · cases hi : (A.lookup q.addr).inval
      · rw [rw_miss hh hi] at h; cases h
      · rw [rw_inval hh hi] at h; cases h
    · rw [rw_hit hh] at h; simp only [hc] at h; cases h
  split at h
  · simp only [L1.amo] at h; cases h; rfl
  split at h
  · simp only [hc] at h; cases h
  split at h
  · simp only [hc] at h; cases h
  · rw [hc] at h; cases h

/-- **A request to another set, or INV,** does the same on the masked machine. -/
theorem mask_op_good {A : L1 p} (hc : A.cur = .idle) (M : ByteMem) {q : CReq p}
    (hj : q.ty = MT.INV ∨ B q.addr.idx = false) (hf : q.ty ≠ MT.FLUSH) :
    (A.mask B).op M q = ((A.op M q).1.mask B, (A.op M q).2) := by
  by_cases hi : q.ty = MT.INV
  · have e : ∀ X : L1 p, X.accept q =
        ({ X with ent := fun w j => { X.ent w j with val := false } }, [.resp (mkResp q false 0)]) := by
      intro X; simp [L1.accept, hi]
    simp only [L1.op, e, memMsgs_resp, memMsgs_nil, memRun]
    rw [answer_of_idle (by exact hc), answer_of_idle (by exact hc)]
    simp only [L1.mask]
    congr 2
    funext w j
    split <;> rfl
  · have hj : B q.addr.idx = false := by
      rcases hj with h | h
      · exact absurd h hi
      · exact h
    have ha : (A.mask B).accept q = ((A.accept q).1.mask B, (A.accept q).2) := by
      simp only [L1.accept, hi, hf, if_false]
      split
      · exact mask_rw_good A hj
      split
      · exact mask_amo_good A hj
      · rfl
    simp only [L1.op, ha]
    rw [mask_answer_good]
    · intro q' w d h; rw [accept_cur_fill hc h]; exact hj
    · intro q' x w h; rw [accept_cur_amo hc h]; exact hj

/-! ## Requests to the masked sets -/

theorem mask_rw_bad (A : L1 p) {q : CReq p} (hj : B q.addr.idx = true) :
    (A.rw q).1.mask B = { A.mask B with cur := (A.rw q).1.cur } := by
  cases hh : (A.lookup q.addr).hit
  · cases hi : (A.lookup q.addr).inval
    · rw [rw_miss hh hi]; simp only [L1.mask, mask_setRep_bad _ hj]
    · rw [rw_inval hh hi]; simp only [L1.mask, mask_setRep_bad _ hj]
  · rw [rw_hit hh]; simp only [L1.mask, mask_setRep_bad _ hj]
    congr 1
    · split
      · rw [mask_setAt_bad _ _ _ hj]
      · rfl
    · split
      · rw [mask_setAt_bad _ _ _ hj]
      · rfl

theorem mask_amo_bad (A : L1 p) {q : CReq p} (hj : B q.addr.idx = true) :
    (A.amo q).1.mask B = { A.mask B with cur := (A.amo q).1.cur } := by
  simp only [L1.amo, L1.mask]
  congr 1
  split
  · rw [mask_setRep_bad _ hj]
  · rfl

theorem mask_answer_bad (A : L1 p) (l : Line p) (hc : ∀ q w d, A.cur = .fill q w d → B q.addr.idx = true)
    (hc' : ∀ q h w, A.cur = .amo q h w → B q.addr.idx = true) :
    (A.answer l).1.mask B = { A.mask B with cur := .idle } := by
  simp only [L1.answer]
  cases h : A.cur with
  | idle => simp only [L1.mask, h]
  | fill q w d =>
    have hj := hc q w d h
    simp only
    split
    · simp only [L1.mask, mask_setAt_bad _ _ _ hj]
    · simp only [L1.mask, mask_setAt_bad _ _ _ hj]
  | amo q hh w =>
    have hj := hc' q hh w h
    simp only [L1.mask]
    congr 1
    split
    · rw [mask_setAt_bad _ _ _ hj]
    · rfl

theorem isFill_rw (t : MType) (h : t ≠ MT.INIT) (h1 : t ≠ MT.INV) (h2 : t ≠ MT.FLUSH) :
    t = MT.READ ∨ t = MT.WRITE ∨ MT.isAmo t = true := by
  revert t; decide

/-- **A request to a masked set** leaves the masked machine as it is. -/
theorem mask_op_bad {A : L1 p} (hc : A.cur = .idle) (M : ByteMem) {q : CReq p} (hj : B q.addr.idx = true)
    (hi : q.ty ≠ MT.INV) (hf : q.ty ≠ MT.FLUSH) :
    (A.op M q).1.mask B = A.mask B := by
  have ha : (A.accept q).1.mask B = { A.mask B with cur := (A.accept q).1.cur } := by
    simp only [L1.accept, hi, hf, if_false]
    split
    · exact mask_rw_bad A hj
    · split
      · exact mask_amo_bad A hj
      · rfl
  simp only [L1.op]
  rw [mask_answer_bad, ha]
  · simp only [L1.mask, hc]
  · intro q' w d h; rw [accept_cur_fill hc h]; exact hj
  · intro q' x w h; rw [accept_cur_amo hc h]; exact hj

/-- Memory outside the set and the bytes of an AMO. -/
theorem view_op_other (A : L1 p) (M : ByteMem) {q : CReq p} {la : LAddr p} (hla : la.idx ≠ q.addr.idx)
    (hn : q.ty ≠ MT.INIT) (hi : q.ty ≠ MT.INV) (hf : q.ty ≠ MT.FLUSH)
    (hP : MT.isAmo q.ty = true → ∀ x, q.addr.flat ≤ x → x < q.addr.flat + 4 → x / 2 ^ p.offBits ≠ la.num) :
    view (A.op M q).2.1 la = view M la := by
  have hwb : ∀ w, view (memRun M (memMsgs (if (A.ent w q.addr.idx).dty != 0 then
      [A.wb w q.addr.idx] else []))).1 la = view M la := by
    intro w
    rw [view_wb]
    simp only [wbView]
    rw [if_neg]
    rintro rfl; exact hla rfl
  simp only [L1.op]
  rcases isFill_rw q.ty hn hi hf with ty | ty | ty
  · have hacc : A.accept q = A.rw q := by simp [L1.accept, ty]
    rw [hacc]
    cases hh : (A.lookup q.addr).hit
    · cases hi : (A.lookup q.addr).inval
      · rw [rw_miss hh hi]
        simp only [memMsgs_append, memMsgs_mem, memMsgs_nil, memRun_append, memRun, exec_rd]
        exact hwb _
      · rw [rw_inval hh hi]
        simp only [memMsgs_mem, memMsgs_nil, memRun, exec_rd]
    · rw [rw_hit hh]; rfl
  · have hacc : A.accept q = A.rw q := by simp [L1.accept, ty]
    rw [hacc]
    cases hh : (A.lookup q.addr).hit
    · cases hi : (A.lookup q.addr).inval
      · rw [rw_miss hh hi]
        simp only [memMsgs_append, memMsgs_mem, memMsgs_nil, memRun_append, memRun, exec_rd]
        exact hwb _
      · rw [rw_inval hh hi]
        simp only [memMsgs_mem, memMsgs_nil, memRun, exec_rd]
    · rw [rw_hit hh]; rfl
  · have t1 : q.ty ≠ MT.READ := by intro h; rw [h] at ty; simp [MT.isAmo] at ty
    have t2 : q.ty ≠ MT.WRITE := by intro h; rw [h] at ty; simp [MT.isAmo] at ty
    have hacc : A.accept q = A.amo q := by simp [L1.accept, t1, t2, ty]
    rw [hacc]
    simp only [L1.amo, memMsgs_append, memMsgs_mem, memMsgs_nil, memRun_append, memRun]
    have hx : ∀ M' : ByteMem, view (memExec M' (.amo q)).1 la = view M' la := by
      intro M'
      simp only [memExec, MReq.amo, t1, t2, if_false]
      exact view_write_other _ _ _ _ _ (hP ty)
    rw [hx]
    cases h : ((A.lookup q.addr).hit || (A.lookup q.addr).inval)
    · simp [memRun]
    · simp only [Bool.and_true]; exact hwb _

/-- The flat memory outside the set. -/
theorem view_flat_other (wf : p.WF) (S : ByteMem) {q : CReq p} (hv : q.Valid) {la : LAddr p}
    (hla : la.idx ≠ q.addr.idx) : view (flatStep S q).1 la = view S la := by
  have hne : la ≠ q.addr.la := by rintro rfl; exact hla rfl
  by_cases ty : q.ty = MT.WRITE
  · obtain ⟨n, hst, hf⟩ := valid_write wf hv ty S
    rw [hf, view_putBytes _ _ _ _ hst.fits]
    simp only [putView, if_neg hne]
  · cases hv with
    | read ty => simp [flatStep, ty]
    | write ty' => exact absurd ty' ty
    | dword ty' => exact absurd ty' ty
    | amo ty' len al =>
      obtain ⟨t1, t2, t3, _, _⟩ := amo_ty ty'
      have hfit : q.addr.off.toNat + 4 ≤ 2 ^ p.offBits := by
        have h2 : 2 ≤ p.offBits := by simp only [Params.offBits]; omega
        exact fits_line (k := 2) h2 (dvd_off (q := q) (k := 2) h2 al)
      simp only [flatStep, t1, t2, t3, if_false, if_true]
      rw [view_putBytes _ _ _ _ hfit]
      simp only [putView, if_neg hne]
    | inv ty => simp [flatStep, ty, MT.isAmo]
    | flush ty => simp [flatStep, ty, MT.isAmo]

/-! ## FLUSH -/

theorem view_flush_mask (A : L1 p) {M M' : ByteMem} {la : LAddr p} (hj : B la.idx = false)
    (h : view M la = view M' la) (n : Nat) :
    view (memRun M (memMsgs (A.flushMsgs n))).1 la = view (memRun M' (memMsgs ((A.mask B).flushMsgs n))).1 la := by
  induction n generalizing M M' with
  | zero => exact h
  | succ n ih =>
    simp only [L1.flushMsgs, memMsgs_append, memRun_append]
    apply ih
    rw [view_wb, view_wb]
    cases hb : B (cntIdx p (lineNo p n))
    · simp only [mask_ent _ _ hb, mask_dat _ _ hb]
      simp only [wbView, h]
    · have e : (A.mask B).ent (cntWay p (lineNo p n)) (cntIdx p (lineNo p n)) = Entry.zero p := by
        simp [L1.mask, hb]
      rw [e]
      have e2 : (Entry.zero p).dty = 0 := rfl
      rw [e2, wbView_zero]
      simp only [wbView]
      rw [if_neg, h]
      rintro rfl
      simp only at hj
      rw [hj] at hb; cases hb

theorem mask_op_flush {A : L1 p} (hc : A.cur = .idle) (M : ByteMem) {q : CReq p} (ty : q.ty = MT.FLUSH) :
    ((A.mask B).op M q).1 = (A.op M q).1.mask B ∧
    (∀ la : LAddr p, B la.idx = false → view (A.op M q).2.1 la = view ((A.mask B).op M q).2.1 la) ∧
    respMsgs (A.op M q).2.2 = [mkResp q false 0] := by
  have e : ∀ X : L1 p, X.accept q = ({ X with ent := fun w j => { X.ent w j with dty := 0 } },
      X.flushMsgs (2 ^ p.cntBits) ++ [.resp (mkResp q false 0)]) := by
    intro X; simp [L1.accept, ty]
  refine ⟨?_, ?_, ?_⟩
  · simp only [L1.op, e]
    rw [answer_of_idle (by exact hc), answer_of_idle (by exact hc)]
    simp only [L1.mask]
    congr 1
    funext w j
    split <;> rfl
  · intro la hj
    simp only [L1.op, e, memMsgs_append, memMsgs_resp, memMsgs_nil, List.append_nil]
    exact view_flush_mask A hj rfl _
  · simp only [L1.op, e]
    rw [answer_of_idle (by exact hc)]
    simp [respMsgs_flush]

/-- WRITE_INIT touches its own set only. -/
theorem mask_init (A : L1 p) {q : CReq p} (hj : B q.addr.idx = true) (w : Way) (d : Dty p) :
    (A.initOp q w d).1.mask B = A.mask B := by
  simp only [L1.initOp, L1.mask, mask_setRep_bad _ hj, mask_setAt_bad _ _ _ hj]

end

end Verif
