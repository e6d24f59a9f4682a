import Verif.Coh

/-!
# One request on cache and memory agrees with the flat memory

`op_spec`: performing a valid request in one go on a coherent event-level cache
and its memory yields the response of the flat memory and keeps coherence.
-/

namespace Verif
variable {p : Params} {P : Bits p}

theorem setAt_setAt {α : Type} (f : Way → Idx p → α) (w : Way) (j : Idx p) (a b : α) :
    setAt (setAt f w j a) w j b = setAt f w j b := by
  funext w' j'; simp only [setAt]; split <;> rfl

theorem setAt_self {α : Type} (f : Way → Idx p → α) (w : Way) (j : Idx p) (a : α) (h : a = f w j) :
    setAt f w j a = f := by
  funext w' j'; simp only [setAt]; split
  · rename_i hx; rw [hx.1, hx.2, h]
  · rfl

/-! ## Alignment -/

theorem dvd_off {q : CReq p} {k : Nat} (hk : k ≤ p.offBits) (h : 2 ^ k ∣ q.addr.flat) :
    2 ^ k ∣ q.addr.off.toNat := by
  rw [flat_eq] at h
  have h1 : 2 ^ k ∣ q.addr.la.num * 2 ^ p.offBits :=
    Nat.dvd_trans (Nat.pow_dvd_pow 2 hk) (Nat.dvd_mul_left _ _)
  exact (Nat.dvd_add_right h1).1 h

/-- An aligned access stays inside its line. -/
theorem fits_line {off : Off p} {k : Nat} (hk : k ≤ p.offBits) (h : 2 ^ k ∣ off.toNat) :
    off.toNat + 2 ^ k ≤ 2 ^ p.offBits := by
  obtain ⟨c, hc⟩ := h
  obtain ⟨d, hd⟩ := Nat.pow_dvd_pow 2 hk
  have h1 := off.isLt
  rw [hc, hd] at h1 ⊢
  have h2 : c < d := Nat.lt_of_mul_lt_mul_left h1
  calc 2 ^ k * c + 2 ^ k = 2 ^ k * (c + 1) := by rw [Nat.mul_succ]
    _ ≤ 2 ^ k * d := Nat.mul_le_mul_left _ h2

/-! ## Dirty bits of a store -/

theorem getLsbD_setBit (d : Dty p) (n i : Nat) :
    (setBit d n).getLsbD i = (d.getLsbD i || (decide (i < p.nWords) && decide (n = i))) := by
  simp only [setBit, BitVec.getLsbD_or, BitVec.getLsbD_twoPow]
  congr 1
  by_cases h : n = i
  · rw [h]
  · simp [h]

theorem offBits_pow : 2 ^ p.offBits = 4 * 2 ^ p.nwBits := by
  simp only [Params.offBits, Nat.pow_add]; omega

theorem wordOf_toNat (off : Off p) : (wordOf p off).toNat = off.toNat / 4 := by
  have h := off.isLt
  rw [offBits_pow] at h
  simp only [wordOf, BitVec.toNat_setWidth, BitVec.toNat_ushiftRight, Nat.shiftRight_eq_div_pow]
  apply Nat.mod_eq_of_lt
  apply Nat.div_lt_of_lt_mul
  omega

theorem markDirty_mono (d : Dty p) (off : Off p) (len : Len p) (b : Nat) (h : d.getLsbD b = true) :
    (markDirty p d off len).getLsbD b = true := by
  simp only [markDirty]
  split <;> simp [getLsbD_setBit, h]

/-- What the proof needs to know about a store: `n` bytes are replaced and the
dirty bits cover them. Event-level machine, a proof device; not in the source. -/
structure Store (q : CReq p) (n : Nat) : Prop where
  fits : q.addr.off.toNat + n ≤ 2 ^ p.offBits
  line : ∀ l, writeLine q l = putBytes l q.addr.off.toNat n q.data.toNat
  mark : ∀ (d : Dty p) i, i < p.lineBits → 8 * q.addr.off.toNat ≤ i ∧ i < 8 * (q.addr.off.toNat + n) →
    (markDirty p d q.addr.off q.len).getLsbD (i / 32) = true
  dirty : ∀ (e : Entry p), wordDirty p e q.addr.off q.len = true → ∀ i, i < p.lineBits →
    8 * q.addr.off.toNat ≤ i ∧ i < 8 * (q.addr.off.toNat + n) → e.dty.getLsbD (i / 32) = true

theorem store_word (wf : p.WF) {q : CReq p} {k : Nat} (h : q.bytes = 2 ^ k) (hk2 : k ≤ 2)
    (al : 2 ^ k ∣ q.addr.flat) : Store q (2 ^ k) := by
  have hko : k ≤ p.offBits := by simp only [Params.offBits]; omega
  have al' := dvd_off hko al
  have h3 : ¬ q.len.toNat = 3 := by
    rcases bytes_cases h with ⟨h1, _⟩ | ⟨h1, _⟩
    · omega
    · rw [h1]; intro h3
      have : k = 0 ∨ k = 1 ∨ k = 2 := by omega
      rcases this with rfl | rfl | rfl <;> simp at h3
  have hw : ∀ i, i < p.lineBits → 8 * q.addr.off.toNat ≤ i ∧
      i < 8 * (q.addr.off.toNat + 2 ^ k) → i / 32 = (wordOf p q.addr.off).toNat := by
    intro i hi hr
    rw [wordOf_toNat]
    obtain ⟨c, hc⟩ := al'
    have : k = 0 ∨ k = 1 ∨ k = 2 := by omega
    rcases this with rfl | rfl | rfl <;> omega
  refine ⟨fits_line hko al', writeLine_pow wf h al', ?_, ?_⟩
  · intro d i hi hr
    have h1 := hw i hi hr
    have h2 : i / 32 < p.nWords := by simp only [Params.lineBits] at hi; omega
    simp only [markDirty, h3, if_false, getLsbD_setBit, h2, decide_true, Bool.true_and, ← h1, Bool.or_true]
  · intro e he i hi hr
    simp only [wordDirty, h3, if_false] at he
    rw [hw i hi hr]; exact he

theorem store_dword (wf : p.WF) (hp : p.lenBits = 2) {q : CReq p} (h : q.len.toNat = 3)
    (al : 8 ∣ q.addr.flat) : Store q 8 := by
  have hko : 3 ≤ p.offBits := by have := wf.nw; simp only [Params.offBits]; omega
  have al' : 2 ^ 3 ∣ q.addr.off.toNat := dvd_off hko al
  have hf : q.addr.off.toNat + 2 ^ 3 ≤ 2 ^ p.offBits := fits_line hko al'
  have hadd : (wordOf p q.addr.off + 1).toNat = q.addr.off.toNat / 4 + 1 := by
    rw [BitVec.toNat_add, wordOf_toNat]
    have h1 : q.addr.off.toNat / 4 + 1 < 2 ^ p.nwBits := by
      rw [offBits_pow] at hf
      omega
    have h2 : (1 : BitVec p.nwBits).toNat = 1 := by
      have : 1 < 2 ^ p.nwBits := by omega
      simp [Nat.mod_eq_of_lt this]
    rw [h2, Nat.mod_eq_of_lt h1]
  have hw : ∀ i, i < p.lineBits → 8 * q.addr.off.toNat ≤ i ∧
      i < 8 * (q.addr.off.toNat + 8) → i / 32 = (wordOf p q.addr.off).toNat ∨
        i / 32 = (wordOf p q.addr.off + 1).toNat := by
    intro i hi hr
    rw [hadd, wordOf_toNat]
    obtain ⟨c, hc⟩ := al'
    omega
  refine ⟨hf, writeLine_dword hp h al', ?_, ?_⟩
  · intro d i hi hr
    have h2 : i / 32 < p.nWords := by simp only [Params.lineBits] at hi; omega
    simp only [markDirty, h, if_true, getLsbD_setBit, h2, decide_true, Bool.true_and]
    rcases hw i hi hr with h1 | h1 <;> simp [h1]
  · intro e he i hi hr
    simp only [wordDirty, h, if_true, Bool.and_eq_true] at he
    rcases hw i hi hr with h1 | h1 <;> rw [h1]
    · exact he.1
    · exact he.2

/-! ## Effect of the messages -/

theorem view_wb (M : ByteMem) (L : L1 p) (w : Way) (j : Idx p) :
    view (memRun M (memMsgs (if (L.ent w j).dty != 0 then [L.wb w j] else []))).1 =
      wbView (view M) ⟨(L.ent w j).tag, j⟩ (L.ent w j).dty (L.dat w j) := by
  by_cases hd : (L.ent w j).dty = 0
  · rw [hd, wbView_zero]; simp [memRun]
  · have : ((L.ent w j).dty != 0) = true := by rw [bne_iff_ne]; exact hd
    rw [this]
    funext la
    simp only [if_true, L1.wb, memMsgs_mem, memMsgs_nil, memRun, exec_wr_view, wbView]

theorem view_putBytes (S : ByteMem) (q : CReq p) (n v : Nat) (h : q.addr.off.toNat + n ≤ 2 ^ p.offBits) :
    view (writeLE S q.addr.flat n v) = putView (view S) q.addr.la q.addr.off.toNat n v := by
  funext la
  rw [flat_eq, view_write _ _ _ _ _ h]
  rfl

/-- The request is a read or write of a line that is valid in the cache. -/
def L1.isHit (A : L1 p) (q : CReq p) : Bool :=
  decide (q.ty = MT.READ ∨ q.ty = MT.WRITE) && (A.lookup q.addr).hit

/-- Agreement of two results of a request, as far as the bits in `P` are concerned. Event-level machine, a proof device; not in the source. -/
def Agree (P : Bits p) (q : CReq p) (d d' : Data p) : Prop :=
  (q.ty = MT.READ → ∀ i, i < p.dataBits → (i < 8 * q.bytes → P q.addr.la (8 * q.addr.off.toNat + i)) →
    d.getLsbD i = d'.getLsbD i) ∧
  (MT.isAmo q.ty = true → P q.addr.la (8 * q.addr.off.toNat) → d = d') ∧
  (q.ty ≠ MT.READ → MT.isAmo q.ty = false → d = d')

theorem Agree.refl (P : Bits p) (q : CReq p) (d : Data p) : Agree P q d d :=
  ⟨fun _ _ _ _ => rfl, fun _ _ => rfl, fun _ _ => rfl⟩

/-- With all bits constrained the results are equal. -/
theorem Agree.eq {q : CReq p} {d d' : Data p} (h : Agree (Bits.all p) q d d') : d = d' := by
  by_cases h1 : q.ty = MT.READ
  · exact BitVec.eq_of_getLsbD_eq fun i hi => h.1 h1 i hi (fun _ => trivial)
  · cases h2 : MT.isAmo q.ty
    · exact h.2.2 h1 h2
    · exact h.2.1 h2 trivial

/-- The set consists of whole words. Event-level machine, a proof device; not in the source. -/
def Bits.Words (P : Bits p) : Prop := ∀ la i i', i / 32 = i' / 32 → P la i → P la i'

theorem Bits.all_words : (Bits.all p).Words := fun _ _ _ _ _ => trivial

/-- The specification of one request for the combined machine. -/
def OpSpec (P : Bits p) (A : L1 p) (M S : ByteMem) (q : CReq p) : Prop :=
  Coh P (A.op M q).1 (view (A.op M q).2.1) (view (flatStep S q).1) ∧
  (A.op M q).1.cur = .idle ∧
  ∃ d, respMsgs (A.op M q).2.2 = [mkResp q (A.isHit q) d] ∧ Agree P q d (flatStep S q).2

theorem op_cur (A : L1 p) (M : ByteMem) (q : CReq p) : (A.op M q).1.cur = .idle := answer_idle _ _

/-- The data of an aligned read of a line that agrees with the specification. -/
theorem read_spec (wf : p.WF) {q : CReq p} {k : Nat} (h : q.bytes = 2 ^ k) (al : 2 ^ k ∣ q.addr.flat)
    (ty : q.ty = MT.READ) (S : ByteMem) (l : Line p)
    (hl : ∀ i, i < p.lineBits → P q.addr.la i → l.getLsbD i = (view S q.addr.la).getLsbD i) :
    Agree P q (readLine q l) (flatStep S q).2 := by
  have hkl : k ≤ p.lenBits := by rcases bytes_cases h with ⟨_, h1⟩ | ⟨_, h1⟩ <;> omega
  have hko : k ≤ p.offBits := Nat.le_trans hkl wf.fits
  have al' := dvd_off hko al
  have hf := fits_line hko al'
  simp only [flatStep, ty, if_true]
  refine ⟨fun _ i hi hP => ?_, fun hx => by simp [ty, MT.isAmo] at hx, fun hx => absurd ty hx⟩
  rw [h] at hP
  rw [readLine_pow wf h al' _ _ hi, BitVec.getLsbD_ofNat, flat_eq, h, read_view _ _ _ _ _ hf]
  by_cases hk : i < 8 * 2 ^ k
  · simp only [hi, hk, decide_true, Bool.true_and]
    exact hl _ (by rw [lineBits_eq]; omega) (hP hk)
  · simp only [hk, decide_false, Bool.false_and, Bool.and_false]

/-! ## Reads and writes -/

theorem amo_ty {t : MType} (h : 3 ≤ t.toNat ∧ t.toNat ≤ 11) :
    t ≠ MT.READ ∧ t ≠ MT.WRITE ∧ MT.isAmo t = true ∧ t ≠ MT.INV ∧ t ≠ MT.FLUSH := by
  refine ⟨?_, ?_, ?_, ?_, ?_⟩
  · rintro rfl; simp at h
  · rintro rfl; simp at h
  · simp [MT.isAmo]; omega
  · rintro rfl; simp at h
  · rintro rfl; simp at h

/-- A valid write is a store of some bytes, as in the specification. -/
theorem valid_write (wf : p.WF) {q : CReq p} (hv : q.Valid) (ty : q.ty = MT.WRITE) (S : ByteMem) :
    ∃ n, Store q n ∧ flatStep S q = (writeLE S q.addr.flat n q.data.toNat, 0) := by
  cases hv with
  | read ty' => rw [ty] at ty'; simp at ty'
  | write _ k hk hk2 al =>
    refine ⟨2 ^ k, store_word wf hk hk2 al, ?_⟩
    have h3 : ¬ q.len.toNat = 3 := by
      rcases bytes_cases hk with ⟨h1, _⟩ | ⟨h1, _⟩
      · omega
      · rw [h1]; intro h3
        have : k = 0 ∨ k = 1 ∨ k = 2 := by omega
        rcases this with rfl | rfl | rfl <;> simp at h3
    simp only [flatStep, ty, MT.WRITE_ne_READ, if_false, if_true, h3, hk]
  | dword _ len hp al =>
    refine ⟨8, store_dword wf hp len al, ?_⟩
    simp only [flatStep, ty, MT.WRITE_ne_READ, if_false, if_true, len]
  | amo ty' => exact absurd ty (amo_ty ty').2.1
  | inv ty' => rw [ty] at ty'; simp at ty'
  | flush ty' => rw [ty] at ty'; simp at ty'

theorem valid_read {q : CReq p} (hv : q.Valid) (ty : q.ty = MT.READ) :
    ∃ k, q.bytes = 2 ^ k ∧ 2 ^ k ∣ q.addr.flat := by
  cases hv with
  | read _ k hk al => exact ⟨k, hk, al⟩
  | write ty' => rw [ty] at ty'; simp at ty'
  | dword ty' => rw [ty] at ty'; simp at ty'
  | amo ty' => exact absurd ty (amo_ty ty').1
  | inv ty' => rw [ty] at ty'; simp at ty'
  | flush ty' => rw [ty] at ty'; simp at ty'

/-- Completion of a refill: `L2` is the machine with the entry prepared. -/
theorem fill_spec (wf : p.WF) {L : L1 p} {V : LAddr p → Line p} {S : ByteMem} {q : CReq p} {w : Way} {d : Dty p}
    (hw : w ∈ p.ways) (hc : L.cur = .fill q w d)
    (h : Coh P { L with ent := setAt L.ent w q.addr.idx ⟨false, d, q.addr.tag⟩ } V (view S))
    (hoth : ∀ w' ∈ p.ways, w' ≠ w → (L.ent w' q.addr.idx).Present → (L.ent w' q.addr.idx).tag ≠ q.addr.tag)
    (hv : q.Valid) (hrw : q.ty = MT.READ ∨ q.ty = MT.WRITE) :
    Coh P (L.answer (V q.addr.la)).1 V (view (flatStep S q).1) ∧
    ∃ d, (L.answer (V q.addr.la)).2 = [.resp (mkResp q false d)] ∧ Agree P q d (flatStep S q).2 := by
  have hf := h.fill hw q.addr.idx (by
    intro w' hw' hne
    simp only [setAt_same, setAt_ne _ _ (fun hx : w' = w ∧ q.addr.idx = q.addr.idx => hne hx.1)]
    exact hoth w' hw' hne)
  simp only [setAt_same, setAt_setAt] at hf
  rcases hrw with ty | ty
  · simp only [L1.answer, hc, ty, MT.READ_ne_WRITE, if_false]
    have hS : (flatStep S q).1 = S := by simp [flatStep, ty]
    refine ⟨by rw [hS]; exact hf.congr rfl rfl, ?_⟩
    obtain ⟨k, hk, al⟩ := valid_read hv ty
    refine ⟨_, rfl, read_spec wf hk al ty S _ ?_⟩
    intro i hi hP
    have := hf.hitc w hw q.addr.idx i hi (by simp only [setAt_same]; exact hP) (.inl (by simp only [setAt_same]))
    simp only [setAt_same] at this
    exact this
  · obtain ⟨n, hst, hS⟩ := valid_write wf hv ty S
    have hs := hf.store hw q.addr.idx (by simp only [setAt_same]) q.addr.off.toNat n q.data.toNat
      (markDirty p d q.addr.off q.len) (by simp only [setAt_same]; exact markDirty_mono d _ _)
      (by intro i hi hr; exact hst.mark d i hi hr)
    simp only [setAt_same, setAt_setAt] at hs
    simp only [L1.answer, hc, ty, if_true, hS]
    refine ⟨?_, _, rfl, Agree.refl _ _ _⟩
    rw [view_putBytes _ _ _ _ hst.fits]
    refine hs.congr rfl ?_
    simp only [hst.line]; rfl

/-- Read or write. -/
theorem op_rw (wf : p.WF) {A : L1 p} {M S : ByteMem} {q : CReq p} (h : Coh P A (view M) (view S)) (hok : A.Ok)
    (hc : A.cur = .idle) (hv : q.Valid) (hrw : q.ty = MT.READ ∨ q.ty = MT.WRITE) : OpSpec P A M S q := by
  refine ⟨?_, op_cur _ _ _, ?_⟩ <;>
  · have hw := A.lookup_way_mem q.addr
    have hqt : decide (q.ty = MT.READ ∨ q.ty = MT.WRITE) = true := decide_eq_true hrw
    have hacc : A.accept q = A.rw q := by simp only [L1.accept]; rw [if_pos hrw]
    simp only [L1.op, hacc]
    cases lookup_cases (h.uniqAt q.addr.idx) with
    | hit hh hi hval ht =>
      rw [rw_hit hh]
      simp only [memMsgs_resp, memMsgs_nil, memRun]
      rw [answer_of_idle (by exact hc)]
      rcases hrw with ty | ty
      · have hS : (flatStep S q).1 = S := by simp [flatStep, ty]
        obtain ⟨k, hk, al⟩ := valid_read hv ty
        first
        | rw [hS]; exact h.congr (by simp [ty]) (by simp [ty])
        | simp only [L1.isHit, hqt, hh, Bool.true_and]
          simp only [respMsgs_append, respMsgs_resp, respMsgs_nil, List.append_nil, ty, MT.READ_ne_WRITE, if_false]
          refine ⟨_, rfl, read_spec wf hk al ty S _ ?_⟩
          intro i hi hP
          have := h.hitc _ hw q.addr.idx i hi (by rw [ht]; exact hP) (.inl hval)
          rwa [ht] at this
      · obtain ⟨n, hst, hS⟩ := valid_write wf hv ty S
        first
        | rw [hS, view_putBytes _ _ _ _ hst.fits]
          have hs := h.store hw q.addr.idx hval q.addr.off.toNat n q.data.toNat
          rw [ht] at hs
          cases hwd : wordDirty p (A.ent (A.lookup q.addr).way q.addr.idx) q.addr.off q.len
          · refine (hs (markDirty p (A.ent (A.lookup q.addr).way q.addr.idx).dty q.addr.off q.len)
              (markDirty_mono _ _ _) (fun i hi hr => hst.mark _ i hi hr)).congr ?_ ?_
            · simp only [ty, hi, hval, true_and, if_true]
            · simp only [ty, if_true, hst.line]
          · refine (hs (A.ent (A.lookup q.addr).way q.addr.idx).dty (fun _ hb => hb)
              (fun i hi hr => hst.dirty _ hwd i hi hr)).congr ?_ ?_
            · simp only [Bool.true_eq_false, and_false, if_false]
              rw [setAt_self]
              cases he : A.ent (A.lookup q.addr).way q.addr.idx
              rw [he] at hval ht
              simp only at hval ht ⊢
              rw [hval, ht]
            · simp only [ty, if_true, hst.line]
        | simp only [L1.isHit, hqt, hh, Bool.true_and]
          simp only [respMsgs_append, respMsgs_resp, respMsgs_nil, List.append_nil, ty, if_true, hS]
          exact ⟨_, rfl, Agree.refl _ _ _⟩
    | inval hh hi hval hd ht =>
      rw [rw_inval hh hi]
      simp only [memMsgs_mem, memMsgs_nil, memRun, exec_rd, lastData, List.getLast?_singleton, Option.map_some,
        Option.getD_some]
      have hf := fill_spec wf (L := { A with
          rep := setRep A.rep q.addr.idx
            (replPolicy p true true (A.lookup q.addr).way (A.rep q.addr.idx))
          cur := .fill q (A.lookup q.addr).way (A.ent (A.lookup q.addr).way q.addr.idx).dty })
        (V := view M) (S := S) hw rfl (by
          refine h.congr ?_ rfl
          simp only
          rw [setAt_self]
          cases he : A.ent (A.lookup q.addr).way q.addr.idx
          rw [he] at hval ht
          simp only at hval ht ⊢
          rw [hval, ht]) (by
          intro w' hw' hne hp ht'
          exact hne (h.uniq w' hw' _ hw _ hp (.inr hd) (by simp only at ht'; rw [ht', ht]))) hv hrw
      first
      | exact hf.1
      | simp only [L1.isHit, hqt, hh, Bool.true_and]
        obtain ⟨d, hd1, hd2⟩ := hf.2
        exact ⟨d, by rw [hd1]; simp, hd2⟩
    | miss hh hi hn =>
      rw [rw_miss hh hi]
      simp only [memMsgs_append, memMsgs_mem, memMsgs_nil, memRun_append]
      have hev := h.evict (hok.rep q.addr.idx) q.addr.idx ⟨false, 0, q.addr.tag⟩ rfl (by simp)
      rw [← view_wb] at hev
      generalize hM' : (memRun M (memMsgs (if (A.ent (A.rep q.addr.idx) q.addr.idx).dty != 0 then
          [A.wb (A.rep q.addr.idx) q.addr.idx] else []))).1 = M' at hev ⊢
      have hf := fill_spec wf (L := { A with
          rep := setRep A.rep q.addr.idx
            (replPolicy p true false (A.lookup q.addr).way (A.rep q.addr.idx))
          cur := .fill q (A.rep q.addr.idx) 0 })
        (V := view M') (S := S) (hok.rep q.addr.idx) rfl (hev.congr rfl rfl)
        (fun w' hw' _ => hn w' hw') hv hrw
      simp only [memRun, exec_rd]
      rw [lastData_append_ne (by simp)]
      simp only [lastData, List.getLast?_singleton, Option.map_some, Option.getD_some]
      first
      | exact hf.1
      | simp only [L1.isHit, hqt, hh, Bool.true_and]
        obtain ⟨d, hd1, hd2⟩ := hf.2
        refine ⟨d, ?_, hd2⟩
        rw [hd1]
        simp only [respMsgs_append, respMsgs_mem, respMsgs_resp, respMsgs_nil]
        split <;> simp [L1.wb]

/-- INV. -/
theorem op_inv {A : L1 p} {M S : ByteMem} {q : CReq p} (h : Coh P A (view M) (view S))
    (hc : A.cur = .idle) (ty : q.ty = MT.INV) : OpSpec P A M S q := by
  have hacc : A.accept q = ({ A with ent := fun w j => { A.ent w j with val := false } },
      [.resp (mkResp q false 0)]) := by
    simp [L1.accept, ty]
  have hS : flatStep S q = (S, 0) := by simp [flatStep, ty]
  refine ⟨?_, op_cur _ _ _, ?_⟩
  · simp only [L1.op, hacc, memMsgs_resp, memMsgs_nil, memRun, hS]
    rw [answer_of_idle (by exact hc)]
    refine ⟨?_, ?_, ?_⟩
    · intro w hw j i hi hP hp
      simp only [Bool.false_eq_true, false_or] at hp
      exact h.hitc w hw j i hi hP (.inr hp)
    · intro la i hi hP hm; exact h.memc la i hi hP hm
    · intro w hw w' hw' j hp hp' ht
      have key : ∀ w, ({ A.ent w j with val := false } : Entry p).Present → (A.ent w j).Present := by
        intro w hp
        rcases hp with hp | hp
        · simp at hp
        · exact .inr hp
      exact h.uniq w hw w' hw' j (key w hp) (key w' hp') ht
  · simp only [L1.op, hacc, memMsgs_resp, memMsgs_nil, memRun, hS]
    rw [answer_of_idle (by exact hc)]
    exact ⟨0, by simp [L1.isHit, ty], Agree.refl _ _ _⟩

/-! ## Flush -/

/-- The machine with the lines number `0 … n-1` cleaned. -/
def L1.clr (L : L1 p) (n : Nat) : L1 p :=
  { L with ent := fun w j =>
      if w ∈ p.ways ∧ (numOf p w j).toNat < n then { L.ent w j with dty := 0 } else L.ent w j }

theorem Coh.congr_ways {L L' : L1 p} {V SV} (h : Coh P L V SV) (he : ∀ w ∈ p.ways, ∀ j, L'.ent w j = L.ent w j)
    (hd : L'.dat = L.dat) : Coh P L' V SV := by
  refine ⟨?_, ?_, ?_⟩
  · intro w hw j i hi hP hp; rw [he w hw] at hP hp ⊢; rw [hd]; exact h.hitc w hw j i hi hP hp
  · intro la i hi hP hm
    apply h.memc la i hi hP
    intro w hw; have := hm w hw; rwa [he w hw] at this
  · intro w hw w' hw' j; rw [he w hw, he w' hw']; exact h.uniq w hw w' hw' j

theorem respMsgs_flush (L : L1 p) (n : Nat) : respMsgs (L.flushMsgs n) = [] := by
  induction n with
  | zero => rfl
  | succ n ih =>
    simp only [L1.flushMsgs, respMsgs_append, ih, List.append_nil, L1.wb]
    split <;> simp

theorem flush_coh {L : L1 p} {M : ByteMem} {SV} (h : Coh P L (view M) SV) (n : Nat) (hn : n ≤ 2 ^ p.cntBits) :
    Coh P (L.clr n) (view (memRun M (memMsgs (L.flushMsgs n))).1) SV := by
  induction n generalizing L M with
  | zero => simp only [L1.flushMsgs, memMsgs_nil, memRun]; exact h.congr_ways (by simp [L1.clr]) rfl
  | succ n ih =>
    have hln : (lineNo p n).toNat = n := by simp [lineNo, Nat.mod_eq_of_lt (show n < 2 ^ p.cntBits by omega)]
    have hw := cntWay_mem (lineNo p n)
    have hev := h.evict hw (cntIdx p (lineNo p n))
      { L.ent (cntWay p (lineNo p n)) (cntIdx p (lineNo p n)) with dty := 0 } rfl (fun hv => ⟨hv, rfl⟩)
    rw [← view_wb] at hev
    have ih := ih hev (by omega)
    simp only [L1.flushMsgs, memMsgs_append, memRun_append]
    have hfm : ({ L with ent := (setAt L.ent (cntWay p (lineNo p n)) (cntIdx p (lineNo p n))
        ({ L.ent (cntWay p (lineNo p n)) (cntIdx p (lineNo p n)) with dty := 0 } : Entry p)) } : L1 p).flushMsgs n =
        L.flushMsgs n := by
      refine flushMsgs_congr _ L n (by rfl) ?_
      intro c hc
      dsimp only
      rw [setAt_ne]
      intro hx
      have := cnt_ext hx.1 hx.2
      have := congrArg BitVec.toNat this
      rw [hln] at this
      simp only [lineNo, BitVec.toNat_ofNat] at this
      rw [Nat.mod_eq_of_lt (by omega)] at this
      omega
    rw [hfm] at ih
    refine ih.congr_ways ?_ rfl
    intro w hw j
    simp only [L1.clr, hw, true_and]
    by_cases hx : w = cntWay p (lineNo p n) ∧ j = cntIdx p (lineNo p n)
    · obtain ⟨rfl, rfl⟩ := hx
      rw [cnt_numOf, hln]
      simp [setAt_same]
    · rw [setAt_ne _ _ hx]
      have : (numOf p w j).toNat ≠ n := by
        intro hx2
        apply hx
        have : numOf p w j = lineNo p n := BitVec.eq_of_toNat_eq (by rw [hln, hx2])
        rw [← this, cntWay_numOf w j hw, cntIdx_numOf w j hw]; exact ⟨rfl, rfl⟩
      have h2 : (numOf p w j).toNat < n + 1 ↔ (numOf p w j).toNat < n := by omega
      simp only [h2]

/-- FLUSH: in addition, memory now is the specification memory. -/
theorem op_flush {A : L1 p} {M S : ByteMem} {q : CReq p} (h : Coh P A (view M) (view S))
    (hc : A.cur = .idle) (ty : q.ty = MT.FLUSH) :
    OpSpec P A M S q ∧ ∀ (la : LAddr p) i, i < p.lineBits → P la i →
      (view (A.op M q).2.1 la).getLsbD i = (view S la).getLsbD i := by
  have hacc : A.accept q = ({ A with ent := fun w j => { A.ent w j with dty := 0 } },
      A.flushMsgs (2 ^ p.cntBits) ++ [.resp (mkResp q false 0)]) := by
    simp [L1.accept, ty]
  have hS : flatStep S q = (S, 0) := by simp [flatStep, ty]
  have hcoh : Coh P (A.op M q).1 (view (A.op M q).2.1) (view S) := by
    simp only [L1.op, hacc, memMsgs_append, memMsgs_resp, memMsgs_nil, List.append_nil]
    rw [answer_of_idle (by exact hc)]
    refine (flush_coh h _ (Nat.le_refl _)).congr_ways ?_ rfl
    intro w hw j
    simp only [L1.clr, hw, true_and, (numOf p w j).isLt, if_true]
  refine ⟨⟨by rw [hS]; exact hcoh, op_cur _ _ _, ?_⟩, ?_⟩
  · simp only [L1.op, hacc, hS]
    rw [answer_of_idle (by exact hc)]
    exact ⟨0, by simp [L1.isHit, ty, respMsgs_flush], Agree.refl _ _ _⟩
  · intro la i hi hP
    apply hcoh.memc la i hi hP
    intro w hw _
    simp only [L1.op, hacc]
    rw [answer_of_idle (by exact hc)]
    simp

/-! ## Atomic operations -/

/-- AMO on four bytes of one line that `P` contains all or none of. -/
theorem op_amo_in (wf : p.WF) {A : L1 p} {M S : ByteMem} {q : CReq p} (h : Coh P A (view M) (view S))
    (ty : 3 ≤ q.ty.toNat ∧ q.ty.toNat ≤ 11) (hfit : q.addr.off.toNat + 4 ≤ 2 ^ p.offBits)
    (hPP : ∀ i i', 8 * q.addr.off.toNat ≤ i ∧ i < 8 * (q.addr.off.toNat + 4) →
      8 * q.addr.off.toNat ≤ i' ∧ i' < 8 * (q.addr.off.toNat + 4) → P q.addr.la i → P q.addr.la i') :
    OpSpec P A M S q := by
  obtain ⟨t1, t2, t3, _, _⟩ := amo_ty ty
  have hacc : A.accept q = A.amo q := by simp [L1.accept, t1, t2, t3]
  have hw := A.lookup_way_mem q.addr
  have hdb : 32 ≤ p.dataBits := by
    obtain ⟨hl, _⟩ := wf.len
    have : 2 ^ 2 ≤ 2 ^ p.lenBits := Nat.pow_le_pow_right (by decide) hl
    simp only [Params.dataBits]; omega
  have hlb := dataBits_le_lineBits wf
  -- the line leaves the cache
  have hcoh : ∃ M', (memRun M (memMsgs (A.amo q).2)).1 = (memExec M' (.amo q)).1 ∧
      lastData (memRun M (memMsgs (A.amo q).2)).2 = (memExec M' (.amo q)).2.data ∧
      Coh P ((A.amo q).1.answer (lastData (memRun M (memMsgs (A.amo q).2)).2)).1 (view M') (view S) ∧
      ∀ w ∈ p.ways, let e := ((A.amo q).1.answer (lastData (memRun M (memMsgs (A.amo q).2)).2)).1.ent w q.addr.idx
        e.Present → e.tag ≠ q.addr.tag := by
    simp only [L1.amo, L1.answer, memMsgs_append, memMsgs_mem, memMsgs_nil, memRun_append, memRun]
    cases lookup_cases (h.uniqAt q.addr.idx) with
    | hit hh hi hval ht =>
      refine ⟨_, rfl, ?_, ?_, ?_⟩
      · rw [lastData_append_ne (by simp)]; rfl
      · simp only [hh, Bool.true_or, Bool.and_true, if_true]
        rw [view_wb]
        exact (h.evict hw q.addr.idx ⟨false, 0, q.addr.tag⟩ rfl (by simp)).congr rfl rfl
      · simp only [hh, Bool.true_or, if_true]
        intro w' hw' hp
        by_cases hww : w' = (A.lookup q.addr).way
        · rw [hww, setAt_same] at hp
          rcases hp with hp | hp <;> simp at hp
        · rw [setAt_ne _ _ (fun hx => hww hx.1)] at hp ⊢
          intro ht'
          exact hww (h.uniq w' hw' _ hw _ hp (.inl hval) (by rw [ht', ht]))
    | inval hh hi hval hd ht =>
      refine ⟨_, rfl, ?_, ?_, ?_⟩
      · rw [lastData_append_ne (by simp)]; rfl
      · simp only [hi, Bool.or_true, Bool.and_true, if_true]
        rw [view_wb]
        exact (h.evict hw q.addr.idx ⟨false, 0, q.addr.tag⟩ rfl (by simp)).congr rfl rfl
      · simp only [hi, Bool.or_true, if_true]
        intro w' hw' hp
        by_cases hww : w' = (A.lookup q.addr).way
        · rw [hww, setAt_same] at hp
          rcases hp with hp | hp <;> simp at hp
        · rw [setAt_ne _ _ (fun hx => hww hx.1)] at hp ⊢
          intro ht'
          exact hww (h.uniq w' hw' _ hw _ hp (.inr hd) (by rw [ht', ht]))
    | miss hh hi hn =>
      refine ⟨_, rfl, ?_, ?_, ?_⟩
      · rw [lastData_append_ne (by simp)]; rfl
      · simp only [hh, hi, Bool.or_false, Bool.and_false, Bool.false_eq_true, if_false, memMsgs_nil, memRun]
        exact h.congr rfl rfl
      · simp only [hh, hi, Bool.or_false, Bool.false_eq_true, if_false]
        exact hn
  obtain ⟨M', hM, hD, hC, hN⟩ := hcoh
  -- the word in memory is the word of the specification
  have habs := hC.absent q.addr.la hN
  have hold : ∀ i, 8 * q.addr.off.toNat ≤ i ∧ i < 8 * (q.addr.off.toNat + 4) → P q.addr.la i →
      readLE M' q.addr.flat 4 = readLE S q.addr.flat 4 := by
    intro i0 hi0 hP
    apply Nat.eq_of_testBit_eq
    intro i
    rw [flat_eq, read_view _ _ _ _ _ hfit, read_view _ _ _ _ _ hfit]
    by_cases hk : i < 8 * 4
    · simp only [hk, decide_true, Bool.true_and]
      refine habs _ ?_ (hPP i0 _ hi0 (by omega) hP)
      rw [lineBits_eq]; omega
    · simp only [hk, decide_false, Bool.false_and]
  have hdat : ((q.data.setWidth p.lineBits).setWidth 32 : BitVec 32) = q.data.setWidth 32 := by
    apply BitVec.eq_of_getLsbD_eq
    intro i hi
    simp only [BitVec.getLsbD_setWidth, hi, decide_true, Bool.true_and]
    simp [show i < p.lineBits by omega]
  refine ⟨?_, op_cur _ _ _, ?_⟩
  · simp only [L1.op, hacc]
    rw [hM]
    simp only [memExec, MReq.amo, t1, t2, if_false, flatStep, t3, if_true, hdat]
    rw [view_putBytes _ _ _ _ hfit, view_putBytes _ _ _ _ hfit]
    exact hC.both q.addr.la hN _ _ _ _ (fun i hi hP => by rw [hold i hi hP])
  · simp only [L1.op, hacc]
    rw [hD]
    simp only [memExec, MReq.amo, t1, t2, if_false, flatStep, t3, if_true, L1.isHit]
    simp only [L1.amo, L1.answer, respMsgs_append, respMsgs_mem, respMsgs_nil, respMsgs_resp]
    have h1 : respMsgs (if (((A.ent (A.lookup q.addr).way q.addr.idx).dty != 0) &&
        ((A.lookup q.addr).hit || (A.lookup q.addr).inval)) = true then
        [A.wb (A.lookup q.addr).way q.addr.idx] else []) = [] := by
      split <;> simp [L1.wb]
    rw [h1]
    have h2 : (((BitVec.ofNat 32 (readLE M' q.addr.flat 4)).setWidth p.lineBits).setWidth 32 : BitVec 32) =
        BitVec.ofNat 32 (readLE M' q.addr.flat 4) := by
      apply BitVec.eq_of_getLsbD_eq
      intro i hi
      simp only [BitVec.getLsbD_setWidth, hi, decide_true, Bool.true_and]
      simp [show i < p.lineBits by omega]
    refine ⟨(BitVec.ofNat 32 (readLE M' q.addr.flat 4)).setWidth _,
      by simp [h2, t1, t2], ?_, ?_, ?_⟩
    · intro hx; exact absurd hx t1
    · intro _ hP; rw [hold _ (by omega) hP]
    · intro _ hx; rw [t3] at hx; cases hx

/-- AMO on an aligned word. -/
theorem op_amo (wf : p.WF) {A : L1 p} {M S : ByteMem} {q : CReq p} (hW : P.Words) (h : Coh P A (view M) (view S))
    (ty : 3 ≤ q.ty.toNat ∧ q.ty.toNat ≤ 11) (al : 4 ∣ q.addr.flat) :
    OpSpec P A M S q := by
  have hko : 2 ≤ p.offBits := by simp only [Params.offBits]; omega
  have al' : 2 ^ 2 ∣ q.addr.off.toNat := dvd_off hko al
  refine op_amo_in wf h ty (fits_line hko al') (fun i i' hi hi' => hW _ _ _ ?_)
  obtain ⟨c, hc⟩ := al'; omega

/-- **One request.** -/
theorem op_spec (wf : p.WF) {A : L1 p} {M S : ByteMem} {q : CReq p} (hW : P.Words) (h : Coh P A (view M) (view S))
    (hok : A.Ok) (hc : A.cur = .idle) (hv : q.Valid) : OpSpec P A M S q := by
  have hv' := hv
  cases hv with
  | read ty => exact op_rw wf h hok hc hv' (.inl ty)
  | write ty => exact op_rw wf h hok hc hv' (.inr ty)
  | dword ty => exact op_rw wf h hok hc hv' (.inr ty)
  | amo ty _ al => exact op_amo wf hW h ty al
  | inv ty => exact op_inv h hc ty
  | flush ty => exact (op_flush h hc ty).1

/-- The reset cache is coherent with its memory. -/
theorem coh_init (M : ByteMem) : Coh P (L1.init p) (view M) (view M) := by
  refine ⟨?_, fun _ _ _ _ _ => rfl, ?_⟩
  · intro w _ j i _ _ hp
    simp [L1.init, Entry.zero] at hp
  · intro w _ w' _ j hp
    rcases hp with hp | hp <;> simp [L1.init, Entry.zero] at hp

theorem ok_op {A : L1 p} (h : A.Ok) (M : ByteMem) (q : CReq p) : (A.op M q).1.Ok :=
  (h.accept q).answer _

/-- Hit bits of a request sequence. Event-level machine, a proof device; not in the source. -/
def L1.hits (A : L1 p) (M : ByteMem) : List (CReq p) → List Bool
  | [] => []
  | q :: qs => A.isHit q :: (A.op M q).1.hits (A.op M q).2.1 qs

/-- **Request sequences.** -/
theorem ops_spec (wf : p.WF) {A : L1 p} {M S : ByteMem} {qs : List (CReq p)}
    (h : Coh (Bits.all p) A (view M) (view S))
    (hok : A.Ok) (hc : A.cur = .idle) (hv : ∀ q ∈ qs, q.Valid) :
    Coh (Bits.all p) (A.ops M qs).1 (view (A.ops M qs).2.1) (view (flatRun S qs).1) ∧ (A.ops M qs).1.cur = .idle ∧
    (A.ops M qs).1.Ok ∧
    (respMsgs (A.ops M qs).2.2).map (·.data) = (flatRun S qs).2 ∧
    (respMsgs (A.ops M qs).2.2).map (·.test) =
      (A.hits M qs).map (fun b => (BitVec.ofBool b).setWidth 2) := by
  induction qs generalizing A M S with
  | nil => exact ⟨h, hc, hok, rfl, rfl⟩
  | cons q qs ih =>
    obtain ⟨h1, h2, d, h3, h4⟩ := op_spec wf Bits.all_words h hok hc (hv q (by simp))
    rw [h4.eq] at h3
    obtain ⟨i1, i2, i3, i4, i5⟩ := ih h1 (ok_op hok M q) h2 (fun q hq => hv q (by simp [hq]))
    refine ⟨i1, i2, i3, ?_, ?_⟩
    · simp only [L1.ops, respMsgs_append, h3, List.map_append, i4, flatRun]
      simp [mkResp]
    · simp only [L1.ops, respMsgs_append, h3, List.map_append, i5, L1.hits]
      simp [mkResp]

end Verif
