import Verif.Trace
import Verif.Blocking
import Verif.SpecShared

/-!
# One word of the shared memory
-/

set_option linter.unusedSectionVars false

namespace Verif
variable {p : Params} {ι : Type} [DecidableEq ι]

/-- The bits of word `W`. Proof device; not in the source. -/
def wordBits (p : Params) (W : Nat) : Bits p := fun la i => (la.num * 2 ^ p.offBits + i / 8) / 4 = W

theorem wordBits_eq (W : Nat) (la : LAddr p) (i : Nat) :
    wordBits p W la i ↔ la.num * 2 ^ p.nwBits + i / 32 = W := by
  simp only [wordBits, offBits_pow]
  have : la.num * (4 * 2 ^ p.nwBits) = 4 * (la.num * 2 ^ p.nwBits) := by
    rw [← Nat.mul_assoc, Nat.mul_comm _ 4, Nat.mul_assoc]
  rw [this]; omega

theorem wordBits_words (W : Nat) : (wordBits p W).Words := by
  intro la i i' h hP
  rw [wordBits_eq] at *; rw [← h]; exact hP

/-- Two memories agree on word `W`. Proof device; not in the source. -/
def AgreeW (W : Nat) (M M' : ByteMem) : Prop := ∀ x, x / 4 = W → M x = M' x

theorem AgreeW.refl (W : Nat) (M : ByteMem) : AgreeW W M M := fun _ _ => rfl
theorem AgreeW.symm {W : Nat} {M M' : ByteMem} (h : AgreeW W M M') : AgreeW W M' M := fun x hx => (h x hx).symm
theorem AgreeW.trans {W : Nat} {M M' M'' : ByteMem} (h : AgreeW W M M') (h' : AgreeW W M' M'') :
    AgreeW W M M'' := fun x hx => (h x hx).trans (h' x hx)

theorem AgreeW.view {W : Nat} {M M' : ByteMem} (h : AgreeW W M M') (la : LAddr p) (i : Nat)
    (hi : i < p.lineBits) (hP : wordBits p W la i) : (view M la).getLsbD i = (view M' la).getLsbD i := by
  rw [getLsbD_view _ _ _ hi, getLsbD_view _ _ _ hi, h _ hP]

/-- Bytes of a word that lies in the address range. -/
theorem AgreeW.of_view {W : Nat} {M M' : ByteMem}
    (h : ∀ (la : LAddr p) i, i < p.lineBits → wordBits p W la i →
      (Verif.view M la).getLsbD i = (Verif.view M' la).getLsbD i)
    (x : Nat) (hx : x < 2 ^ p.addrBits) (hW : x / 4 = W) : M x = M' x := by
  have hn : x / 2 ^ p.offBits < 2 ^ (p.tagBits + p.idxBits) := by
    apply Nat.div_lt_of_lt_mul
    rw [← Nat.pow_add, Nat.add_comm]
    rw [Params.addrBits, ← Nat.add_assoc] at hx
    exact hx
  have ht : x / 2 ^ p.offBits / 2 ^ p.idxBits < 2 ^ p.tagBits := by
    apply Nat.div_lt_of_lt_mul; rw [← Nat.pow_add, Nat.add_comm]; exact hn
  let la : LAddr p := ⟨BitVec.ofNat _ (x / 2 ^ p.offBits / 2 ^ p.idxBits), BitVec.ofNat _ (x / 2 ^ p.offBits)⟩
  have hla : la.num = x / 2 ^ p.offBits := by
    simp only [LAddr.num, la, BitVec.toNat_ofNat, Nat.mod_eq_of_lt ht]
    rw [Nat.mul_comm]
    exact Nat.div_add_mod _ _
  have hmod := Nat.mod_lt x (Nat.two_pow_pos p.offBits)
  have hx' : la.num * 2 ^ p.offBits + x % 2 ^ p.offBits = x := by
    rw [hla, Nat.mul_comm]; exact Nat.div_add_mod _ _
  apply BitVec.eq_of_getLsbD_eq
  intro i hi
  have h8 : (8 * (x % 2 ^ p.offBits) + i) / 8 = x % 2 ^ p.offBits := by omega
  have h9 : (8 * (x % 2 ^ p.offBits) + i) % 8 = i := by omega
  have hb : 8 * (x % 2 ^ p.offBits) + i < p.lineBits := by rw [lineBits_eq]; omega
  have := h la (8 * (x % 2 ^ p.offBits) + i) hb (by
    simp only [wordBits]; rw [h8, hx']; exact hW)
  rwa [getLsbD_view _ _ _ hb, getLsbD_view _ _ _ hb, h8, h9, hx'] at this

/-! ## Memory requests -/

/-- The memory request changes a byte of word `W`. Proof device; not in the source. -/
def MReq.touches (m : MReq p) (W : Nat) : Prop :=
  ∃ x, x / 4 = W ∧
    ((m.ty = MT.WRITE ∧ ∃ b, b < p.nWords ∧ m.wmask.getLsbD b = true ∧
        m.addr.flat + 4 * b ≤ x ∧ x < m.addr.flat + 4 * b + 4) ∨
     (m.ty ≠ MT.READ ∧ m.ty ≠ MT.WRITE ∧ m.addr.flat ≤ x ∧ x < m.addr.flat + 4))

theorem maskedWrite_byte (M : ByteMem) (a : Nat) (mask : Dty p) (d : Line p) (n x : Nat)
    (h : ∀ b, b < n → mask.getLsbD b = true → ¬ (a + 4 * b ≤ x ∧ x < a + 4 * b + 4)) :
    maskedWrite M a mask d n x = M x := by
  induction n with
  | zero => rfl
  | succ n ih =>
    have ih := ih (fun b hb => h b (by omega))
    simp only [maskedWrite]
    split
    · rename_i hm
      rw [writeLE, if_neg (h n (by omega) hm), ih]
    · exact ih

theorem memExec_byte {M : ByteMem} {m : MReq p} {W x : Nat} (h : ¬ m.touches W) (hx : x / 4 = W) :
    (memExec M m).1 x = M x := by
  simp only [memExec]
  split
  · rfl
  rename_i h1
  split
  · rename_i h2
    apply maskedWrite_byte
    intro b hb hm hr
    exact h ⟨x, hx, .inl ⟨h2, b, hb, hm, hr.1, hr.2⟩⟩
  · rename_i h2
    simp only [writeLE]; rw [if_neg]
    intro hr
    exact h ⟨x, hx, .inr ⟨h1, h2, hr.1, hr.2⟩⟩

theorem memExec_untouched (M : ByteMem) {m : MReq p} {W : Nat} (h : ¬ m.touches W) :
    AgreeW W (memExec M m).1 M := fun _ hx => memExec_byte h hx

/-- Atomic operations are word aligned. Proof device; not in the source. -/
def MReq.Wal (m : MReq p) : Prop := m.ty ≠ MT.READ → m.ty ≠ MT.WRITE → 4 ∣ m.addr.flat

theorem maskedWrite_agree {W : Nat} {M M' : ByteMem} (h : AgreeW W M M') (a : Nat) (mask : Dty p) (d : Line p)
    (n : Nat) : AgreeW W (maskedWrite M a mask d n) (maskedWrite M' a mask d n) := by
  induction n with
  | zero => exact h
  | succ n ih =>
    intro x hx
    simp only [maskedWrite]
    split
    · simp only [writeLE]; split
      · rfl
      · exact ih x hx
    · exact ih x hx

theorem readLE_word {W : Nat} {M M' : ByteMem} (h : AgreeW W M M') {a : Nat} (ha : a / 4 = W) (ha4 : 4 ∣ a) :
    readLE M a 4 = readLE M' a 4 := by
  apply Nat.eq_of_testBit_eq
  intro i
  rw [readLE_testBit, readLE_testBit]
  by_cases hi : i < 8 * 4
  · rw [h]
    obtain ⟨c, rfl⟩ := ha4
    omega
  · simp [hi]

theorem memExec_agree {W : Nat} {M M' : ByteMem} (h : AgreeW W M M') {m : MReq p} (hm : m.Wal) :
    AgreeW W (memExec M m).1 (memExec M' m).1 := by
  by_cases h1 : m.ty = MT.READ
  · intro x hx; simp only [memExec, h1, if_true]; exact h x hx
  by_cases h2 : m.ty = MT.WRITE
  · simp only [memExec, h2, MT.WRITE_ne_READ, if_false, if_true]
    exact maskedWrite_agree h _ _ _ _
  · have ha4 := hm h1 h2
    intro x hx
    simp only [memExec, h1, h2, if_false, writeLE]
    split
    · rename_i hr
      rw [readLE_word h (a := m.addr.flat) (by obtain ⟨c, hc⟩ := ha4; omega) ha4]
    · exact h x hx

theorem memRun_agree {W : Nat} {M M' : ByteMem} (h : AgreeW W M M') {ms : List (MReq p)}
    (hm : ∀ m ∈ ms, m.Wal) : AgreeW W (memRun M ms).1 (memRun M' ms).1 := by
  induction ms generalizing M M' with
  | nil => exact h
  | cons m ms ih => exact ih (memExec_agree h (hm m (by simp))) (fun m' hm' => hm m' (by simp [hm']))

theorem memRun_untouched {W : Nat} (M : ByteMem) {ms : List (MReq p)} (hm : ∀ m ∈ ms, ¬ m.touches W) :
    AgreeW W (memRun M ms).1 M := by
  induction ms generalizing M with
  | nil => exact .refl _ _
  | cons m ms ih =>
    exact (ih _ (fun m' hm' => hm m' (by simp [hm']))).trans (memExec_untouched M (hm m (by simp)))

/-! ## The flat memory -/

theorem flatStep_byte {G : ByteMem} {q : CReq p} {x : Nat} (h : ¬ q.writesByte x) : (flatStep G q).1 x = G x := by
  simp only [flatStep]
  split
  · rfl
  split
  · rename_i h2
    simp only [writeLE]; rw [if_neg]
    intro hr; exact h (.inl ⟨h2, hr⟩)
  split
  · rename_i h3
    simp only [writeLE]; rw [if_neg]
    intro hr; exact h (.inr ⟨h3, hr⟩)
  · rfl

theorem flatStep_untouched {G : ByteMem} {q : CReq p} {W : Nat} (h : ¬ q.writesWord W) :
    AgreeW W (flatStep G q).1 G := fun x hx => flatStep_byte fun hb => h ⟨x, hx, hb⟩

theorem flatRun_append (M : ByteMem) (a b : List (CReq p)) :
    (flatRun M (a ++ b)).1 = (flatRun (flatRun M a).1 b).1 := by
  induction a generalizing M with
  | nil => rfl
  | cons q qs ih => simp [flatRun, ih]

@[simp] theorem acceptedAll_append (a b : List (Ev ι p)) :
    acceptedAll (a ++ b) = acceptedAll a ++ acceptedAll b := by simp [acceptedAll]

theorem latest_append (M : ByteMem) (a b : List (Ev ι p)) : latest M (a ++ b) = latest (latest M a) b := by
  simp [latest, flatRun_append]

theorem latest_acc (M : ByteMem) (k : ι) (q : CReq p) : latest M [(.acc k q : Ev ι p)] = (flatStep M q).1 := rfl

theorem latest_noAcc (M : ByteMem) {ev : List (Ev ι p)} (h : acceptedAll ev = []) : latest M ev = M := by
  simp [latest, h, flatRun]

/-! ## Dirty words of one cache -/

/-- The entries after the pending operation has completed. Proof device; not in the source. -/
def L1.post (L : L1 p) : Way → Idx p → Entry p := (L.answer 0).1.ent

theorem answer_ent (L : L1 p) (l : Line p) : (L.answer l).1.ent = L.post := by
  simp only [L1.post, L1.answer]
  cases L.cur with
  | idle => rfl
  | fill q w d => dsimp only; split <;> rfl
  | amo q h w => rfl

theorem post_idle {L : L1 p} (h : L.cur = .idle) : L.post = L.ent := by
  simp only [L1.post, answer_of_idle h]

/-- No entry is dirty on word `W`. Proof device; not in the source. -/
def NotDirty (W : Nat) (ent : Way → Idx p → Entry p) : Prop :=
  ∀ w ∈ p.ways, ∀ (j : Idx p) b, b < p.nWords → LAddr.num ⟨(ent w j).tag, j⟩ * 2 ^ p.nwBits + b = W →
    (ent w j).dty.getLsbD b = false

theorem NotDirty.set {W : Nat} {ent : Way → Idx p → Entry p} (h : NotDirty W ent) (w : Way) (j : Idx p)
    (e : Entry p) (he : ∀ b, b < p.nWords → LAddr.num ⟨e.tag, j⟩ * 2 ^ p.nwBits + b = W →
      e.dty.getLsbD b = false) : NotDirty W (setAt ent w j e) := by
  intro w' hw' j' b hb hW
  by_cases hx : w' = w ∧ j' = j
  · obtain ⟨rfl, rfl⟩ := hx
    rw [setAt_same] at hW ⊢; exact he b hb hW
  · rw [setAt_ne _ _ hx] at hW ⊢; exact h w' hw' j' b hb hW

theorem markDirty_only (d : Dty p) (off : Off p) (len : Len p) (b : Nat)
    (h : (markDirty p d off len).getLsbD b = true) :
    d.getLsbD b = true ∨ b = (wordOf p off).toNat ∨ (len.toNat = 3 ∧ b = (wordOf p off + 1).toNat) := by
  simp only [markDirty] at h
  split at h
  · rename_i h3
    simp only [getLsbD_setBit, Bool.or_eq_true, Bool.and_eq_true, decide_eq_true_eq] at h
    rcases h with (h | h) | h
    · exact .inl h
    · exact .inr (.inl h.2.symm)
    · exact .inr (.inr ⟨h3, h.2.symm⟩)
  · simp only [getLsbD_setBit, Bool.or_eq_true, Bool.and_eq_true, decide_eq_true_eq] at h
    rcases h with h | h
    · exact .inl h
    · exact .inr (.inl h.2.symm)

/-- A valid store only marks words it writes. -/
theorem mark_writes (wf : p.WF) {q : CReq p} (hv : q.Valid) (ty : q.ty = MT.WRITE) (d : Dty p) (b : Nat)
    (h : (markDirty p d q.addr.off q.len).getLsbD b = true) :
    d.getLsbD b = true ∨ q.writesWord (q.addr.la.num * 2 ^ p.nwBits + b) := by
  have hflat : q.addr.flat = 4 * (q.addr.la.num * 2 ^ p.nwBits) + q.addr.off.toNat := by
    rw [flat_eq, offBits_pow, ← Nat.mul_assoc, Nat.mul_comm _ 4, Nat.mul_assoc]
  rcases markDirty_only _ _ _ _ h with h | h | ⟨h3, h⟩
  · exact .inl h
  · right
    rw [wordOf_toNat] at h
    refine ⟨q.addr.flat, by rw [hflat]; omega, .inl ⟨ty, Nat.le_refl _, ?_⟩⟩
    have : 0 < q.bytes := by
      simp only [CReq.bytes]; split
      · exact Nat.two_pow_pos _
      · omega
    split <;> omega
  · right
    have hd : ∃ hp : p.lenBits = 2, 8 ∣ q.addr.flat := by
      cases hv with
      | read ty' => rw [ty] at ty'; simp at ty'
      | write _ k hk hk2 al =>
        exfalso
        rcases bytes_cases hk with ⟨h1, _⟩ | ⟨h1, _⟩
        · omega
        · rw [h1] at h3
          have : k = 0 ∨ k = 1 ∨ k = 2 := by omega
          rcases this with rfl | rfl | rfl <;> simp at h3
      | dword _ len hp al => exact ⟨hp, al⟩
      | amo ty' => exact absurd ty (amo_ty ty').2.1
      | inv ty' => rw [ty] at ty'; simp at ty'
      | flush ty' => rw [ty] at ty'; simp at ty'
    obtain ⟨hp, al⟩ := hd
    have hko : 3 ≤ p.offBits := by have := wf.nw; simp only [Params.offBits]; omega
    have al' : 2 ^ 3 ∣ q.addr.off.toNat := dvd_off hko al
    have hf : q.addr.off.toNat + 2 ^ 3 ≤ 2 ^ p.offBits := fits_line hko al'
    have hadd : (wordOf p q.addr.off + 1).toNat = q.addr.off.toNat / 4 + 1 := by
      rw [BitVec.toNat_add, wordOf_toNat]
      have h1 : q.addr.off.toNat / 4 + 1 < 2 ^ p.nwBits := by
        rw [offBits_pow] at hf
        omega
      have h2 : (1 : BitVec p.nwBits).toNat = 1 := by
        have : 1 < 2 ^ p.nwBits := by omega
        simp [Nat.mod_eq_of_lt this]
      rw [h2, Nat.mod_eq_of_lt h1]
    rw [hadd] at h
    refine ⟨q.addr.flat + 4, by rw [hflat]; omega, .inl ⟨ty, by omega, ?_⟩⟩
    rw [if_pos h3]; omega

/-- The line number of the way found. -/
theorem wr_touches {W : Nat} {a : LAddr p} {mask : Dty p} {d : Line p} (h : (MReq.wr a mask d).touches W) :
    ∃ b, b < p.nWords ∧ mask.getLsbD b = true ∧ a.num * 2 ^ p.nwBits + b = W := by
  obtain ⟨x, hx, h | h⟩ := h
  · obtain ⟨_, b, hb, hm, h1, h2⟩ := h
    simp only [MReq.wr] at hm h1 h2
    rw [flat_off0, offBits_pow, ← Nat.mul_assoc, Nat.mul_comm _ 4, Nat.mul_assoc] at h1 h2
    exact ⟨b, hb, hm, by omega⟩
  · exact absurd rfl h.2.1

theorem NotDirty.wb {W : Nat} {L : L1 p} (h : NotDirty W L.ent) {w : Way} (hw : w ∈ p.ways) (j : Idx p) :
    ¬ (MReq.wr ⟨(L.ent w j).tag, j⟩ (L.ent w j).dty (L.dat w j)).touches W := by
  intro ht
  obtain ⟨b, hb, hm, hW⟩ := wr_touches ht
  rw [h w hw j b hb hW] at hm; cases hm

theorem rd_touches (W : Nat) (a : LAddr p) : ¬ (MReq.rd a).touches W := by
  rintro ⟨x, _, h | h⟩
  · exact absurd h.1 (by simp [MReq.rd])
  · exact h.1 rfl

theorem NotDirty.flush {W : Nat} {L : L1 p} (h : NotDirty W L.ent) (n : Nat) :
    ∀ m ∈ memMsgs (L.flushMsgs n), ¬ m.touches W := by
  induction n with
  | zero => simp [L1.flushMsgs]
  | succ n ih =>
    simp only [L1.flushMsgs, L1.wb, memMsgs_append, List.mem_append]
    rintro m (hm | hm)
    · split at hm
      · simp only [memMsgs_mem, memMsgs_nil, List.mem_singleton] at hm
        subst hm; exact h.wb (cntWay_mem _) _
      · simp at hm
    · exact ih m hm

/-- A request that does not store to word `W` keeps it clean; no write-back touches it. -/
theorem NotDirty.accept' (wf : p.WF) {W : Nat} {L : L1 p} (hok : L.Ok) (hc : L.cur = .idle) (h : NotDirty W L.ent)
    {q : CReq p} (hv : q.Valid) (hq : q.ty = MT.WRITE → ¬ q.writesWord W) :
    NotDirty W (L.accept q).1.post ∧
    ∀ m ∈ memMsgs (L.accept q).2, (m.ty = MT.WRITE ∨ ¬ q.writesWord W) → ¬ m.touches W := by
  have hw := L.lookup_way_mem q.addr
  have hu : L.UniqAt q.addr.idx := fun w hw w' hw' h1 h2 h3 => hok.uniq w hw w' hw' q.addr.idx h1 h2 h3
  have hmark : q.ty = MT.WRITE → ∀ (d : Dty p) b,
      q.addr.la.num * 2 ^ p.nwBits + b = W → d.getLsbD b = false →
      (markDirty p d q.addr.off q.len).getLsbD b = false := by
    intro ty d b hW hd
    cases hb : (markDirty p d q.addr.off q.len).getLsbD b
    · rfl
    · rcases mark_writes wf hv ty d b hb with h1 | h1
      · rw [hd] at h1; cases h1
      · rw [hW] at h1; exact absurd h1 (hq ty)
  have hwb : ∀ (c : Bool), ∀ w ∈ p.ways, ∀ m ∈ memMsgs (if c then [L.wb w q.addr.idx] else []), ¬ m.touches W := by
    intro c w hw m hm
    cases c
    · simp at hm
    · simp only [if_true, L1.wb, memMsgs_mem, memMsgs_nil, List.mem_singleton] at hm
      subst hm; exact h.wb hw _
  simp only [L1.accept]
  split
  · rename_i hrw
    cases lookup_cases hu with
    | hit hh hi hval ht =>
      rw [rw_hit hh]
      refine ⟨?_, by simp⟩
      rw [post_idle (by exact hc)]
      dsimp only
      split
      · rename_i hcond
        apply h.set
        intro b hb hW
        have := h _ hw q.addr.idx b hb (by rw [ht]; exact hW)
        exact hmark hcond.1 _ _ hW this
      · exact h
    | inval hh hi hval hd ht =>
      rw [rw_inval hh hi]
      refine ⟨?_, ?_⟩
      · simp only [L1.post, L1.answer]
        have hcl : ∀ b, b < p.nWords → LAddr.num ⟨q.addr.tag, q.addr.idx⟩ * 2 ^ p.nwBits + b = W →
            (L.ent (L.lookup q.addr).way q.addr.idx).dty.getLsbD b = false :=
          fun b hb hW => h _ hw q.addr.idx b hb (by rw [ht]; exact hW)
        split
        · rename_i ty
          exact h.set _ _ _ (fun b hb hW => hmark ty _ _ hW (hcl b hb hW))
        · exact h.set _ _ _ hcl
      · intro m hm _
        simp only [memMsgs_mem, memMsgs_nil, List.mem_singleton] at hm
        subst hm; exact rd_touches _ _
    | miss hh hi hn =>
      rw [rw_miss hh hi]
      refine ⟨?_, ?_⟩
      · simp only [L1.post, L1.answer]
        split
        · rename_i ty
          exact h.set _ _ _ (fun b hb hW => hmark ty _ _ hW (by simp))
        · exact h.set _ _ _ (fun b hb hW => by simp)
      · intro m hm _
        simp only [memMsgs_append, List.mem_append, memMsgs_mem, memMsgs_nil, List.mem_singleton] at hm
        rcases hm with hm | hm
        · exact hwb _ _ (hok.rep _) m hm
        · subst hm; exact rd_touches _ _
  rename_i hrw
  split
  · rename_i ha
    simp only [L1.amo]
    refine ⟨?_, ?_⟩
    · simp only [L1.post, L1.answer]
      split
      · exact h.set _ _ _ (fun b hb hW => by simp)
      · exact h
    · intro m hm ho
      simp only [memMsgs_append, List.mem_append, memMsgs_mem, memMsgs_nil, List.mem_singleton] at hm
      rcases hm with hm | hm
      · exact hwb _ _ hw m hm
      · subst hm
        rintro ⟨x, hx, ht | ht⟩
        · exact hrw (.inr ht.1)
        · rcases ho with ho | ho
          · exact hrw (.inr ho)
          · exact ho ⟨x, hx, .inr ⟨ha, ht.2.2.1, ht.2.2.2⟩⟩
  split
  · refine ⟨?_, by simp⟩
    rw [post_idle (by exact hc)]
    intro w hw j b hb hW
    exact h w hw j b hb hW
  split
  · refine ⟨?_, ?_⟩
    · rw [post_idle (by exact hc)]
      intro w hw j b hb hW
      simp
    · simp only [memMsgs_append, memMsgs_resp, memMsgs_nil, List.append_nil]
      exact fun m hm _ => h.flush _ m hm
  · exact ⟨by rw [post_idle hc]; exact h, by simp⟩

/-- A request that does not write word `W` keeps it clean and does not touch it in memory. -/
theorem NotDirty.accept (wf : p.WF) {W : Nat} {L : L1 p} (hok : L.Ok) (hc : L.cur = .idle) (h : NotDirty W L.ent)
    {q : CReq p} (hv : q.Valid) (hq : ¬ q.writesWord W) :
    NotDirty W (L.accept q).1.post ∧ ∀ m ∈ memMsgs (L.accept q).2, ¬ m.touches W := by
  obtain ⟨h1, h2⟩ := h.accept' wf hok hc hv (fun _ => hq)
  exact ⟨h1, fun m hm => h2 m hm (.inr hq)⟩

/-- After acceptance of a FLUSH nothing is dirty. -/
theorem NotDirty.of_flush (W : Nat) {L : L1 p} (hc : L.cur = .idle) {q : CReq p} (ty : q.ty = MT.FLUSH) :
    NotDirty W (L.accept q).1.post := by
  have : (L.accept q).1 = { L with ent := fun w j => { L.ent w j with dty := 0 } } := by
    simp [L1.accept, ty]
  rw [this, post_idle (by exact hc)]
  intro w hw j b hb hW
  simp

end Verif
