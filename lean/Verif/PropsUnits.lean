import Verif.SpecUnits
import Verif.SubWord
import Verif.FL

set_option linter.unusedSectionVars false

/-!
# The leaf units, for all widths and inputs

C21, C22, C24, C25, C26, C29 and C39.
-/

namespace Verif
open FL (AMO_FUNS)
variable {p : Params}

/-! ## C21, C22, C39: sub-word access -/

theorem byteOf_ext {n m : Nat} {x : BitVec n} {y : BitVec m} {i j : Nat}
    (h : ∀ b, b < 8 → x.getLsbD (8 * i + b) = y.getLsbD (8 * j + b)) : byteOf x i = byteOf y j := by
  apply BitVec.eq_of_getLsbD_eq
  intro b hb
  simp only [byteOf, BitVec.getLsbD_extractLsb', hb, decide_true, Bool.true_and]
  exact h b hb

/-- **C21.**  A write request of `len` bytes (a power of two; 0 = data width) at
an offset aligned to it: the data array row afterwards holds, in bytes
`off .. off+len-1`, the low bytes of the request data, and every other byte is
unchanged. -/
theorem C21_write_exact_bytes (wf : p.WF) (len : Len p) (off : Off p) (d : Data p) (dty : Dty p)
    (old : Line p) (k : Nat) (hk : lenBytes p len = 2 ^ k) (al : 2 ^ k ∣ off.toNat)
    (i : Nat) (hi : 8 * i < p.lineBits) :
    byteOf (merge (writeBitEn p .req dty off len) old (replicator p false len d)) i =
      if off.toNat ≤ i ∧ i < off.toNat + lenBytes p len then byteOf d (i - off.toNat)
      else byteOf old i := by
  let q : CReq p := ⟨MT.WRITE, 0, ⟨0, 0, off⟩, len, d⟩
  have hl : p.lineBits = 8 * (4 * p.nWords) := by simp only [Params.lineBits]; omega
  have h := writeLine_pow wf (q := q) (k := k) hk al old
  have h' : merge (writeBitEn p .req dty off len) old (replicator p false len d) =
      putBytes old off.toNat (2 ^ k) d.toNat := h
  rw [h', hk]
  split
  · rename_i hh
    apply byteOf_ext
    intro b hb
    rw [getLsbD_putBytes _ _ _ _ _ (by omega), if_pos (by omega), ← BitVec.getLsbD.eq_1]
    congr 1; omega
  · rename_i hh
    apply byteOf_ext
    intro b hb
    rw [getLsbD_putBytes _ _ _ _ _ (by omega), if_neg (by omega)]

/-- **C21** (the double-word write of 32-bit configurations, `len = 3`): eight
bytes are written, the data zero extended. -/
theorem C21_double_word (hp : p.lenBits = 2) (len : Len p) (off : Off p) (d : Data p) (dty : Dty p)
    (old : Line p) (hlen : len.toNat = 3) (al : 8 ∣ off.toNat)
    (i : Nat) (hi : 8 * i < p.lineBits) :
    byteOf (merge (writeBitEn p .req dty off len) old (replicator p false len d)) i =
      if off.toNat ≤ i ∧ i < off.toNat + 4 then byteOf d (i - off.toNat)
      else if off.toNat + 4 ≤ i ∧ i < off.toNat + 8 then 0
      else byteOf old i := by
  let q : CReq p := ⟨MT.WRITE, 0, ⟨0, 0, off⟩, len, d⟩
  have hl : p.lineBits = 8 * (4 * p.nWords) := by simp only [Params.lineBits]; omega
  have hd : p.dataBits = 32 := by simp only [Params.dataBits, hp]
  have h := writeLine_dword hp (q := q) hlen al old
  have h' : merge (writeBitEn p .req dty off len) old (replicator p false len d) =
      putBytes old off.toNat 8 d.toNat := h
  rw [h']
  split
  · rename_i hh
    apply byteOf_ext
    intro b hb
    rw [getLsbD_putBytes _ _ _ _ _ (by omega), if_pos (by omega), ← BitVec.getLsbD.eq_1]
    congr 1; omega
  split
  · rename_i hh
    apply BitVec.eq_of_getLsbD_eq
    intro b hb
    simp only [byteOf, BitVec.getLsbD_extractLsb', hb, decide_true, Bool.true_and]
    rw [getLsbD_putBytes _ _ _ _ _ (by omega), if_pos (by omega), ← BitVec.getLsbD.eq_1,
      BitVec.getLsbD_of_ge _ _ (by omega)]
    simp
  · rename_i h1 h2
    apply byteOf_ext
    intro b hb
    rw [getLsbD_putBytes _ _ _ _ _ (by omega), if_neg (by omega)]

/-- A half-word write in the middle of a 16-byte line with 64-bit data meets the
hypotheses of C21. -/
example : let p : Params := ⟨1, 2, 2, 3, 1, true⟩
    p.WF ∧ lenBytes p 2 = 2 ^ 1 ∧ 2 ^ 1 ∣ (6 : Off p).toNat ∧ 8 * 7 < p.lineBits :=
  ⟨⟨by decide, by decide, by decide, by decide⟩, rfl, by decide, by decide⟩

/-- **C22.**  A read of `len` bytes (a power of two; 0 = data width) at an offset
aligned to it: the data-select mux returns bytes `off .. off+len-1` of the line
and zeros above. -/
theorem C22_read_exact_bytes (wf : p.WF) (len : Len p) (off : Off p) (l : Line p) (k : Nat)
    (hk : lenBytes p len = 2 ^ k) (al : 2 ^ k ∣ off.toNat) (i : Nat) (hi : 8 * i < p.dataBits) :
    byteOf (dataSelect p true false len off l) i =
      if i < lenBytes p len then byteOf l (off.toNat + i) else 0 := by
  let q : CReq p := ⟨MT.READ, 0, ⟨0, 0, off⟩, len, 0⟩
  have hd : p.dataBits = 8 * 2 ^ p.lenBits := rfl
  have h : ∀ i, i < p.dataBits → (dataSelect p true false len off l).getLsbD i =
      (decide (i < 8 * 2 ^ k) && l.getLsbD (8 * off.toNat + i)) :=
    fun i hi => readLine_pow wf (q := q) (k := k) hk al l i hi
  rw [hk]
  apply BitVec.eq_of_getLsbD_eq
  intro b hb
  have e : (byteOf (dataSelect p true false len off l) i).getLsbD b =
      (decide (8 * i + b < 8 * 2 ^ k) && l.getLsbD (8 * off.toNat + (8 * i + b))) := by
    simp only [byteOf, BitVec.getLsbD_extractLsb', hb, decide_true, Bool.true_and]
    exact h _ (by omega)
  rw [e]
  split
  · rename_i hh
    have h1 : 8 * i + b < 8 * 2 ^ k := by omega
    have h2 : 8 * off.toNat + (8 * i + b) = 8 * (off.toNat + i) + b := by omega
    simp only [byteOf, BitVec.getLsbD_extractLsb', hb, h1, h2, decide_true, Bool.true_and]
  · rename_i hh
    have h1 : ¬ 8 * i + b < 8 * 2 ^ k := by omega
    simp [h1]

/-- **C22** (disabled): responses without data carry zero. -/
theorem C22_disabled (len : Len p) (off : Off p) (l : Line p) : dataSelect p false false len off l = 0 := by
  simp [dataSelect]

/-- **C22** (AMO): the low word of the line, zero extended, whatever the length and
offset. -/
theorem C22_amo (wf : p.WF) (en : Bool) (len : Len p) (off : Off p) (l : Line p) :
    (dataSelect p en true len off l).toNat = (word32 l 0).toNat := by
  have h32 : 32 ≤ p.dataBits := by
    have := wf.len.1
    have : 2 ^ 2 ≤ 2 ^ p.lenBits := Nat.pow_le_pow_right (by decide) this
    simp only [Params.dataBits]; omega
  have h : l.toNat % 2 ^ 32 < 2 ^ p.dataBits :=
    Nat.lt_of_lt_of_le (Nat.mod_lt _ (by decide)) (Nat.pow_le_pow_right (by decide) h32)
  simp only [dataSelect, if_true, word32, BitVec.toNat_setWidth, BitVec.extractLsb'_toNat,
    Nat.mul_zero, Nat.shiftRight_zero]
  exact Nat.mod_eq_of_lt h

/-- A half-word read in the middle of a line meets the hypotheses of C22 and
returns the expected bytes. -/
example : let p : Params := ⟨1, 2, 2, 3, 1, true⟩
    p.WF ∧ lenBytes p 2 = 2 ^ 1 ∧ 2 ^ 1 ∣ (6 : Off p).toNat ∧
    (dataSelect p true false 2 6 0x0f0e0d0c0b0a09080706050403020100#128).toNat = 0x0706 :=
  ⟨⟨by decide, by decide, by decide, by decide⟩, rfl, by decide, by decide +kernel⟩

/-- **C39.**  A refill with the complement of the dirty mask as write enable: every
dirty word keeps its contents, every clean word is replaced. -/
theorem C39_refill_merge (dty : Dty p) (off : Off p) (len : Len p) (old new : Line p) (w : Nat) :
    word32 (merge (writeBitEn p .dirty dty off len) old new) w =
      if dty.getLsbD w then word32 old w else word32 new w := by
  apply BitVec.eq_of_getLsbD_eq
  intro b hb
  have h := refill_merge dty old new (32 * w + b)
  have h1 : (32 * w + b) / 32 = w := by omega
  rw [h1] at h
  simp only [word32, writeBitEn]
  rw [BitVec.getLsbD_extractLsb', h]
  split <;> rw [BitVec.getLsbD_extractLsb']

/-- A line with one dirty word out of four. -/
example : let p : Params := ⟨1, 2, 2, 3, 1, true⟩
    (merge (writeBitEn p .dirty 0b0100#4 0 0) 0x33333333222222221111111100000000#128
      0x77777777666666665555555544444444#128).toNat = 0x77777777222222225555555544444444 := by
  decide +kernel

/-! ## C24: rows of the data array -/

/-- **C24.**  The map from (set, way) pairs to rows of the data array is a
bijection: distinct lines never share a row and every row is used. -/
theorem C24_rows_bijective :
    (∀ (i i' : Idx p) (w w' : Way), w ∈ p.ways → w' ∈ p.ways →
      indexer p i w = indexer p i' w' → i = i' ∧ w = w') ∧
    (∀ r : BitVec p.cntBits, ∃ i w, w ∈ p.ways ∧ indexer p i w = r) := by
  refine ⟨fun i i' w w' hw hw' h => ?_, fun r => ?_⟩
  · have := (indexer_inj hw hw').1 h; exact ⟨this.2, this.1⟩
  · have hr := r.isLt
    cases h2 : p.twoWay
    · have hc : p.cntBits = p.idxBits := by simp [Params.cntBits, Params.wayBits, h2]
      refine ⟨BitVec.ofNat _ r.toNat, false, mem_ways_false, ?_⟩
      apply BitVec.eq_of_toNat_eq
      rw [indexer_toNat _ _ mem_ways_false]
      have : r.toNat < 2 ^ p.idxBits := by rw [← hc]; exact hr
      simp [Nat.mod_eq_of_lt this]
    · have hc : p.cntBits = p.idxBits + 1 := by simp [Params.cntBits, Params.wayBits, h2]
      have hr' : r.toNat < 2 ^ p.idxBits * 2 := by
        have e : 2 ^ p.cntBits = 2 ^ p.idxBits * 2 := by rw [hc, Nat.pow_succ]
        omega
      have ht : true ∈ p.ways := mem_ways_true.2 h2
      by_cases hlt : r.toNat < 2 ^ p.idxBits
      · refine ⟨BitVec.ofNat _ r.toNat, false, mem_ways_false, ?_⟩
        apply BitVec.eq_of_toNat_eq
        rw [indexer_toNat _ _ mem_ways_false]
        simp [Nat.mod_eq_of_lt hlt]
      · refine ⟨BitVec.ofNat _ (r.toNat - 2 ^ p.idxBits), true, ht, ?_⟩
        apply BitVec.eq_of_toNat_eq
        rw [indexer_toNat _ _ ht]
        have : r.toNat - 2 ^ p.idxBits < 2 ^ p.idxBits := by omega
        simp [Nat.mod_eq_of_lt this]; omega

/-- The `Indexer` for an arbitrary number `n` of lines per way, index width `a` and
line-number width `b`, units/arithmetics.py:99-111. -/
def indexerGen (a b n : Nat) (idx : BitVec a) (way : BitVec 1) : BitVec b :=
  idx.setWidth b + way.setWidth b * BitVec.ofNat b n

/-- The general indexer is the modelled one for `2^idxBits` lines per way. -/
theorem indexer_eq_gen (i : Idx p) (w : Way) :
    indexer p i w = indexerGen p.idxBits p.cntBits (2 ^ p.idxBits) i (BitVec.ofBool w) := rfl

/-- **C24** (negative part).  If the number `n` of lines per way is smaller than
`2^a`, where `a` is the index width (which is the case for every `n` that is not a
power of two), then index `n` in way 0 and index 0 in way 1 share a row. -/
theorem C24_other_sizes_collide (a b n : Nat) (hn : n < 2 ^ a) :
    indexerGen a b n (BitVec.ofNat a n) 0#1 = indexerGen a b n (BitVec.ofNat a 0) 1#1 := by
  apply BitVec.eq_of_toNat_eq
  simp only [indexerGen, BitVec.toNat_add, BitVec.toNat_mul, BitVec.toNat_setWidth,
    BitVec.toNat_ofNat, Nat.mod_eq_of_lt hn, Nat.zero_mod, Nat.zero_mul, Nat.add_zero,
    Nat.zero_add, Nat.mod_mod, Nat.mod_eq_of_lt (by decide : 1 < 2 ^ 1)]
  cases b with
  | zero => simp [Nat.mod_one]
  | succ b =>
    have h1 : 1 % 2 ^ (b + 1) = 1 := Nat.mod_eq_of_lt (by
      have := Nat.two_pow_pos b; rw [Nat.pow_succ]; omega)
    rw [h1, Nat.one_mul, Nat.mod_mod]

/-- Three lines per way (index width 2, line-number width 3). -/
example : (3 : Nat) < 2 ^ 2 ∧ BitVec.ofNat 2 3 ≠ BitVec.ofNat 2 0 := by decide

/-! ## C25: SRAM -/

/-- A sequence of port operations, one per clock edge. Proof device; not in the source. -/
def Sram.run {ι : Type} [DecidableEq ι] {n : Nat} (s : Sram ι n) : List (SramOp ι n) → Sram ι n
  | [] => s
  | o :: os => (s.step o.val o.wr o.idx o.wdata o.wben).run os

section sram
variable {ι : Type} [DecidableEq ι] {n : Nat}

theorem Sram.run_append (s : Sram ι n) (a b : List (SramOp ι n)) :
    s.run (a ++ b) = (s.run a).run b := by
  induction a generalizing s with
  | nil => rfl
  | cons o a ih => exact ih _

theorem Sram.step_bit (s : Sram ι n) (o : SramOp ι n) (r : ι) (b : Nat) :
    (o.writes r b → ((s.step o.val o.wr o.idx o.wdata o.wben).ram r).getLsbD b = o.wdata.getLsbD b) ∧
    (¬ o.writes r b →
      ((s.step o.val o.wr o.idx o.wdata o.wben).ram r).getLsbD b = (s.ram r).getLsbD b) := by
  constructor
  · rintro ⟨h1, h2, h3, h4⟩
    simp [Sram.step, h1, h2, h3, h4]
  · intro h
    simp only [Sram.step]
    split
    · rename_i hh
      simp only [Bool.and_eq_true, decide_eq_true_eq] at hh
      rw [getLsbD_merge, if_neg]
      intro h4; exact h ⟨hh.1.1, hh.1.2, hh.2.symm, h4⟩
    · rfl

/-- Every bit of the array holds the value last written to it. -/
theorem Sram.run_last (s : Sram ι n) (ops : List (SramOp ι n)) (r : ι) (b : Nat) :
    LastWritten s.ram ops r b (((s.run ops).ram r).getLsbD b) := by
  induction ops generalizing s with
  | nil => exact .inr ⟨by simp, rfl⟩
  | cons o os ih =>
    rcases ih (s.step o.val o.wr o.idx o.wdata o.wben) with ⟨pre, o', post, h1, h2, h3, h4⟩ | ⟨h1, h2⟩
    · exact .inl ⟨o :: pre, o', post, by rw [h1]; rfl, h2, h3, h4⟩
    · have hs := s.step_bit o r b
      by_cases hw : o.writes r b
      · exact .inl ⟨[], o, os, rfl, hw, h1, by rw [Sram.run, h2]; exact hs.1 hw⟩
      · refine .inr ⟨?_, by rw [Sram.run, h2]; exact hs.2 hw⟩
        intro o' ho'
        rcases List.mem_cons.1 ho' with h | h
        · rw [h]; exact hw
        · exact h1 o' h

theorem Sram.run_dout (s : Sram ι n) (ops : List (SramOp ι n)) (h : ∀ o ∈ ops, ¬ o.reads) :
    (s.run ops).dout = s.dout := by
  induction ops generalizing s with
  | nil => rfl
  | cons o os ih =>
    rw [Sram.run, ih _ (fun o' h' => h o' (List.mem_cons_of_mem _ h'))]
    have := h o (List.mem_cons_self ..)
    simp only [Sram.step]
    split
    · rename_i hh
      exact absurd (by simpa [SramOp.reads] using hh) this
    · rfl

/-- **C25.**  After any history of port operations that ends in a read of row `r`
followed by any number of operations that are not reads, every bit of the output
is the value last written to that bit of row `r` *before the read* (or its
power-up value). -/
theorem C25_sram_read (s : Sram ι n) (pre post : List (SramOp ι n)) (o : SramOp ι n)
    (ho : o.reads) (hp : ∀ o' ∈ post, ¬ o'.reads) (b : Nat) :
    LastWritten s.ram pre o.idx b ((s.run (pre ++ o :: post)).dout.getLsbD b) := by
  rw [Sram.run_append, Sram.run, Sram.run_dout _ _ hp]
  have : ((s.run pre).step o.val o.wr o.idx o.wdata o.wben).dout = (s.run pre).ram o.idx := by
    simp [Sram.step, ho.1, ho.2]
  rw [this]
  exact Sram.run_last s pre o.idx b

/-- The specification determines the value. -/
theorem LastWritten.unique {init : ι → BitVec n} {ops : List (SramOp ι n)} {r : ι} {b : Nat}
    {v v' : Bool} (h : LastWritten init ops r b v) (h' : LastWritten init ops r b v') : v = v' := by
  rcases h with ⟨pre, o, post, h1, h2, h3, h4⟩ | ⟨h1, h2⟩ <;>
    rcases h' with ⟨pre', o', post', h1', h2', h3', h4'⟩ | ⟨h1', h2'⟩
  · have key : pre = pre' ∧ o :: post = o' :: post' := by
      rw [h1] at h1'
      rcases List.append_eq_append_iff.1 h1' with ⟨c, hc1, hc2⟩ | ⟨c, hc1, hc2⟩
      · cases c with
        | nil => simp at hc1 hc2; exact ⟨hc1.symm, by simpa using hc2⟩
        | cons x c =>
          simp only [List.cons_append, List.cons.injEq] at hc2
          exact absurd h2' (h3 o' (by rw [hc2.2]; simp))
      · cases c with
        | nil => simp at hc1 hc2; exact ⟨hc1, by rw [hc2.1, hc2.2]⟩
        | cons x c =>
          simp only [List.cons_append, List.cons.injEq] at hc2
          exact absurd h2 (h3' o (by rw [hc2.2]; simp))
    have := (List.cons.inj key.2).1
    rw [h4, h4', this]
  · exact absurd h2 (h1' o (by rw [h1]; simp))
  · exact absurd h2' (h1 o' (by rw [h1']; simp))
  · rw [h2, h2']

end sram

/-- Write with a partial mask, read, then an idle cycle and a write. -/
example : let s : Sram (BitVec 1) 8 := ⟨fun _ => 0xab, 0⟩
    let o : SramOp (BitVec 1) 8 := ⟨true, false, 1, 0, 0⟩
    let pre : List (SramOp (BitVec 1) 8) := [⟨true, true, 1, 0xff, 0x3c⟩, ⟨true, true, 0, 0, 0xff⟩]
    let post : List (SramOp (BitVec 1) 8) := [⟨false, false, 0, 0, 0⟩, ⟨true, true, 1, 0, 0xff⟩]
    o.reads ∧ (∀ o' ∈ post, ¬ o'.reads) ∧ (s.run (pre ++ o :: post)).dout = 0xbf := by
  refine ⟨⟨rfl, rfl⟩, ?_, by decide⟩
  intro o' h
  simp only [List.mem_cons, List.not_mem_nil, or_false] at h
  rcases h with h | h <;> subst h <;> simp [SramOp.reads]

/-! ## C26: stall engine -/

/-- A stall engine over time: `inp t` is its input (an SRAM output), `ostall t` the
stall signal; the engine is enabled unless the stage was stalled in the previous
cycle (`was_stalled`, BlockingCacheCtrlRTL.py:573-574, 643, 749). Result: (stalled in the
previous cycle, contents of the stall register) at the beginning of cycle `t`. -/
def stallTrace {α : Type} (inp : Nat → α) (ostall : Nat → Bool) (st0 : Bool × α) : Nat → Bool × α
  | 0 => st0
  | t + 1 =>
    let st := stallTrace inp ostall st0 t
    (ostall t, stallNext (!st.1) (inp t) st.2)

/-- Output of the engine in cycle `t`. Proof device; not in the source. -/
def stallTraceOut {α : Type} (inp : Nat → α) (ostall : Nat → Bool) (st0 : Bool × α) (t : Nat) : α :=
  stallOut (!(stallTrace inp ostall st0 t).1) (inp t) (stallTrace inp ostall st0 t).2

/-- **C26.**  From a cycle `t` in which the stage has not been stalled just before,
the output is transparent in cycle `t`, and as long as the stall lasts (`n` cycles,
any `n`) the output stays what it was in cycle `t`, whatever the input does. -/
theorem C26_stall_engine {α : Type} (inp : Nat → α) (ostall : Nat → Bool) (st0 : Bool × α)
    (t n : Nat) (ht : (stallTrace inp ostall st0 t).1 = false)
    (hs : ∀ u, t ≤ u → u < t + n → ostall u = true) :
    stallTraceOut inp ostall st0 (t + n) = inp t := by
  have key : ∀ n, (∀ u, t ≤ u → u < t + n → ostall u = true) →
      stallTraceOut inp ostall st0 (t + n) = inp t := by
    intro n
    induction n with
    | zero => intro _; simp [stallTraceOut, stallOut, ht]
    | succ n ih =>
      intro hs
      have h1 := ih (fun u h h' => hs u h (by omega))
      have h2 := hs (t + n) (by omega) (by omega)
      have e : stallTrace inp ostall st0 (t + (n + 1)) =
          (ostall (t + n), stallNext (!(stallTrace inp ostall st0 (t + n)).1) (inp (t + n))
            (stallTrace inp ostall st0 (t + n)).2) := rfl
      simp only [stallTraceOut, e, h2, stallOut, Bool.not_true, Bool.false_eq_true, if_false]
      exact h1
  exact key n hs

/-- **C26** (transparent): in any cycle after an unstalled one. -/
theorem C26_transparent {α : Type} (inp : Nat → α) (ostall : Nat → Bool) (st0 : Bool × α) (t : Nat)
    (h : ostall t = false) : stallTraceOut inp ostall st0 (t + 1) = inp (t + 1) := by
  simp [stallTraceOut, stallTrace, stallOut, h]

/-- Input changing in every cycle, stalled in cycles 2 to 5. -/
example : let inp : Nat → Nat := fun t => 10 * t
    let os : Nat → Bool := fun t => decide (2 ≤ t) && decide (t ≤ 5)
    (stallTrace inp os (false, 0) 2).1 = false ∧ (∀ u, 2 ≤ u → u < 2 + 4 → os u = true) ∧
    stallTraceOut inp os (false, 0) 6 = 20 ∧ stallTraceOut inp os (false, 0) 7 = 70 := by
  refine ⟨rfl, fun u h1 h2 => ?_, rfl, rfl⟩
  simp; omega

/-- A sequence of clock edges of the cache. Proof device; not in the source. -/
def St.clocks (s : St p) : List (In p) → St p
  | [] => s
  | i :: is => (s.step i).clocks is

/-- **C26** (in the cache).  While the M2 stage is stalled, for any number of cycles
and whatever the inputs, the line, the tag entries and the hit information seen by
the pipeline do not change. -/
theorem C26_cache_outputs_hold (s : St p) (is : List (In p)) (hr : ∀ i ∈ is, i.reset = false)
    (hs : ∀ pre i post, is = pre ++ i :: post → ((s.clocks pre).cs2 i).ostall = true) :
    (s.clocks is).effData = s.effData ∧ (∀ w, (s.clocks is).effTag w = s.effTag w) ∧
    (s.clocks is).hitInfo = s.hitInfo := by
  induction is generalizing s with
  | nil => exact ⟨rfl, fun _ => rfl, rfl⟩
  | cons i is ih =>
    have h0 := hs [] i is rfl
    have hr0 := hr i (List.mem_cons_self ..)
    have ih := ih (s.step i) (fun j hj => hr j (List.mem_cons_of_mem _ hj))
      (fun pre j post h => hs (i :: pre) j post (by rw [h]; rfl))
    have h0' : (s.cs2 i).ostall = true := h0
    have e1 : (s.step i).effData = s.effData := by
      simp [St.step, hr0, St.effData, St.next, h0', stallOut, stallNext]
    have e2 : ∀ w, (s.step i).effTag w = s.effTag w := by
      intro w; simp [St.step, hr0, St.effTag, St.next, h0', stallOut, stallNext]
    have e3 : (s.step i).hitInfo = s.hitInfo := by
      have : (s.step i).hitStallEn = false := by simp [St.step, hr0, St.hitStallEn, St.next, h0']
      rw [St.hitInfo, this]
      simp [St.step, hr0, St.next, stallOut, stallNext, St.hitInfo]
    refine ⟨ih.1.trans e1, fun w => (ih.2.1 w).trans (e2 w), ih.2.2.trans e3⟩

/-- **C26** (in the cache, transparent): after a cycle without a stall the pipeline
sees the SRAM outputs themselves. -/
theorem C26_cache_transparent (s : St p) (i : In p) (hr : i.reset = false)
    (hs : (s.cs2 i).ostall = false) :
    (s.step i).effData = (s.step i).data.dout ∧ (∀ w, (s.step i).effTag w = (s.step i).tagDout w) := by
  constructor
  · simp [St.step, hr, St.effData, St.next, hs, stallOut]
  · intro w; simp [St.step, hr, St.effTag, St.next, hs, stallOut]

/-- The hypotheses are met: a read in the M2 stage is stalled for as long as the
processor does not take responses. -/
theorem C26_stalled_example (s : St p) (h2 : s.t2 = .readReq) (h1 : s.t1 ≠ .cacheInit)
    (hf : s.fsm ≠ .init) (is : List (In p)) (hi : ∀ i ∈ is, i.reset = false ∧ i.respRdy = false) :
    ∀ pre i post, is = pre ++ i :: post → ((s.clocks pre).cs2 i).ostall = true := by
  have key : ∀ (is : List (In p)) (s : St p), s.t2 = .readReq → s.t1 ≠ .cacheInit →
      s.fsm ≠ .init → (∀ i ∈ is, i.reset = false ∧ i.respRdy = false) →
      (s.clocks is).t2 = .readReq ∧ (s.clocks is).t1 ≠ .cacheInit := by
    intro is
    induction is with
    | nil => intro s h2 h1 _ _; exact ⟨h2, h1⟩
    | cons i is ih =>
      intro s h2 h1 hf hi
      have hi0 := hi i (List.mem_cons_self ..)
      have ho : (s.cs2 i).ostall = true := by
        simp [St.cs2, Verif.cs2, h2, hi0.2]
      have ht1 : (s.t1 != Trans.cacheInit) = true := by simpa using h1
      have ht1' : (s.t1 == Trans.cacheInit) = false := by simpa using h1
      refine ih (s.step i) ?_ ?_ ?_ (fun j hj => hi j (List.mem_cons_of_mem _ hj))
      · simp [St.step, hi0.1, St.next, ho, ht1', h2]
      · simp only [St.step, hi0.1, St.next, Bool.false_eq_true, if_false]
        have hst : s.stall i = true := by simp [St.stall, ho]
        simp only [hst, Bool.not_true, Bool.false_and, Bool.false_or]
        have h0 : s.trans0 i ≠ .cacheInit := by
          intro h0
          simp only [St.trans0, hf, if_false] at h0
          repeat' split at h0
          all_goals exact absurd h0 (by decide)
        have h0' : (s.trans0 i == Trans.cacheInit) = false := by simpa using h0
        simp [h0', h1]
      · simp only [St.step, hi0.1, St.next, Bool.false_eq_true, if_false]
        have hst : s.stall i = true := by simp [St.stall, ho]
        simp [hst, hf]
  intro pre i post h
  have hk := key pre s h2 h1 hf (fun j hj => hi j (by rw [h]; simp [hj]))
  have hi0 := hi i (by rw [h]; simp)
  simp [St.cs2, Verif.cs2, hk.1, hi0.2]

/-! ## C29: AMO functions -/

/-- **C29.**  The table of AMO functions of the reference model, for all operands:
modular sum, bitwise and/or/xor, swap, and minimum/maximum of the signed and
unsigned readings.  No other message type has an entry. -/
theorem C29_amo_functions (m a : BitVec 32) :
    (∃ f, AMO_FUNS 3#4 = some f ∧ (f m a).toNat = (m.toNat + a.toNat) % 2 ^ 32) ∧
    (∃ f, AMO_FUNS 4#4 = some f ∧ ∀ i, (f m a).getLsbD i = (m.getLsbD i && a.getLsbD i)) ∧
    (∃ f, AMO_FUNS 5#4 = some f ∧ ∀ i, (f m a).getLsbD i = (m.getLsbD i || a.getLsbD i)) ∧
    (∃ f, AMO_FUNS 6#4 = some f ∧ f m a = a) ∧
    (∃ f, AMO_FUNS 7#4 = some f ∧ (f m a).toInt = min m.toInt a.toInt) ∧
    (∃ f, AMO_FUNS 8#4 = some f ∧ (f m a).toNat = min m.toNat a.toNat) ∧
    (∃ f, AMO_FUNS 9#4 = some f ∧ (f m a).toInt = max m.toInt a.toInt) ∧
    (∃ f, AMO_FUNS 10#4 = some f ∧ (f m a).toNat = max m.toNat a.toNat) ∧
    (∃ f, AMO_FUNS 11#4 = some f ∧ ∀ i, (f m a).getLsbD i = (m.getLsbD i ^^ a.getLsbD i)) ∧
    (∀ t : MType, t.toNat < 3 ∨ 11 < t.toNat → AMO_FUNS t = none) := by
  refine ⟨⟨_, rfl, ?_⟩, ⟨_, rfl, ?_⟩, ⟨_, rfl, ?_⟩, ⟨_, rfl, rfl⟩, ⟨_, rfl, ?_⟩, ⟨_, rfl, ?_⟩,
    ⟨_, rfl, ?_⟩, ⟨_, rfl, ?_⟩, ⟨_, rfl, ?_⟩, ?_⟩
  · simp
  · intro i; simp
  · intro i; simp
  · split <;> omega
  · split <;> omega
  · split <;> omega
  · split <;> omega
  · intro i; simp
  · intro t ht
    have := t.isLt
    simp only [AMO_FUNS]
    split <;> first | omega | rfl

/-- **C29.**  The functions of the memory model and of the reference model agree. -/
theorem C29_memory_agrees (t : MType) (f : BitVec 32 → BitVec 32 → BitVec 32) (h : AMO_FUNS t = some f)
    (m a : BitVec 32) : amoFun t m a = f m a := by
  simp only [AMO_FUNS] at h
  simp only [amoFun]
  split at h <;> simp only [Option.some.injEq, reduceCtorEq] at h
  all_goals
    rename_i ht
    subst h
    simp only [ht]
  · apply BitVec.eq_of_toNat_eq; split <;> split <;> omega
  · apply BitVec.eq_of_toNat_eq; split <;> split <;> omega

/-- Signed and unsigned comparison differ: -1 against 1. -/
example : (AMO_FUNS 7#4).map (fun f => f 0xffffffff#32 1#32) = some 0xffffffff#32 ∧
    (AMO_FUNS 8#4).map (fun f => f 0xffffffff#32 1#32) = some 1#32 := by decide

end Verif
