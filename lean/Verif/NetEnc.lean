import Verif.Net
import Verif.NetUnitsEq

/-!
# Encodings and control tables at wire level

The codes of transactions, FSM states and commands, and the update blocks of
the control unit as functions of them.  Support for `NetSim.lean`.
-/

namespace Verif.Net
variable {p : Params}

/-- Transaction codes, BlockingCacheCtrlRTL.py:54-84. -/
def encTrans : Trans → BitVec 5
  | .invalid => TR.INVALID
  | .refill => TR.REFILL
  | .replayRead => TR.REPLAY_READ
  | .replayWrite => TR.REPLAY_WRITE
  | .cleanHit => TR.CLEAN_HIT
  | .readReq => TR.READ_REQ
  | .writeReq => TR.WRITE_REQ
  | .initReq => TR.INIT_REQ
  | .cacheInit => TR.CACHE_INIT
  | .amoReq => TR.AMO_REQ
  | .replayAmo => TR.REPLAY_AMO
  | .invStart => TR.INV_START
  | .invWrite => TR.INV_WRITE
  | .replayInv => TR.REPLAY_INV
  | .flushStart => TR.FLUSH_START
  | .flushRead => TR.FLUSH_READ
  | .flushWait => TR.FLUSH_WAIT
  | .flushWrite => TR.FLUSH_WRITE
  | .replayFlush => TR.REPLAY_FLUSH

/-- FSM codes, BlockingCacheCtrlRTL.py:26-33. -/
def encFsm : Fsm → BitVec 3
  | .init => FS.INIT
  | .ready => FS.READY
  | .replay => FS.REPLAY
  | .inv => FS.INV
  | .flush => FS.FLUSH
  | .flushWait => FS.FLUSH_WAIT

theorem encTrans_inj : ∀ {t t' : Trans}, encTrans t = encTrans t' → t = t' := by
  intro t t' h; cases t <;> cases t' <;> first | rfl | exact absurd h (by decide)

theorem encFsm_inj : ∀ {t t' : Fsm}, encFsm t = encFsm t' → t = t' := by
  intro t t' h; cases t <;> cases t' <;> first | rfl | exact absurd h (by decide)

theorem encTrans_beq (t t' : Trans) : (encTrans t == encTrans t') = (t == t') := by
  cases t <;> cases t' <;> rfl

theorem encTrans_bne (t t' : Trans) : (encTrans t != encTrans t') = (t != t') := by
  simp only [bne, encTrans_beq]

/-- Write bit enables of the tag arrays, BlockingCacheCtrlRTL.py:353-363. -/
def encTagWben (p : Params) : TagWben → BitVec (tagArrayBits p)
  | .none => BitVec.ofNat _ 0
  | .all => BitVec.ofInt _ (-1)
  | .val => wbenVal p
  | .dty => wbenDty p

/-! ## Slices of the table words -/

theorem row0_wben (wb : BitVec (tagArrayBits p)) (a b c : Bool) (u : BitVec 3) (d e f : Bool) :
    (row0 wb a b c u d e f).extractLsb' 9 (tagArrayBits p) = wb := by
  apply BitVec.eq_of_getLsbD_eq
  intro j hj
  simp only [row0, BitVec.getLsbD_extractLsb', BitVec.getLsbD_append, hj, decide_true, Bool.true_and]
  simp only [show ¬ (9 + j < 1) from by omega, show ¬ (9 + j - 1 < 1) from by omega,
    show ¬ (9 + j - 1 - 1 < 1) from by omega, show ¬ (9 + j - 1 - 1 - 1 < 3) from by omega,
    show ¬ (9 + j - 1 - 1 - 1 - 3 < 1) from by omega, show ¬ (9 + j - 1 - 1 - 1 - 3 - 1 < 1) from by omega,
    show ¬ (9 + j - 1 - 1 - 1 - 3 - 1 - 1 < 1) from by omega, if_false]
  congr 1
  omega

theorem row0_cmd (wb : BitVec (tagArrayBits p)) (a b c : Bool) (u : BitVec 3) (d e f : Bool) :
    (row0 wb a b c u d e f).extractLsb' 3 3 = u := by
  apply BitVec.eq_of_getLsbD_eq
  intro j hj
  simp only [row0, BitVec.getLsbD_extractLsb', BitVec.getLsbD_append, hj, decide_true, Bool.true_and]
  simp only [show ¬ (3 + j < 1) from by omega, show ¬ (3 + j - 1 < 1) from by omega,
    show ¬ (3 + j - 1 - 1 < 1) from by omega, show (3 + j - 1 - 1 - 1 < 3) from by omega,
    if_false, if_true]
  congr 1
  omega

theorem row0_bits (wb : BitVec (tagArrayBits p)) (a b c : Bool) (u : BitVec 3) (d e f : Bool) :
    (row0 wb a b c u d e f).getLsbD 8 = a ∧ (row0 wb a b c u d e f).getLsbD 7 = b ∧
    (row0 wb a b c u d e f).getLsbD 6 = c ∧ (row0 wb a b c u d e f).getLsbD 2 = d ∧
    (row0 wb a b c u d e f).getLsbD 1 = e ∧ (row0 wb a b c u d e f).getLsbD 0 = f := by
  refine ⟨?_, ?_, ?_, ?_, ?_, ?_⟩ <;>
    (simp only [row0, BitVec.getLsbD_append]; simp)

theorem cs0Word_eq (t : Trans) :
    cs0Word p (encTrans t) =
      row0 (encTagWben p (cs0 t).wben) (cs0 t).wdataSel (cs0 t).addrSel (cs0 t).wr (encTagCmd (cs0 t).cmd)
        (cs0 t).idxSel (cs0 t).tagSel (cs0 t).dealloc := by
  cases t <;> rfl

theorem cs1Word_eq (t : Trans) (evict hit flush : Bool) :
    cs1Word (encTrans t) evict hit flush =
      row1 (encWben (cs1 t evict hit flush).wben) (cs1 t evict hit flush).wr (cs1 t evict hit flush).val
        (cs1 t evict hit flush).ostall (cs1 t evict hit flush).evictSel (cs1 t evict hit flush).alloc := by
  cases t <;> cases evict <;> cases hit <;> rfl

theorem row1_bits (c : BitVec 2) (a b d e f : Bool) :
    (row1 c a b d e f).extractLsb' 5 2 = c ∧ (row1 c a b d e f).getLsbD 4 = a ∧
    (row1 c a b d e f).getLsbD 3 = b ∧ (row1 c a b d e f).getLsbD 2 = d ∧
    (row1 c a b d e f).getLsbD 1 = e ∧ (row1 c a b d e f).getLsbD 0 = f := by
  revert c a b d e f; decide

theorem cs2Word_eq (t : Trans) (mr rr evict hit flush : Bool) :
    cs2Word (encTrans t) mr rr evict hit flush =
      row2 (cs2 t mr rr evict hit flush).dszEn (cs2 t mr rr evict hit flush).rdSel
        (cs2 t mr rr evict hit flush).ostall (cs2 t mr rr evict hit flush).mty
        (cs2 t mr rr evict hit flush).mreqEn (cs2 t mr rr evict hit flush).respEn := by
  cases t <;> cases mr <;> cases rr <;> cases evict <;> cases hit <;> cases flush <;> rfl

theorem row2_bits (a b c : Bool) (m : MType) (d e : Bool) :
    (row2 a b c m d e).getLsbD 8 = a ∧ (row2 a b c m d e).getLsbD 7 = b ∧
    (row2 a b c m d e).getLsbD 6 = c ∧ (row2 a b c m d e).extractLsb' 2 4 = m ∧
    (row2 a b c m d e).getLsbD 1 = d ∧ (row2 a b c m d e).getLsbD 0 = e := by
  revert a b c m d e; decide +kernel

/-! ## Masked writes of packed tag words -/

theorem ofInt_neg_one (n : Nat) : BitVec.ofInt n (-1) = BitVec.allOnes n := by
  rw [BitVec.ofInt_neg, ← BitVec.neg_one_eq_allOnes]
  rfl

theorem getLsbD_wbenVal (i : Nat) : (wbenVal p).getLsbD i = decide (i = p.tagBits + p.nWords) := by
  have h : wbenVal p = packEntry ⟨true, 0, 0⟩ := rfl
  rw [h, getLsbD_packEntry]
  by_cases h1 : i < p.tagBits
  · simp [h1]; omega
  · by_cases h2 : i < p.tagBits + p.nWords
    · simp [h1, h2]; omega
    · simp [h1, h2]

theorem getLsbD_wbenDty (i : Nat) :
    (wbenDty p).getLsbD i = (decide (p.tagBits ≤ i) && decide (i < p.tagBits + p.nWords)) := by
  have h : wbenDty p = packEntry ⟨false, BitVec.ofInt _ (-1), 0⟩ := rfl
  have h0 : BitVec.ofInt p.nWords (-1) = BitVec.allOnes _ := ofInt_neg_one _
  rw [h, getLsbD_packEntry, h0]
  by_cases h1 : i < p.tagBits
  · simp [h1]; omega
  · by_cases h2 : i < p.tagBits + p.nWords
    · simp [h1, h2]; omega
    · simp [h1, h2]

/-- The masked write of the packed word is the masked write of the fields. -/
theorem merge_packEntry (m : TagWben) (o n : Entry p) :
    merge (encTagWben p m) (packEntry o) (packEntry n) = packEntry (tagMerge m o n) := by
  apply BitVec.eq_of_getLsbD_eq
  intro i hi
  rw [getLsbD_merge _ _ _ _ hi]
  cases m
  · simp [encTagWben, tagMerge]
  · have h0 : BitVec.ofInt (tagArrayBits p) (-1) = BitVec.allOnes _ := ofInt_neg_one _
    simp only [encTagWben, tagMerge, h0]
    simp [hi]
  · simp only [encTagWben, getLsbD_wbenVal, tagMerge, getLsbD_packEntry]
    by_cases h1 : i < p.tagBits
    · have : ¬ (i = p.tagBits + p.nWords) := by omega
      simp [h1, this]
    · by_cases h2 : i < p.tagBits + p.nWords
      · have : ¬ (i = p.tagBits + p.nWords) := by omega
        simp [h1, h2, this]
      · have : i = p.tagBits + p.nWords := by simp only [tagArrayBits] at hi; omega
        simp [this]
  · simp only [encTagWben, getLsbD_wbenDty, tagMerge, getLsbD_packEntry]
    by_cases h1 : i < p.tagBits
    · have : ¬ (p.tagBits ≤ i) := by omega
      simp [h1, this]
    · by_cases h2 : i < p.tagBits + p.nWords
      · have : p.tagBits ≤ i := by omega
        simp [h1, h2, this]
      · simp [h1, h2]

end Verif.Net
