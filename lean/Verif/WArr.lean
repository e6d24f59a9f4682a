import Verif.Hetero
import Verif.PropsTraffic

/-!
# The arrays of one cache as copies of words

Proof device for C64.  `WArr ent dat ws c v` relates tag and data arrays and the list
`ws` of pending write-backs to the word copies `c`, `v` of the memory model.
-/

set_option linter.unusedSectionVars false

namespace Verif
variable {p : Params}
open WM (Copy)

/-- Number of word `b` of a line. -/
def wn (la : LAddr p) (b : Nat) : Nat := la.num * 2 ^ p.nwBits + b

theorem wn_inj {la la' : LAddr p} {b b' : Nat} (hb : b < p.nWords) (hb' : b' < p.nWords) (h : wn la b = wn la' b') :
    la = la' ∧ b = b' := num_line_ext hb hb' h

/-- The words `d` of a line. -/
def inMask (la : LAddr p) (d : Dty p) (W : Nat) : Bool :=
  decide (W / 2 ^ p.nwBits = la.num) && d.getLsbD (W % 2 ^ p.nwBits)

theorem inMask_iff {la : LAddr p} {d : Dty p} {W : Nat} :
    inMask la d W = true ↔ ∃ b, b < p.nWords ∧ d.getLsbD b = true ∧ wn la b = W := by
  have hpos := Nat.two_pow_pos p.nwBits
  simp only [inMask, Bool.and_eq_true, decide_eq_true_eq, wn, Params.nWords]
  constructor
  · rintro ⟨h1, h2⟩
    refine ⟨_, Nat.mod_lt _ hpos, h2, ?_⟩
    rw [← h1, Nat.mul_comm]; exact Nat.div_add_mod _ _
  · rintro ⟨b, hb, h1, rfl⟩
    rw [Nat.add_comm, Nat.add_mul_div_right _ _ hpos, Nat.div_eq_of_lt hb, Nat.zero_add,
      Nat.add_mul_mod_self_right, Nat.mod_eq_of_lt hb]
    exact ⟨rfl, h1⟩

/-- Word `b` of the line in `l` is as in `v`. -/
def SameWd (v : ByteMem) (la : LAddr p) (l : Line p) (b : Nat) : Prop :=
  ∀ i, i < p.lineBits → i / 32 = b → l.getLsbD i = (view v la).getLsbD i

/-- The byte of bit `i` of a line lies in word `i / 32`. -/
theorem byte_word (la : LAddr p) (i : Nat) :
    (la.num * 2 ^ p.offBits + i / 8) / 4 = wn la (i / 32) := by
  have : la.num * 2 ^ p.offBits = 4 * (la.num * 2 ^ p.nwBits) := by
    rw [offBits_pow, ← Nat.mul_assoc, Nat.mul_comm _ 4, Nat.mul_assoc]
  rw [wn, this]; omega

theorem SameWd.congr {v v' : ByteMem} {la : LAddr p} {l : Line p} {b : Nat} (h : SameWd v la l b)
    (hv : AgreeW (wn la b) v v') : SameWd v' la l b := by
  intro i hi hb
  rw [h i hi hb, getLsbD_view _ _ _ hi, getLsbD_view _ _ _ hi, hv _ (by rw [byte_word la i, hb])]

/-- Bytes of the word. -/
theorem SameWd.byte {v v' : ByteMem} {la : LAddr p} {l : Line p} {b : Nat} (hb : b < p.nWords) (h : SameWd v la l b)
    (h' : SameWd v' la l b) : AgreeW (wn la b) v v' := by
  intro x hx
  have hlt : x - la.num * 2 ^ p.offBits < 4 * 2 ^ p.nwBits ∧ la.num * 2 ^ p.offBits ≤ x := by
    have : la.num * 2 ^ p.offBits = 4 * (la.num * 2 ^ p.nwBits) := by
      rw [offBits_pow, ← Nat.mul_assoc, Nat.mul_comm _ 4, Nat.mul_assoc]
    simp only [wn, Params.nWords] at hx hb
    omega
  have hb' : (x - la.num * 2 ^ p.offBits) / 4 = b := by
    have : la.num * 2 ^ p.offBits = 4 * (la.num * 2 ^ p.nwBits) := by
      rw [offBits_pow, ← Nat.mul_assoc, Nat.mul_comm _ 4, Nat.mul_assoc]
    simp only [wn] at hx
    omega
  apply BitVec.eq_of_getLsbD_eq
  intro i hi
  have hi' : 8 * (x - la.num * 2 ^ p.offBits) + i < p.lineBits := by
    rw [lineBits_eq]; have := offBits_pow (p := p); omega
  have e1 : (8 * (x - la.num * 2 ^ p.offBits) + i) / 8 = x - la.num * 2 ^ p.offBits := by omega
  have e2 : (8 * (x - la.num * 2 ^ p.offBits) + i) % 8 = i := by omega
  have e3 : la.num * 2 ^ p.offBits + (x - la.num * 2 ^ p.offBits) = x := by omega
  have g1 := h _ hi' (by omega)
  have g2 := h' _ hi' (by omega)
  rw [getLsbD_view _ _ _ hi', e1, e2, e3] at g1 g2
  rw [← g1, ← g2]

/-- The entry has a copy of word `b`. Proof device; not in the source. -/
def Entry.has (e : Entry p) (b : Nat) : Prop := e.val = true ∨ e.dty.getLsbD b = true

theorem Entry.has.present {e : Entry p} {b : Nat} (h : e.has b) : e.Present := by
  rcases h with h | h
  · exact .inl h
  · exact .inr (dty_ne_zero h)

/-- A pending write-back. Proof device; not in the source. -/
structure Wb (p : Params) where
  la : LAddr p
  mask : Dty p
  line : Line p

/-- Proof device; not in the source. -/
def Wb.msg (m : Wb p) : MReq p := .wr m.la m.mask m.line

/-- The write-back carries word `W`. Proof device; not in the source. -/
def Wb.carries (m : Wb p) (W : Nat) : Prop := ∃ b, b < p.nWords ∧ m.mask.getLsbD b = true ∧ wn m.la b = W

/-- Proof device; not in the source. -/
def Carried (ws : List (Wb p)) (W : Nat) : Prop := ∃ m ∈ ws, m.carries W

/-- Proof device; not in the source. -/
def ArrDirty (ent : Way → Idx p → Entry p) (W : Nat) : Prop :=
  ∃ w ∈ p.ways, ∃ j b, b < p.nWords ∧ (ent w j).dty.getLsbD b = true ∧ wn ⟨(ent w j).tag, j⟩ b = W

/-- Proof device; not in the source. -/
def ArrHas (ent : Way → Idx p → Entry p) (W : Nat) : Prop :=
  ∃ w ∈ p.ways, ∃ j b, b < p.nWords ∧ (ent w j).has b ∧ wn ⟨(ent w j).tag, j⟩ b = W

theorem ArrDirty.hasC {ent : Way → Idx p → Entry p} {W : Nat} (h : ArrDirty ent W) : ArrHas ent W := by
  obtain ⟨w, hw, j, b, hb, hd, hW⟩ := h
  exact ⟨w, hw, j, b, hb, .inr hd, hW⟩

/-- Proof device; not in the source. -/
structure WArr (ent : Way → Idx p → Entry p) (dat : Way → Idx p → Line p) (ws : List (Wb p))
    (c : Nat → Copy) (v : ByteMem) : Prop where
  uniq : UniqF ent
  val : ∀ w ∈ p.ways, ∀ j b, b < p.nWords → (ent w j).has b →
    c (wn ⟨(ent w j).tag, j⟩ b) ≠ .none ∧ SameWd v ⟨(ent w j).tag, j⟩ (dat w j) b
  carry : ∀ m ∈ ws, ∀ b, b < p.nWords → m.mask.getLsbD b = true → SameWd v m.la m.line b
  dirty : ∀ W, c W = .dirty ↔ Carried ws W ∨ ArrDirty ent W
  has : ∀ W, c W ≠ .none → Carried ws W ∨ ArrHas ent W
  excl : ∀ W, Carried ws W → ¬ ArrDirty ent W
  disj : ws.Pairwise fun m m' => ∀ W, m.carries W → ¬ m'.carries W

/-- A word is in one place of the arrays. -/
theorem UniqF.place {ent : Way → Idx p → Entry p} (h : UniqF ent) {w w' : Way} {j j' : Idx p} {b b' : Nat}
    (hw : w ∈ p.ways) (hw' : w' ∈ p.ways) (hb : b < p.nWords) (hb' : b' < p.nWords) (hp : (ent w j).Present)
    (hp' : (ent w' j').Present) (hn : wn ⟨(ent w j).tag, j⟩ b = wn ⟨(ent w' j').tag, j'⟩ b') :
    w = w' ∧ j = j' ∧ b = b' := by
  obtain ⟨h1, h2⟩ := wn_inj hb hb' hn
  have hj : j = j' := congrArg LAddr.idx h1
  subst hj
  exact ⟨h w hw w' hw' j hp hp' (congrArg LAddr.tag h1), rfl, h2⟩

theorem not_carried (W : Nat) : ¬ Carried ([] : List (Wb p)) W := by rintro ⟨m, hm, _⟩; simp at hm

variable {ent : Way → Idx p → Entry p} {dat : Way → Idx p → Line p} {ws : List (Wb p)} {c : Nat → Copy} {v : ByteMem}

/-! ## Start -/

theorem WArr.init (v : ByteMem) : WArr (p := p) (fun _ _ => Entry.zero p) (fun _ _ => 0) [] (fun _ => .none) v := by
  have hz : ∀ b, ¬ (Entry.zero p).has b := by rintro b (h | h) <;> simp [Entry.zero] at h
  refine ⟨init_ok.uniq, fun w hw j b hb h => absurd h (hz b), by simp, fun W => ⟨by simp, ?_⟩, by simp, ?_, by simp⟩
  · rintro (h | ⟨w, hw, j, b, hb, h, _⟩)
    · exact absurd h (not_carried W)
    · exact absurd (.inr h) (hz b)
  · rintro W _ ⟨w, hw, j, b, hb, h, _⟩
    exact absurd (.inr h) (hz b)

/-! ## Eviction -/

/-- Write-back of an entry if it has dirty words. Proof device; not in the source. -/
def wbOf (e : Entry p) (j : Idx p) (l : Line p) : List (Wb p) := if e.dty != 0 then [⟨⟨e.tag, j⟩, e.dty, l⟩] else []

theorem wbOf_carried {e : Entry p} {j : Idx p} {l : Line p} {W : Nat} :
    Carried (wbOf e j l) W ↔ ∃ b, b < p.nWords ∧ e.dty.getLsbD b = true ∧ wn ⟨e.tag, j⟩ b = W := by
  constructor
  · rintro ⟨m, hm, b, hb, h1, h2⟩
    simp only [wbOf] at hm
    split at hm
    · rw [List.mem_singleton] at hm; subst hm; exact ⟨b, hb, h1, h2⟩
    · simp at hm
  · rintro ⟨b, hb, h1, h2⟩
    have : (e.dty != 0) = true := by simpa using dty_ne_zero h1
    exact ⟨_, by rw [wbOf, if_pos this]; exact List.mem_singleton.2 rfl, b, hb, h1, h2⟩

/-- The clean words of an entry. Proof device; not in the source. -/
def cleanOf (e : Entry p) (j : Idx p) (W : Nat) : Bool := e.val && inMask ⟨e.tag, j⟩ (~~~ e.dty) W

theorem cleanOf_iff {e : Entry p} {j : Idx p} {W : Nat} :
    cleanOf e j W = true ↔ e.val = true ∧ ∃ b, b < p.nWords ∧ e.dty.getLsbD b = false ∧ wn ⟨e.tag, j⟩ b = W := by
  simp only [cleanOf, Bool.and_eq_true, inMask_iff]
  constructor
  · rintro ⟨h, b, hb, h1, h2⟩
    exact ⟨h, b, hb, by simpa [hb] using h1, h2⟩
  · rintro ⟨h, b, hb, h1, h2⟩
    exact ⟨h, b, hb, by rw [BitVec.getLsbD_not]; simp only [hb, h1]; rfl, h2⟩

theorem WArr.cleanOf (h : WArr ent dat [] c v) {w : Way} (hw : w ∈ p.ways) (j : Idx p) {W : Nat}
    (hW : cleanOf (ent w j) j W = true) : c W = .clean := by
  obtain ⟨hv, b, hb, hd, rfl⟩ := cleanOf_iff.1 hW
  have h1 := (h.val w hw j b hb (.inl hv)).1
  have h2 : c (wn ⟨(ent w j).tag, j⟩ b) ≠ .dirty := by
    intro hx
    rcases (h.dirty _).1 hx with hx | ⟨w', hw', j', b', hb', hd', hn⟩
    · exact not_carried _ hx
    · obtain ⟨rfl, rfl, rfl⟩ := h.uniq.place hw' hw hb' hb (Entry.has.present (.inr hd')) (.inl hv) hn
      rw [hd] at hd'; cases hd'
  cases hc : c (wn ⟨(ent w j).tag, j⟩ b) <;> simp_all

theorem WArr.evict (h : WArr ent dat [] c v) {w0 : Way} (hw0 : w0 ∈ p.ways) (j0 : Idx p) (t : Tag p) :
    WArr (setAt ent w0 j0 ⟨false, 0, t⟩) dat (wbOf (ent w0 j0) j0 (dat w0 j0))
      (fun W => if Verif.cleanOf (ent w0 j0) j0 W then .none else c W) v := by
  have hz : ∀ b, ¬ (⟨false, 0, t⟩ : Entry p).has b := by rintro b (h | h) <;> simp at h
  have key : ∀ {w j b}, (setAt ent w0 j0 ⟨false, 0, t⟩ w j).has b → ¬ (w = w0 ∧ j = j0) := by
    rintro w j b hh ⟨rfl, rfl⟩
    rw [setAt_same] at hh; exact hz b hh
  have kd : ∀ {w j b}, (setAt ent w0 j0 ⟨false, 0, t⟩ w j).dty.getLsbD b = true → ¬ (w = w0 ∧ j = j0) :=
    fun hh => key (.inr hh)
  refine ⟨h.uniq.setAt _ _ _ ?_, ?_, ?_, ?_, ?_, ?_, ?_⟩
  · rintro w _ _ _ (hp | hp) <;> simp at hp
  · intro w hw j b hb hh
    have hne := key hh
    rw [setAt_ne _ _ hne] at hh ⊢
    obtain ⟨h1, h2⟩ := h.val w hw j b hb hh
    refine ⟨?_, h2⟩
    rw [if_neg]; exact h1
    intro hx
    obtain ⟨hv, b', hb', _, hn⟩ := cleanOf_iff.1 hx
    obtain ⟨rfl, rfl, _⟩ := h.uniq.place hw0 hw hb' hb (.inl hv) hh.present hn
    exact hne ⟨rfl, rfl⟩
  · intro m hm b hb hd
    simp only [wbOf] at hm
    split at hm
    · rw [List.mem_singleton] at hm; subst hm
      exact (h.val w0 hw0 j0 b hb (.inr hd)).2
    · simp at hm
  · intro W
    have e : (if Verif.cleanOf (ent w0 j0) j0 W then Copy.none else c W) = .dirty ↔ c W = .dirty := by
      split
      · rename_i hx
        rw [h.cleanOf hw0 j0 hx]; simp
      · rfl
    rw [e, h.dirty, wbOf_carried]
    constructor
    · rintro (hx | ⟨w, hw, j, b, hb, hd, hn⟩)
      · exact absurd hx (not_carried W)
      · by_cases hx : w = w0 ∧ j = j0
        · obtain ⟨rfl, rfl⟩ := hx
          exact .inl ⟨b, hb, hd, hn⟩
        · exact .inr ⟨w, hw, j, b, hb, by rw [setAt_ne _ _ hx]; exact hd, by rw [setAt_ne _ _ hx]; exact hn⟩
    · rintro (⟨b, hb, hd, hn⟩ | ⟨w, hw, j, b, hb, hd, hn⟩)
      · exact .inr ⟨w0, hw0, j0, b, hb, hd, hn⟩
      · have hx := kd hd
        rw [setAt_ne _ _ hx] at hd hn
        exact .inr ⟨w, hw, j, b, hb, hd, hn⟩
  · intro W hW
    rw [wbOf_carried]
    by_cases hx : Verif.cleanOf (ent w0 j0) j0 W = true
    · rw [if_pos hx] at hW; exact absurd rfl hW
    rw [if_neg hx] at hW
    rcases h.has W hW with hy | ⟨w, hw, j, b, hb, hd, hn⟩
    · exact absurd hy (not_carried W)
    · by_cases hz : w = w0 ∧ j = j0
      · obtain ⟨rfl, rfl⟩ := hz
        left
        cases hdb : (ent w j).dty.getLsbD b
        · rcases hd with hd | hd
          · exact absurd (cleanOf_iff.2 ⟨hd, b, hb, hdb, hn⟩) hx
          · rw [hdb] at hd; cases hd
        · exact ⟨b, hb, hdb, hn⟩
      · exact .inr ⟨w, hw, j, b, hb, by rw [setAt_ne _ _ hz]; exact hd, by rw [setAt_ne _ _ hz]; exact hn⟩
  · intro W hc hd
    rw [wbOf_carried] at hc
    obtain ⟨b, hb, hdb, hn⟩ := hc
    obtain ⟨w', hw', j', b', hb', hd', hn'⟩ := hd
    have hx := kd hd'
    rw [setAt_ne _ _ hx] at hd' hn'
    obtain ⟨rfl, rfl, _⟩ := h.uniq.place hw' hw0 hb' hb (Entry.has.present (.inr hd')) (Entry.has.present (.inr hdb)) (by rw [hn, hn'])
    exact hx ⟨rfl, rfl⟩
  · simp only [wbOf]; split <;> simp

/-! ## INV and FLUSH -/

theorem WArr.inv (h : WArr ent dat [] c v) :
    WArr (fun w j => { ent w j with val := false }) dat [] (fun W => if c W = .clean then .none else c W) v := by
  refine ⟨h.uniq.shrink (fun w hw j hp => ⟨?_, rfl⟩), ?_, by simp, ?_, ?_, ?_, by simp⟩
  · rcases hp with hp | hp
    · cases hp
    · exact .inr hp
  · intro w hw j b hb hh
    have hd : (ent w j).dty.getLsbD b = true := by
      rcases hh with hh | hh
      · cases hh
      · exact hh
    refine ⟨?_, (h.val w hw j b hb (.inr hd)).2⟩
    have : c (wn ⟨(ent w j).tag, j⟩ b) = .dirty := (h.dirty _).2 (.inr ⟨w, hw, j, b, hb, hd, rfl⟩)
    simp [this]
  · intro W
    have e : (if c W = .clean then Copy.none else c W) = .dirty ↔ c W = .dirty := by
      cases c W <;> simp
    rw [e, h.dirty]; rfl
  · intro W hW
    have : c W = .dirty := by
      revert hW; cases c W <;> simp
    rcases (h.dirty W).1 this with hx | hx
    · exact .inl hx
    · obtain ⟨w, hw, j, b, hb, hd, hn⟩ := hx
      exact .inr ⟨w, hw, j, b, hb, .inr hd, hn⟩
  · intro W hx; exact absurd hx (not_carried W)

/-- Write-backs of the lines number `n-1` down to `0`. -/
def flushWs (ent : Way → Idx p → Entry p) (dat : Way → Idx p → Line p) : Nat → List (Wb p)
  | 0 => []
  | n + 1 => wbOf (ent (cntWay p (lineNo p n)) (cntIdx p (lineNo p n))) (cntIdx p (lineNo p n))
      (dat (cntWay p (lineNo p n)) (cntIdx p (lineNo p n))) ++ flushWs ent dat n

theorem flushWs_msgs (L : L1 p) (n : Nat) : memMsgs (L.flushMsgs n) = (flushWs L.ent L.dat n).map Wb.msg := by
  induction n with
  | zero => rfl
  | succ n ih =>
    simp only [L1.flushMsgs, flushWs, memMsgs_append, List.map_append, ih, wbOf]
    congr 1
    split <;> simp [L1.wb, Wb.msg]

theorem flushWs_carried {n : Nat} {W : Nat} : Carried (flushWs ent dat n) W ↔
    ∃ i, i < n ∧ ∃ b, b < p.nWords ∧ (ent (cntWay p (lineNo p i)) (cntIdx p (lineNo p i))).dty.getLsbD b = true ∧
      wn ⟨(ent (cntWay p (lineNo p i)) (cntIdx p (lineNo p i))).tag, cntIdx p (lineNo p i)⟩ b = W := by
  induction n with
  | zero => simp [flushWs, Carried]
  | succ n ih =>
    have : Carried (flushWs ent dat (n + 1)) W ↔ Carried (wbOf (ent (cntWay p (lineNo p n)) (cntIdx p (lineNo p n))) (cntIdx p (lineNo p n))
      (dat (cntWay p (lineNo p n)) (cntIdx p (lineNo p n)))) W ∨ Carried (flushWs ent dat n) W := by
      simp only [Carried, flushWs, List.mem_append]
      constructor
      · rintro ⟨m, hm | hm, h⟩
        · exact .inl ⟨m, hm, h⟩
        · exact .inr ⟨m, hm, h⟩
      · rintro (⟨m, hm, h⟩ | ⟨m, hm, h⟩)
        · exact ⟨m, .inl hm, h⟩
        · exact ⟨m, .inr hm, h⟩
    rw [this, ih, wbOf_carried]
    constructor
    · rintro (h | ⟨i, hi, h⟩)
      · exact ⟨n, by omega, h⟩
      · exact ⟨i, by omega, h⟩
    · rintro ⟨i, hi, h⟩
      by_cases hx : i = n
      · subst hx; exact .inl h
      · exact .inr ⟨i, by omega, h⟩

theorem flushWs_mem {n : Nat} {m : Wb p} (hm : m ∈ flushWs ent dat n) :
    ∃ i, i < n ∧ m = ⟨⟨(ent (cntWay p (lineNo p i)) (cntIdx p (lineNo p i))).tag, cntIdx p (lineNo p i)⟩,
      (ent (cntWay p (lineNo p i)) (cntIdx p (lineNo p i))).dty, dat (cntWay p (lineNo p i)) (cntIdx p (lineNo p i))⟩ := by
  induction n with
  | zero => simp [flushWs] at hm
  | succ n ih =>
    simp only [flushWs, List.mem_append] at hm
    rcases hm with h | h
    · simp only [wbOf] at h
      split at h
      · rw [List.mem_singleton] at h
        exact ⟨n, by omega, h⟩
      · simp at h
    · obtain ⟨i, hi, h⟩ := ih h
      exact ⟨i, by omega, h⟩

theorem flushWs_disj (hu : UniqF ent) (n : Nat) (hn : n ≤ 2 ^ p.cntBits) :
    (flushWs ent dat n).Pairwise fun m m' => ∀ W, m.carries W → ¬ m'.carries W := by
  induction n with
  | zero => exact List.Pairwise.nil
  | succ n ih =>
    simp only [flushWs]
    rw [List.pairwise_append]
    refine ⟨?_, ih (by omega), ?_⟩
    · simp only [wbOf]; split <;> simp
    · intro m hm m' hm' W hW hW'
      have h1 := wbOf_carried.1 ⟨m, hm, hW⟩
      obtain ⟨b, hb, hd, hn1⟩ := h1
      obtain ⟨i, hi, b', hb', hd', hn'⟩ := flushWs_carried.1 ⟨m', hm', hW'⟩
      obtain ⟨h1, h2, _⟩ := hu.place (cntWay_mem _) (cntWay_mem _) hb hb' (Entry.has.present (.inr hd))
        (Entry.has.present (.inr hd')) (by rw [hn1, hn'])
      have := congrArg BitVec.toNat (cnt_ext h1 h2)
      simp only [lineNo, BitVec.toNat_ofNat] at this
      rw [Nat.mod_eq_of_lt (by omega), Nat.mod_eq_of_lt (by omega)] at this
      omega

theorem WArr.flush (h : WArr ent dat [] c v) :
    WArr (fun w j => { ent w j with dty := 0 }) dat (flushWs ent dat (2 ^ p.cntBits)) c v := by
  have hcar : ∀ W, Carried (flushWs ent dat (2 ^ p.cntBits)) W ↔ ArrDirty ent W := by
    intro W
    rw [flushWs_carried]
    constructor
    · rintro ⟨i, _, b, hb, hd, hn⟩
      exact ⟨_, cntWay_mem _, _, b, hb, hd, hn⟩
    · rintro ⟨w, hw, j, b, hb, hd, hn⟩
      obtain ⟨i, hi, rfl, rfl⟩ := line_exists hw j
      exact ⟨i, hi, b, hb, hd, hn⟩
  have hnd : ∀ W, ¬ ArrDirty (fun w j => { ent w j with dty := 0 }) W := by
    rintro W ⟨w, hw, j, b, hb, hd, hn⟩
    simp at hd
  refine ⟨h.uniq.shrink (fun w hw j hp => ⟨?_, rfl⟩), ?_, ?_, ?_, ?_, ?_, flushWs_disj h.uniq _ (Nat.le_refl _)⟩
  · rcases hp with hp | hp
    · exact .inl hp
    · exact absurd rfl hp
  · intro w hw j b hb hh
    rcases hh with hh | hh
    · exact h.val w hw j b hb (.inl hh)
    · simp at hh
  · intro m hm b hb hd
    obtain ⟨i, hi, rfl⟩ := flushWs_mem hm
    exact (h.val _ (cntWay_mem _) _ b hb (.inr hd)).2
  · intro W
    rw [h.dirty, hcar]
    constructor
    · rintro (hx | hx)
      · exact absurd hx (not_carried W)
      · exact .inl hx
    · rintro (hx | hx)
      · exact .inr hx
      · exact absurd hx (hnd W)
  · intro W hW
    rw [hcar]
    rcases h.has W hW with hx | ⟨w, hw, j, b, hb, hd, hn⟩
    · exact absurd hx (not_carried W)
    · rcases hd with hd | hd
      · exact .inr ⟨w, hw, j, b, hb, .inl hd, hn⟩
      · exact .inl ⟨w, hw, j, b, hb, hd, hn⟩
  · intro W _; exact hnd W

/-! ## A write-back reaches memory -/

/-- A way holds the line. -/
def holds (ent : Way → Idx p → Entry p) (la : LAddr p) : Bool :=
  p.ways.any fun w => (ent w la.idx).val && (ent w la.idx).tag == la.tag

theorem holds_iff {la : LAddr p} : holds ent la = true ↔
    ∃ w ∈ p.ways, (ent w la.idx).val = true ∧ (ent w la.idx).tag = la.tag := by
  simp [holds, List.any_eq_true]

theorem carries_iff {m : Wb p} {W : Nat} : inMask m.la m.mask W = true ↔ m.carries W := inMask_iff

theorem WArr.head_dirty {m : Wb p} (h : WArr ent dat (m :: ws) c v) {W : Nat} (hW : inMask m.la m.mask W = true) :
    c W = .dirty := (h.dirty W).2 (.inl ⟨m, List.mem_cons_self .., carries_iff.1 hW⟩)

/-- Copies after the words of `m` have been saved and, if the line is gone, dropped. -/
theorem WArr.saved {m : Wb p} (h : WArr ent dat (m :: ws) c v) :
    WArr ent dat ws (fun W => if inMask m.la m.mask W && !holds ent m.la then .none
      else if inMask m.la m.mask W then .clean else c W) v := by
  have hws : ∀ W, m.carries W → ¬ Carried ws W := by
    rintro W hm ⟨m', hm', hc⟩
    exact (List.rel_of_pairwise_cons h.disj hm') W hm hc
  have hcar : ∀ W, Carried (m :: ws) W ↔ m.carries W ∨ Carried ws W := by
    intro W; simp [Carried]
  have hent : ∀ W, m.carries W → ∀ w ∈ p.ways, ∀ j b, b < p.nWords → (ent w j).has b → wn ⟨(ent w j).tag, j⟩ b = W →
      (ent w j).val = true ∧ j = m.la.idx ∧ (ent w j).tag = m.la.tag := by
    rintro W hm w hw j b hb hh hn
    have hv : (ent w j).val = true := by
      rcases hh with hh | hh
      · exact hh
      · exact absurd ⟨w, hw, j, b, hb, hh, hn⟩ (h.excl W ((hcar W).2 (.inl hm)))
    obtain ⟨b', hb', _, hn'⟩ := hm
    have := (wn_inj hb hb' (hn.trans hn'.symm)).1
    exact ⟨hv, congrArg LAddr.idx this, congrArg LAddr.tag this⟩
  refine ⟨h.uniq, ?_, ?_, ?_, ?_, ?_, (List.pairwise_cons.1 h.disj).2⟩
  · intro w hw j b hb hh
    obtain ⟨h1, h2⟩ := h.val w hw j b hb hh
    refine ⟨?_, h2⟩
    by_cases hm : inMask m.la m.mask (wn ⟨(ent w j).tag, j⟩ b) = true
    · obtain ⟨e1, rfl, e3⟩ := hent _ (carries_iff.1 hm) w hw j b hb hh rfl
      have : holds ent m.la = true := holds_iff.2 ⟨w, hw, e1, e3⟩
      simp [hm, this]
    · simp [hm]; exact h1
  · exact fun m' hm' => h.carry m' (List.mem_cons_of_mem _ hm')
  · intro W
    by_cases hm : inMask m.la m.mask W = true
    · have hm' := carries_iff.1 hm
      have e : ¬ (Carried ws W ∨ ArrDirty ent W) := by
        rintro (hx | hx)
        · exact hws W hm' hx
        · exact h.excl W ((hcar W).2 (.inl hm')) hx
      simp only [hm, Bool.true_and, if_true]
      constructor
      · intro hx; split at hx <;> cases hx
      · exact fun hx => absurd hx e
    · have hm' : ¬ m.carries W := fun hx => hm (carries_iff.2 hx)
      simp only [hm, Bool.false_and, if_false, Bool.false_eq_true]
      rw [h.dirty, hcar]
      simp [hm']
  · intro W hW
    by_cases hm : inMask m.la m.mask W = true
    · have hh : holds ent m.la = true := by
        cases hx : holds ent m.la
        · simp [hm, hx] at hW
        · rfl
      obtain ⟨w, hw, e1, e2⟩ := holds_iff.1 hh
      obtain ⟨b, hb, _, hn⟩ := carries_iff.1 hm
      exact .inr ⟨w, hw, m.la.idx, b, hb, .inl e1, by rw [e2]; exact hn⟩
    · simp only [hm, Bool.false_and, if_false, Bool.false_eq_true] at hW
      rcases h.has W hW with hx | hx
      · rcases (hcar W).1 hx with hx | hx
        · exact absurd (carries_iff.2 hx) hm
        · exact .inl hx
      · exact .inr hx
  · intro W hx
    exact h.excl W ((hcar W).2 (.inr hx))

/-- Memory after the write-back. -/
theorem exec_wb {m : Wb p} (h : WArr ent dat (m :: ws) c v) (M : ByteMem) :
    (memExec M m.msg).1 = fun x => if inMask m.la m.mask (x / 4) then v x else M x := by
  funext x
  by_cases hm : inMask m.la m.mask (x / 4) = true
  · rw [if_pos hm]
    obtain ⟨b, hb, hd, hn⟩ := inMask_iff.1 hm
    have h1 : SameWd (memExec M m.msg).1 m.la m.line b := by
      intro i hi hib
      rw [show m.msg = .wr m.la m.mask m.line from rfl, exec_wr_view, if_pos rfl]
      rw [getLsbD_merge, getLsbD_expand, hib, hd]; simp [hi]
    exact h1.byte hb (h.carry m (List.mem_cons_self ..) b hb hd) x hn.symm
  · rw [if_neg hm]
    apply memExec_byte _ rfl
    rintro ⟨y, hy, ⟨_, b, hb, hd, h1, h2⟩ | ⟨_, h1, _⟩⟩
    · apply hm
      rw [inMask_iff]
      refine ⟨b, hb, hd, ?_⟩
      simp only [Wb.msg, MReq.wr, flat_off0] at h1 h2
      rw [← hy, wn]
      have : m.la.num * 2 ^ p.offBits = 4 * (m.la.num * 2 ^ p.nwBits) := by
        rw [offBits_pow, ← Nat.mul_assoc, Nat.mul_comm _ 4, Nat.mul_assoc]
      omega
    · exact h1 rfl

/-! ## A line arrives -/

theorem WArr.absent (h : WArr ent dat [] c v) {w : Way} {j : Idx p} {t : Tag p} {d : Dty p}
    (he : ent w j = ⟨false, d, t⟩)
    (ho : ∀ w' ∈ p.ways, w' ≠ w → (ent w' j).Present → (ent w' j).tag ≠ t) {W : Nat}
    (hW : inMask ⟨t, j⟩ (~~~ d) W = true) : c W = .none := by
  obtain ⟨b, hb, hd, rfl⟩ := inMask_iff.1 hW
  have hd : d.getLsbD b = false := by
    rw [BitVec.getLsbD_not] at hd; simpa [hb] using hd
  apply Decidable.byContradiction
  intro hx
  rcases h.has _ hx with hy | ⟨w', hw', j', b', hb', hh, hn⟩
  · exact not_carried _ hy
  · obtain ⟨e1, rfl⟩ := wn_inj hb' hb hn
    have ej : j' = j := congrArg LAddr.idx e1
    have et : (ent w' j').tag = t := congrArg LAddr.tag e1
    subst ej
    by_cases hw : w' = w
    · subst hw
      rw [he] at hh
      rcases hh with hh | hh
      · cases hh
      · rw [hd] at hh; cases hh
    · exact ho w' hw' hw hh.present et

theorem WArr.fetch (h : WArr ent dat [] c v) {w : Way} (hw : w ∈ p.ways) {j : Idx p} {t : Tag p} {d : Dty p}
    (he : ent w j = ⟨false, d, t⟩)
    (ho : ∀ w' ∈ p.ways, w' ≠ w → (ent w' j).Present → (ent w' j).tag ≠ t) (M : ByteMem) :
    WArr (setAt ent w j ⟨true, d, t⟩) (setAt dat w j (merge (~~~ expand p d) (dat w j) (view M ⟨t, j⟩))) []
      (fun W => if inMask ⟨t, j⟩ (~~~ d) W then .clean else c W)
      (fun x => if inMask ⟨t, j⟩ (~~~ d) (x / 4) then M x else v x) := by
  have hno : ∀ w' ∈ p.ways, ∀ j' b, b < p.nWords → ¬ (w' = w ∧ j' = j) → (ent w' j').has b →
      inMask ⟨t, j⟩ (~~~ d) (wn ⟨(ent w' j').tag, j'⟩ b) = false := by
    intro w' hw' j' b hb hne hh
    apply Decidable.byContradiction
    intro hx
    obtain ⟨b', hb', _, hn⟩ := inMask_iff.1 (by simpa using hx)
    obtain ⟨e1, _⟩ := wn_inj hb' hb hn
    have ej : j = j' := congrArg LAddr.idx e1
    have et : t = (ent w' j').tag := congrArg LAddr.tag e1
    subst ej
    exact ho w' hw' (fun hx => hne ⟨hx, rfl⟩) hh.present et.symm
  have hset : ∀ {w' j'}, ¬ (w' = w ∧ j' = j) → setAt ent w j ⟨true, d, t⟩ w' j' = ent w' j' := fun hx => setAt_ne _ _ hx
  have hdty : ∀ w' j', (setAt ent w j ⟨true, d, t⟩ w' j').dty = (ent w' j').dty := by
    intro w' j'
    by_cases hx : w' = w ∧ j' = j
    · obtain ⟨rfl, rfl⟩ := hx; rw [setAt_same, he]
    · rw [hset hx]
  have htag : ∀ w' j', (setAt ent w j ⟨true, d, t⟩ w' j').tag = (ent w' j').tag := by
    intro w' j'
    by_cases hx : w' = w ∧ j' = j
    · obtain ⟨rfl, rfl⟩ := hx; rw [setAt_same, he]
    · rw [hset hx]
  have hdirty : ∀ W, ArrDirty (setAt ent w j ⟨true, d, t⟩) W ↔ ArrDirty ent W := by
    intro W; simp only [ArrDirty, hdty, htag]
  refine ⟨h.uniq.setAt _ _ _ (fun w' hw' hne hp _ => ho w' hw' hne hp), ?_, by simp, ?_, ?_, ?_, by simp⟩
  · intro w' hw' j' b hb hh
    by_cases hx : w' = w ∧ j' = j
    · obtain ⟨rfl, rfl⟩ := hx
      simp only [setAt_same]
      cases hd : d.getLsbD b
      · have hm : inMask ⟨t, j'⟩ (~~~ d) (wn ⟨t, j'⟩ b) = true := by
          rw [inMask_iff]
          exact ⟨b, hb, by rw [BitVec.getLsbD_not]; simp only [hb, hd]; rfl, rfl⟩
        refine ⟨by simp [hm], ?_⟩
        intro i hi hib
        rw [getLsbD_merge, BitVec.getLsbD_not, getLsbD_expand, hib, hd, getLsbD_view _ _ _ hi,
          getLsbD_view _ _ _ hi, byte_word, hib, hm]
        simp [hi]
      · have hm : inMask ⟨t, j'⟩ (~~~ d) (wn ⟨t, j'⟩ b) = false := by
          apply Decidable.byContradiction
          intro hx
          obtain ⟨b', hb', h1, hn⟩ := inMask_iff.1 (by simpa using hx)
          obtain ⟨_, rfl⟩ := wn_inj hb' hb hn
          rw [BitVec.getLsbD_not] at h1; simp [hd] at h1
        have hv := h.val w' hw' j' b hb (.inr (by rw [he]; exact hd))
        rw [he] at hv
        refine ⟨by simp only [hm]; simpa using hv.1, ?_⟩
        intro i hi hib
        rw [getLsbD_merge, BitVec.getLsbD_not, getLsbD_expand, hib, hd, getLsbD_view _ _ _ hi,
          getLsbD_view _ _ _ hi, byte_word, hib, hm]
        have := hv.2 i hi hib
        rw [getLsbD_view _ _ _ hi] at this
        simpa [hi] using this
    · rw [hset hx] at hh ⊢
      rw [setAt_ne _ _ hx]
      have hm := hno w' hw' j' b hb hx hh
      obtain ⟨h1, h2⟩ := h.val w' hw' j' b hb hh
      refine ⟨by simp only [hm]; simpa using h1, h2.congr ?_⟩
      intro x hxw
      simp only [hxw, hm]; simp
  · intro W
    rw [hdirty]
    have : ArrDirty ent W → inMask ⟨t, j⟩ (~~~ d) W = false := by
      intro hx
      apply Decidable.byContradiction
      intro hy
      have := h.absent he ho (W := W) (by simpa using hy)
      rw [(h.dirty W).2 (.inr hx)] at this; cases this
    constructor
    · intro hx
      split at hx
      · cases hx
      · exact (h.dirty W).1 hx
    · rintro (hx | hx)
      · exact absurd hx (not_carried W)
      · rw [this hx]; simpa using (h.dirty W).2 (.inr hx)
  · intro W hW
    by_cases hm : inMask ⟨t, j⟩ (~~~ d) W = true
    · obtain ⟨b, hb, _, hn⟩ := inMask_iff.1 hm
      exact .inr ⟨w, hw, j, b, hb, by rw [setAt_same]; exact .inl rfl, by rw [setAt_same]; exact hn⟩
    · rw [if_neg hm] at hW
      rcases h.has W hW with hx | ⟨w', hw', j', b, hb, hh, hn⟩
      · exact .inl hx
      · refine .inr ⟨w', hw', j', b, hb, ?_, by rw [htag]; exact hn⟩
        rcases hh with hh | hh
        · by_cases hx : w' = w ∧ j' = j
          · obtain ⟨rfl, rfl⟩ := hx; rw [setAt_same]; exact .inl rfl
          · rw [hset hx]; exact .inl hh
        · exact .inr (by rw [hdty]; exact hh)
  · intro W hx; exact absurd hx (not_carried W)

/-! ## Reads and writes of a held line -/

theorem store_req (wf : p.WF) {q : CReq p} (hv : q.Valid) (ty : q.ty = MT.WRITE) : Store q q.req.bytes := by
  cases hv with
  | read ty' => rw [ty] at ty'; simp at ty'
  | write _ k hk hk2 al =>
    have h3 : ¬ q.len.toNat = 3 := by
      rcases bytes_cases hk with ⟨h1, _⟩ | ⟨h1, _⟩
      · omega
      · rw [h1]; intro h3
        have : k = 0 ∨ k = 1 ∨ k = 2 := by omega
        rcases this with rfl | rfl | rfl <;> simp at h3
    have := store_word wf hk hk2 al
    rw [← hk] at this
    simpa only [CReq.req, ty, h3, and_false, if_false] using this
  | dword _ len hp al =>
    have := store_dword wf hp len al
    simpa only [CReq.req, ty, len, and_self, if_true] using this
  | amo ty' => exact absurd ty (amo_ty ty').2.1
  | inv ty' => rw [ty] at ty'; simp at ty'
  | flush ty' => rw [ty] at ty'; simp at ty'

theorem req_bytes_pos {q : CReq p} : 0 < q.req.bytes := by
  simp only [CReq.req, CReq.bytes]
  have := Nat.two_pow_pos p.lenBits
  split
  · omega
  · split <;> omega

/-- The words a store covers are those it stores to. -/
theorem covers_writes {q : CReq p} (ty : q.ty = MT.WRITE) (W : Nat) : q.req.covers W ↔ q.writesWord W := by
  have hb : q.req.bytes = if q.len.toNat = 3 then 8 else q.bytes := by
    simp only [CReq.req, ty, true_and]
  have hpos := req_bytes_pos (q := q)
  rw [hb] at hpos
  simp only [WM.Req.covers, CReq.writesWord, CReq.writesByte, hb]
  rw [show q.req.addr = q.addr.flat from rfl]
  constructor
  · rintro ⟨h1, h2⟩
    by_cases hx : q.addr.flat ≤ 4 * W
    · exact ⟨4 * W, by omega, .inl ⟨ty, hx, h2⟩⟩
    · exact ⟨q.addr.flat, by omega, .inl ⟨ty, Nat.le_refl _, by omega⟩⟩
  · rintro ⟨x, hx, ⟨_, h1, h2⟩ | ⟨h1, _⟩⟩
    · constructor <;> omega
    · rw [ty] at h1; exact absurd h1 (by decide)

theorem mark_iff (wf : p.WF) {q : CReq p} (hv : q.Valid) (ty : q.ty = MT.WRITE) (d : Dty p) {b : Nat} (hb : b < p.nWords) :
    (markDirty p d q.addr.off q.len).getLsbD b = true ↔ d.getLsbD b = true ∨ q.req.covers (wn q.addr.la b) := by
  rw [covers_writes ty]
  constructor
  · exact mark_writes wf hv ty d b
  · rintro (h | h)
    · exact markDirty_mono _ _ _ _ h
    · obtain ⟨b', hb', hn, h1, _⟩ := store_marks wf hv ty h
      obtain ⟨_, rfl⟩ := wn_inj (la := q.addr.la) (la' := q.addr.la) hb' hb hn
      exact h1 d

theorem covers_wn (wf : p.WF) {q : CReq p} (hv : q.Valid) (ty : q.ty = MT.WRITE) {W : Nat} (h : q.req.covers W) :
    ∃ b, b < p.nWords ∧ wn q.addr.la b = W := by
  obtain ⟨b, hb, hn, _⟩ := store_marks wf hv ty ((covers_writes ty W).1 h)
  exact ⟨b, hb, hn⟩

theorem WArr.store (wf : p.WF) (h : WArr ent dat [] c v) {q : CReq p} (hv : q.Valid) (ty : q.ty = MT.WRITE) {w : Way}
    (hw : w ∈ p.ways) (hval : (ent w q.addr.idx).val = true) (htag : (ent w q.addr.idx).tag = q.addr.tag) :
    WArr (setAt ent w q.addr.idx ⟨true, markDirty p (ent w q.addr.idx).dty q.addr.off q.len, q.addr.tag⟩)
      (setAt dat w q.addr.idx (writeLine q (dat w q.addr.idx))) []
      (fun W => if q.req.covers W then .dirty else c W) (writeLE v q.req.addr q.req.bytes q.req.data) := by
  have hst := store_req wf hv ty
  have hview : ∀ la, view (writeLE v q.req.addr q.req.bytes q.req.data) la =
      if la = q.addr.la then putBytes (view v q.addr.la) q.addr.off.toNat q.req.bytes q.data.toNat else view v la := by
    intro la
    rw [show q.req.addr = q.addr.la.num * 2 ^ p.offBits + q.addr.off.toNat from rfl]
    exact view_write _ _ _ _ _ hst.fits la
  have htags : ∀ w' j', (setAt ent w q.addr.idx ⟨true, markDirty p (ent w q.addr.idx).dty q.addr.off q.len, q.addr.tag⟩ w' j').tag
      = (ent w' j').tag := by
    intro w' j'
    by_cases hx : w' = w ∧ j' = q.addr.idx
    · obtain ⟨rfl, rfl⟩ := hx; rw [setAt_same]; exact htag.symm
    · rw [setAt_ne _ _ hx]
  refine ⟨h.uniq.setAt _ _ _ ?_, ?_, by simp, ?_, ?_, ?_, by simp⟩
  · intro w' hw' hne hp _ ht
    exact hne (h.uniq w' hw' w hw q.addr.idx hp (.inl hval) (by rw [htag]; exact ht))
  · intro w' hw' j' b hb hh
    rw [htags]
    by_cases hx : w' = w ∧ j' = q.addr.idx
    · obtain ⟨rfl, rfl⟩ := hx
      obtain ⟨h1, h2⟩ := h.val w' hw' q.addr.idx b hb (.inl hval)
      refine ⟨by split <;> simp_all, ?_⟩
      intro i hi hib
      rw [setAt_same, hview, htag, if_pos (show (⟨q.addr.tag, q.addr.idx⟩ : LAddr p) = q.addr.la from rfl), hst.line,
        getLsbD_putBytes _ _ _ _ _ hi, getLsbD_putBytes _ _ _ _ _ hi, h2 i hi hib, htag]
      rfl
    · rw [setAt_ne _ _ hx] at hh
      rw [setAt_ne _ _ hx]
      obtain ⟨h1, h2⟩ := h.val w' hw' j' b hb hh
      refine ⟨by split <;> simp_all, ?_⟩
      intro i hi hib
      rw [hview, if_neg]
      · exact h2 i hi hib
      · intro hla
        have ej : j' = q.addr.idx := congrArg LAddr.idx hla
        have et : (ent w' j').tag = q.addr.tag := congrArg LAddr.tag hla
        subst ej
        exact hx ⟨h.uniq w' hw' w hw q.addr.idx hh.present (.inl hval) (by rw [htag]; exact et), rfl⟩
  · intro W
    constructor
    · intro hx
      by_cases hc : q.req.covers W
      · obtain ⟨b, hb, rfl⟩ := covers_wn wf hv ty hc
        exact .inr ⟨w, hw, q.addr.idx, b, hb, by rw [setAt_same]; exact (mark_iff wf hv ty _ hb).2 (.inr hc),
          by rw [setAt_same]; rfl⟩
      · rw [if_neg hc] at hx
        rcases (h.dirty W).1 hx with hy | ⟨w', hw', j', b, hb, hd, hn⟩
        · exact .inl hy
        · refine .inr ⟨w', hw', j', b, hb, ?_, by rw [htags]; exact hn⟩
          by_cases hx : w' = w ∧ j' = q.addr.idx
          · obtain ⟨rfl, rfl⟩ := hx; rw [setAt_same]; exact markDirty_mono _ _ _ _ hd
          · rw [setAt_ne _ _ hx]; exact hd
    · rintro (hx | ⟨w', hw', j', b, hb, hd, hn⟩)
      · exact absurd hx (not_carried W)
      · rw [htags] at hn
        by_cases hc : q.req.covers W
        · rw [if_pos hc]
        rw [if_neg hc]
        by_cases hx : w' = w ∧ j' = q.addr.idx
        · obtain ⟨rfl, rfl⟩ := hx
          rw [setAt_same] at hd
          rcases (mark_iff wf hv ty _ hb).1 hd with hd | hd
          · exact (h.dirty W).2 (.inr ⟨w', hw', _, b, hb, hd, hn⟩)
          · rw [htag] at hn
            rw [← hn] at hc; exact absurd hd hc
        · rw [setAt_ne _ _ hx] at hd
          exact (h.dirty W).2 (.inr ⟨w', hw', j', b, hb, hd, hn⟩)
  · intro W hW
    by_cases hc : q.req.covers W
    · obtain ⟨b, hb, rfl⟩ := covers_wn wf hv ty hc
      exact .inr ⟨w, hw, q.addr.idx, b, hb, by rw [setAt_same]; exact .inl rfl, by rw [setAt_same]; rfl⟩
    · rw [if_neg hc] at hW
      rcases h.has W hW with hy | ⟨w', hw', j', b, hb, hd, hn⟩
      · exact .inl hy
      · refine .inr ⟨w', hw', j', b, hb, ?_, by rw [htags]; exact hn⟩
        by_cases hx : w' = w ∧ j' = q.addr.idx
        · obtain ⟨rfl, rfl⟩ := hx; rw [setAt_same]; exact .inl rfl
        · rw [setAt_ne _ _ hx]; exact hd
  · intro W hx; exact absurd hx (not_carried W)

/-- The words of a valid read or write lie in its line. -/
theorem covers_line (wf : p.WF) {q : CReq p} (hv : q.Valid) (ty : q.ty = MT.READ ∨ q.ty = MT.WRITE) {W : Nat}
    (h : q.req.covers W) : ∃ b, b < p.nWords ∧ wn q.addr.la b = W := by
  rcases ty with ty | ty
  · obtain ⟨k, hk, al⟩ := valid_read hv ty
    have hkl : k ≤ p.lenBits := by rcases bytes_cases hk with ⟨_, h1⟩ | ⟨_, h1⟩ <;> omega
    have hko : k ≤ p.offBits := Nat.le_trans hkl wf.fits
    have hf := fits_line hko (dvd_off hko al)
    have hb : q.req.bytes = 2 ^ k := by simp only [CReq.req, ty, hk]; rfl
    obtain ⟨h1, h2⟩ := h
    rw [hb] at h2
    rw [show q.req.addr = q.addr.la.num * 2 ^ p.offBits + q.addr.off.toNat from rfl] at h1 h2
    have e : q.addr.la.num * 2 ^ p.offBits = 4 * (q.addr.la.num * 2 ^ p.nwBits) := by
      rw [offBits_pow, ← Nat.mul_assoc, Nat.mul_comm _ 4, Nat.mul_assoc]
    have e2 := offBits_pow (p := p)
    refine ⟨W - q.addr.la.num * 2 ^ p.nwBits, ?_, ?_⟩
    · simp only [Params.nWords]; omega
    · simp only [wn]; omega
  · exact covers_wn wf hv ty h

theorem WArr.covered (wf : p.WF) (h : WArr ent dat [] c v) {q : CReq p} (hv : q.Valid)
    (ty : q.ty = MT.READ ∨ q.ty = MT.WRITE) {w : Way}
    (hw : w ∈ p.ways) (hval : (ent w q.addr.idx).val = true) (htag : (ent w q.addr.idx).tag = q.addr.tag) {W : Nat}
    (hc : q.req.covers W) : c W ≠ .none := by
  obtain ⟨b, hb, rfl⟩ := covers_line wf hv ty hc
  have := (h.val w hw q.addr.idx b hb (.inl hval)).1
  rw [htag] at this; exact this

theorem WArr.read (wf : p.WF) (h : WArr ent dat [] c v) {q : CReq p} (hv : q.Valid) (ty : q.ty = MT.READ) {w : Way}
    (hw : w ∈ p.ways) (hval : (ent w q.addr.idx).val = true) (htag : (ent w q.addr.idx).tag = q.addr.tag) :
    (readLine q (dat w q.addr.idx)).toNat = readLE v q.req.addr q.req.bytes := by
  obtain ⟨k, hk, al⟩ := valid_read hv ty
  have := (read_spec (P := Bits.all p) wf hk al ty v (dat w q.addr.idx) (by
    intro i hi _
    have hb : i / 32 < p.nWords := by simp only [Params.lineBits] at hi; omega
    have := (h.val w hw q.addr.idx (i / 32) hb (.inl hval)).2 i hi rfl
    rw [htag] at this; exact this)).eq
  have hkl : k ≤ p.lenBits := by rcases bytes_cases hk with ⟨_, h1⟩ | ⟨_, h1⟩ <;> omega
  have hb : q.req.bytes = q.bytes := by simp only [CReq.req, ty]; rfl
  rw [this]
  simp only [flatStep, ty, if_true, BitVec.toNat_ofNat]
  rw [hb]
  apply Nat.mod_eq_of_lt
  refine Nat.lt_of_lt_of_le (readLE_lt _ _ _) ?_
  rw [hk]
  apply Nat.pow_le_pow_right (by omega)
  have := Nat.pow_le_pow_right (n := 2) (by omega) hkl
  simp only [Params.dataBits]; omega

end Verif
