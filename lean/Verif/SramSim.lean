import Verif.SramAny

/-!
# The SRAM outputs are only used in the cycle after a read

`Twin s s'`: two states of the cache that differ only in SRAM output registers and stall
registers, and agree on those of them that are still needed.
-/

namespace Verif
variable {p : Params}

/-- `s` with other SRAM output registers and stall registers. Proof device; not in the source. -/
def St.put (s : St p) (a b : Way → Entry p) (c : Bool × Way) (d e : Line p) : St p :=
  { s with tagDout := a, tagStall := b, hitStall := c, data := ⟨s.data.ram, d⟩, dataStall := e }

/-- The entry read from way `w` is needed by stage M1. Proof device; not in the source. -/
def St.LiveT (s : St p) (w : Way) : Prop := w ∈ p.ways ∧ s.tagEn = true ∧ (s.t1 = .flushRead → w = s.updWay1)

/-- The line read is needed by stage M2. -/
def St.LiveD (s : St p) : Prop := (Verif.cs2 s.t2 true true s.evict2 s.hit2 s.flushSent2).rdSel = false

/-- Facts that hold in every state after reset. Proof device; not in the source. -/
structure Tidy (s : St p) : Prop where
  upd : s.t1 = .flushRead → s.updWay1 = cntWay p (s.cnt + 1)
  way : s.hitStallEn = true ∨ s.hitStall.2 ∈ p.ways
  evict : s.evict2 = true → s.t1 = .readReq ∨ s.t1 = .writeReq ∨ s.t1 = .amoReq
  init : s.fsm = .init → s.t1 = .invalid ∨ s.t1 = .cacheInit

/-- The registers that may differ agree where needed. Proof device; not in the source. -/
structure Alike (s : St p) (a b : Way → Entry p) (c : Bool × Way) (d e : Line p) : Prop where
  tag : ∀ w, s.LiveT w → (s.put a b c d e).effTag w = s.effTag w
  dat : s.LiveD → (s.put a b c d e).effData = s.effData
  hit : s.hitStallEn = true ∨ s.t1 = .flushRead ∨ c = s.hitStall

theorem false_way : false ∈ p.ways := by unfold Params.ways; split <;> simp

theorem cntWay_way (c : BitVec p.cntBits) : cntWay p c ∈ p.ways := by
  unfold Params.ways cntWay
  cases p.twoWay <;> simp

theorem cmpStep_congr {en : Bool} {tag : Tag p} {f g : Way → Entry p} {w : Way} (h : f w = g w) (c : Cmp) :
    cmpStep en tag f c w = cmpStep en tag g c w := by simp only [cmpStep, h]

theorem foldl_cmp {en : Bool} {tag : Tag p} {f g : Way → Entry p} : ∀ (l : List Way) (c : Cmp),
    (∀ w ∈ l, f w = g w) → l.foldl (cmpStep en tag f) c = l.foldl (cmpStep en tag g) c
  | [], _, _ => rfl
  | w :: l, c, h => by
    rw [List.foldl_cons, List.foldl_cons, cmpStep_congr (h w (by simp))]
    exact foldl_cmp l _ fun w' hw => h w' (by simp [hw])

theorem cmpStep_way {en : Bool} {tag : Tag p} {f : Way → Entry p} {w : Way} {c : Cmp} (hc : c.way ∈ p.ways) (hw : w ∈ p.ways) :
    (cmpStep en tag f c w).way ∈ p.ways := by
  unfold cmpStep
  dsimp only
  split <;> split <;> first | exact hw | exact hc

theorem foldl_way {en : Bool} {tag : Tag p} {f : Way → Entry p} : ∀ (l : List Way) (c : Cmp),
    c.way ∈ p.ways → (∀ w ∈ l, w ∈ p.ways) → (l.foldl (cmpStep en tag f) c).way ∈ p.ways
  | [], _, h, _ => h
  | w :: l, c, h, hl => by
    rw [List.foldl_cons]
    exact foldl_way l _ (cmpStep_way h (hl w (by simp))) fun w' hw => hl w' (by simp [hw])

theorem cmp_way (s : St p) : s.cmp.way ∈ p.ways := by
  unfold St.cmp comparing
  split
  · exact foldl_way _ _ false_way fun _ h => h
  · exact false_way

section
variable {s : St p} {a b : Way → Entry p} {c : Bool × Way} {d e : Line p}

theorem Alike.cmp (A : Alike s a b c d e) (h : s.t1 ≠ .flushRead) : (s.put a b c d e).cmp = s.cmp := by
  show comparing p s.tagEn (s.t1 == .initReq) s.req1.addr.tag (s.put a b c d e).effTag = _
  unfold St.cmp comparing
  split
  · next hh =>
    rw [Bool.and_eq_true] at hh
    exact foldl_cmp _ _ fun w hw => A.tag w ⟨hw, hh.2, fun h' => absurd h' h⟩
  · rfl

theorem Alike.entry (A : Alike s a b c d e) {w : Way} (h : s.t1 = .flushRead → w = s.updWay1) :
    (s.put a b c d e).tagEntry w = s.tagEntry w := by
  show (if w ∈ p.ways then tagEntryOut s.tagEn ((s.put a b c d e).effTag w) else Entry.zero p) = _
  unfold St.tagEntry
  split
  · next hw =>
    cases ht : s.tagEn
    · rfl
    · rw [A.tag w ⟨hw, ht, h⟩]
  · rfl

theorem Alike.lineDty (A : Alike s a b c d e) {w : Way} (h : s.t1 = .flushRead → w = s.updWay1) :
    (s.put a b c d e).lineDty w = s.lineDty w := by
  show (decide (w ∈ p.ways) && lineDirty s.tagEn ((s.put a b c d e).effTag w)) = _
  unfold St.lineDty
  cases ht : s.tagEn
  · simp [lineDirty]
  · by_cases hw : w ∈ p.ways
    · rw [A.tag w ⟨hw, ht, h⟩]
    · simp [hw]

theorem Alike.wordDty (A : Alike s a b c d e) {w : Way} (ht : s.tagEn = true) (h : s.t1 ≠ .flushRead) :
    (s.put a b c d e).wordDty w = s.wordDty w := by
  show (decide (w ∈ p.ways) && wordDirty p ((s.put a b c d e).effTag w) s.req1.addr.off s.req1.len) = _
  unfold St.wordDty
  by_cases hw : w ∈ p.ways
  · rw [A.tag w ⟨hw, ht, fun h' => absurd h' h⟩]
  · simp [hw]

theorem hit_tagEn (h : s.cmp.hit = true) : s.tagEn = true := by
  cases ht : s.tagEn
  · simp [St.cmp, comparing, ht] at h
  · rfl

theorem Alike.isDty (A : Alike s a b c d e) (h : s.t1 ≠ .flushRead) :
    (if s.cmp.hit then (s.put a b c d e).wordDty s.cmp.way else (s.put a b c d e).lineDty s.repRd) =
      (if s.cmp.hit then s.wordDty s.cmp.way else s.lineDty s.repRd) := by
  cases hh : s.cmp.hit
  · simp only [Bool.false_eq_true, if_false]
    exact A.lineDty fun h' => absurd h' h
  · simp only [if_true]
    exact A.wordDty (hit_tagEn hh) h

theorem Alike.status1 (A : Alike s a b c d e) : (s.put a b c d e).status1 = s.status1 := by
  by_cases h : s.t1 = .flushRead
  · have h' : (s.put a b c d e).t1 = .flushRead := h
    simp only [St.status1, h, h']
  · have hc := A.cmp h
    have hd := A.isDty h
    have hl := A.lineDty (w := s.cmp.way) fun h' => absurd h' h
    have e1 : (s.put a b c d e).t1 = s.t1 := rfl
    have e2 : (s.put a b c d e).repRd = s.repRd := rfl
    unfold St.status1
    simp only [hc, e1, e2, hd, hl]

theorem Alike.flushSent1 (A : Alike s a b c d e) : (s.put a b c d e).flushSent1 = s.flushSent1 := by
  show (s.t1 == .flushRead && (s.put a b c d e).lineDty s.updWay1) = _
  rw [A.lineDty fun _ => rfl]
  rfl

theorem Alike.noFlush1 (A : Alike s a b c d e) : (s.put a b c d e).noFlush1 = s.noFlush1 := by
  show (s.t1 == .flushRead && !(s.put a b c d e).lineDty s.updWay1) = _
  rw [A.lineDty fun _ => rfl]
  rfl

theorem Alike.cs1 (A : Alike s a b c d e) : (s.put a b c d e).cs1 = s.cs1 := by
  show Verif.cs1 s.t1 (s.put a b c d e).status1.evict (s.put a b c d e).status1.hit (s.put a b c d e).flushSent1 = _
  rw [A.status1, A.flushSent1]
  rfl

theorem Alike.stall (A : Alike s a b c d e) (i : In p) : (s.put a b c d e).stall i = s.stall i := by
  show ((s.put a b c d e).cs1.ostall || (s.cs2 i).ostall) = _
  rw [A.cs1]
  rfl

theorem Alike.allocEn (A : Alike s a b c d e) (i : In p) : (s.put a b c d e).allocEn i = s.allocEn i := by
  unfold St.allocEn
  rw [A.cs1, A.stall]

theorem Alike.hitInfo (A : Alike s a b c d e) (h : s.t1 ≠ .flushRead) : (s.put a b c d e).hitInfo = s.hitInfo := by
  show stallOut s.hitStallEn (s.put a b c d e).hitInfoIn c = stallOut s.hitStallEn s.hitInfoIn s.hitStall
  unfold St.hitInfoIn
  rw [A.cmp h]
  rcases A.hit with h1 | h1 | h1
  · rw [h1]; rfl
  · exact absurd h1 h
  · rw [h1]

theorem Alike.wayOff (A : Alike s a b c d e) : (s.put a b c d e).wayOff = s.wayOff := by
  by_cases h : s.t1 = .flushRead
  · have h' : (s.put a b c d e).t1 = .flushRead := h
    simp only [St.wayOff, h, h']
    rfl
  · have e1 : (s.put a b c d e).t1 = s.t1 := rfl
    have e2 : (s.put a b c d e).repRd = s.repRd := rfl
    have e3 : (s.put a b c d e).wayPtr1 = s.wayPtr1 := rfl
    have e4 : (s.put a b c d e).updWay1 = s.updWay1 := rfl
    unfold St.wayOff
    simp only [e1, e2, e3, e4, A.cmp h, A.status1, A.hitInfo h]

theorem wayOff_flush (h : s.t1 = .flushRead) : s.wayOff = s.updWay1 := by simp only [St.wayOff, h]

theorem Alike.wmask1 (A : Alike s a b c d e) : (s.put a b c d e).wmask1 = s.wmask1 := by
  unfold St.wmask1
  rw [A.wayOff, A.entry fun h => wayOff_flush h]

theorem Alike.addr1_idx (A : Alike s a b c d e) : (s.put a b c d e).addr1.idx = s.addr1.idx := by
  unfold St.addr1
  rw [A.cs1]
  split <;> rfl

theorem Alike.mshrIn (A : Alike s a b c d e) (h : s.t1 ≠ .flushRead) : (s.put a b c d e).mshrIn = s.mshrIn := by
  unfold St.mshrIn
  rw [A.wayOff, A.hitInfo h, A.status1, A.wmask1]
  rfl

theorem Alike.reqRdy (A : Alike s a b c d e) (i : In p) : (s.put a b c d e).reqRdy i = s.reqRdy i := by
  unfold St.reqRdy
  rw [A.status1, A.stall, A.allocEn]
  rfl

theorem Alike.prevFlushDone (A : Alike s a b c d e) : (s.put a b c d e).prevFlushDone = s.prevFlushDone := by
  unfold St.prevFlushDone
  rw [A.noFlush1]
  rfl

theorem Alike.fsmNext (A : Alike s a b c d e) (i : In p) : (s.put a b c d e).fsmNext i = s.fsmNext i := by
  unfold St.fsmNext
  rw [A.prevFlushDone, A.flushSent1]
  rfl

theorem Alike.trans0 (A : Alike s a b c d e) (i : In p) : (s.put a b c d e).trans0 i = s.trans0 i := by
  unfold St.trans0
  rw [A.prevFlushDone, A.flushSent1, A.status1]
  rfl

theorem flush_not_clean (h : s.t1 = .flushRead) (i : In p) : s.trans0 i ≠ .cleanHit := by
  have hc : s.status1.cleanHit = false := by simp only [St.status1, h]
  unfold St.trans0
  dsimp only
  rw [hc]
  simp only [Bool.false_eq_true, if_false]
  intro hh
  repeat' split at hh
  all_goals exact absurd hh (by decide)

theorem Alike.tagVal0 (A : Alike s a b c d e) (i : In p) (w : Way) :
    (s.put a b c d e).tagVal0 (s.trans0 i) w = s.tagVal0 (s.trans0 i) w := by
  by_cases h : s.t1 = .flushRead
  · have hn : s.trans0 i ≠ .cleanHit := flush_not_clean h i
    unfold St.tagVal0
    congr 1
    cases ht : s.trans0 i <;> first | rfl | exact absurd ht hn
  · unfold St.tagVal0
    rw [A.cmp h]
    rfl

theorem Alike.tagWdata0 (A : Alike s a b c d e) (h : s.t1 ≠ .flushRead) (i : In p) (t : Trans) :
    (s.put a b c d e).tagWdata0 i t = s.tagWdata0 i t := by
  unfold St.tagWdata0
  dsimp only
  rw [A.cmp h, A.entry fun h' => absurd h' h]
  rfl

theorem Alike.tagWrite (A : Alike s a b c d e) (T : Tidy s) (i : In p) (old : Entry p) :
    tagMerge (cs0 (s.trans0 i)).wben old ((s.put a b c d e).tagWdata0 i (s.trans0 i)) =
      tagMerge (cs0 (s.trans0 i)).wben old (s.tagWdata0 i (s.trans0 i)) := by
  by_cases h : s.t1 = .flushRead
  · have hn : s.trans0 i ≠ .cleanHit := flush_not_clean h i
    have he := A.entry (w := s.updWay1) fun _ => rfl
    have hu := T.upd h
    cases ht : s.trans0 i
    case cleanHit => exact absurd ht hn
    case flushWrite =>
      have e1 : (s.put a b c d e).updWay0 .flushWrite = s.updWay1 := hu.symm
      have e2 : s.updWay0 .flushWrite = s.updWay1 := hu.symm
      simp only [cs0, tagMerge, St.tagWdata0, if_true, e1, e2, he, updateTag]
    case replayFlush =>
      have e1 : (s.put a b c d e).updWay0 .replayFlush = s.updWay1 := hu.symm
      have e2 : s.updWay0 .replayFlush = s.updWay1 := hu.symm
      simp only [cs0, tagMerge, St.tagWdata0, if_true, e1, e2, he, updateTag]
    all_goals rfl
  · rw [A.tagWdata0 h]

theorem lineDty_way {w : Way} (h : s.lineDty w = true) : w ∈ p.ways ∧ s.tagEn = true := by
  simp only [St.lineDty, lineDirty, Bool.and_eq_true, decide_eq_true_eq] at h
  exact ⟨h.1, h.2.1⟩

/-- The way written back by an eviction. -/
theorem evict_spec (h : s.status1.evict = true) :
    (s.t1 = .readReq ∨ s.t1 = .writeReq ∨ s.t1 = .amoReq) ∧ s.tagEn = true ∧
      (s.t1 ≠ .amoReq → s.wayOff ∈ p.ways) := by
  cases h1 : s.t1
  case amoReq =>
    simp only [St.status1, h1, Bool.and_eq_true] at h
    exact ⟨by simp, (lineDty_way h.1).2, by simp⟩
  case initReq =>
    have hx : s.tagEn = false := by simp [St.tagEn, h1]
    simp only [St.status1, h1] at h
    cases hh : s.cmp.hit
    · simp [hh, St.lineDty, lineDirty, hx] at h
    · have := hit_tagEn hh; rw [hx] at this; exact absurd this (by decide)
  case readReq =>
    have hh : s.cmp.hit = false ∧ s.cmp.inval = false ∧ s.lineDty s.repRd = true := by
      simp only [St.status1, h1] at h
      cases hh : s.cmp.hit <;> cases hi : s.cmp.inval <;> cases hd : s.lineDty s.repRd <;> simp [hh, hi, hd] at h ⊢
    have hs : s.status1.hit = false := by
      simp [St.status1, h1, hh.1, hh.2.1, hh.2.2]
    refine ⟨by simp, (lineDty_way hh.2.2).2, fun _ => ?_⟩
    simp only [St.wayOff, h1, hs, hh.2.1]
    exact (lineDty_way hh.2.2).1
  case writeReq =>
    have hh : s.cmp.hit = false ∧ s.cmp.inval = false ∧ s.lineDty s.repRd = true := by
      simp only [St.status1, h1] at h
      cases hh : s.cmp.hit <;> cases hi : s.cmp.inval <;> cases hd : s.lineDty s.repRd <;> simp [hh, hi, hd] at h ⊢
    have hs : s.status1.hit = false := by
      simp [St.status1, h1, hh.1, hh.2.1, hh.2.2]
    refine ⟨by simp, (lineDty_way hh.2.2).2, fun _ => ?_⟩
    simp only [St.wayOff, h1, hs, hh.2.1]
    exact (lineDty_way hh.2.2).1
  all_goals (simp only [St.status1, h1] at h; exact absurd h (by decide))

theorem hitInfo_way (T : Tidy s) : s.hitInfo.2 ∈ p.ways := by
  unfold St.hitInfo stallOut
  split
  · exact cmp_way s
  · next h =>
    rcases T.way with h1 | h1
    · exact absurd h1 h
    · exact h1

theorem evict_live (T : Tidy s) (h : s.status1.evict = true) : s.LiveT s.wayOff := by
  obtain ⟨h1, h2, h3⟩ := evict_spec h
  refine ⟨?_, h2, fun h4 => by rw [h4] at h1; simp at h1⟩
  by_cases h4 : s.t1 = .amoReq
  · have : s.wayOff = s.hitInfo.2 := by simp only [St.wayOff, h4]
    rw [this]
    exact hitInfo_way T
  · exact h3 h4

theorem flush_live (T : Tidy s) (h : s.t1 = .flushRead) : s.LiveT s.wayOff := by
  have he : s.evict2 = false := by
    cases he : s.evict2
    · rfl
    · have := T.evict he; rw [h] at this; simp at this
  refine ⟨?_, by simp [St.tagEn, h, he], fun _ => wayOff_flush h⟩
  rw [wayOff_flush h, T.upd h]
  exact cntWay_way _

theorem evictSel_cases (h : s.cs1.evictSel = true) : s.status1.evict = true ∨ s.t1 = .flushRead ∨ s.t1 = .cacheInit := by
  cases he : s.status1.evict
  · right
    simp only [St.cs1, Verif.cs1, he] at h
    cases h1 : s.t1 <;> simp [h1] at h ⊢
    all_goals (split at h <;> exact absurd h (by decide))
  · exact .inl rfl

theorem Alike.addr1 (A : Alike s a b c d e) (T : Tidy s) (h : s.t1 ≠ .cacheInit) : (s.put a b c d e).addr1 = s.addr1 := by
  show (if (s.put a b c d e).cs1.evictSel then (⟨((s.put a b c d e).effTag (s.put a b c d e).wayOff).tag, s.flushIdxMux, 0⟩ : Addr p)
    else s.req1.addr) = _
  unfold St.addr1
  rw [A.cs1, A.wayOff]
  split
  · next hs =>
    have hl : s.LiveT s.wayOff := by
      rcases evictSel_cases hs with h1 | h1 | h1
      · exact evict_live T h1
      · exact flush_live T h1
      · exact absurd h1 h
    rw [A.tag _ hl]
  · rfl

theorem alloc_flush (h : s.t1 = .flushRead) (i : In p) : s.allocEn i = false := by
  have he : s.status1.evict = false := by simp only [St.status1, h]
  simp [St.allocEn, St.cs1, Verif.cs1, h, he]

theorem eq_put {u v : St p} (h1 : u.mrespEn0 = v.mrespEn0) (h2 : u.fsm = v.fsm) (h3 : u.cnt = v.cnt) (h4 : u.t1 = v.t1)
    (h5 : u.wayPtr1 = v.wayPtr1) (h6 : u.updWay1 = v.updWay1) (h7 : u.wasStalled = v.wasStalled) (h8 : u.t2 = v.t2)
    (h9 : u.evict2 = v.evict2) (h10 : u.hit2 = v.hit2) (h11 : u.flushSent2 = v.flushSent2) (h12 : u.mresp0 = v.mresp0)
    (h13 : u.req1 = v.req1) (h14 : u.flushIdx1 = v.flushIdx1) (h15 : u.dtyMask1 = v.dtyMask1) (h16 : u.rep = v.rep)
    (h17 : u.tagRam = v.tagRam) (h18 : u.mshrNum = v.mshrNum) (h19 : u.mshr = v.mshr) (h20 : u.req2 = v.req2)
    (h21 : u.wmask2 = v.wmask2) (h22 : u.data.ram = v.data.ram) :
    u = v.put u.tagDout u.tagStall u.hitStall u.data.dout u.dataStall := by
  cases u; cases v
  simp only [St.put] at *
  subst h1 h2 h3 h4 h5 h6 h7 h8 h9 h10 h11 h12 h13 h14 h15 h16 h17 h18 h19 h20 h21
  rw [← h22]

theorem Alike.next (A : Alike s a b c d e) (T : Tidy s) (i : In p) :
    ((s.put a b c d e).next i).tagRam = (s.next i).tagRam ∧ ((s.put a b c d e).next i).mshr = (s.next i).mshr ∧
      ((s.put a b c d e).next i).req2 = (s.next i).req2 ∧ ((s.put a b c d e).next i).data.ram = (s.next i).data.ram := by
  have ht := A.trans0 i
  refine ⟨?_, ?_, ?_, ?_⟩
  · funext w j
    show (if (s.put a b c d e).tagVal0 ((s.put a b c d e).trans0 i) w && (cs0 ((s.put a b c d e).trans0 i)).wr &&
        decide (j = (s.put a b c d e).tagIdx0 i ((s.put a b c d e).trans0 i)) then
        tagMerge (cs0 ((s.put a b c d e).trans0 i)).wben (s.tagRam w j) ((s.put a b c d e).tagWdata0 i ((s.put a b c d e).trans0 i))
      else s.tagRam w j) = _
    rw [ht, A.tagVal0, A.tagWrite T]
    rfl
  · show (if (s.put a b c d e).allocEn i then (s.put a b c d e).mshrIn else s.mshr) = if s.allocEn i then s.mshrIn else s.mshr
    rw [A.allocEn]
    split
    · next h =>
      refine A.mshrIn fun h' => ?_
      rw [alloc_flush h'] at h
      exact absurd h (by decide)
    · rfl
  · show (if !(s.cs2 i).ostall && (s.t1 != .cacheInit) then { s.req1 with addr := (s.put a b c d e).addr1 } else s.req2) =
      (if !(s.cs2 i).ostall && (s.t1 != .cacheInit) then { s.req1 with addr := s.addr1 } else s.req2)
    split
    · next h =>
      rw [A.addr1 T (by intro h'; rw [h'] at h; simp at h)]
    · rfl
  · show (s.data.step (s.put a b c d e).cs1.val (s.put a b c d e).cs1.wr
      (indexer p (s.put a b c d e).addr1.idx (s.put a b c d e).wayOff) s.req1.data
      (writeBitEn p (s.put a b c d e).cs1.wben s.dtyMask1 s.req1.addr.off s.req1.len)).ram = _
    rw [A.cs1, A.addr1_idx, A.wayOff]
    rfl

theorem Alike.next_eq (A : Alike s a b c d e) (T : Tidy s) (i : In p) :
    (s.put a b c d e).next i = (s.next i).put ((s.put a b c d e).next i).tagDout ((s.put a b c d e).next i).tagStall
      ((s.put a b c d e).next i).hitStall ((s.put a b c d e).next i).data.dout ((s.put a b c d e).next i).dataStall := by
  obtain ⟨n1, n2, n3, n4⟩ := A.next T i
  have ht := A.trans0 i
  have hs := A.stall i
  have h1 := A.status1
  refine eq_put ?_ ?_ ?_ ?_ ?_ ?_ rfl ?_ ?_ ?_ ?_ ?_ ?_ ?_ ?_ ?_ n1 ?_ n2 n3 ?_ n4
  all_goals (simp only [St.next, ht, hs, h1, A.fsmNext, A.flushSent1, A.allocEn, A.wmask1]; rfl)

/-! ## Preservation -/

theorem trans0_init {i : In p} (h : s.trans0 i = .cacheInit) : s.fsm = .init := by
  apply Decidable.byContradiction
  intro hf
  unfold St.trans0 at h
  dsimp only at h
  rw [if_neg hf] at h
  repeat' split at h
  all_goals first | exact absurd h (by decide) | contradiction

theorem trans0_of_init (h : s.fsm = .init) (i : In p) : s.trans0 i = .cacheInit := by
  unfold St.trans0
  dsimp only
  rw [if_pos h]

theorem fsmNext_init {i : In p} (h : s.fsmNext i = .init) : s.fsm = .init := by
  apply Decidable.byContradiction
  intro hf
  unfold St.fsmNext at h
  dsimp only at h
  repeat' split at h
  all_goals first | exact absurd h (by decide) | contradiction

theorem ostall_evict (h : s.cs1.ostall = true) : s.status1.evict = true := by
  cases he : s.status1.evict
  · simp only [St.cs1, Verif.cs1, he] at h
    cases h1 : s.t1 <;> simp [h1] at h
    all_goals (split at h <;> exact absurd h (by decide))
  · rfl

theorem evict_ostall (h : s.status1.evict = true) : s.cs1.ostall = true := by
  rcases (evict_spec h).1 with h1 | h1 | h1 <;> simp [St.cs1, Verif.cs1, h1, h]

/-- The enable of the M1 control registers. -/
theorem cen1_cases (s : St p) (i : In p) :
    (s.stall i = false ∧ s.status1.evict = false ∧ (s.next i).t1 = s.trans0 i ∧ (s.next i).updWay1 = s.updWay0 (s.trans0 i)) ∨
    (s.trans0 i = .cacheInit ∧ (s.next i).t1 = .cacheInit) ∨
    (s.stall i = true ∧ s.trans0 i ≠ .cacheInit ∧ (s.next i).t1 = s.t1 ∧ (s.next i).updWay1 = s.updWay1) := by
  have e1 : (s.next i).t1 = if (!s.stall i && !s.status1.evict && (s.trans0 i != .cacheInit)) || (s.trans0 i == .cacheInit)
      then s.trans0 i else s.t1 := rfl
  have e2 : (s.next i).updWay1 = if (!s.stall i && !s.status1.evict && (s.trans0 i != .cacheInit)) || (s.trans0 i == .cacheInit)
      then s.updWay0 (s.trans0 i) else s.updWay1 := rfl
  by_cases hc : s.trans0 i = .cacheInit
  · right; left
    refine ⟨hc, ?_⟩
    rw [e1, hc]
    simp
  · have hne : (s.trans0 i == .cacheInit) = false := by simp [hc]
    cases hs : s.stall i
    · have he : s.status1.evict = false := by
        cases he : s.status1.evict
        · rfl
        · have := evict_ostall he
          simp [St.stall, this] at hs
      left
      refine ⟨rfl, he, ?_, ?_⟩
      · rw [e1]; simp [hs, he, hc]
      · rw [e2]; simp [hs, he, hc]
    · right; right
      refine ⟨rfl, hc, ?_, ?_⟩
      · rw [e1]; simp [hs, hc]
      · rw [e2]; simp [hs, hc]

theorem stall_cases {i : In p} (h : s.stall i = true) : (s.cs2 i).ostall = true ∨ s.status1.evict = true := by
  simp only [St.stall, Bool.or_eq_true] at h
  rcases h with h | h
  · exact .inr (ostall_evict h)
  · exact .inl h

theorem not_stall {i : In p} (h : s.stall i = false) : (s.cs2 i).ostall = false := by
  simp only [St.stall, Bool.or_eq_false_iff] at h
  exact h.2

/-- The enable of the M2 control registers. -/
theorem cen2_cases (s : St p) (i : In p) :
    ((s.cs2 i).ostall = false ∧ (s.next i).t2 = s.t1 ∧ (s.next i).evict2 = s.status1.evict ∧ (s.next i).hit2 = s.status1.hit ∧
      (s.next i).flushSent2 = s.flushSent1) ∨
    (s.t1 = .cacheInit ∧ (s.next i).t2 = .cacheInit ∧ (s.next i).evict2 = false) ∨
    ((s.cs2 i).ostall = true ∧ (s.next i).t2 = s.t2 ∧ (s.next i).evict2 = s.evict2 ∧ (s.next i).hit2 = s.hit2 ∧
      (s.next i).flushSent2 = s.flushSent2) := by
  have key : ∀ {α : Type} (x y : α), (s.cs2 i).ostall = false ∨ s.t1 = .cacheInit →
      (if (!(s.cs2 i).ostall && (s.t1 != .cacheInit)) || (s.t1 == .cacheInit) then x else y) = x := by
    intro α x y h
    by_cases h1 : s.t1 = .cacheInit
    · simp [h1]
    · rcases h with h | h
      · simp [h1, h]
      · exact absurd h h1
  by_cases h1 : s.t1 = .cacheInit
  · right; left
    refine ⟨h1, ?_, ?_⟩
    · exact (key s.t1 s.t2 (.inr h1)).trans h1
    · refine (key s.status1.evict s.evict2 (.inr h1)).trans ?_
      simp only [St.status1, h1]
  · cases ho : (s.cs2 i).ostall
    · exact .inl ⟨rfl, key _ _ (.inl ho), key _ _ (.inl ho), key _ _ (.inl ho), key _ _ (.inl ho)⟩
    · right; right
      have key' : ∀ {α : Type} (x y : α),
          (if (!(s.cs2 i).ostall && (s.t1 != .cacheInit)) || (s.t1 == .cacheInit) then x else y) = y := by
        intro α x y
        simp [ho, h1]
      exact ⟨rfl, key' _ _, key' _ _, key' _ _, key' _ _⟩

theorem Tidy.next (T : Tidy s) (i : In p) : Tidy (s.next i) where
  upd h := by
    have ec : (s.next i).cnt = counterNext (!s.stall i && s.cntEn0 (s.trans0 i)) true s.cnt := rfl
    rcases cen1_cases s i with ⟨h1, h2, h3, h4⟩ | ⟨_, h1⟩ | ⟨h1, h2, h3, h4⟩
    · rw [h3] at h
      rw [h4, ec, h, h1]
      simp [St.updWay0, St.updIdx0, counterNext, St.cntEn0, BitVec.sub_add_cancel]
    · rw [h1] at h; exact absurd h (by decide)
    · rw [h3] at h
      rw [h4, ec, h1, T.upd h]
      simp [counterNext]
  way := by
    right
    show (stallNext s.hitStallEn s.hitInfoIn s.hitStall).2 ∈ p.ways
    exact hitInfo_way T
  evict h := by
    have key : s.stall i = true → (s.t1 = .readReq ∨ s.t1 = .writeReq ∨ s.t1 = .amoReq) →
        ((s.next i).t1 = .readReq ∨ (s.next i).t1 = .writeReq ∨ (s.next i).t1 = .amoReq) := by
      intro hs ht
      rcases cen1_cases s i with ⟨h1, h2, h3, h4⟩ | ⟨h0, h1⟩ | ⟨h1, h2, h3, h4⟩
      · rw [h1] at hs; exact absurd hs (by decide)
      · have := T.init (trans0_init h0)
        rcases this with h' | h' <;> rw [h'] at ht <;> simp at ht
      · rw [h3]; exact ht
    rcases cen2_cases s i with ⟨h1, h2, h3, h4, h5⟩ | ⟨h1, h2, h3⟩ | ⟨h1, h2, h3, h4, h5⟩
    · rw [h3] at h
      exact key (by simp [St.stall, evict_ostall h]) (evict_spec h).1
    · rw [h3] at h; exact absurd h (by decide)
    · rw [h3] at h
      exact key (by simp [St.stall, h1]) (T.evict h)
  init h := by
    right
    have ef : (s.next i).fsm = if !s.stall i then s.fsmNext i else s.fsm := rfl
    have hf : s.fsm = .init := by
      rw [ef] at h
      split at h
      · exact fsmNext_init h
      · exact h
    have h0 := trans0_of_init hf i
    rcases cen1_cases s i with ⟨h1, h2, h3, h4⟩ | ⟨_, h1⟩ | ⟨h1, h2, h3, h4⟩
    · rw [h3, h0]
    · exact h1
    · exact absurd h0 h2

theorem Alike.tagRead (A : Alike s a b c d e) (i : In p) (w : Way) : (s.put a b c d e).tagRead i w = s.tagRead i w := by
  unfold St.tagRead
  rw [A.trans0, A.tagVal0]

theorem Alike.dataRead (A : Alike s a b c d e) : (s.put a b c d e).dataRead = s.dataRead := by
  unfold St.dataRead
  rw [A.cs1]

/-- Register update without reset, with junk. Proof device; not in the source. -/
def St.nextJ (s : St p) (i : In p) (g : Junk p) : St p :=
  { s.next i with
    tagDout := fun w => if s.tagRead i w then (s.next i).tagDout w else g.tag w
    data := ⟨(s.next i).data.ram, if s.dataRead then (s.next i).data.dout else g.data⟩ }

theorem stepJ_eq (s : St p) (i : In p) (g : Junk p) :
    s.stepJ i g = if i.reset then (s.nextJ i g).rst else s.nextJ i g := by
  unfold St.stepJ St.step St.nextJ
  cases i.reset <;> rfl

theorem Tidy.nextJ (T : Tidy s) (i : In p) (g : Junk p) : Tidy (s.nextJ i g) :=
  ⟨(T.next i).upd, (T.next i).way, (T.next i).evict, (T.next i).init⟩

theorem Tidy.rst (s : St p) : Tidy s.rst :=
  ⟨fun h => absurd h (by simp [St.rst]), .inl rfl, fun h => absurd h (by simp [St.rst]), fun _ => .inl rfl⟩

/-- A new M1 transaction that needs entries has just read them. -/
theorem live_read {i : In p} {w : Way} (hw : w ∈ p.ways)
    (ht : s.trans0 i = .readReq ∨ s.trans0 i = .writeReq ∨ s.trans0 i = .amoReq ∨ s.trans0 i = .flushRead)
    (hf : s.trans0 i = .flushRead → w = s.updWay0 .flushRead) : s.tagRead i w = true := by
  unfold St.tagRead St.tagVal0
  rcases ht with h | h | h | h
  · simp [h, hw, cs0]
  · simp [h, hw, cs0]
  · simp [h, hw, cs0]
  · have := hf h
    simp only [St.updWay0] at this
    rw [this] at hw
    simp [h, hw, cs0, this]

theorem tagEn_cases (h : s.tagEn = true) :
    s.evict2 = false ∧ (s.t1 = .readReq ∨ s.t1 = .writeReq ∨ s.t1 = .amoReq ∨ s.t1 = .flushRead) := by
  simp only [St.tagEn, Bool.and_eq_true] at h
  refine ⟨by simpa using h.1, ?_⟩
  have h := h.2
  cases h1 : s.t1 <;> simp [h1] at h ⊢

/-- A line needed in M2 next has just been read. -/
theorem live_data (h : (Verif.cs2 s.t1 true true s.status1.evict s.status1.hit s.flushSent1).rdSel = false) :
    s.dataRead = true := by
  unfold St.dataRead St.cs1
  cases he : s.status1.evict
  · rw [he] at h
    cases h1 : s.t1 <;> simp [h1, Verif.cs2] at h
    case replayRead => rfl
    case flushRead => simp [Verif.cs1, h]
    case readReq => cases hh : s.status1.hit <;> simp [hh] at h; simp [Verif.cs1]
    case writeReq => cases hh : s.status1.hit <;> simp [hh] at h
  · rcases (evict_spec he).1 with h1 | h1 | h1 <;> simp [Verif.cs1, h1]

theorem Alike.nextJ (A : Alike s a b c d e) (T : Tidy s) (i : In p) (g g' : Junk p) :
    Alike (s.nextJ i g) ((s.put a b c d e).nextJ i g').tagDout ((s.put a b c d e).nextJ i g').tagStall
      ((s.put a b c d e).nextJ i g').hitStall ((s.put a b c d e).nextJ i g').data.dout
      ((s.put a b c d e).nextJ i g').dataStall where
  tag w hl := by
    have hl1 : w ∈ p.ways := hl.1
    obtain ⟨he, ht⟩ := tagEn_cases hl.2.1
    have he : (s.next i).evict2 = false := he
    have ht : (s.next i).t1 = .readReq ∨ (s.next i).t1 = .writeReq ∨ (s.next i).t1 = .amoReq ∨ (s.next i).t1 = .flushRead := ht
    have hu : (s.next i).t1 = .flushRead → w = (s.next i).updWay1 := hl.2.2
    show stallOut (!(s.cs2 i).ostall)
        (if (s.put a b c d e).tagRead i w then
          (if (s.put a b c d e).tagRead i w then s.tagRam w ((s.put a b c d e).tagIdx0 i ((s.put a b c d e).trans0 i)) else a w)
          else g'.tag w)
        ((s.put a b c d e).effTag w) =
      stallOut (!(s.cs2 i).ostall)
        (if s.tagRead i w then (if s.tagRead i w then s.tagRam w (s.tagIdx0 i (s.trans0 i)) else s.tagDout w) else g.tag w)
        (s.effTag w)
    rcases cen1_cases s i with ⟨h1, h2, h3, h4⟩ | ⟨_, h1⟩ | ⟨h1, h2, h3, h4⟩
    · rw [h3] at ht hu
      have hr : s.tagRead i w = true := live_read hl1 ht fun h => by
        rw [← h, ← h4]; exact hu h
      rw [A.tagRead, hr, A.trans0, not_stall h1]
      rfl
    · rw [h1] at ht; simp at ht
    · have ho : (s.cs2 i).ostall = true := by
        rcases stall_cases h1 with h5 | h5
        · exact h5
        · rcases cen2_cases s i with ⟨_, _, h6, _⟩ | ⟨h6, _, _⟩ | ⟨h6, _⟩
          · rw [h6, h5] at he; exact absurd he (by decide)
          · rcases (evict_spec h5).1 with h7 | h7 | h7 <;> rw [h7] at h6 <;> exact absurd h6 (by decide)
          · exact h6
      rw [h3] at ht hu
      have he' : s.evict2 = false := by
        rcases cen2_cases s i with ⟨h6, _⟩ | ⟨h6, _, _⟩ | ⟨_, _, h6, _⟩
        · rw [h6] at ho; exact absurd ho (by decide)
        · rw [h6] at ht; simp at ht
        · rw [← h6]; exact he
      rw [ho]
      refine A.tag w ⟨hl1, ?_, fun h => by rw [← h4]; exact hu h⟩
      unfold St.tagEn
      rw [he']
      rcases ht with h | h | h | h <;> rw [h] <;> rfl
  dat hl := by
    show stallOut (!(s.cs2 i).ostall)
        (if (s.put a b c d e).dataRead then
          (if (s.put a b c d e).cs1.val && !(s.put a b c d e).cs1.wr then
            s.data.ram (indexer p (s.put a b c d e).addr1.idx (s.put a b c d e).wayOff) else d) else g'.data)
        ((s.put a b c d e).effData) =
      stallOut (!(s.cs2 i).ostall)
        (if s.dataRead then
          (if s.cs1.val && !s.cs1.wr then s.data.ram (indexer p s.addr1.idx s.wayOff) else s.data.dout) else g.data)
        s.effData
    have hl : (Verif.cs2 (s.next i).t2 true true (s.next i).evict2 (s.next i).hit2 (s.next i).flushSent2).rdSel = false := hl
    rcases cen2_cases s i with ⟨h1, h2, h3, h4, h5⟩ | ⟨h1, h2, h3⟩ | ⟨h1, h2, h3, h4, h5⟩
    · rw [h2, h3, h4, h5] at hl
      have hr : s.dataRead = true := live_data hl
      have hr' : (s.cs1.val && !s.cs1.wr) = true := hr
      rw [h1, A.dataRead, hr, A.cs1, hr', A.addr1_idx, A.wayOff]
      rfl
    · rw [h2] at hl; exact absurd hl (by simp [Verif.cs2])
    · rw [h2, h3, h4, h5] at hl
      rw [h1]
      exact A.dat hl
  hit := by
    by_cases hf : s.t1 = .flushRead
    · rcases cen1_cases s i with ⟨h1, h2, h3, h4⟩ | ⟨h0, _⟩ | ⟨h1, h2, h3, h4⟩
      · left
        show (!(s.cs2 i).ostall && !(s.next i).evict2) = true
        have ho := not_stall h1
        rcases cen2_cases s i with ⟨_, _, h6, _⟩ | ⟨h6, _, _⟩ | ⟨h6, _⟩
        · rw [ho, h6, h2]; rfl
        · rw [hf] at h6; exact absurd h6 (by decide)
        · rw [ho] at h6; exact absurd h6 (by decide)
      · have := T.init (trans0_init h0)
        rw [hf] at this
        simp at this
      · right; left
        exact h3.trans hf
    · right; right
      exact A.hitInfo hf

theorem Alike.nextJ_eq (A : Alike s a b c d e) (T : Tidy s) (i : In p) (g g' : Junk p) :
    (s.put a b c d e).nextJ i g' = (s.nextJ i g).put ((s.put a b c d e).nextJ i g').tagDout ((s.put a b c d e).nextJ i g').tagStall
      ((s.put a b c d e).nextJ i g').hitStall ((s.put a b c d e).nextJ i g').data.dout
      ((s.put a b c d e).nextJ i g').dataStall := by
  obtain ⟨x1, x2, x3, x4, x5, h⟩ : ∃ x1 x2 x3 x4 x5, (s.put a b c d e).next i = (s.next i).put x1 x2 x3 x4 x5 :=
    ⟨_, _, _, _, _, A.next_eq T i⟩
  unfold St.nextJ
  rw [h]
  rfl

end

/-- Two states that differ only in SRAM outputs and stall registers that no longer matter. Proof device; not in the source. -/
def Twin (s s' : St p) : Prop := Tidy s ∧ ∃ a b c d e, s' = s.put a b c d e ∧ Alike s a b c d e

theorem Alike.out {s : St p} {a b : Way → Entry p} {c : Bool × Way} {d e : Line p} (A : Alike s a b c d e) (i : In p) :
    (s.put a b c d e).out i = s.out i := by
  have hd : (s.put a b c d e).rdData2 (s.cs2 i) = s.rdData2 (s.cs2 i) := by
    unfold St.rdData2
    split
    · rfl
    · next h =>
      refine A.dat ?_
      have h : (Verif.cs2 s.t2 i.mreqRdy i.respRdy s.evict2 s.hit2 s.flushSent2).rdSel = false := Bool.eq_false_iff.mpr h
      unfold St.LiveD
      cases hm : i.mreqRdy <;> cases hr : i.respRdy <;> rw [hm, hr] at h
      · exfalso; cases ht : s.t2 <;> rw [ht] at h <;> exact absurd h (by simp [Verif.cs2])
      · exfalso; cases ht : s.t2 <;> rw [ht] at h <;> exact absurd h (by simp [Verif.cs2])
      · exfalso; cases ht : s.t2 <;> rw [ht] at h <;> exact absurd h (by simp [Verif.cs2])
      · exact h
  unfold St.out
  have e1 : (s.put a b c d e).cs2 i = s.cs2 i := rfl
  rw [A.reqRdy, e1]
  unfold St.cacheresp St.memreq
  dsimp only
  rw [hd]
  rfl

theorem Twin.out {s s' : St p} (h : Twin s s') (i : In p) : s'.out i = s.out i := by
  obtain ⟨_, a, b, c, d, e, rfl, A⟩ := h
  exact A.out i

/-- After reset nothing is needed. -/
theorem rst_alike (s : St p) (a b : Way → Entry p) (c : Bool × Way) (d e : Line p) : Alike s.rst a b c d e where
  tag w h := absurd h.2.1 (by simp [St.tagEn, St.rst])
  dat h := absurd h (by simp [St.LiveD, St.rst, Verif.cs2])
  hit := .inl rfl

theorem Twin.step {s s' : St p} (h : Twin s s') (i : In p) (g g' : Junk p) : Twin (s.stepJ i g) (s'.stepJ i g') := by
  obtain ⟨T, a, b, c, d, e, rfl, A⟩ := h
  rw [stepJ_eq, stepJ_eq]
  cases i.reset
  · exact ⟨T.nextJ i g, _, _, _, _, _, A.nextJ_eq T i g g', A.nextJ T i g g'⟩
  · obtain ⟨x1, x2, x3, x4, x5, h⟩ : ∃ x1 x2 x3 x4 x5, (s.put a b c d e).nextJ i g' = (s.nextJ i g).put x1 x2 x3 x4 x5 :=
      ⟨_, _, _, _, _, A.nextJ_eq T i g g'⟩
    refine ⟨Tidy.rst _, x1, x2, x3, x4, x5, ?_, rst_alike _ _ _ _ _ _⟩
    simp only [if_true]
    rw [h]
    rfl

end Verif
