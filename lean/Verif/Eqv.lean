import Verif.SimMain

/-!
# Stale tags do not matter

After initialisation (and after a FLUSH of an invalid line) the tag field of an
entry that is neither valid nor dirty is garbage.  `L1.Eqv` ignores these
fields; it is a bisimulation of the event-level machine.
-/

namespace Verif
variable {p : Params} {U : Prop}

/-- Entries that agree up to the tag of an empty entry. Proof device; not in the source. -/
structure Entry.Eqv (e e' : Entry p) : Prop where
  val : e.val = e'.val
  dty : e.dty = e'.dty
  tag : (e'.val = true ∨ e'.dty ≠ 0) → e.tag = e'.tag

theorem Entry.Eqv.rfl' (e : Entry p) : e.Eqv e := ⟨rfl, rfl, fun _ => rfl⟩

/-- Proof device; not in the source. -/
structure L1.Eqv (L L' : L1 p) : Prop where
  ent : ∀ w ∈ p.ways, ∀ j, (L.ent w j).Eqv (L'.ent w j)
  dat : ∀ w ∈ p.ways, ∀ j, L.dat w j = L'.dat w j
  rep : L.rep = L'.rep
  cur : L.cur = L'.cur

theorem L1.Eqv.refl (L : L1 p) : L.Eqv L :=
  ⟨fun _ _ _ => .rfl' _, fun _ _ _ => rfl, rfl, rfl⟩

theorem cmpStep_eqv {tag : Tag p} {f f' : Way → Entry p} (c : Cmp) (w : Way) (h : (f w).Eqv (f' w)) :
    cmpStep true tag f c w = cmpStep true tag f' c w := by
  by_cases h1 : (f' w).val = true ∨ (f' w).dty ≠ 0
  · have : f w = f' w := by
      have h2 := h.val; have h3 := h.dty; have h4 := h.tag h1
      generalize f w = e at *
      generalize f' w = e' at *
      cases e; cases e'; simp_all
    simp only [cmpStep, this]
  · simp only [cmpStep, lineDirty, h.val, h.dty]
    have hv : (f' w).val = false := by
      cases hv : (f' w).val
      · rfl
      · exact absurd (.inl hv) h1
    have hd : (f' w).dty = 0 := Decidable.byContradiction fun hd => h1 (.inr hd)
    simp [hv, hd]

theorem L1.Eqv.lookup {L L' : L1 p} (h : L.Eqv L') (a : Addr p) : L.lookup a = L'.lookup a := by
  have hf := h.ent false mem_ways_false a.idx
  simp only [L1.lookup, comparing, Bool.not_false, Bool.and_true, if_true]
  cases h2 : p.twoWay
  · simp only [Params.ways, h2, List.foldl]
    simp only [Bool.false_eq_true, if_false, List.foldl]
    exact cmpStep_eqv (f := fun w => L.ent w a.idx) (f' := fun w => L'.ent w a.idx) _ _ hf
  · have ht := h.ent true (mem_ways_true.2 h2) a.idx
    simp only [Params.ways, h2, if_true, List.foldl]
    rw [cmpStep_eqv (f := fun w => L.ent w a.idx) (f' := fun w => L'.ent w a.idx) _ _ hf,
      cmpStep_eqv (f := fun w => L.ent w a.idx) (f' := fun w => L'.ent w a.idx) _ _ ht]

theorem setAt_eqv {f f' : Way → Idx p → Entry p} (h : ∀ w ∈ p.ways, ∀ j, (f w j).Eqv (f' w j))
    (w0 : Way) (j0 : Idx p) {e e' : Entry p} (he : e.Eqv e') :
    ∀ w ∈ p.ways, ∀ j, (setAt f w0 j0 e w j).Eqv (setAt f' w0 j0 e' w j) := by
  intro w hw j
  simp only [setAt]; split
  · exact he
  · exact h w hw j

theorem setAt_dat_eqv {f f' : Way → Idx p → Line p} (h : ∀ w ∈ p.ways, ∀ j, f w j = f' w j)
    (w0 : Way) (j0 : Idx p) {e e' : Line p} (he : e = e') :
    ∀ w ∈ p.ways, ∀ j, setAt f w0 j0 e w j = setAt f' w0 j0 e' w j := by
  intro w hw j
  simp only [setAt]; split
  · exact he
  · exact h w hw j

theorem L1.Eqv.wb {L L' : L1 p} (h : L.Eqv L') {w : Way} (hw : w ∈ p.ways) (j : Idx p) :
    (if (L.ent w j).dty != 0 then [L.wb w j] else []) =
    (if (L'.ent w j).dty != 0 then [L'.wb w j] else []) := by
  have he := h.ent w hw j
  rw [he.dty]
  by_cases h0 : (L'.ent w j).dty = 0
  · simp [h0]
  · rw [if_pos (by simpa using h0), if_pos (by simpa using h0)]
    simp only [L1.wb, he.dty, he.tag (.inr h0), h.dat w hw j]

theorem L1.Eqv.flushMsgs {L L' : L1 p} (h : L.Eqv L') (n : Nat) : L.flushMsgs n = L'.flushMsgs n := by
  induction n with
  | zero => rfl
  | succ n ih => simp only [L1.flushMsgs, ih]; rw [h.wb (cntWay_mem _)]

theorem L1.Eqv.accept {L L' : L1 p} (h : L.Eqv L') (ok : L.Wk) (q : CReq p) :
    (L.accept q).2 = (L'.accept q).2 ∧ (L.accept q).1.Eqv (L'.accept q).1 := by
  have hc := h.lookup q.addr
  have hw := L'.lookup_way_mem q.addr
  have hd := h.dat _ hw q.addr.idx
  have he := h.ent _ hw q.addr.idx
  simp only [L1.accept]
  split
  · cases hh : (L'.lookup q.addr).hit
    · cases hi : (L'.lookup q.addr).inval
      · rw [rw_miss (hc ▸ hh) (hc ▸ hi), rw_miss hh hi, hc, ← h.rep]
        refine ⟨?_, h.ent, h.dat, rfl, rfl⟩
        rw [h.wb (ok.rep _)]
      · rw [rw_inval (hc ▸ hh) (hc ▸ hi), rw_inval hh hi, hc, h.rep]
        exact ⟨rfl, h.ent, h.dat, rfl, by rw [he.dty]⟩
    · rw [rw_hit (hc ▸ hh), rw_hit hh, hc, h.rep, hd]
      refine ⟨rfl, ?_, ?_, rfl, h.cur⟩
      · intro w hw j
        have e1 : wordDirty p (L.ent (L'.lookup q.addr).way q.addr.idx) q.addr.off q.len =
            wordDirty p (L'.ent (L'.lookup q.addr).way q.addr.idx) q.addr.off q.len := by
          simp only [wordDirty, he.dty]
        dsimp only
        rw [e1]
        split
        · refine setAt_eqv h.ent _ _ ?_ w hw j
          exact ⟨he.val, by simp only [he.dty], fun _ => rfl⟩
        · exact h.ent w hw j
      · intro w hw j
        dsimp only
        split
        · exact setAt_dat_eqv h.dat _ _ rfl w hw j
        · exact h.dat w hw j
  split
  · simp only [L1.amo, hc, h.rep]
    refine ⟨?_, h.ent, h.dat, rfl, rfl⟩
    have e := h.wb hw q.addr.idx
    cases hx : (L'.lookup q.addr).hit || (L'.lookup q.addr).inval
    · simp
    · simp only [Bool.and_true]; rw [e]
  split
  · refine ⟨rfl, ?_, h.dat, h.rep, h.cur⟩
    intro w hw j
    have := h.ent w hw j
    exact ⟨rfl, this.dty, fun hx => this.tag (.inr (by simpa using hx))⟩
  split
  · refine ⟨by rw [h.flushMsgs], ?_, h.dat, h.rep, h.cur⟩
    intro w hw j
    have := h.ent w hw j
    exact ⟨this.val, rfl, fun hx => this.tag (.inl (by simpa using hx))⟩
  · exact ⟨rfl, h⟩

theorem L1.Eqv.answer {L L' : L1 p} (h : L.Eqv L') (ok : L.Wk) (l : Line p) :
    (L.answer l).2 = (L'.answer l).2 ∧ (L.answer l).1.Eqv (L'.answer l).1 := by
  have hcur := h.cur
  have hok := ok.cur
  cases hc : L.cur with
  | idle =>
    rw [hc] at hcur
    simp only [L1.answer, hc, ← hcur]
    exact ⟨trivial, h⟩
  | fill q w d =>
    rw [hc] at hcur hok
    simp only [L1.answer, hc, ← hcur]
    have hd := h.dat w hok.1 q.addr.idx
    split
    · exact ⟨rfl, setAt_eqv h.ent _ _ (.rfl' _), setAt_dat_eqv h.dat _ _ (by rw [hd]), h.rep, rfl⟩
    · exact ⟨by rw [hd], setAt_eqv h.ent _ _ (.rfl' _), setAt_dat_eqv h.dat _ _ (by rw [hd]), h.rep, rfl⟩
  | amo q hh w =>
    rw [hc] at hcur hok
    simp only [L1.answer, hc, ← hcur]
    refine ⟨trivial, ?_, h.dat, h.rep, rfl⟩
    intro w' hw' j
    dsimp only
    split
    · exact setAt_eqv h.ent _ _ (.rfl' _) w' hw' j
    · exact h.ent w' hw' j

theorem L1.Eqv.initOp {L L' : L1 p} (h : L.Eqv L') (q : CReq p) (w : Way) (d : Dty p) :
    (L.initOp q w d).2 = (L'.initOp q w d).2 ∧ (L.initOp q w d).1.Eqv (L'.initOp q w d).1 := by
  refine ⟨rfl, setAt_eqv h.ent _ _ (.rfl' _), setAt_dat_eqv h.dat _ _ ?_, ?_, h.cur⟩
  · rw [h.dat false mem_ways_false]
  · simp only [L1.initOp, h.rep]

theorem L1.Eqv.cyc {L L' : L1 p} (h : L.Eqv L') (ok : L.Wk) (s : St p) (i : In p) :
    (s.cyc L i).2 = (s.cyc L' i).2 ∧ (s.cyc L i).1.Eqv (s.cyc L' i).1 := by
  simp only [St.cyc, L1.cycle]
  split
  · exact h.initOp _ _ _
  split
  · exact h.accept ok _
  split
  · exact h.answer ok _
  · exact ⟨rfl, h⟩

theorem L1.Clean.eqv {L : L1 p} (h : L.Clean) : L.Eqv (L1.init p) :=
  ⟨fun w hw j => ⟨h.val w hw j, h.dty w hw j, fun hx => by simp [L1.init, Entry.zero] at hx⟩,
   fun w hw j => h.dat w hw j, h.rep, h.cur⟩

/-! ## The simulation relation including initialisation -/

/-- Either the cache is still initialising, or it is related to an event-level
state equivalent to `L`. Proof device; not in the source. -/
inductive RIU (U : Prop) (s : St p) (L : L1 p) (E : List (Msg p)) (O : List MType) : Prop
  | init (h : PInit s) (hL : L = L1.init p) (hE : E = []) (hO : O = [])
  | run (L' : L1 p) (he : L'.Eqv L) (h : RU U s L' E O)

/-- The relation without WRITE_INIT. Proof device; not in the source. -/
abbrev RI (s : St p) (L : L1 p) (E : List (Msg p)) (O : List MType) : Prop := RIU True s L E O

theorem simI (wf : p.WF) {s : St p} {i : In p} {L : L1 p} {E : List (Msg p)} {O : List MType}
    (hl : LegalU U s O i) (h : RIU U s L E O) :
    ∃ E', E ++ (s.cyc L i).2 = (s.out i).msgs ++ E' ∧
      RIU U (s.next i) (s.cyc L i).1 E' (outTail O i ++ memTypes (s.out i).msgs) := by
  cases h with
  | init h hL hE hO =>
    subst hL hE hO
    have hme := no_mresp hl
    have hi := step_init (U := U) s i hme h
    have hre : i.reqEn = false := by
      cases hx : i.reqEn
      · rfl
      · have := (hl.req hx).1; rw [hi.notReady] at this; cases this
    rw [cycle_nothing hre hme, hi.silent, outTail_nil]
    refine ⟨[], rfl, ?_⟩
    rcases hi.next with ⟨h1, _, _⟩ | ⟨_, L', hc, hR⟩
    · exact .init h1 rfl rfl rfl
    · exact .run L' hc.eqv hR
  | run L' he h =>
    obtain ⟨E', h1, h2⟩ := sim wf hl h
    obtain ⟨g1, g2⟩ := he.cyc h.ok.wk s i
    exact ⟨E', by rw [← g1, h1], .run _ g2 h2⟩

theorem RIU.start (s : St p) (i : In p) (hr : i.reset = true) : RIU U (s.step i) (L1.init p) [] [] :=
  .init (reset_PInit s i hr) rfl rfl rfl

end Verif
