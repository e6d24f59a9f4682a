import Verif.SimStep

/-!
# Simulation of the RTL by the event-level machine: a request in M1
-/

namespace Verif
variable {p : Params} {U : Prop}

namespace ReqCore
variable {s : St p} {L0 : L1 p} {q : CReq p} (h : ReqCore s L0 q)
include h

theorem t1_cases : s.t1 = .readReq ∨ s.t1 = .writeReq ∨ s.t1 = .amoReq := by
  rw [h.t1, reqTrans]; split
  · simp
  · split <;> simp

theorem tagEn : s.tagEn = true := by
  simp only [St.tagEn, h.evict2]
  rcases h.t1_cases with h | h | h <;> simp [h]

theorem t1_not_init : (s.t1 == Trans.initReq) = false := by
  rcases h.t1_cases with h | h | h <;> simp [h]

theorem cmp : s.cmp = L0.lookup q.addr := by
  simp only [St.cmp, L1.lookup, h.tagEn, h.t1_not_init, h.req1, reqPMsg]
  exact comparing_congr _ _ _ _ _ h.eff

omit h in
theorem way_mem : (L0.lookup q.addr).way ∈ p.ways := comparing_way_mem _ _ _ _

theorem repRd : s.repRd = L0.rep q.addr.idx := by simp [St.repRd, h.rep, h.req1, reqPMsg]

theorem lineDty {w : Way} (hw : w ∈ p.ways) :
    s.lineDty w = ((L0.ent w q.addr.idx).dty != 0) := by
  simp [St.lineDty, hw, lineDirty, h.tagEn, h.eff w hw]

theorem wordDty {w : Way} (hw : w ∈ p.ways) :
    s.wordDty w = wordDirty p (L0.ent w q.addr.idx) q.addr.off q.len := by
  simp [St.wordDty, hw, h.eff w hw, h.req1, reqPMsg]

theorem tagEntry {w : Way} (hw : w ∈ p.ways) : s.tagEntry w = L0.ent w q.addr.idx := by
  simp [St.tagEntry, hw, tagEntryOut, h.tagEn, h.eff w hw]

theorem t1_rw (hq : q.ty = MT.READ ∨ q.ty = MT.WRITE) :
    (q.ty = MT.READ ∧ s.t1 = .readReq) ∨ (q.ty = MT.WRITE ∧ s.t1 = .writeReq) := by
  rcases hq with hq | hq <;> simp [h.t1, reqTrans, hq]

theorem t1_amo (hq : MT.isAmo q.ty = true) : s.t1 = .amoReq := by
  have := isAmo_ne hq
  simp [h.t1, reqTrans, this]

theorem flushSent1 : s.flushSent1 = false := by
  rcases h.t1_cases with h | h | h <;> simp [St.flushSent1, h]

/-- Status of a read or write in M1. -/
theorem status_rw (hq : q.ty = MT.READ ∨ q.ty = MT.WRITE) :
    s.status1 =
      let c := L0.lookup q.addr
      let e := L0.ent c.way q.addr.idx
      let v := L0.rep q.addr.idx
      let ev := !c.inval && (!c.hit && ((L0.ent v q.addr.idx).dty != 0))
      { hit := c.hit
        evict := ev
        cleanHit := !c.inval && c.hit && !wordDirty p e q.addr.off q.len && (q.ty == MT.WRITE)
        repEn := !ev
        repIsHit := !ev && (c.hit || c.inval)
        repHitPtr := !ev && c.way } := by
  have hv := h.ok.rep q.addr.idx
  have hw := way_mem (L0 := L0) (q := q)
  rcases h.t1_rw hq with ⟨h1, h2⟩ | ⟨h1, h2⟩
  all_goals
    simp only [St.status1, h2, h.cmp, h.wordDty hw, h.repRd, h.lineDty hv, h1]
    generalize L0.lookup q.addr = c
    obtain ⟨hit, inval, way⟩ := c
    cases hit <;> cases inval <;> simp <;>
      (try cases hd : ((L0.ent (L0.rep q.addr.idx) q.addr.idx).dty != 0)) <;>
      simp_all <;> rfl

/-- Status of an AMO in M1. -/
theorem status_amo (hq : MT.isAmo q.ty = true) :
    s.status1 =
      let c := L0.lookup q.addr
      { hit := c.hit
        evict := ((L0.ent c.way q.addr.idx).dty != 0) && (c.hit || c.inval)
        cleanHit := false
        repEn := c.hit || c.inval
        repIsHit := c.hit || c.inval
        repHitPtr := if c.hit || c.inval then !c.way else false } := by
  have h2 := h.t1_amo hq
  simp only [St.status1, h2, h.cmp, h.lineDty way_mem]

theorem wayOff_rw (hq : q.ty = MT.READ ∨ q.ty = MT.WRITE) :
    s.wayOff = if (L0.lookup q.addr).hit || (L0.lookup q.addr).inval then (L0.lookup q.addr).way
      else L0.rep q.addr.idx := by
  have hs := h.status_rw hq
  rcases h.t1_rw hq with ⟨h1, h2⟩ | ⟨h1, h2⟩
  all_goals
    simp only [St.wayOff, h2, hs, h.cmp, h.repRd]
    cases (L0.lookup q.addr).hit <;> cases (L0.lookup q.addr).inval <;> simp

theorem wayOff_amo (hq : MT.isAmo q.ty = true) : s.wayOff = (L0.lookup q.addr).way := by
  have h2 := h.t1_amo hq
  simp [St.wayOff, h2, h.hitInfo, St.hitInfoIn, h.cmp]

/-- M1 control word of a read or write. -/
theorem cs1_rw (hq : q.ty = MT.READ ∨ q.ty = MT.WRITE) :
    s.cs1 = if s.status1.evict then ⟨.none, false, true, true, true, true⟩
      else if s.status1.hit = false then ⟨.none, false, false, false, false, true⟩
      else if q.ty = MT.WRITE then ⟨.req, true, true, false, false, false⟩
      else ⟨.none, false, true, false, false, false⟩ := by
  rcases h.t1_rw hq with ⟨h1, h2⟩ | ⟨h1, h2⟩ <;>
    simp only [St.cs1, h2, Verif.cs1, h1] <;> cases s.status1.evict <;>
    cases s.status1.hit <;> simp

theorem cs1_amo (hq : MT.isAmo q.ty = true) :
    s.cs1 = if s.status1.evict then ⟨.none, false, true, true, true, true⟩
      else ⟨.none, false, false, false, false, true⟩ := by
  have h2 := h.t1_amo hq
  simp only [St.cs1, h2, Verif.cs1]

omit h in
theorem isAmo_rw (hq : q.ty = MT.READ ∨ q.ty = MT.WRITE) : MT.isAmo q.ty = false := by
  rcases hq with h | h <;> rw [h] <;> rfl

/-- The M1 data array access of a request has the effect of `L1.accept`. -/
theorem dat_accept (hd : DatAre s.data.ram L0.dat) :
    DatAre s.dataNext.ram (L0.accept q).1.dat := by
  intro w hw j
  by_cases hq : q.ty = MT.READ ∨ q.ty = MT.WRITE
  · simp only [L1.accept, hq, if_true, L1.rw]
    have hcs := h.cs1_rw hq
    have hst := h.status_rw hq
    have hwo := h.wayOff_rw hq
    have hwm := way_mem (L0 := L0) (q := q)
    generalize L0.lookup q.addr = c at *
    simp only at hst
    cases hc : c.hit
    · -- miss: no write
      have : s.cs1.wr = false := by
        rw [hcs]; simp [hst, hc]; split <;> rfl
      rw [dataNext_ram_of_not_wr s this, hd w hw j]
      simp; split <;> rfl
    · have hev : s.status1.evict = false := by simp [hst, hc]
      have hhit : s.status1.hit = true := by simp [hst, hc]
      by_cases hwr : q.ty = MT.WRITE
      · have hcs : s.cs1 = ⟨.req, true, true, false, false, false⟩ := by
          rw [hcs]; simp [hev, hhit, hwr]
        have ha : s.addr1 = q.addr := by simp [St.addr1, hcs, h.req1, reqPMsg]
        have hwo : s.wayOff = c.way := by rw [hwo]; simp [hc]
        have hdw := hd w hw j
        simp only [St.dataNext, hcs, ha, hwo, Sram.step, writeBitEn, h.req1, reqPMsg,
          hwr, if_true, indexer_inj hw hwm, Bool.true_and, setAt, decide_eq_true_eq]
        split
        · next he => rw [hdw, writeLine, he.1, he.2]; rfl
        · exact hdw
      · have : s.cs1.wr = false := by
          rw [hcs]; simp [hev, hhit, hwr]
        rw [dataNext_ram_of_not_wr s this, hd w hw j]
        simp [hwr]
  · have ham : MT.isAmo q.ty = true := by
      rcases h.ty with h | h | h
      · exact absurd (Or.inl h) hq
      · exact absurd (Or.inr h) hq
      · exact h
    have : s.cs1.wr = false := by
      rw [h.cs1_amo ham]; split <;> rfl
    rw [dataNext_ram_of_not_wr s this, hd w hw j]
    simp [L1.accept, hq, ham, L1.amo]

end ReqCore

end Verif
