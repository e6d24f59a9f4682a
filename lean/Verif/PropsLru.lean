import Verif.Lru
import Verif.Blocking
import Verif.PropsSingle

/-!
# Hit/miss behaviour: test bits and replacement are those of an LRU directory
-/

namespace Verif
variable {p : Params} {ι : Type} [DecidableEq ι]

/-- **C03 (LRU form).**  The test fields of the responses delivered so far are,
in order, the hit bits of the LRU directory on the accepted requests.  Holds for
any number of caches and all request types and alignments (except WRITE_INIT). -/
theorem C03_test_is_lru_hit (wf : p.WF) {S S' : Sys ι p} {tr : List (Ev ι p)} (h0 : Start S)
    (h : Run S tr S') (k : ι) :
    (responses k tr).map (·.test) <+:
      (lruRun p.ways.length (accepted k tr)).2.map (fun b => if b then 1 else 0) := by
  obtain ⟨T, he, _⟩ := refine wf h0 h
  obtain ⟨_, h2⟩ := lru_run he k 0
  rw [accepted_canon] at h2
  have e : (fun b : Bool => if b then (1 : BitVec 2) else 0) = testOf := by
    funext b; cases b <;> rfl
  rw [e, ← h2, List.append_assoc, respMsgs_append, List.map_append, respMsgs_emitted, responses_canon]
  exact List.prefix_append _ _

set_option maxRecDepth 10000 in
/-- Write (miss), read (hit), flush: test bits 0, 1, 0. -/
example : ∃ (S S' : Sys Unit p0) (tr : List (Ev Unit p0)), Start S ∧ Run S tr S' ∧
    (responses () tr).map (·.test) = [0, 1, 0] :=
  ⟨_, _, _, start0_start p0, Ex.isRun 28, by decide⟩

/-- **C32.**  Whenever every accepted request has been answered, the tag arrays
and the replacement bits of the RTL represent the LRU directory of the accepted
requests: in every set, the valid tags in the order "way that is not the next
victim, next victim" are the tags in order of last use.  So the way the
replacement bit points to is the least recently used one. -/
theorem C32_replacement_is_lru (wf : p.WF) {S S' : Sys ι p} {tr : List (Ev ι p)} (h0 : Start S)
    (h : Run S tr S') (k : ι) (hf : (S'.cache k).fsm ≠ .init)
    (ha : (responses k tr).length = (accepted k tr).length) (j : Idx p) :
    (lruRun p.ways.length (accepted k tr)).1 j =
      (([!(S'.cache k).rep j, (S'.cache k).rep j].filter fun w =>
        decide (w ∈ p.ways) && ((S'.cache k).tagRam w j).val).map fun w => ((S'.cache k).tagRam w j).tag) ∧
    (p.twoWay = true → ((S'.cache k).tagRam ((S'.cache k).rep j) j).val = true →
      ((S'.cache k).tagRam (!(S'.cache k).rep j) j).val = true) := by
  obtain ⟨T, he, hr⟩ := refine wf h0 h
  have ho := owed he k
  rw [accepted_canon, responses_canon] at ho
  have hE : nResp (T.E k) = 0 := by omega
  have hc : (T.L k).cur = .idle := by
    cases hcu : (T.L k).cur with
    | idle => rfl
    | fill => rw [hcu] at ho; simp only [Cur.pend] at ho; omega
    | amo => rw [hcu] at ho; simp only [Cur.pend] at ho; omega
  obtain ⟨L', hEqv, ht, hrep⟩ := (hr.cache k).settled hf hE hc
  obtain ⟨hl, _⟩ := lru_run he k 0
  rw [answer_of_idle hc, accepted_canon] at hl
  have hcon : ∀ w ∈ p.ways, ((T.L k).ent w j).val = ((S'.cache k).tagRam w j).val ∧
      (((T.L k).ent w j).val = true → ((T.L k).ent w j).tag = ((S'.cache k).tagRam w j).tag) := by
    intro w hw
    rw [ht w hw j]
    have := hEqv.ent w hw j
    exact ⟨this.val.symm, fun h => (this.tag (.inl h)).symm⟩
  have hrep' : (T.L k).rep = (S'.cache k).rep := by rw [hrep, hEqv.rep]
  constructor
  · rw [hl.dir j]
    simp only [L1.dir, hrep']
    rw [recF_congr (e' := fun w => (S'.cache k).tagRam w j) hcon]
    simp only [recF, List.filter_filter]
    congr 1
    apply List.filter_congr
    intro w _
    rw [Bool.and_comm]
  · intro h2 hv
    have hm : ∀ x : Way, x ∈ p.ways := fun x => mem_ways.2 fun _ => h2
    have hord := hl.ord j h2
    simp only [hrep'] at hord
    rw [(hcon _ (hm _)).1, (hcon _ (hm _)).1] at hord
    exact hord hv

namespace Ex
/-- Two lines of one set, then the first again: the second is the next victim. -/
def lru3 : List (CReq p0) :=
  [⟨MT.READ, 1, ⟨0, 0, 4⟩, 1, 0⟩, ⟨MT.READ, 0, ⟨1, 0, 4⟩, 0, 0⟩, ⟨MT.READ, 0, ⟨0, 0, 0⟩, 0, 0⟩]
end Ex

set_option maxRecDepth 10000 in
example : ∃ (S S' : Sys Unit p0) (tr : List (Ev Unit p0)), Start S ∧ Run S tr S' ∧
    (S'.cache ()).fsm ≠ .init ∧ (responses () tr).length = (accepted () tr).length ∧
    (lruRun p0.ways.length (accepted () tr)).1 0 = [0, 1] ∧
    ((S'.cache ()).tagRam ((S'.cache ()).rep 0) 0).tag = 1 :=
  ⟨_, _, _, start0_start p0, drive_run 24 (start0 p0) Ex.lru3, by decide, by decide, by decide, by decide⟩

end Verif
