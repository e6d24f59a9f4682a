import Verif.PropsReduce
import Verif.ExTicket

/-!
# C93, C96: first come, first served
-/

set_option linter.unusedSectionVars false

namespace Verif.WM
variable {ι : Type} [DecidableEq ι] {W T S : Nat} {tr : List (Ev ι)} {k k' : ι}

/-- An operation answered before another one is asked for gets the smaller number. -/
theorem first_come {s : List (ι × AmoOp)} {v : BitVec 32} (hs : AmoSeq 0 (s.map (·.2)) v) (hl : Linearised W tr s)
    (hp : WorkCounter W tr) (hsz : (operands W tr).length < 2 ^ 32) {a b : List (Ev ι)} (hab : tr = a ++ b) {j j' : Nat}
    {n n' : BitVec 32} (hn : (got k W a)[j]? = some n) (hj : (askedAmos k' W a).length ≤ j')
    (hn' : (got k' W tr)[j']? = some n') : n.toNat < n'.toNat := by
  obtain ⟨t1, t2, rfl, hT⟩ := hl tr [] (by simp)
  obtain ⟨s1, s2, hs12, hS⟩ := hl a b hab
  rw [List.map_append] at hs
  obtain ⟨w, hw⟩ := amoSeq_split hs
  obtain ⟨hty, hlen⟩ := counter_ops (fun k => (hT k).2) hp
  rw [got, List.getElem?_map, Option.map_eq_some_iff] at hn hn'
  obtain ⟨o, h1, rfl⟩ := hn
  obtain ⟨o', h1', rfl⟩ := hn'
  have h2 : (ofCache k s1)[j]? = some o := by
    obtain ⟨t, ht⟩ := (hS k).1
    rw [← ht, List.getElem?_append_left (List.getElem?_eq_some_iff.1 h1).1]; exact h1
  have h2' : (ofCache k' t1)[j']? = some o' := by
    obtain ⟨t, ht⟩ := (hT k').1
    rw [← ht, List.getElem?_append_left (List.getElem?_eq_some_iff.1 h1').1]; exact h1'
  obtain ⟨u, w1, hu, _⟩ := ofCache_split s1 h2
  obtain ⟨u', w1', hu', hul'⟩ := ofCache_split t1 h2'
  have hle : s1.length ≤ u'.length := by
    refine Decidable.byContradiction fun hlt => ?_
    obtain ⟨t, ht⟩ : (u' ++ [(k', o')]) <+: s1 :=
      List.prefix_of_prefix_length_le (l₃ := t1 ++ t2) ⟨w1' ++ t2, by rw [hu']; simp⟩ ⟨s2, hs12.symm⟩ (by simp; omega)
    have hl2 := (hS k').2.length_le
    rw [List.length_map, ← ht, ofCache_append, ofCache_snoc_same] at hl2
    simp only [List.length_append, List.length_singleton] at hl2
    omega
  have hpre : s1 <+: t1 :=
    List.prefix_of_prefix_length_le (l₃ := t1 ++ t2) ⟨s2, hs12.symm⟩ ⟨t2, rfl⟩
      (by rw [hu']; simp only [List.length_append]; omega)
  obtain ⟨t, ht⟩ := hpre
  have e1 := ticket_pos hw hty (by omega) (u := u) (w := w1 ++ t) (k := k) (o := o) (by rw [← ht, hu]; simp)
  have e2 := ticket_pos hw hty (by omega) hu'
  rw [e1, e2]
  rw [hu] at hle
  simp only [List.length_append, List.length_cons] at hle
  omega

/-- Tickets come from a work counter. -/
theorem TicketProtocol.counter (hp : TicketProtocol T S tr) : WorkCounter T tr := by
  intro k q hq
  refine ⟨fun ht => (hp.noWrite k q hq ht).1, fun h1 h2 => ?_⟩
  obtain ⟨n, hn⟩ := List.getElem?_of_mem hq
  obtain ⟨a, b, h, _⟩ := accepted_split hn
  obtain ⟨h3, h4, _⟩ := hp.draw k a q b h h1 h2
  exact ⟨by rw [h3]; rfl, h4⟩

end Verif.WM

namespace Verif
variable {ι : Type} [DecidableEq ι] {p : ι → Params}

/-- **C96, first come, first served.**  Caches of any shapes.  An operation on a work counter that is answered (in `a`)
before another one is asked for, by any processor, returns the smaller number. -/
theorem C96_first_come (wf : ∀ k, (p k).WF) {H H' : HSys ι p} {tr : List (HEv ι p)} (h0 : HStart H)
    (h : HetRun H tr H') (hv : HValid tr) {W : Nat} (hW : memWord H.mem W = 0) (hp : WM.WorkCounter W (visible tr))
    (hs : (WM.operands W (visible tr)).length < 2 ^ 32) {a b : List (WM.Ev ι)} (hab : visible tr = a ++ b) {k k' : ι}
    {j j' : Nat} {n n' : BitVec 32} (hn : (WM.got k W a)[j]? = some n) (hj : (WM.askedAmos k' W a).length ≤ j')
    (hn' : (WM.got k' W (visible tr))[j']? = some n') : n.toNat < n'.toNat := by
  obtain ⟨s, h1, h2⟩ := C66_amos_linearised wf h0 h hv (fun k q hq => (hp k q hq).1)
  rw [hW] at h1
  exact WM.first_come h1 h2 hp hs hab hn hj hn'

/-- **C93, first come, first served.**  A processor that has its ticket (in `a`) before another one asks for its own has the
smaller ticket, so by `C93_in_order` it has its turn first. -/
theorem C93_first_come (wf : ∀ k, (p k).WF) {H H' : HSys ι p} {tr : List (HEv ι p)} (h0 : HStart H)
    (h : HetRun H tr H') (hv : HValid tr) {T S : Nat} (hT : memWord H.mem T = 0)
    (hp : WM.TicketProtocol T S (visible tr)) {a b : List (WM.Ev ι)} (hab : visible tr = a ++ b) {k k' : ι}
    {j j' : Nat} {n n' : BitVec 32} (hn : (WM.drawn k T a)[j]? = some n) (hj : (WM.askedAmos k' T a).length ≤ j')
    (hn' : (WM.drawn k' T (visible tr))[j']? = some n') : n.toNat < n'.toNat :=
  C96_first_come wf h0 h hv hT hp.counter (by rw [← WM.drawers_length]; exact hp.small) hab hn hj hn'

namespace Net

/-- **C93 on the wires, first come, first served.** -/
theorem C93_first_come_wires (wf : ∀ k, (p k).WF) {N N' : HNSys ι p} {tr : List (HWEv ι p)} (h0 : HNStart N)
    (h : HNRun N tr N') (hv : HWValid tr) {T S : Nat} (hT : memWord N.mem T = 0)
    (hp : WM.TicketProtocol T S (wvisible tr)) {a b : List (WM.Ev ι)} (hab : wvisible tr = a ++ b) {k k' : ι}
    {j j' : Nat} {n n' : BitVec 32} (hn : (WM.drawn k T a)[j]? = some n) (hj : (WM.askedAmos k' T a).length ≤ j')
    (hn' : (WM.drawn k' T (wvisible tr))[j']? = some n') : n.toNat < n'.toNat := by
  obtain ⟨H, H', h1, h2, h3, h4⟩ := C82_refines wf h0 h
  rw [← visible_dec] at hp hab hn'
  exact C93_first_come wf h1 h2 hv.dec (by rw [h3]; exact hT) hp hab hn hj hn'

/-- **C96 on the wires, first come, first served.** -/
theorem C96_first_come_wires (wf : ∀ k, (p k).WF) {N N' : HNSys ι p} {tr : List (HWEv ι p)} (h0 : HNStart N)
    (h : HNRun N tr N') (hv : HWValid tr) {W : Nat} (hW : memWord N.mem W = 0) (hp : WM.WorkCounter W (wvisible tr))
    (hs : (WM.operands W (wvisible tr)).length < 2 ^ 32) {a b : List (WM.Ev ι)} (hab : wvisible tr = a ++ b)
    {k k' : ι} {j j' : Nat} {n n' : BitVec 32} (hn : (WM.got k W a)[j]? = some n)
    (hj : (WM.askedAmos k' W a).length ≤ j') (hn' : (WM.got k' W (wvisible tr))[j']? = some n') :
    n.toNat < n'.toNat := by
  obtain ⟨H, H', h1, h2, h3, h4⟩ := C82_refines wf h0 h
  rw [← visible_dec] at hp hs hab hn'
  exact C96_first_come wf h1 h2 hv.dec (by rw [h3]; exact hW) hp hs hab hn hj hn'

end Net

/-- The hypotheses of `C93_first_come`: cache `true` has ticket 0 after two events, cache `false` asks later. -/
example : (0 : BitVec 32).toNat < (1 : BitVec 32).toNat := by
  refine C93_first_come pH_wf ExL.startL_start ExTk.trT_run ExTk.trT_valid (by decide +kernel) ExTk.trT_protocol
    (a := ExTk.visT.take 2) (b := ExTk.visT.drop 2) (k := true) (k' := false) (j := 0) (j' := 0) ?_ (by decide +kernel)
    (by decide +kernel) ?_
  · rw [ExTk.trT_visible, List.take_append_drop]
  · rw [ExTk.trT_visible]; decide +kernel

/-- The hypotheses of `C96_first_come`: word 8 of the same history is a work counter. -/
example : (0 : BitVec 32).toNat < (1 : BitVec 32).toNat := by
  refine C96_first_come pH_wf ExL.startL_start ExTk.trT_run ExTk.trT_valid (W := 8) (by decide +kernel)
    ExTk.trT_protocol.counter (by rw [← WM.drawers_length]; exact ExTk.trT_protocol.small)
    (a := ExTk.visT.take 2) (b := ExTk.visT.drop 2) (k := true) (k' := false) (j := 0) (j' := 0) ?_ (by decide +kernel)
    (by decide +kernel) ?_
  · rw [ExTk.trT_visible, List.take_append_drop]
  · rw [ExTk.trT_visible]; decide +kernel

end Verif
