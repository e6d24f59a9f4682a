import Verif.HetWave
import Verif.PropsHetNet
import Verif.PropsLockLive

/-!
# C91: somebody gets the lock; C92: the barrier opens

Finite executions of caches of any shapes at the request ports, and infinite ones on the wires.
-/

set_option linter.unusedSectionVars false

namespace Verif
variable {ι : Type} [DecidableEq ι] {p : ι → Params}

/-- **C91, finite executions.**  When everything asked for in `a` has been answered (in `a ++ b`), the next operation on
the lock to be answered (it is asked for and answered in `c`) means that the lock is held at some moment after `a`, at the
latest when everything asked for until then is answered (in `d`). -/
theorem C91_progress (wf : ∀ k, (p k).WF) {H H' : HSys ι p} {tr : List (HEv ι p)} (h0 : HStart H)
    (h : HetRun H tr H') (hv : HValid tr) {L : Nat} {D : Nat → Prop} (hfree : memWord H.mem L = 0)
    (hp : WM.LockProtocol L D (visible tr)) (hw : WM.OneByOne L (visible tr)) {a b c d : List (WM.Ev ι)}
    (hab : visible tr = a ++ b ++ c ++ d)
    (h1 : ∀ k, (WM.askedAmos k L a).length ≤ (WM.answeredAmos k L (a ++ b)).length) {k0 : ι}
    (h2 : (WM.askedAmos k0 L (a ++ b)).length < (WM.answeredAmos k0 L (a ++ b ++ c)).length)
    (h3 : ∀ k, (WM.askedAmos k L (a ++ b ++ c)).length ≤ (WM.answeredAmos k L (visible tr)).length) :
    WM.HeldBetween L a (visible tr) := by
  obtain ⟨s, g1, g2⟩ := C66_amos_linearised wf h0 h hv hp.noWrite
  rw [hfree] at g1
  exact WM.lock_progress g1 g2 hp hw hab h1 h2 h3

/-- **C92, finite executions.**  When all participants have arrived `m` times and these arrivals are answered (in `a`), any
processor that looks at the counter after that and gets the answer has seen the end of phase `m`. -/
theorem C92_opens (wf : ∀ k, (p k).WF) {H H' : HSys ι p} {tr : List (HEv ι p)} (h0 : HStart H)
    (h : HetRun H tr H') (hv : HValid tr) {ps : List ι} {B : Nat} {D : Nat → Prop} (hfree : memWord H.mem B = 0)
    (hp : WM.BarrierProtocol ps B D (visible tr)) {a b c : List (WM.Ev ι)} (hab : visible tr = a ++ b ++ c) {m : Nat}
    (h1 : ∀ j ∈ ps, m ≤ ((WM.answeredAmos j B a).filter fun o => decide (o.arg = 1)).length) {k : ι}
    (h2 : (WM.askedAmos k B a).length < (WM.answeredAmos k B (a ++ b)).length) :
    WM.Passed ps.length k B m (a ++ b) := by
  obtain ⟨s, g1, g2⟩ := C66_amos_linearised wf h0 h hv hp.noWrite
  rw [hfree] at g1
  exact WM.opens g1 g2 hp hab h1 h2

namespace WM

theorem amosOf_cons_resp (W : Nat) (q : Req) (qs : List Req) (r : Resp) (rs : List Resp) :
    (amosOf W (q :: qs) (r :: rs)).length = ([q].filterMap (askOf W)).length + (amosOf W qs rs).length := by
  by_cases h : MT.isAmo q.ty = true ∧ q.addr / 4 = W <;> simp [amosOf, askOf, h] <;> omega

theorem amosOf_all (W : Nat) (A B : List Req) : ∀ R : List Resp, A.length ≤ R.length →
    (A.filterMap (askOf W)).length ≤ (amosOf W (A ++ B) R).length := by
  induction A with
  | nil => simp
  | cons q A ih =>
    intro R hR
    cases R with
    | nil => simp at hR
    | cons r R =>
      have := ih R (by simpa using hR)
      rw [List.cons_append, amosOf_cons_resp, show q :: A = [q] ++ A from rfl, List.filterMap_append, List.length_append]
      omega

/-- If all requests are answered, so are the atomic operations. -/
theorem answered_all (k : ι) (W : Nat) (a b : List (Ev ι)) (h : (accepted k a).length ≤ (responses k (a ++ b)).length) :
    (askedAmos k W a).length ≤ (answeredAmos k W (a ++ b)).length := by
  rw [asked_eq, answeredAmos, accepted_append]
  exact amosOf_all W _ _ _ h

theorem arrivals_answered (k : ι) (B : Nat) (a b : List (Ev ι))
    (h : (askedAmos k B a).length ≤ (answeredAmos k B (a ++ b)).length) :
    arrivals k B a ≤ ((answeredAmos k B (a ++ b)).filter fun o => decide (o.arg = 1)).length := by
  have h1 : (answeredAmos k B (a ++ b)).map (fun o => (o.ty, o.arg)) <+: askedAmos k B (a ++ b) :=
    amosOf_asked B (accepted k (a ++ b)) (responses k (a ++ b))
  have h2 : askedAmos k B a <+: (answeredAmos k B (a ++ b)).map (fun o => (o.ty, o.arg)) :=
    List.prefix_of_prefix_length_le (by rw [asked_append']; exact List.prefix_append _ _) h1 (by simpa using h)
  obtain ⟨t, ht⟩ := h2
  have h3 : ((answeredAmos k B (a ++ b)).filter fun o => decide (o.arg = 1)).length =
      (((answeredAmos k B (a ++ b)).map (fun o => (o.ty, o.arg))).filter fun x => decide (x.2 = 1)).length := by
    rw [List.filter_map, List.length_map]; rfl
  rw [h3, ← ht, List.filter_append, List.length_append]
  exact Nat.le_add_right _ _

/-- The caches that accept requests in a history (proof device). -/
def askers (tr : List (Ev ι)) : List ι := tr.filterMap fun
  | .acc k _ => some k
  | .resp _ _ => none

theorem not_asker {k : ι} {tr : List (Ev ι)} (h : k ∉ askers tr) : accepted k tr = [] := by
  induction tr with
  | nil => rfl
  | cons e tr ih =>
    cases e with
    | acc k2 q =>
      simp only [askers, List.filterMap_cons, List.mem_cons, not_or] at h
      rw [accepted_acc_other (fun e => h.1 e.symm)]
      exact ih h.2
    | resp k2 r =>
      simp only [askers, List.filterMap_cons] at h
      exact ih h

end WM

namespace Net

theorem HLInf.seen_mono (X : HLInf ι p) {t t' : Nat} (h : t ≤ t') : X.seen t <+: X.seen t' := by
  obtain ⟨d, rfl⟩ : ∃ d, t' = t + d := ⟨t' - t, by omega⟩
  rw [HLInf.seen, HLInf.seen, X.labs_add, evsOf_append, wvisible_append]
  exact List.prefix_append _ _

/-- Everything asked for by time `t` is answered at some later time. -/
theorem HLInf.all_answered (wf : ∀ k, (p k).WF) (X : HLInf ι p) (h0 : HNStart (X.st 0)) (hr : ∀ k, X.PortsReady k)
    (hm : ∀ k, X.MemoryAnswers k) (W t : Nat) : ∃ t', t ≤ t' ∧ ∀ k t'', t' ≤ t'' →
      (WM.askedAmos k W (X.seen t)).length ≤ (WM.answeredAmos k W (X.seen t'')).length := by
  have key : ∀ l : List ι, ∃ t', t ≤ t' ∧ ∀ k ∈ l, (WM.accepted k (X.seen t)).length ≤ (WM.responses k (X.seen t')).length := by
    intro l
    induction l with
    | nil => exact ⟨t, Nat.le_refl _, fun k hk => by cases hk⟩
    | cons k l ih =>
      obtain ⟨t1, h1, h2⟩ := ih
      obtain ⟨t2, h3, h4⟩ := C83_eventually_answered wf X h0 k (hr k) (hm k) t
      refine ⟨max t1 t2, by omega, fun j hj => ?_⟩
      have mono : ∀ i, i ≤ max t1 t2 → (WM.responses j (X.seen i)).length ≤ (WM.responses j (X.seen (max t1 t2))).length := by
        intro i hi
        obtain ⟨z, hz⟩ := X.seen_mono hi
        rw [← hz, WM.responses_append, List.length_append]; omega
      rcases List.mem_cons.1 hj with rfl | hj
      · exact Nat.le_trans h4 (mono t2 (by omega))
      · exact Nat.le_trans (h2 j hj) (mono t1 (by omega))
  obtain ⟨t1, h1, h2⟩ := key (WM.askers (X.seen t))
  refine ⟨t1, h1, fun k t'' ht => ?_⟩
  obtain ⟨z, hz⟩ := X.seen_mono (Nat.le_trans h1 ht)
  obtain ⟨z', hz'⟩ := X.seen_mono ht
  rw [← hz]
  refine WM.answered_all k W _ _ ?_
  rw [hz]
  by_cases hk : k ∈ WM.askers (X.seen t)
  · have := h2 k hk
    rw [← hz', WM.responses_append, List.length_append]; omega
  · rw [WM.not_asker hk]; exact Nat.zero_le _

/-- **C91, deadlock freedom.**  In every infinite execution on the wires in which the ports and memory keep working: if from
time `t` on some processor keeps operating on the lock as long as nobody holds it, then somebody holds it at some
moment after `t`. -/
theorem C91_deadlock_free (wf : ∀ k, (p k).WF) (X : HLInf ι p) (h0 : HNStart (X.st 0)) (hv : ∀ t, HWValid (evsOf (X.labs t)))
    (hr : ∀ k, X.PortsReady k) (hm : ∀ k, X.MemoryAnswers k) {L : Nat} {D : Nat → Prop}
    (hfree : memWord (X.st 0).mem L = 0) (hp : ∀ t, WM.LockProtocol L D (X.seen t)) (hw : ∀ t, WM.OneByOne L (X.seen t))
    (t : Nat) (k : ι)
    (htry : (∀ t', t ≤ t' → ¬ WM.HeldBetween L (X.seen t) (X.seen t')) →
      ∀ t', ∃ t'', t' ≤ t'' ∧ (WM.askedAmos k L (X.seen t')).length < (WM.askedAmos k L (X.seen t'')).length) :
    ∃ t', t ≤ t' ∧ WM.HeldBetween L (X.seen t) (X.seen t') := by
  refine Classical.byContradiction fun hno => hno ?_
  have htry := htry fun t' h h' => hno ⟨t', h, h'⟩
  obtain ⟨t1, h1, g1⟩ := X.all_answered wf h0 hr hm L t
  obtain ⟨t2, h2, g2⟩ := htry t1
  obtain ⟨t3, h3, g3⟩ := X.all_answered wf h0 hr hm L t2
  obtain ⟨t4, h4, g4⟩ := X.all_answered wf h0 hr hm L t3
  refine ⟨t4, by omega, ?_⟩
  obtain ⟨b, hb⟩ := X.seen_mono h1
  obtain ⟨c, hc⟩ := X.seen_mono (Nat.le_trans h2 h3)
  obtain ⟨d, hd⟩ := X.seen_mono h4
  obtain ⟨s, e1, e2⟩ := C82_amos_linearised wf h0 (X.run t4).toRun (hv t4) (hp t4).noWrite
  rw [hfree] at e1
  refine WM.lock_progress e1 e2 (hp t4) (hw t4) (a := X.seen t) (b := b) (c := c) (d := d) ?_ ?_ (k0 := k) ?_ ?_
  · rw [hb, hc, hd]; rfl
  · intro j; rw [hb]; exact g1 j t1 (Nat.le_refl _)
  · rw [hb, hc]; have := g3 k t3 (Nat.le_refl _); omega
  · intro j; rw [hb, hc]; exact g4 j t4 (Nat.le_refl _)

/-- **C92, the barrier opens.**  In every infinite execution on the wires in which the ports and memory keep working: if
every participant arrives `m` times and processor `k` looks at the counter again and again until it sees the end of phase
`m`, it sees it. -/
theorem C92_eventually_opens (wf : ∀ k, (p k).WF) (X : HLInf ι p) (h0 : HNStart (X.st 0))
    (hv : ∀ t, HWValid (evsOf (X.labs t))) (hr : ∀ k, X.PortsReady k) (hm : ∀ k, X.MemoryAnswers k) {ps : List ι} {B : Nat}
    {D : Nat → Prop} (hfree : memWord (X.st 0).mem B = 0) (hp : ∀ t, WM.BarrierProtocol ps B D (X.seen t)) {m : Nat}
    (harr : ∀ j ∈ ps, ∃ t, m ≤ WM.arrivals j B (X.seen t)) (k : ι)
    (hlook : (∀ t, ¬ WM.Passed ps.length k B m (X.seen t)) → ∀ t,
      ∃ t', t ≤ t' ∧ (WM.askedAmos k B (X.seen t)).length < (WM.askedAmos k B (X.seen t')).length) :
    ∃ t, WM.Passed ps.length k B m (X.seen t) := by
  have key : ∀ l : List ι, (∀ j ∈ l, ∃ t, m ≤ WM.arrivals j B (X.seen t)) → ∃ t, ∀ j ∈ l, m ≤ WM.arrivals j B (X.seen t) := by
    intro l
    induction l with
    | nil => exact fun _ => ⟨0, fun j hj => by cases hj⟩
    | cons x l ih =>
      intro h
      obtain ⟨t1, h1⟩ := ih (fun j hj => h j (by simp [hj]))
      obtain ⟨t2, h2⟩ := h x (by simp)
      refine ⟨max t1 t2, fun j hj => ?_⟩
      have mono : ∀ i, i ≤ max t1 t2 → WM.arrivals j B (X.seen i) ≤ WM.arrivals j B (X.seen (max t1 t2)) := by
        intro i hi
        obtain ⟨z, hz⟩ := X.seen_mono hi
        rw [← hz, WM.arrivals_append]; omega
      rcases List.mem_cons.1 hj with rfl | hj
      · exact Nat.le_trans h2 (mono t2 (by omega))
      · exact Nat.le_trans (h1 j hj) (mono t1 (by omega))
  refine Classical.byContradiction fun hno => hno ?_
  have hlook := hlook fun t h => hno ⟨t, h⟩
  obtain ⟨t0, h1⟩ := key ps harr
  obtain ⟨t1, h2, g1⟩ := X.all_answered wf h0 hr hm B t0
  obtain ⟨t2, h3, g2⟩ := hlook t1
  obtain ⟨t3, h4, g3⟩ := X.all_answered wf h0 hr hm B t2
  refine ⟨t3, ?_⟩
  obtain ⟨a, ha⟩ := X.seen_mono h2
  obtain ⟨b, hb⟩ := X.seen_mono (Nat.le_trans h3 h4)
  obtain ⟨s, e1, e2⟩ := C82_amos_linearised wf h0 (X.run t3).toRun (hv t3) (hp t3).noWrite
  rw [hfree] at e1
  rw [← hb]
  refine WM.opens e1 e2 (hp t3) (c := []) (by rw [hb]; simp; rfl) (fun j hj => ?_) ?_
  · refine Nat.le_trans (h1 j hj) ?_
    rw [← ha]
    refine WM.arrivals_answered j B _ _ ?_
    rw [ha]; exact g1 j t1 (Nat.le_refl _)
  · rw [hb]; have := g3 k t3 (Nat.le_refl _); omega

end Net
end Verif
