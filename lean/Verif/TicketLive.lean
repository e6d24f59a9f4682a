import Verif.PropsTicket
import Verif.LockLive
import Verif.BarrierNet

/-!
# C93 on the wires; C94: every ticket has its turn
-/

set_option linter.unusedSectionVars false

namespace Verif.WM
variable {ι : Type} [DecidableEq ι] {T S : Nat} {tr : List (Ev ι)} {k k' : ι}

/-- The first arrival. -/
theorem arrival_first {B : Nat} {e : List (Ev ι)} (h : arrivals k B e ≠ 0) :
    ∃ c f d, e = c ++ .acc k f :: d ∧ MT.isAmo f.ty = true ∧ f.addr / 4 = B ∧
      BitVec.ofNat 32 f.data = 1 ∧ arrivals k B c = 0 := by
  induction e with
  | nil => exact absurd rfl h
  | cons x e ih =>
    by_cases hx : arrivals k B [x] = 0
    · have : arrivals k B e ≠ 0 := by
        intro h0
        refine h ?_
        rw [← List.singleton_append, arrivals_append, hx, h0]
      obtain ⟨c, f, d, rfl, h1, h2, h3, h4⟩ := ih this
      refine ⟨x :: c, f, d, rfl, h1, h2, h3, ?_⟩
      rw [← List.singleton_append, arrivals_append, hx, h4]
    · obtain ⟨c, f, d, h1, h2, h3, h4⟩ := first_arrival hx
      cases c with
      | nil =>
        rw [List.nil_append, List.cons.injEq] at h1
        obtain ⟨rfl, _⟩ := h1
        exact ⟨[], f, e, rfl, h2, h3, h4, rfl⟩
      | cons y c => simp at h1

/-- A processor draws a ticket after it has given the last one back. -/
theorem given_ge (hp : TicketProtocol T S tr) {j : Nat} {n : BitVec 32} (h : (drawn k T tr)[j]? = some n) :
    j ≤ given k S tr := by
  have hj := (List.getElem?_eq_some_iff.1 h).1
  rw [drawn, List.length_map] at hj
  have := answered_le k T tr
  obtain ⟨x, hx⟩ : ∃ x, (askedAmos k T tr)[j]? = some x := ⟨_, List.getElem?_eq_getElem (by omega)⟩
  obtain ⟨c, q, d, h1, h2, h3, h4, _⟩ := asked_split hx
  obtain ⟨_, _, h5⟩ := hp.draw k c q d h1 h3 h4
  rw [h1, given, arrivals_append, ← given, ← h5, h2]
  omega

/-- Between two moments a ticket is given back only in its turn. -/
theorem turn_between {a e : List (Ev ι)} (hp : TicketProtocol T S (a ++ e)) {n : BitVec 32}
    (h : (drawn k T a)[given k S a]? = some n) (hlt : given k S a < given k S (a ++ e)) : TurnBetween k T S n a (a ++ e) := by
  rw [given, given, arrivals_append] at hlt
  obtain ⟨c, f, d, rfl, h1, h2, h3, h4⟩ := arrival_first (k := k) (B := S) (e := e) (by omega)
  obtain ⟨_, h5⟩ := hp.serve k (a ++ c) f d (by simp) h1 h2
  rcases h5 with h5 | ⟨_, n', h5⟩
  · rw [h3] at h5; exact absurd h5 (by decide)
  · refine ⟨a ++ c, List.prefix_append _ _, ⟨.acc k f :: d, by simp⟩, ?_⟩
    have h6 := h5.1
    have h7 : given k S (a ++ c) = given k S a := by rw [given, arrivals_append, h4]; rfl
    rw [h7, drawn_mono h] at h6
    obtain rfl := Option.some.inj h6
    exact h5

end Verif.WM

namespace Verif
variable {ι : Type} [DecidableEq ι] {p : ι → Params}

/-- **C94, finite executions.**  Once the ticket before that of processor `k` has been given back and this has been answered
(in `a`), and `k` looks at `S` after that and gets the answer (in `b`), it has found its number there, or given its ticket
back already. -/
theorem C94_turn_comes (wf : ∀ k, (p k).WF) {H H' : HSys ι p} {tr : List (HEv ι p)} (h0 : HStart H)
    (h : HetRun H tr H') (hv : HValid tr) {T S : Nat} (hT : memWord H.mem T = 0) (hS : memWord H.mem S = 0)
    (hp : WM.TicketProtocol T S (visible tr)) {a b c : List (WM.Ev ι)} (hab : visible tr = a ++ b ++ c) {k : ι} {j : Nat}
    {n : BitVec 32} (hd : (WM.drawn k T (visible tr))[j]? = some n)
    (hprev : n.toNat = 0 ∨ ∃ (k' : ι) (j' : Nat) (n' : BitVec 32), (WM.drawn k' T (visible tr))[j']? = some n' ∧
      n'.toNat + 1 = n.toNat ∧ j' < ((WM.answeredAmos k' S a).filter fun o => decide (o.arg = 1)).length)
    (h2 : (WM.askedAmos k S a).length < (WM.answeredAmos k S (a ++ b)).length) :
    j < WM.given k S (a ++ b) ∨ ∃ o ∈ WM.answeredAmos k S (a ++ b), o.old + o.arg = n := by
  obtain ⟨sT, h3, h4⟩ := C66_amos_linearised wf h0 h hv (fun k q hq ht => (hp.noWrite k q hq ht).1)
  obtain ⟨sS, h5, h6⟩ := C66_amos_linearised wf h0 h hv (fun k q hq ht => (hp.noWrite k q hq ht).2)
  rw [hT] at h3
  rw [hS] at h5
  exact WM.turn_comes h3 h4 h5 h6 hp hab hd hprev h2

namespace Net

/-- **C93 on the wires, turns are taken in order.** -/
theorem C93_in_order_wires (wf : ∀ k, (p k).WF) {N N' : HNSys ι p} {tr : List (HWEv ι p)} (h0 : HNStart N)
    (h : HNRun N tr N') (hv : HWValid tr) {T S : Nat} (hT : memWord N.mem T = 0) (hS : memWord N.mem S = 0)
    (hp : WM.TicketProtocol T S (wvisible tr)) {a b : List (WM.Ev ι)} (hab : wvisible tr = a ++ b) {k k' : ι}
    {n m : BitVec 32} {j : Nat} (hk : WM.HasTurn k T S n a) (hm : (WM.drawn k' T (wvisible tr))[j]? = some m)
    (hlt : m.toNat < n.toNat) : j < WM.given k' S a := by
  obtain ⟨H, H', h1, h2, h3, h4⟩ := C82_refines wf h0 h
  rw [← visible_dec] at hp hab hm
  exact C93_in_order wf h1 h2 hv.dec (by rw [h3]; exact hT) (by rw [h3]; exact hS) hp hab hk hm hlt

/-- **C93 on the wires, mutual exclusion.** -/
theorem C93_mutual_exclusion_wires (wf : ∀ k, (p k).WF) {N N' : HNSys ι p} {tr : List (HWEv ι p)} (h0 : HNStart N)
    (h : HNRun N tr N') (hv : HWValid tr) {T S : Nat} (hT : memWord N.mem T = 0) (hS : memWord N.mem S = 0)
    (hp : WM.TicketProtocol T S (wvisible tr)) {a b : List (WM.Ev ι)} (hab : wvisible tr = a ++ b) {k k' : ι}
    {n n' : BitVec 32} (hk : WM.HasTurn k T S n a) (hk' : WM.HasTurn k' T S n' a) : k = k' := by
  obtain ⟨H, H', h1, h2, h3, h4⟩ := C82_refines wf h0 h
  rw [← visible_dec] at hp hab
  exact C93_mutual_exclusion wf h1 h2 hv.dec (by rw [h3]; exact hT) (by rw [h3]; exact hS) hp hab hk hk'

/-- **C94, starvation freedom.**  In every infinite execution on the wires in which the ports and memory keep working: if
every processor with a ticket looks at `S` again and again until it has its turn, and every processor that has its turn gives
its ticket back at some time, then every processor with a ticket has its turn. -/
theorem C94_starvation_free (wf : ∀ k, (p k).WF) (X : HLInf ι p) (h0 : HNStart (X.st 0))
    (hv : ∀ t, HWValid (evsOf (X.labs t))) (hr : ∀ k, X.PortsReady k) (hm : ∀ k, X.MemoryAnswers k) {T S : Nat}
    (hT : memWord (X.st 0).mem T = 0) (hS : memWord (X.st 0).mem S = 0) (hp : ∀ t, WM.TicketProtocol T S (X.seen t))
    (hlook : ∀ k t n, (WM.drawn k T (X.seen t))[WM.given k S (X.seen t)]? = some n →
      (∀ t', ¬ WM.TurnBetween k T S n (X.seen t) (X.seen t')) →
      ∀ t', ∃ t'', t' ≤ t'' ∧ (WM.askedAmos k S (X.seen t')).length < (WM.askedAmos k S (X.seen t'')).length)
    (hgive : ∀ k t x n, x <+: X.seen t → WM.HasTurn k T S n x → ∃ t', WM.given k S x < WM.given k S (X.seen t'))
    {k : ι} {t : Nat} {n : BitVec 32} (hd : (WM.drawn k T (X.seen t))[WM.given k S (X.seen t)]? = some n) :
    ∃ t', WM.TurnBetween k T S n (X.seen t) (X.seen t') := by
  have mono : ∀ {i i' : Nat} (k : ι), i ≤ i' → WM.given k S (X.seen i) ≤ WM.given k S (X.seen i') := by
    intro i i' k hi
    obtain ⟨z, hz⟩ := X.seen_mono hi
    rw [← hz, WM.given, WM.given, WM.arrivals_append]; omega
  have key : ∀ N, ∀ k t n, (WM.drawn k T (X.seen t))[WM.given k S (X.seen t)]? = some n → n.toNat = N →
      ∃ t', WM.TurnBetween k T S n (X.seen t) (X.seen t') := by
    intro N
    -- it is enough that the ticket before is given back
    have step : ∀ k t n t2, (WM.drawn k T (X.seen t))[WM.given k S (X.seen t)]? = some n → t ≤ t2 →
        (n.toNat = 0 ∨ ∃ (k' : ι) (j' : Nat) (n' : BitVec 32), (WM.drawn k' T (X.seen t2))[j']? = some n' ∧
          n'.toNat + 1 = n.toNat ∧ j' < WM.given k' S (X.seen t2)) →
        ∃ t', WM.TurnBetween k T S n (X.seen t) (X.seen t') := by
      intro k t n t2 hd ht hprev
      refine Classical.byContradiction fun hno => hno ?_
      have hlook := hlook k t n hd fun t' h => hno ⟨t', h⟩
      obtain ⟨t3, h3, g3⟩ := X.all_answered wf h0 hr hm S t2
      obtain ⟨t4, h4, g4⟩ := hlook t3
      obtain ⟨t5, h5, g5⟩ := X.all_answered wf h0 hr hm S t4
      refine ⟨t5, ?_⟩
      obtain ⟨e, he⟩ := X.seen_mono (show t ≤ t5 by omega)
      obtain ⟨b, hb⟩ := X.seen_mono (show t3 ≤ t5 by omega)
      obtain ⟨y, hy⟩ := X.seen_mono h3
      have hd5 : (WM.drawn k T (X.seen t5))[WM.given k S (X.seen t)]? = some n := by rw [← he]; exact WM.drawn_mono hd
      have turn : WM.given k S (X.seen t) < WM.given k S (X.seen t5) →
          WM.TurnBetween k T S n (X.seen t) (X.seen t5) := by
        intro hlt
        rw [← he] at hlt ⊢
        exact WM.turn_between (he ▸ hp t5) hd hlt
      obtain ⟨sT, e1, e2⟩ := C82_amos_linearised wf h0 (X.run t5).toRun (hv t5) (fun k q hq ht => ((hp t5).noWrite k q hq ht).1)
      obtain ⟨sS, e3, e4⟩ := C82_amos_linearised wf h0 (X.run t5).toRun (hv t5) (fun k q hq ht => ((hp t5).noWrite k q hq ht).2)
      rw [hT] at e1
      rw [hS] at e3
      have := WM.turn_comes e1 e2 e3 e4 (hp t5) (a := X.seen t3) (b := b) (c := []) (by rw [hb]; simp; rfl) hd5 ?_ ?_
      · rw [hb] at this
        rcases this with h | h
        · exact turn h
        · by_cases hlt : WM.given k S (X.seen t) < WM.given k S (X.seen t5)
          · exact turn hlt
          · have heq : WM.given k S (X.seen t5) = WM.given k S (X.seen t) :=
              Nat.le_antisymm (by omega) (mono k (by omega))
            exact ⟨X.seen t5, ⟨e, he⟩, List.prefix_refl _, by rw [heq]; exact hd5, h⟩
      · rcases hprev with h | ⟨k', j', n', g1, g2, g6⟩
        · exact .inl h
        · refine .inr ⟨k', j', n', ?_, g2, Nat.lt_of_lt_of_le g6 ?_⟩
          · obtain ⟨z, hz⟩ := X.seen_mono (show t2 ≤ t5 by omega)
            have := WM.drawn_mono (b := z) g1
            rw [hz] at this; exact this
          · rw [← hy]
            refine WM.arrivals_answered k' S _ _ ?_
            rw [hy]; exact g3 k' t3 (Nat.le_refl _)
      · rw [hb]; have := g5 k t5 (Nat.le_refl _); omega
    induction N with
    | zero => exact fun k t n hd hn => step k t n t hd (Nat.le_refl _) (.inl hn)
    | succ m ih =>
      intro k t n hd hn
      obtain ⟨t1, h1, g1⟩ := X.all_answered wf h0 hr hm T t
      obtain ⟨e, he⟩ := X.seen_mono h1
      obtain ⟨sT, e1, e2⟩ := C82_amos_linearised wf h0 (X.run t1).toRun (hv t1) (fun k q hq ht => ((hp t1).noWrite k q hq ht).1)
      rw [hT] at e1
      obtain ⟨k', j', n', g2, g3⟩ := WM.ticket_before e1 e2 (hp t1) he.symm (fun j => g1 j t1 (Nat.le_refl _)) hd hn
      have hge := WM.given_ge (hp t1) g2
      by_cases hlt : j' < WM.given k' S (X.seen t1)
      · exact step k t n t1 hd h1 (.inr ⟨k', j', n', g2, by omega, hlt⟩)
      · have heq : j' = WM.given k' S (X.seen t1) := by omega
        rw [heq] at g2
        obtain ⟨t', x, h2, h3, h4⟩ := ih k' t1 n' g2 g3
        obtain ⟨t2, h5⟩ := hgive k' t' x n' h3 h4
        have hx : WM.given k' S (X.seen t1) ≤ WM.given k' S x := by
          obtain ⟨z, rfl⟩ := h2
          rw [WM.given, WM.given, WM.arrivals_append]; omega
        refine step k t n (max t1 t2) hd (by omega) (.inr ⟨k', WM.given k' S (X.seen t1), n', ?_, by omega, ?_⟩)
        · obtain ⟨z, hz⟩ := X.seen_mono (show t1 ≤ max t1 t2 by omega)
          rw [← hz]; exact WM.drawn_mono g2
        · exact Nat.lt_of_lt_of_le (Nat.lt_of_le_of_lt hx h5) (mono k' (by omega))
  exact key _ k t n hd rfl

end Net
end Verif
