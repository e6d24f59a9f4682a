import Verif.SpecTicketData
import Verif.PropsTicket
import Verif.PropsHetNet

/-!
# C95: words protected by a ticket lock
-/

set_option linter.unusedSectionVars false

namespace Verif.WM
variable {ι : Type} [DecidableEq ι] {T S : Nat} {D : Nat → Prop} {tr : List (Ev ι)} {k k' : ι}

/-- At most one processor has its turn (proof device: what the proofs below use of C93). -/
def OneTurn (T S : Nat) (tr : List (Ev ι)) : Prop :=
  ∀ a b, tr = a ++ b → ∀ k k' n n', HasTurn k T S n a → HasTurn k' T S n' a → k = k'

theorem HasTurn.mono {a e : List (Ev ι)} {n : BitVec 32} (h : HasTurn k T S n a) (he : given k S (a ++ e) = given k S a) :
    HasTurn k T S n (a ++ e) := by
  obtain ⟨h1, o, h2, h3⟩ := h
  exact ⟨by rw [he]; exact drawn_mono h1, o, (answered_mono k S a e).subset h2, h3⟩

theorem not_serve_op (hg : TicketGuard T S D tr) {q : Req} {W : Nat} (hD : D W) (hq : q.stores W ∨ q.reads W) :
    ¬ (MT.isAmo q.ty = true ∧ q.addr / 4 = S) := by
  rintro ⟨h1, rfl⟩
  rcases hq with (⟨h2, _⟩ | ⟨_, h2⟩) | (⟨h2, _⟩ | ⟨_, h2⟩)
  · exact amo_not_write h1 h2
  · subst h2; exact hg.apart hD
  · exact amo_not_read h1 h2
  · subst h2; exact hg.apart hD

/-- The processor that accesses a protected word has its turn. -/
theorem access_turn (hg : TicketGuard T S D tr) {a b : List (Ev ι)} {q : Req} (h : tr = a ++ .acc k q :: b) {W : Nat}
    (hD : D W) (hq : q.stores W ∨ q.reads W) : ∃ n, HasTurn k T S n a := by
  obtain ⟨c, i, d, n, rfl, _, h1, h2⟩ := hg.guarded k a q b h W hD hq
  exact ⟨n, h1.mono h2⟩

/-- A processor that gives its ticket back has published its stores. -/
theorem give_released (hg : TicketGuard T S D tr) {W : Nat} (hD : D W) {a e b : List (Ev ι)} {q : Req}
    (h : tr = (a ++ .acc k q :: e) ++ b) (hq : q.stores W) (hask : given k S (a ++ .acc k q :: e) ≠ given k S a) :
    Released k W a (.acc k q :: e) := by
  have hask : arrivals k S e ≠ 0 := by
    intro h0
    refine hask ?_
    rw [given, given, arrivals_append, arrivals_other (not_serve_op hg hD (.inl hq)), h0]; rfl
  obtain ⟨e1, f, e2, rfl, h2, h3, h4⟩ := first_arrival hask
  obtain ⟨h5, h6⟩ := hg.publish k (a ++ .acc k q :: e1) f (e2 ++ b) (by rw [h]; simp) h2 h3 h4
  obtain ⟨g, hg', hgt⟩ := h6 W hD a q e1 rfl hq
  obtain ⟨n, hn⟩ := List.getElem?_of_mem hg'
  obtain ⟨u, w, rfl, hu⟩ := accepted_split hn
  have : Released k W a (.acc k q :: (u ++ .acc k g :: w)) := by
    refine ⟨.acc k q :: u, g, w, rfl, .inl hgt, ?_⟩
    rw [← h5]; simp
  have := this.mono (.acc k f :: e2)
  simpa using this

theorem ticket_upToDate (h1 : OneTurn T S tr) (hg : TicketGuard T S D tr) {a b : List (Ev ι)} {q : Req}
    (h : tr = a ++ .acc k q :: b) {W : Nat} (hD : D W) (hq : q.stores W ∨ q.reads W) : UpToDate k W a := by
  intro k' hk a' q' b' ha' hq'
  obtain ⟨c, i, d, n, he, hi, hc, hca⟩ := hg.guarded k a q b h W hD hq
  have htr' : tr = a' ++ .acc k' q' :: (b' ++ .acc k q :: b) := by rw [h, ha']; simp
  obtain ⟨n', hturn'⟩ := access_turn hg htr' hD (.inl hq')
  rw [he] at ha'
  rcases List.append_eq_append_iff.1 ha' with ⟨e, he1, he2⟩ | ⟨e, he1, he2⟩
  · -- the store is after the turn of `k` has begun
    exfalso
    refine hk ?_
    have : HasTurn k T S n a' := by
      rw [he1]
      refine hc.mono ?_
      rw [he, he2] at hca
      simp only [given, arrivals_append] at hca ⊢
      omega
    exact h1 a' _ htr' k' k n' n hturn' this
  · cases e with
    | nil =>
      simp only [List.nil_append, List.cons.injEq, Ev.acc.injEq] at he2
      exact absurd he2.1.1 hk
    | cons x e =>
      simp only [List.cons_append, List.cons.injEq] at he2
      obtain ⟨rfl, rfl⟩ := he2
      refine ⟨e, i, d, rfl, .inl hi, ?_⟩
      refine give_released hg hD (b := .acc k i :: (d ++ .acc k q :: b)) (by rw [h, he, he1]; simp) hq' ?_
      intro h0
      refine hk (h1 c (.acc k i :: (d ++ .acc k q :: b)) (by rw [h, he]; simp) k' k n' n ?_ hc)
      rw [he1]
      exact hturn'.mono h0

theorem ticket_disciplined (h1 : OneTurn T S tr) (hg : TicketGuard T S D tr) {W : Nat} (hD : D W) : Disciplined W tr := by
  intro k a q b h
  exact ⟨fun hq => ticket_upToDate h1 hg h hD (.inl (.inl hq)),
    fun hq => (ticket_upToDate h1 hg h hD (.inl (.inr hq))).others⟩

theorem ticket_noRace (h1 : OneTurn T S tr) (hg : TicketGuard T S D tr) {a b : List (Ev ι)} {q : Req}
    (h : tr = a ++ .acc k q :: b) {W : Nat} (hD : D W) (hq : q.stores W ∨ q.reads W) : NoRace k W a q b := by
  intro k' hk c q' d hc hq'
  obtain ⟨n, hturn⟩ := access_turn hg h hD hq
  have htr' : tr = (a ++ .acc k q :: c) ++ .acc k' q' :: d := by rw [h, hc]; simp
  obtain ⟨n', hturn'⟩ := access_turn hg htr' hD (.inl hq')
  have hne : given k S (a ++ .acc k q :: c) ≠ given k S a := fun h0 =>
    hk (h1 _ _ htr' k' k n' n hturn' (hturn.mono h0))
  have hask : arrivals k S c ≠ 0 := by
    intro h0
    refine hne ?_
    rw [given, given, arrivals_append, arrivals_other (not_serve_op hg hD hq), h0]; rfl
  obtain ⟨e1, f, e2, rfl, h2, h3, h4⟩ := first_arrival hask
  obtain ⟨h5, _⟩ := hg.publish k (a ++ .acc k q :: e1) f (e2 ++ .acc k' q' :: d) (by rw [htr']; simp) h2 h3 h4
  simp at h5 ⊢; omega

/-- When it is nobody's turn, all stores are published. -/
theorem free_released (hg : TicketGuard T S D tr) (hfree : ∀ k n, ¬ HasTurn k T S n tr) {W : Nat} (hD : D W)
    {a b : List (Ev ι)} {q : Req} (h : tr = a ++ .acc k q :: b) (hq : q.stores W) : Released k W a (.acc k q :: b) := by
  obtain ⟨n, hturn⟩ := access_turn hg h hD (.inl hq)
  refine give_released hg hD (b := []) (by rw [h]; simp) hq fun h0 => hfree k n ?_
  rw [h]
  exact hturn.mono h0

end Verif.WM

namespace Verif
variable {ι : Type} [DecidableEq ι] {p : ι → Params}

theorem oneTurn (wf : ∀ k, (p k).WF) {H H' : HSys ι p} {tr : List (HEv ι p)} (h0 : HStart H)
    (h : HetRun H tr H') (hv : HValid tr) {T S : Nat} (hT : memWord H.mem T = 0) (hS : memWord H.mem S = 0)
    (hp : WM.TicketProtocol T S (visible tr)) : WM.OneTurn T S (visible tr) :=
  fun _ _ hab _ _ _ _ hk hk' => C93_mutual_exclusion wf h0 h hv hT hS hp hab hk hk'

/-- **C95, protected words.**  Caches of any shapes.  A READ (or AMO) of words protected by the ticket lock returns the
latest data: everything accepted before it, by any cache, performed on one flat memory. -/
theorem C95_protected_reads (wf : ∀ k, (p k).WF) {H H' : HSys ι p} {tr : List (HEv ι p)} (h0 : HStart H)
    (h : HetRun H tr H') (hv : HValid tr) {T S : Nat} {D : Nat → Prop} (hT : memWord H.mem T = 0)
    (hS : memWord H.mem S = 0) (hp : WM.TicketProtocol T S (visible tr)) (hg : WM.TicketGuard T S D (visible tr)) {k : ι}
    {a b : List (WM.Ev ι)} {q : WM.Req} (hq : visible tr = a ++ .acc k q :: b) (hD : ∀ W, q.reads W → D W) {r : WM.Resp}
    (hresp : (WM.responses k (visible tr))[(WM.accepted k a).length]? = some r) :
    r = ⟨q.ty, q.opq, q.len, (WM.flat (WM.latest H.mem a) q).2⟩ := by
  have h1 := oneTurn wf h0 h hv hT hS hp
  refine C65_responses wf h0 h hv hq (fun W hW => WM.ticket_disciplined h1 hg (hD W hW)) ?_ hresp
  intro W hW _
  exact ⟨WM.ticket_upToDate h1 hg hq (hD W hW) (.inr hW), WM.ticket_noRace h1 hg hq (hD W hW) (.inr hW)⟩

/-- **C95, memory.**  When it is nobody's turn, memory holds the latest contents of every protected word. -/
theorem C95_memory (wf : ∀ k, (p k).WF) {H H' : HSys ι p} {tr : List (HEv ι p)} (h0 : HStart H)
    (h : HetRun H tr H') (hv : HValid tr) {T S : Nat} {D : Nat → Prop} (hT : memWord H.mem T = 0)
    (hS : memWord H.mem S = 0) (hp : WM.TicketProtocol T S (visible tr)) (hg : WM.TicketGuard T S D (visible tr))
    (hfree : ∀ k n, ¬ WM.HasTurn k T S n (visible tr)) {W : Nat} (hD : D W) {x : Nat} (hx : x / 4 = W) :
    H'.mem x = WM.latest H.mem (visible tr) x :=
  C65_memory wf h0 h hv (WM.ticket_disciplined (oneTurn wf h0 h hv hT hS hp) hg hD)
    (fun _ _ _ _ hab hq => WM.free_released hg hfree hD hab hq) hx

namespace Net

/-- **C95 on the wires, protected words.** -/
theorem C95_protected_reads_wires (wf : ∀ k, (p k).WF) {N N' : HNSys ι p} {tr : List (HWEv ι p)} (h0 : HNStart N)
    (h : HNRun N tr N') (hv : HWValid tr) {T S : Nat} {D : Nat → Prop} (hT : memWord N.mem T = 0)
    (hS : memWord N.mem S = 0) (hp : WM.TicketProtocol T S (wvisible tr)) (hg : WM.TicketGuard T S D (wvisible tr))
    {k : ι} {a b : List (WM.Ev ι)} {q : WM.Req} (hq : wvisible tr = a ++ .acc k q :: b) (hD : ∀ W, q.reads W → D W)
    {r : WM.Resp} (hresp : (WM.responses k (wvisible tr))[(WM.accepted k a).length]? = some r) :
    r = ⟨q.ty, q.opq, q.len, (WM.flat (WM.latest N.mem a) q).2⟩ := by
  obtain ⟨H, H', h1, h2, h3, h4⟩ := C82_refines wf h0 h
  rw [← visible_dec] at hp hg hq hresp
  rw [← h3]
  exact C95_protected_reads wf h1 h2 hv.dec (by rw [h3]; exact hT) (by rw [h3]; exact hS) hp hg hq hD hresp

/-- **C95 on the wires, memory.** -/
theorem C95_memory_wires (wf : ∀ k, (p k).WF) {N N' : HNSys ι p} {tr : List (HWEv ι p)} (h0 : HNStart N)
    (h : HNRun N tr N') (hv : HWValid tr) {T S : Nat} {D : Nat → Prop} (hT : memWord N.mem T = 0)
    (hS : memWord N.mem S = 0) (hp : WM.TicketProtocol T S (wvisible tr)) (hg : WM.TicketGuard T S D (wvisible tr))
    (hfree : ∀ k n, ¬ WM.HasTurn k T S n (wvisible tr)) {W : Nat} (hD : D W) {x : Nat} (hx : x / 4 = W) :
    N'.mem x = WM.latest N.mem (wvisible tr) x := by
  obtain ⟨H, H', h1, h2, h3, h4⟩ := C82_refines wf h0 h
  rw [← visible_dec] at hp hg hfree ⊢
  rw [← h3, ← h4]
  exact C95_memory wf h1 h2 hv.dec (by rw [h3]; exact hT) (by rw [h3]; exact hS) hp hg hfree hD hx

end Net
end Verif
