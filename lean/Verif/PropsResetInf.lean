import Verif.PropsResetWave

/-!
# C86, infinite executions

Infinite executions of caches that are reset one by one: after its last reset a cache answers every request.
-/

set_option linter.unusedSectionVars false

namespace Verif.Net
variable {ι : Type} [DecidableEq ι] {p : ι → Params}

/-! ## Specification -/

/-- An infinite execution. Proof device; not in the source. -/
structure RLInf (ι : Type) [DecidableEq ι] (p : ι → Params) where
  st : Nat → RNSys ι p
  lab : Nat → RLab ι p
  does : ∀ t, RLStep (st t) (lab t) (st (t + 1))

/-- The first `t` steps. Proof device; not in the source. -/
def RLInf.labs (X : RLInf ι p) (t : Nat) : List (RLab ι p) := (List.range t).map X.lab

/-- What the processors see in the first `t` steps, by cache and life. Proof device; not in the source. -/
def RLInf.seen (X : RLInf ι p) (t : Nat) : List (WM.Ev (ι × Nat)) := wrvisible (revsOf (X.labs t))

/-- The number of resets of cache `k` that are over after `t` steps. Proof device; not in the source. -/
def RLInf.lifeNo (X : RLInf ι p) (k : ι) (t : Nat) : Nat := resets k (X.labs t)

/-- From step `t` on cache `k` is in normal operation: it is not reset; again and again it has a clock cycle in which its
processor can take a response and memory a request; and whenever memory owes it a response, it later delivers one.  (Nothing
is said of the other caches, which may be reset again and again or not be clocked at all.). Proof device; not in the source. -/
structure RLInf.Served (X : RLInf ι p) (k : ι) (t : Nat) : Prop where
  since : (X.st t).since k = none
  spares : ∀ t', t ≤ t' → (X.lab t').spares k
  ready : ∀ u, t ≤ u → ∃ t', u ≤ t' ∧ ∃ c, X.lab t' = .clock k c ∧ c.inp.cacherespRdy = true ∧ c.inp.memreqRdy = true
  answers : ∀ u, t ≤ u → ((X.st u).sys.node k).reqQ ≠ [] ∨ ((X.st u).sys.node k).respQ ≠ [] →
    ∃ t', u ≤ t' ∧ ∃ c, X.lab t' = .clock k c ∧ c.inp.memrespEn = true

/-! ## Lemmas -/

theorem RLInf.run (X : RLInf ι p) (t : Nat) : RLRun (X.st 0) (X.labs t) (X.st t) := by
  induction t with
  | zero => exact .refl _
  | succ t ih =>
    rw [RLInf.labs, List.range_succ, List.map_append]
    exact .snoc ih (X.does t)

/-- Steps `t` to `t + d`. Proof device; not in the source. -/
def RLInf.next (X : RLInf ι p) (t d : Nat) : List (RLab ι p) := (List.range d).map fun j => X.lab (t + j)

theorem RLInf.labs_add (X : RLInf ι p) (t d : Nat) : X.labs (t + d) = X.labs t ++ X.next t d := by
  rw [RLInf.labs, List.range_add, List.map_append, List.map_map]
  rfl

theorem RLInf.next_succ (X : RLInf ι p) (t d : Nat) : X.next t (d + 1) = X.next t d ++ [X.lab (t + d)] := by
  rw [RLInf.next, List.range_succ, List.map_append]; rfl

theorem RLInf.next_add (X : RLInf ι p) (t d e : Nat) : X.next t (d + e) = X.next t d ++ X.next (t + d) e := by
  rw [RLInf.next, List.range_add, List.map_append, List.map_map, RLInf.next, RLInf.next]
  congr 1
  apply List.map_congr_left
  intro j _
  simp [Nat.add_assoc]

theorem RLInf.runOn (X : RLInf ι p) (t d : Nat) : RLRun (X.st t) (X.next t d) (X.st (t + d)) := by
  induction d with
  | zero => exact .refl _
  | succ d ih => rw [X.next_succ]; exact .snoc ih (X.does (t + d))

theorem RLInf.Served.nextSpares {X : RLInf ι p} {k : ι} {t : Nat} (h : X.Served k t) (d : Nat) :
    ∀ l ∈ X.next t d, l.spares k := by
  intro l hl
  obtain ⟨j, _, rfl⟩ := List.mem_map.1 hl
  exact h.spares _ (by omega)

theorem RLInf.Served.goesOn {X : RLInf ι p} {k : ι} {t : Nat} (h : X.Served k t) (d : Nat) :
    (X.st (t + d)).since k = none ∧ life k (X.labs (t + d)) = life k (X.labs t) ++ rwave k (X.next t d) ∧
      X.lifeNo k (t + d) = X.lifeNo k t := by
  have := (X.runOn t d).goesOn (ls := X.labs t) h.since (h.nextSpares d)
  rw [← X.labs_add] at this
  exact this

theorem RLInf.Served.later {X : RLInf ι p} {k : ι} {t : Nat} (h : X.Served k t) (d : Nat) : X.Served k (t + d) :=
  ⟨(h.goesOn d).1, fun u hu => h.spares u (by omega), fun u hu => h.ready u (by omega), fun u hu => h.answers u (by omega)⟩

theorem RLInf.helps (wf : ∀ k, (p k).WF) (X : RLInf ι p) (h0 : RNStart (X.st 0)) {k : ι} {t : Nat} (h : X.Served k t) (d : Nat) :
    ∃ e c, X.lab (t + (d + e)) = .clock k c ∧ (c.inp.memrespEn = true ∨
      (owesW' [] (life k (X.labs (t + (d + e)))) = [] ∧ c.inp.cacherespRdy = true ∧ c.inp.memreqRdy = true)) := by
  have fin : ∀ t', t + d ≤ t' → ∃ e, t' = t + (d + e) := fun t' ht => ⟨t' - (t + d), by omega⟩
  by_cases hx : ∃ t', t + d ≤ t' ∧ ∃ c, X.lab t' = .clock k c ∧ c.inp.memrespEn = true
  · obtain ⟨t', h1, c, h2, h3⟩ := hx
    obtain ⟨e, rfl⟩ := fin t' h1
    exact ⟨e, c, h2, .inl h3⟩
  · obtain ⟨t', h1, c, h2, h3, h4⟩ := h.ready (t + d) (by omega)
    obtain ⟨e, rfl⟩ := fin t' h1
    refine ⟨e, c, h2, .inr ⟨?_, h3, h4⟩⟩
    have hno : ¬ (((X.st (t + (d + e))).sys.node k).reqQ ≠ [] ∨ ((X.st (t + (d + e))).sys.node k).respQ ≠ []) := by
      intro hq
      obtain ⟨t'', g1, g2⟩ := h.answers _ (by omega) hq
      exact hx ⟨t'', by omega, g2⟩
    rw [((X.run (t + (d + e))).lifeInv wf h0 k).owes (h.goesOn (d + e)).1, NNode.owed]
    have q1 : ((X.st (t + (d + e))).sys.node k).reqQ = [] := Decidable.byContradiction fun hq => hno (.inl hq)
    have q2 : ((X.st (t + (d + e))).sys.node k).respQ = [] := Decidable.byContradiction fun hq => hno (.inr hq)
    rw [q1, q2]; rfl

theorem RLInf.helped (wf : ∀ k, (p k).WF) (X : RLInf ι p) (h0 : RNStart (X.st 0)) {k : ι} {t : Nat} (h : X.Served k t) (n : Nat) :
    ∃ d, n ≤ helpedW (owesW' [] (life k (X.labs t))) (rwave k (X.next t d)) := by
  induction n with
  | zero => exact ⟨0, Nat.zero_le _⟩
  | succ n ih =>
    obtain ⟨d, hd⟩ := ih
    obtain ⟨e, c, h2, h3⟩ := X.helps wf h0 h d
    refine ⟨d + e + 1, ?_⟩
    have e1 : rwave k (X.next t (d + e + 1)) = rwave k (X.next t (d + e)) ++ [c] := by
      rw [X.next_succ, h2, rwave_same]
    rw [(h.goesOn (d + e)).2.1, owesW'_append] at h3
    rw [e1, helpedW_append, X.next_add, rwave_append, helpedW_append, ← rwave_append, ← X.next_add]
    have : helpedW (owesW' (owesW' [] (life k (X.labs t))) (rwave k (X.next t (d + e)))) [c] = 1 := by
      simp only [helpedW, if_pos h3]
    omega

/-! ## Theorems -/

/-- **C86, ready again.**  When all is answered cache `k` accepts requests: if it is in normal operation, `ls'` contains no
reset of it and no request to it, and memory helps it `3 + 5 * nLines` times in `ls'`, it is ready in every further cycle in
which its output ports are. -/
theorem C86_ready_again (wf : ∀ k, (p k).WF) {R R1 R' : RNSys ι p} {k : ι} {ls ls' : List (RLab ι p)} {c : Cyc (p k)}
    (h0 : RNStart R) (h1 : RLRun R ls R1) (hn : R1.since k = none) (h2 : RLRun R1 (ls' ++ [.clock k c]) R')
    (hr : ∀ l ∈ ls', l.spares k) (hq : ∀ d ∈ rwave k ls', d.inp.cachereqEn = false)
    (hh : 3 + 5 * (p k).nLines ≤ helpedW (owesW' [] (life k ls)) (rwave k ls'))
    (hc : c.inp.cacherespRdy = true ∧ c.inp.memreqRdy = true) : c.out.cachereqRdy = true := by
  obtain ⟨R2, h3, h4⟩ := h2.last
  obtain ⟨hn2, e1, e2⟩ := h3.goesOn (ls := ls) hn hr
  have el : life k (ls ++ ls' ++ [.clock k c]) = life k ls ++ rwave k ls' ++ [c] := by
    rw [life_snoc, e1]; simp [lifeStep]
  have hall := (h1.trans h3).snoc h4
  obtain ⟨_, r, r', l, g1, g2, g3⟩ := C86_ports wf h0 hall k
  have hf := (C86_ports wf h0 (h1.trans h3) k).1
  rw [el] at g3
  rw [e1] at hf
  obtain ⟨l12, l3, rfl, n12, n3⟩ := norm_split g3
  obtain ⟨l1, l2, rfl, n1, n2⟩ := norm_split n12
  cases l3 with
  | nil => simp at n3
  | cons c' l3 =>
    rw [List.map_cons, List.map_cons, List.cons.injEq] at n3
    obtain ⟨nc, n3⟩ := n3
    have : l3 = [] := by simpa using n3
    subst this
    have hf' : Fair [] (l1 ++ l2) := by rw [← norm_fair, n12, norm_fair]; exact hf
    have := (C76_ready_again (wf k) g1 g2 hf' ?_ ?_ ?_).2.2
    · rw [← norm_out, nc, norm_out] at this; exact this
    · intro d hd
      have : d.norm ∈ (rwave k ls').map Cyc.norm := by rw [← n2]; exact List.mem_map_of_mem hd
      obtain ⟨d', h1, h2⟩ := List.mem_map.1 this
      rw [← norm_en, ← h2, norm_en]; exact hq d' h1
    · rw [← norm_helped, n2, norm_helped, ← norm_owes', n1, norm_owes']; exact hh
    · rw [← norm_rdy, ← norm_mrdy, nc, norm_rdy, norm_mrdy]; exact hc

/-- **C86, liveness.**  In every infinite execution: a cache that is not reset any more, whose output ports are ready again
and again and to which memory answers, answers every request of its last life, whatever happens to the other caches. -/
theorem C86_eventually_answered (wf : ∀ k, (p k).WF) (X : RLInf ι p) (h0 : RNStart (X.st 0)) {k : ι} {t : Nat}
    (h : X.Served k t) :
    ∃ t', t ≤ t' ∧ (WM.accepted (k, X.lifeNo k t) (X.seen t)).length ≤
      (WM.responses (k, X.lifeNo k t) (X.seen t')).length := by
  obtain ⟨d, hd⟩ := X.helped wf h0 h (3 + 5 * (p k).nLines)
  refine ⟨t + d, by omega, ?_⟩
  have := C86_every_request_answered wf h0 (X.run t) h.since (X.runOn t d) (h.nextSpares d) hd
  rw [RLInf.seen, RLInf.seen, X.labs_add]
  exact this

/-- **C86, readiness.**  From any time on, either such a cache accepts another request, or there is a time from which on it is
ready in every cycle in which both its output ports are. -/
theorem C86_eventually_ready (wf : ∀ k, (p k).WF) (X : RLInf ι p) (h0 : RNStart (X.st 0)) {k : ι} {t : Nat}
    (h : X.Served k t) :
    (∃ t', t ≤ t' ∧ (WM.accepted (k, X.lifeNo k t) (X.seen t)).length < (WM.accepted (k, X.lifeNo k t) (X.seen t')).length) ∨
    ∃ t', t ≤ t' ∧ ∀ t'', t' ≤ t'' → ∀ c, X.lab t'' = .clock k c → c.inp.cacherespRdy = true →
      c.inp.memreqRdy = true → c.out.cachereqRdy = true := by
  by_cases hx : ∃ t', t ≤ t' ∧ (WM.accepted (k, X.lifeNo k t) (X.seen t)).length <
      (WM.accepted (k, X.lifeNo k t) (X.seen t')).length
  · exact .inl hx
  obtain ⟨d, hd⟩ := X.helped wf h0 h (3 + 5 * (p k).nLines)
  refine .inr ⟨t + d, by omega, ?_⟩
  intro t'' ht c hc hr1 hr2
  obtain ⟨e, rfl⟩ : ∃ e, t'' = t + (d + e) := ⟨t'' - (t + d), by omega⟩
  have h2 := X.runOn t (d + e + 1)
  rw [X.next_succ, hc] at h2
  refine C86_ready_again wf h0 (X.run t) h.since h2 (h.nextSpares _) ?_ ?_ ⟨hr1, hr2⟩
  · intro c' hc'
    have hle : ¬ (WM.accepted (k, X.lifeNo k t) (X.seen t)).length <
        (WM.accepted (k, X.lifeNo k t) (X.seen (t + (d + e)))).length := fun hy => hx ⟨_, by omega, hy⟩
    obtain ⟨g1, g2, g3⟩ := h.goesOn (d + e)
    have a := (seen_lengths wf h0 (X.run t) h.since).1
    have b := (seen_lengths wf h0 (X.run (t + (d + e))) g1).1
    rw [← RLInf.lifeNo, ← RLInf.seen] at a b
    rw [g3] at b
    rw [a, b, g2, requestsW, requestsW, List.countP_append] at hle
    have h0' : (rwave k (X.next t (d + e))).countP (·.inp.cachereqEn) = 0 := by omega
    rw [List.countP_eq_zero] at h0'
    simpa using h0' c' hc'
  · rw [X.next_add, rwave_append, helpedW_append]; omega

/-! ## Such executions exist -/

/-- A step of caches that are not reset is a step of caches that can be. Proof device; not in the source. -/
def Lab.toR : Lab ι p → RLab ι p
  | .clock k c => .clock k c
  | .exec k m r => .exec k m r

theorem upd_none (k : ι) : upd (fun _ : ι => (none : Option Nat)) k none = fun _ => none := by
  funext x; simp only [upd]; split <;> rfl

theorem HLStep.toR {N N' : HNSys ι p} {l : Lab ι p} (h : HLStep N l N') :
    RLStep ⟨N, fun _ => none⟩ l.toR ⟨N', fun _ => none⟩ := by
  cases h with
  | clock k i L hL hc =>
    have := RLStep.clock (⟨N, fun _ => none⟩ : RNSys ι p) k rfl i L hL hc
    simp only [RNSys.tick, RNSys.put, upd_none] at this
    exact this
  | exec k m ms hm =>
    have := RLStep.exec (⟨N, fun _ => none⟩ : RNSys ι p) k m ms hm
    simp only [RNSys.put, upd_none] at this
    exact this

/-- An infinite execution without resets. Proof device; not in the source. -/
def HLInf.toR (X : HLInf ι p) : RLInf ι p where
  st t := ⟨X.st t, fun _ => none⟩
  lab t := (X.lab t).toR
  does t := (X.does t).toR

theorem HLInf.toR_served (X : HLInf ι p) {k : ι} (hp : X.PortsReady k) (hm : X.MemoryAnswers k) (t : Nat) :
    X.toR.Served k t := by
  have key : ∀ t' c, X.lab t' = .clock k c → X.toR.lab t' = .clock k c := by
    intro t' c h
    show (X.lab t').toR = _
    rw [h]; rfl
  refine ⟨rfl, fun t' _ => ?_, fun u _ => ?_, fun u _ hq => ?_⟩
  · show ((X.lab t').toR).spares k
    cases X.lab t' <;> trivial
  · obtain ⟨t', h1, c, h2, h3⟩ := hp u
    exact ⟨t', h1, c, key _ _ h2, h3⟩
  · obtain ⟨t', h1, c, h2, h3⟩ := hm u hq
    exact ⟨t', h1, c, key _ _ h2, h3⟩

/-- An infinite execution with one more step in front. Proof device; not in the source. -/
def RLInf.cons (X : RLInf ι p) {R : RNSys ι p} {l : RLab ι p} (h : RLStep R l (X.st 0)) : RLInf ι p where
  st t := match t with
    | 0 => R
    | t + 1 => X.st t
  lab t := match t with
    | 0 => l
    | t + 1 => X.lab t
  does t := by
    cases t with
    | zero => exact h
    | succ t => exact X.does t

theorem RLInf.Served.cons {X : RLInf ι p} {R : RNSys ι p} {l : RLab ι p} (h : RLStep R l (X.st 0)) {k : ι} {t : Nat}
    (hs : X.Served k t) : (X.cons h).Served k (t + 1) := by
  have shift : ∀ u, t + 1 ≤ u → ∃ v, u = v + 1 ∧ t ≤ v := fun u hu => ⟨u - 1, by omega, by omega⟩
  refine ⟨hs.since, fun u hu => ?_, fun u hu => ?_, fun u hu hq => ?_⟩
  · obtain ⟨v, rfl, hv⟩ := shift u hu
    exact hs.spares v hv
  · obtain ⟨v, rfl, hv⟩ := shift u hu
    obtain ⟨t', h1, c, h2⟩ := hs.ready v hv
    exact ⟨t' + 1, by omega, c, h2⟩
  · obtain ⟨v, rfl, hv⟩ := shift u hu
    obtain ⟨t', h1, c, h2⟩ := hs.answers v hv hq
    exact ⟨t' + 1, by omega, c, h2⟩

/-- Every finite execution at whose end no cache is being reset can be continued for ever, with all caches served. -/
theorem served_extension {s : Nat → ι} (hs : ∀ k t, ∃ t', t ≤ t' ∧ s t' = k) {R R' : RNSys ι p} {ls : List (RLab ι p)}
    (h : RLRun R ls R') (hn : ∀ k, R'.since k = none) : ∃ X : RLInf ι p, X.st 0 = R ∧ X.labs ls.length = ls ∧
      ∀ k, X.Served k ls.length := by
  have key : ∀ {R R' : RNSys ι p} {ls : List (RLab ι p)}, RLRun R ls R' → ∀ (Y : RLInf ι p), Y.st 0 = R' →
      ∀ n, (∀ k, Y.Served k n) → ∃ X : RLInf ι p, X.st 0 = R ∧
        X.labs (ls.length + n) = ls ++ Y.labs n ∧ ∀ k, X.Served k (ls.length + n) := by
    intro R R' ls h
    induction h with
    | refl => intro Y h0 n hf; exact ⟨Y, h0, by simp, by simpa using hf⟩
    | @snoc R' R'' ls l _ hs ih =>
      intro Y h0 n hf
      have hs' : RLStep R' l (Y.st 0) := by rw [h0]; exact hs
      obtain ⟨X, h1, h2, h3⟩ := ih (Y.cons hs') rfl (n + 1) fun k => (hf k).cons hs'
      have e : (Y.cons hs').labs (n + 1) = l :: Y.labs n := by
        rw [RLInf.labs, List.range_succ_eq_map, List.map_cons, List.map_map]
        rfl
      rw [e] at h2
      have el : (ls ++ [l]).length + n = ls.length + (n + 1) := by simp; omega
      rw [el]
      exact ⟨X, h1, by rw [h2]; simp, h3⟩
  have e : (⟨R'.sys, fun _ => none⟩ : RNSys ι p) = R' := by
    cases R' with
    | mk sys since =>
      have : since = fun _ => none := funext hn
      rw [this]
  obtain ⟨X, h1, h2, h3⟩ := key h (quietInf s R'.sys).toR e 0 fun k =>
    HLInf.toR_served _ (quietInf_fair hs R'.sys k).1 (quietInf_fair hs R'.sys k).2 0
  exact ⟨X, h1, by simpa [RLInf.labs] using h2, by simpa using h3⟩

end Verif.Net
