import Verif.ResetWave
import Verif.ExHetWave

/-!
# C86: every life of a cache is served in time
-/

set_option linter.unusedSectionVars false

namespace Verif.Net
variable {ι : Type} [DecidableEq ι] {p : ι → Params}

theorem wcvisible_append (a b : List (RWEv ι p)) : wcvisible (a ++ b) = wcvisible a ++ wcvisible b := by
  simp [wcvisible]

theorem revsOf_append (a b : List (RLab ι p)) : revsOf (a ++ b) = revsOf a ++ revsOf b := by simp [revsOf]

theorem revsOf_one (l : RLab ι p) : revsOf [l] = l.evs := by simp [revsOf]

/-! ## What one step shows -/

theorem cyc_lives (G : ι → Nat) (k' : ι) (c : Cyc (p k')) : WM.cLives G (wcvisible (wevsAt k' (cycEvs c))) = G := by
  cases h1 : c.inp.cachereqEn <;> cases h2 : c.out.memreqEn <;> cases h3 : c.out.cacherespEn <;>
    simp [cycEvs, h1, h2, h3, wcvisible, wevsAt, WEv.local, WM.cLives, WM.LEv.at]

theorem cyc_accepted (G : ι → Nat) (k : ι) (m : Nat) (c : Cyc (p k)) :
    WM.accepted (k, m) (WM.cByLife G (wcvisible (wevsAt k (cycEvs c)))) =
      if m = G k ∧ c.inp.cachereqEn = true then [c.inp.cachereqMsg.req] else [] := by
  by_cases hm : m = G k
  · subst hm
    cases h1 : c.inp.cachereqEn <;> cases h2 : c.out.memreqEn <;> cases h3 : c.out.cacherespEn <;>
      simp [cycEvs, h1, h2, h3, wcvisible, wevsAt, WEv.local, WM.cByLife, WM.Ev.rename, WM.accepted, WM.LEv.at]
  · have hm' : ¬ G k = m := fun h => hm h.symm
    cases h1 : c.inp.cachereqEn <;> cases h2 : c.out.memreqEn <;> cases h3 : c.out.cacherespEn <;>
      simp [cycEvs, h1, h2, h3, wcvisible, wevsAt, WEv.local, WM.cByLife, WM.Ev.rename, WM.accepted, WM.LEv.at, hm, hm']

theorem cyc_responses (G : ι → Nat) (k : ι) (m : Nat) (c : Cyc (p k)) :
    WM.responses (k, m) (WM.cByLife G (wcvisible (wevsAt k (cycEvs c)))) =
      if m = G k ∧ c.out.cacherespEn = true then [c.out.cacherespMsg.resp] else [] := by
  by_cases hm : m = G k
  · subst hm
    cases h1 : c.inp.cachereqEn <;> cases h2 : c.out.memreqEn <;> cases h3 : c.out.cacherespEn <;>
      simp [cycEvs, h1, h2, h3, wcvisible, wevsAt, WEv.local, WM.cByLife, WM.Ev.rename, WM.responses, WM.LEv.at]
  · have hm' : ¬ G k = m := fun h => hm h.symm
    cases h1 : c.inp.cachereqEn <;> cases h2 : c.out.memreqEn <;> cases h3 : c.out.cacherespEn <;>
      simp [cycEvs, h1, h2, h3, wcvisible, wevsAt, WEv.local, WM.cByLife, WM.Ev.rename, WM.responses, WM.LEv.at, hm, hm']

theorem other_seen (G : ι → Nat) {k : ι} {l : RLab ι p} (hk : l.who ≠ k) (m : Nat) :
    WM.accepted (k, m) (WM.cByLife G (wcvisible l.evs)) = [] ∧ WM.responses (k, m) (WM.cByLife G (wcvisible l.evs)) = [] ∧
      WM.cLives G (wcvisible l.evs) k = G k := by
  have key : ∀ (k' : ι), k' ≠ k → ∀ c : Cyc (p k'),
      WM.accepted (k, m) (WM.cByLife G (wcvisible (wevsAt k' (cycEvs c)))) = [] ∧
      WM.responses (k, m) (WM.cByLife G (wcvisible (wevsAt k' (cycEvs c)))) = [] := by
    intro k' hk' c
    cases h1 : c.inp.cachereqEn <;> cases h2 : c.out.memreqEn <;> cases h3 : c.out.cacherespEn <;>
      simp [cycEvs, h1, h2, h3, wcvisible, wevsAt, WEv.local, WM.cByLife, WM.Ev.rename, WM.accepted, WM.responses,
        WM.LEv.at, hk']
  cases l with
  | clock k' c => exact ⟨(key k' hk c).1, (key k' hk c).2, by rw [RLab.evs, cyc_lives]⟩
  | quiet k' c => exact ⟨(key k' hk c).1, (key k' hk c).2, by rw [RLab.evs, cyc_lives]⟩
  | reset k' c => exact ⟨(key k' hk _).1, (key k' hk _).2, by rw [RLab.evs, cyc_lives]⟩
  | exec k' m r => exact ⟨rfl, rfl, rfl⟩
  | again k' =>
    have hk' : ¬ k = k' := fun h => hk h.symm
    refine ⟨rfl, rfl, ?_⟩
    simp [RLab.evs, wcvisible, WM.cLives, hk']

/-- The requests and responses of the present life are those of its waveform; later lives have none. -/
theorem life_seen (wf : ∀ k, (p k).WF) {R R' : RNSys ι p} {ls : List (RLab ι p)} (h0 : RNStart R) (h : RLRun R ls R') (k : ι) :
    (R'.since k = none →
      WM.accepted (k, resets k ls) (wrvisible (revsOf ls)) =
        ((life k ls).filter (·.inp.cachereqEn)).map (·.inp.cachereqMsg.req) ∧
      WM.responses (k, resets k ls) (wrvisible (revsOf ls)) =
        ((life k ls).filter (·.out.cacherespEn)).map (·.out.cacherespMsg.resp)) ∧
    ∀ m, resets k ls < m → WM.accepted (k, m) (wrvisible (revsOf ls)) = [] ∧
      WM.responses (k, m) (wrvisible (revsOf ls)) = [] := by
  induction h with
  | refl => exact ⟨fun _ => ⟨rfl, rfl⟩, fun _ _ => ⟨rfl, rfl⟩⟩
  | @snoc R' R'' ls l hr hs ih =>
    have e1 : wrvisible (revsOf (ls ++ [l])) = wrvisible (revsOf ls) ++
        WM.cByLife (WM.cLives (fun _ => 0) (wcvisible (revsOf ls))) (wcvisible l.evs) := by
      rw [wrvisible, revsOf_append, revsOf_one, wcvisible_append, WM.cByLife_append]; rfl
    have e2 : resets k (ls ++ [l]) = WM.cLives (WM.cLives (fun _ => 0) (wcvisible (revsOf ls))) (wcvisible l.evs) k := by
      rw [resets, revsOf_append, revsOf_one, wcvisible_append, WM.cLives_append]
    have hG : WM.cLives (fun _ => 0) (wcvisible (revsOf ls)) k = resets k ls := rfl
    have hi := hr.lifeInv wf h0 k
    generalize WM.cLives (fun _ => 0) (wcvisible (revsOf ls)) = G at e1 e2 hG
    rw [e1, e2, life_snoc]
    simp only [WM.accepted_append, WM.responses_append]
    obtain ⟨i1, i2⟩ := ih
    by_cases hk : k = l.who
    · cases hs with
      | clock k' hn i L hL hc =>
        obtain rfl : k = k' := hk
        simp only [RLab.evs, cyc_lives, cyc_accepted, cyc_responses, lifeStep, dif_pos, hG]
        refine ⟨fun _ => ?_, fun m hm => ?_⟩
        · obtain ⟨a, b⟩ := i1 hn
          rw [a, b, List.filter_append, List.filter_append, List.map_append, List.map_append]
          constructor
          · congr 1
            cases h : (R'.cyc k i L).inp.cachereqEn <;> simp [h]
          · congr 1
            cases h : (R'.cyc k i L).out.cacherespEn <;> simp [h]
        · have hne : ¬ m = resets k ls := by omega
          simp [(i2 m hm).1, (i2 m hm).2, hne]
      | reset k' i hr' L hL hm =>
        obtain rfl : k = k' := hk
        simp only [RLab.evs, cyc_lives, cyc_accepted, cyc_responses, hG]
        refine ⟨fun h => by simp [RNSys.tick, RNSys.put] at h, fun m hm => ?_⟩
        have hne : ¬ m = resets k ls := by omega
        simp [(i2 m hm).1, (i2 m hm).2, hne]
      | quiet k' j hn hj i L hL hc =>
        obtain rfl : k = k' := hk
        simp only [RLab.evs, cyc_lives, cyc_accepted, cyc_responses, hG]
        refine ⟨fun h => by simp [RNSys.tick, RNSys.put] at h, fun m hm => ?_⟩
        have hne : ¬ m = resets k ls := by omega
        simp [(i2 m hm).1, (i2 m hm).2, hne]
      | exec k' m ms hm =>
        obtain rfl : k = k' := hk
        have ez : wcvisible (RLab.exec k m (memExecW R'.sys.mem m).2 : RLab ι p).evs = [] := rfl
        simp only [ez, WM.cByLife, WM.cLives, lifeStep, hG]
        have z1 : ∀ x : ι × Nat, WM.accepted x [] = [] := fun _ => rfl
        have z2 : ∀ x : ι × Nat, WM.responses x [] = [] := fun _ => rfl
        simp only [z1, z2, List.append_nil]
        exact ⟨fun h => i1 (by simpa [RNSys.put] using h), i2⟩
      | again k' j hn hq hp =>
        obtain rfl : k = k' := hk
        have ez : wcvisible (RLab.again k : RLab ι p).evs = [.crash k] := rfl
        simp only [ez, WM.cByLife, WM.cLives, lifeStep, if_true, hG]
        have z1 : ∀ x : ι × Nat, WM.accepted x [] = [] := fun _ => rfl
        have z2 : ∀ x : ι × Nat, WM.responses x [] = [] := fun _ => rfl
        simp only [z1, z2, List.append_nil]
        refine ⟨fun _ => ?_, fun m hm => i2 m (by omega)⟩
        obtain ⟨a, b⟩ := i2 (resets k ls + 1) (by omega)
        obtain ⟨c, d⟩ := hi.silent j hn
        rw [a, b]
        rw [requestsW, List.countP_eq_length_filter, List.length_eq_zero_iff] at c
        rw [responsesW, List.countP_eq_length_filter, List.length_eq_zero_iff] at d
        rw [c, d]; exact ⟨rfl, rfl⟩
    · obtain ⟨a, b, c⟩ := other_seen G (Ne.symm hk) (resets k ls)
      obtain ⟨_, g⟩ := hs.other hk
      rw [g, c, hG, lifeStep_other (Ne.symm hk), a, b, List.append_nil, List.append_nil]
      refine ⟨i1, fun m hm => ?_⟩
      obtain ⟨a, b, _⟩ := other_seen G (Ne.symm hk) m
      rw [a, b, List.append_nil, List.append_nil]
      exact i2 m hm

/-! ## Without another reset -/

theorem RLRun.trans {R R' R'' : RNSys ι p} {a b : List (RLab ι p)} (h : RLRun R a R') (h' : RLRun R' b R'') :
    RLRun R (a ++ b) R'' := by
  induction h' with
  | refl => simpa using h
  | snoc _ hs ih => rw [← List.append_assoc]; exact .snoc ih hs

theorem RLRun.last {R R'' : RNSys ι p} {a : List (RLab ι p)} {l : RLab ι p} (h : RLRun R (a ++ [l]) R'') :
    ∃ R', RLRun R a R' ∧ RLStep R' l R'' := by
  generalize hc : a ++ [l] = c at h
  cases h with
  | refl => simp at hc
  | snoc h hs =>
    have := List.append_inj' hc rfl
    obtain ⟨rfl, h2⟩ := this
    cases h2
    exact ⟨_, h, hs⟩

theorem RLRun.split {R R'' : RNSys ι p} {a : List (RLab ι p)} (b : List (RLab ι p)) (h : RLRun R (a ++ b) R'') :
    ∃ R', RLRun R a R' ∧ RLRun R' b R'' := by
  generalize hc : a ++ b = c at h
  induction h generalizing b with
  | refl =>
    have := List.append_eq_nil_iff.1 hc
    rw [this.1, this.2]; exact ⟨_, .refl _, .refl _⟩
  | @snoc R1 R2 ls l h hs ih =>
    rcases List.eq_nil_or_concat b with rfl | ⟨b', x, rfl⟩
    · rw [List.append_nil] at hc
      subst hc
      exact ⟨_, .snoc h hs, .refl _⟩
    · rw [List.concat_eq_append, ← List.append_assoc] at hc
      obtain ⟨e1, e2⟩ := List.append_inj' hc rfl
      cases e2
      obtain ⟨R', h1, h2⟩ := ih b' e1
      exact ⟨R', h1, by rw [List.concat_eq_append]; exact .snoc h2 hs⟩

theorem rwave_append (k : ι) (a b : List (RLab ι p)) : rwave k (a ++ b) = rwave k a ++ rwave k b := by
  simp [rwave]

theorem rwave_same (k : ι) (ls : List (RLab ι p)) (c : Cyc (p k)) : rwave k (ls ++ [.clock k c]) = rwave k ls ++ [c] := by
  simp [rwave, RLab.at]

/-- While cache `k` is not reset again its life goes on. -/
theorem RLRun.goesOn {R' R'' : RNSys ι p} {ls ls' : List (RLab ι p)} {k : ι} (hn : R'.since k = none) (h : RLRun R' ls' R'')
    (hr : ∀ l ∈ ls', l.spares k) : R''.since k = none ∧ life k (ls ++ ls') = life k ls ++ rwave k ls' ∧
      resets k (ls ++ ls') = resets k ls := by
  induction h with
  | refl => exact ⟨hn, by simp [rwave], by simp⟩
  | @snoc R1 R2 ls' l _ hs ih =>
    obtain ⟨i1, i2, i3⟩ := ih fun l hl => hr l (List.mem_append_left _ hl)
    have hl := hr l (by simp)
    rw [← List.append_assoc, life_snoc, i2, rwave_append]
    have e2 : resets k (ls ++ ls' ++ [l]) = WM.cLives (WM.cLives (fun _ => 0) (wcvisible (revsOf (ls ++ ls')))) (wcvisible l.evs) k := by
      rw [resets, revsOf_append, revsOf_one, wcvisible_append, WM.cLives_append]
    have hG : WM.cLives (fun _ => 0) (wcvisible (revsOf (ls ++ ls'))) k = resets k (ls ++ ls') := rfl
    generalize WM.cLives (fun _ => 0) (wcvisible (revsOf (ls ++ ls'))) = G at e2 hG
    rw [e2]
    by_cases hk : k = l.who
    · cases hs with
      | clock k' hn i L hL hc =>
        obtain rfl : k = k' := hk
        refine ⟨by simp [RNSys.tick, RNSys.put], by simp [lifeStep, rwave, RLab.at], ?_⟩
        rw [RLab.evs, cyc_lives, hG, i3]
      | reset k' i hr' L hL hm => obtain rfl : k = k' := hk; exact absurd rfl hl
      | quiet k' j hn hj i L hL hc => obtain rfl : k = k' := hk; rw [i1] at hn; cases hn
      | exec k' m ms hm =>
        obtain rfl : k = k' := hk
        exact ⟨by simpa [RNSys.put] using i1, by simp [lifeStep, rwave, RLab.at], hG.trans i3⟩
      | again k' j hn hq hp => obtain rfl : k = k' := hk; rw [i1] at hn; cases hn
    · obtain ⟨_, g⟩ := hs.other hk
      have hat : rwave k [l] = [] := by
        cases l with
        | clock k' c =>
          have : ¬ k' = k := fun h => hk h.symm
          simp [rwave, RLab.at, this]
        | _ => rfl
      rw [g, lifeStep_other (Ne.symm hk), hat, List.append_nil]
      exact ⟨i1, rfl, ((other_seen G (Ne.symm hk) 0).2.2).trans (hG.trans i3)⟩

/-! ## Theorems -/

/-- The labelled executions are the executions of C85. -/
theorem C86_same_system {R R' : RNSys ι p} {tr : List (RWEv ι p)} :
    RNRun R tr R' ↔ ∃ ls, RLRun R ls R' ∧ revsOf ls = tr :=
  ⟨fun h => h.label, fun ⟨_, h, e⟩ => e ▸ h.toRun⟩

/-- **C86, ports.**  Whatever happens to the other caches, and however often this one has been reset at whatever moments:
since its last reset, the ports of each cache show the waveform of a freshly reset cache (up to the message on the
request port in cycles without a request) in which the environment obeys the rules of the ports, if the responses to
requests from before the reset are left out. -/
theorem C86_ports (wf : ∀ k, (p k).WF) {R R' : RNSys ι p} {ls : List (RLab ι p)} (h0 : RNStart R) (h : RLRun R ls R') (k : ι) :
    Fair [] (life k ls) ∧ ∃ r r' l, AfterReset r ∧ Waves r l r' ∧ l.map Cyc.norm = (life k ls).map Cyc.norm := by
  have hi := h.lifeInv wf h0 k
  obtain ⟨r0, r, l, _, _, h1, h2, h3, _⟩ := hi.wave
  exact ⟨hi.fair, r0, r, l, h1, h2, h3⟩

/-- **C86, what the programmer sees.**  The requests and responses of the present life are those of this waveform. -/
theorem C86_seen (wf : ∀ k, (p k).WF) {R R' : RNSys ι p} {ls : List (RLab ι p)} (h0 : RNStart R) (h : RLRun R ls R') {k : ι}
    (hn : R'.since k = none) :
    WM.accepted (k, resets k ls) (wrvisible (revsOf ls)) =
      ((life k ls).filter (·.inp.cachereqEn)).map (·.inp.cachereqMsg.req) ∧
    WM.responses (k, resets k ls) (wrvisible (revsOf ls)) =
      ((life k ls).filter (·.out.cacherespEn)).map (·.out.cacherespMsg.resp) :=
  (life_seen wf h0 h k).1 hn

theorem seen_lengths (wf : ∀ k, (p k).WF) {R R' : RNSys ι p} {ls : List (RLab ι p)} (h0 : RNStart R) (h : RLRun R ls R') {k : ι}
    (hn : R'.since k = none) :
    (WM.accepted (k, resets k ls) (wrvisible (revsOf ls))).length = requestsW (life k ls) ∧
    (WM.responses (k, resets k ls) (wrvisible (revsOf ls))).length = responsesW (life k ls) := by
  obtain ⟨a, b⟩ := C86_seen wf h0 h hn
  rw [a, b, List.length_map, List.length_map, requestsW, responsesW, List.countP_eq_length_filter,
    List.countP_eq_length_filter]
  exact ⟨rfl, rfl⟩

/-- **C86, order.**  After a reset a cache answers the requests made since then, in order, once each, with their type,
opaque and length, and no request from before: also if such a request was on its way to memory at the reset and memory
has answered it since.  No validity of the requests of any cache is assumed. -/
theorem C86_responses_in_order (wf : ∀ k, (p k).WF) {R R' : RNSys ι p} {ls : List (RLab ι p)} (h0 : RNStart R)
    (h : RLRun R ls R') {k : ι} (hn : R'.since k = none) :
    (WM.responses (k, resets k ls) (wrvisible (revsOf ls))).map (fun r => (r.ty, r.opq, r.len)) <+:
      (WM.accepted (k, resets k ls) (wrvisible (revsOf ls))).map (fun q => (q.ty, q.opq, q.len)) := by
  obtain ⟨hf, r, r', l, g1, g2, g3⟩ := C86_ports wf h0 h k
  have hf' : Fair [] l := by rw [← norm_fair, g3, norm_fair]; exact hf
  obtain ⟨T, hT⟩ := C76_responses_in_order (wf k) g1 g2 hf'
  rw [← norm_requestTags, ← norm_responseTags, g3, norm_requestTags, norm_responseTags] at hT
  have := congrArg (List.map fun x : MType × Opq (p k) × BitVec (p k).lenBits => (x.1, x.2.1.toNat, x.2.2.toNat)) hT
  refine ⟨T.map fun x => (x.1, x.2.1.toNat, x.2.2.toNat), ?_⟩
  obtain ⟨a, b⟩ := C86_seen wf h0 h hn
  rw [a, b]
  rw [List.map_append] at this
  simp only [requestTags, responseTags, List.map_map] at this ⊢
  exact this.symm

/-- Two lists that look the same are split at the same place. -/
theorem norm_split {q : Params} {l a b : List (Cyc q)} (h : l.map Cyc.norm = (a ++ b).map Cyc.norm) :
    ∃ a' b', l = a' ++ b' ∧ a'.map Cyc.norm = a.map Cyc.norm ∧ b'.map Cyc.norm = b.map Cyc.norm := by
  rw [List.map_append, List.map_eq_append_iff] at h
  exact h

/-- **C86, response time.**  A request accepted by cache `k`, in whichever life, is answered within the worst-case number of
its own clock cycles of C76 unless the cache is reset again, if its output ports are ready and memory lets it wait at most
`D` cycles in a row. -/
theorem C86_response_time (wf : ∀ k, (p k).WF) (D : Nat) {R R' : RNSys ι p} {k : ι} {c : Cyc (p k)}
    {ls ls' : List (RLab ι p)} (h0 : RNStart R) (h : RLRun R (ls ++ .clock k c :: ls') R')
    (hr : ∀ l ∈ ls', l.spares k) (he : c.inp.cachereqEn = true)
    (hq : PromptW D 0 (owesW' [] (life k (ls ++ [.clock k c]))) (rwave k ls'))
    (hb : respBound (p k) D c.inp.cachereqMsg.ty ≤ (rwave k ls').length) :
    (WM.accepted (k, resets k ls) (wrvisible (revsOf ls))).length + 1 ≤
      (WM.responses (k, resets k ls) (wrvisible (revsOf (ls ++ .clock k c :: ls')))).length := by
  have es : ls ++ .clock k c :: ls' = (ls ++ [.clock k c]) ++ ls' := by simp
  have h' := h
  rw [es] at h'
  obtain ⟨R2, h1, h2⟩ := h'.split
  obtain ⟨R1, h3, h4⟩ := h1.last
  have hn1 : R1.since k = none := by cases h4; assumption
  have hn2 : R2.since k = none := by cases h4; simp [RNSys.tick, RNSys.put]
  have h4' : RLRun R1 [.clock k c] R2 := by simpa using RLRun.snoc (.refl R1) h4
  obtain ⟨hn3, e3, e4⟩ := h2.goesOn (ls := ls ++ [.clock k c]) hn2 hr
  obtain ⟨_, e5, e6⟩ := h4'.goesOn (ls := ls) hn1 (by simp [RLab.spares])
  have e7 : rwave k [RLab.clock k c] = [c] := by simp [rwave, RLab.at]
  rw [e7] at e5
  rw [← es, e6] at e4
  have a := (seen_lengths wf h0 h3 hn1).1
  have b := (seen_lengths wf h0 h hn3).2
  rw [e4] at b
  rw [a, b, es, e3, e5]
  obtain ⟨hf, r, r', l, g1, g2, g3⟩ := C86_ports wf h0 h k
  rw [es, e3, e5, List.append_assoc, List.singleton_append] at hf g3
  obtain ⟨l1, l2, rfl, n1, n2⟩ := norm_split g3
  cases l2 with
  | nil => simp at n2
  | cons c' l2 =>
    rw [List.map_cons, List.map_cons, List.cons.injEq] at n2
    obtain ⟨nc, n2⟩ := n2
    have hcc : c' = c := by
      have : c'.inp.cachereqEn = true := by rw [← norm_en, nc, norm_en]; exact he
      rw [norm_req this, norm_req he] at nc
      exact nc
    subst hcc
    have hf' : Fair [] (l1 ++ c' :: l2) := by rw [← norm_fair, g3, norm_fair]; exact hf
    have := C76_response_time (wf k) D g1 g2 hf' he (by
        rw [← norm_prompt, n2, norm_prompt]
        rw [← norm_owes', List.map_append, n1, ← List.map_append, norm_owes', ← e5]
        exact hq)
      (by
        have := congrArg List.length n2
        rw [List.length_map, List.length_map] at this
        rw [this]; exact hb)
    rw [← norm_requests, n1, norm_requests, ← norm_responses, g3, norm_responses] at this
    rw [List.append_assoc, List.singleton_append]
    exact this

/-- **C86, every request is answered.**  If cache `k` is not reset in `ls'` and memory helps it `3 + 5 * nLines` times, all
requests of its present life are answered. -/
theorem C86_every_request_answered (wf : ∀ k, (p k).WF) {R R1 R' : RNSys ι p} {k : ι} {ls ls' : List (RLab ι p)}
    (h0 : RNStart R) (h1 : RLRun R ls R1) (hn : R1.since k = none) (h2 : RLRun R1 ls' R') (hr : ∀ l ∈ ls', l.spares k)
    (hh : 3 + 5 * (p k).nLines ≤ helpedW (owesW' [] (life k ls)) (rwave k ls')) :
    (WM.accepted (k, resets k ls) (wrvisible (revsOf ls))).length ≤
      (WM.responses (k, resets k ls) (wrvisible (revsOf (ls ++ ls')))).length := by
  have h := h1.trans h2
  obtain ⟨hn2, e1, e2⟩ := h2.goesOn (ls := ls) hn hr
  have a := (seen_lengths wf h0 h1 hn).1
  have b := (seen_lengths wf h0 h hn2).2
  rw [e2] at b
  rw [a, b, e1]
  obtain ⟨hf, r, r', l, g1, g2, g3⟩ := C86_ports wf h0 h k
  rw [e1] at hf g3
  obtain ⟨l1, l2, rfl, n1, n2⟩ := norm_split g3
  have hf' : Fair [] (l1 ++ l2) := by rw [← norm_fair, g3, norm_fair]; exact hf
  have := C76_every_request_answered (wf k) g1 g2 hf' (by
    rw [← norm_helped, n2, norm_helped, ← norm_owes', n1, norm_owes']; exact hh)
  rwa [← norm_requests, n1, norm_requests, ← norm_responses, g3, norm_responses] at this

/-- **C86, ready after a reset.**  When cache `k` has not been offered a request since the last reset and there were
`3 + 5 * nLines` cycles in which its output ports were ready, it accepts a request in every further such cycle. -/
theorem C86_ready_after_reset (wf : ∀ k, (p k).WF) {R R' : RNSys ι p} {k : ι} {ls : List (RLab ι p)} {c : Cyc (p k)}
    (h0 : RNStart R) (h : RLRun R (ls ++ [.clock k c]) R') (hn : ∀ d ∈ life k ls, d.inp.cachereqEn = false)
    (hh : 3 + 5 * (p k).nLines ≤ helpedW [] (life k ls)) (hc : c.inp.cacherespRdy = true ∧ c.inp.memreqRdy = true) :
    c.out.cachereqRdy = true := by
  have el : life k (ls ++ [.clock k c]) = life k ls ++ [c] := by rw [life_snoc]; simp [lifeStep]
  obtain ⟨hf, r, r', l, g1, g2, g3⟩ := C86_ports wf h0 h k
  rw [el] at hf g3
  obtain ⟨l1, l2, rfl, n1, n2⟩ := norm_split g3
  cases l2 with
  | nil => simp at n2
  | cons c' l2 =>
    rw [List.map_cons, List.map_cons, List.cons.injEq] at n2
    obtain ⟨nc, n2⟩ := n2
    have : l2 = [] := by simpa using n2
    subst this
    have hf' : Fair [] (l1 ++ [c']) := by rw [← norm_fair, g3, norm_fair]; exact hf
    have hf1 : Fair [] ([] ++ l1) := by
      obtain ⟨R1, h1, _⟩ := h.last
      rw [List.nil_append, ← norm_fair, n1, norm_fair]
      exact (C86_ports wf h0 h1 k).1
    have := (C76_ready_again (wf k) (l := []) (l' := l1) (c := c') g1 g2 hf1 ?_ ?_ ?_).2.2
    · rw [← norm_out, nc, norm_out] at this; exact this
    · intro d hd
      have : d.norm ∈ (life k ls).map Cyc.norm := by rw [← n1]; exact List.mem_map_of_mem hd
      obtain ⟨d', h1, h2⟩ := List.mem_map.1 this
      rw [← norm_en, ← h2, norm_en]; exact hn d' h1
    · rw [← norm_helped, n1, norm_helped]; exact hh
    · rw [← norm_rdy, ← norm_mrdy, nc, norm_rdy, norm_mrdy]; exact hc

end Verif.Net
