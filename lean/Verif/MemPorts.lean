import Verif.SpecMemPorts

set_option linter.unusedSectionVars false

/-!
# Ports of the test memory that share no bytes do not notice each other (C89)
-/

namespace Verif.MemPorts
variable {p : Params} {ι : Type} [DecidableEq ι]

theorem readLE_congr (M N : ByteMem) (n : Nat) : ∀ a : Nat, (∀ x, a ≤ x → x < a + n → M x = N x) →
    readLE M a n = readLE N a n := by
  induction n with
  | zero => intro a _; rfl
  | succ n ih =>
    intro a h
    simp only [readLE]
    rw [h a (Nat.le_refl _) (by omega), ih (a + 1) (fun x h1 h2 => h x (by omega) (by omega))]

theorem exec_frame (mask : Bool) (M : ByteMem) (m : MReq p) (x : Nat) (h : ¬ Changes mask m x) :
    (memExecG mask M m).1 x = M x := by
  by_cases hr : m.ty = MT.READ
  · simp [memExecG, hr, memExec, MT.READ_ne_WRITE]
  by_cases hw : m.ty = MT.WRITE
  · cases mask
    · rw [C28_plain_write M m hw x]
      rw [if_neg]
      intro hx
      exact h (by simp only [Changes, hr, hw, if_false, if_true, MT.WRITE_ne_READ, Bool.false_eq_true]; exact hx)
    · rw [C28_masked_write M m hw x, if_neg]
      intro hx
      exact h (by simp only [Changes, hr, hw, if_false, if_true, MT.WRITE_ne_READ]; exact hx)
  · simp only [memExecG, memExec, hr, hw, false_and, if_false, writeLE]
    rw [if_neg]
    intro hx
    exact h (by simp only [Changes, hr, hw, if_false]; exact hx)

theorem exec_local (mask : Bool) (M N : ByteMem) (m : MReq p) (h : ∀ x, LooksAt m x → M x = N x) :
    (memExecG mask M m).2 = (memExecG mask N m).2 ∧
    ∀ x, M x = N x → (memExecG mask M m).1 x = (memExecG mask N m).1 x := by
  by_cases hr : m.ty = MT.READ
  · have e : readLE M m.addr.flat m.bytes = readLE N m.addr.flat m.bytes :=
      readLE_congr M N _ _ (fun x h1 h2 => h x (by simp only [LooksAt, hr, if_true]; exact ⟨h1, h2⟩))
    refine ⟨?_, fun x hx => ?_⟩
    · simp [memExecG, hr, memExec, MT.READ_ne_WRITE, e]
    · simpa [memExecG, hr, memExec, MT.READ_ne_WRITE] using hx
  by_cases hw : m.ty = MT.WRITE
  · refine ⟨?_, fun x hx => ?_⟩
    · cases mask <;> simp [memExecG, hw, memExec, MT.WRITE_ne_READ]
    · cases mask
      · rw [C28_plain_write M m hw x, C28_plain_write N m hw x, hx]
      · rw [C28_masked_write M m hw x, C28_masked_write N m hw x, hx]
  · have e : readLE M m.addr.flat 4 = readLE N m.addr.flat 4 :=
      readLE_congr M N _ _ (fun x h1 h2 => h x (by simp only [LooksAt, hr, hw, if_false]; exact ⟨h1, h2⟩))
    refine ⟨?_, fun x hx => ?_⟩
    · simp only [memExecG, memExec, hr, hw, false_and, if_false, e]
    · simp only [memExecG, memExec, hr, hw, false_and, if_false, e, writeLE, hx]

theorem alone_append (mask : Bool) (a b : List (MReq p)) : ∀ M : ByteMem,
    alone mask M (a ++ b) =
      ((alone mask (alone mask M a).1 b).1, (alone mask M a).2 ++ (alone mask (alone mask M a).1 b).2) := by
  induction a with
  | nil => intro M; rfl
  | cons m a ih => intro M; simp only [List.cons_append, alone, ih]

/-- What the log of a run looks like to port `k` at the bytes `X` that only `k` changes. -/
theorem serial_alone {mask : ι → Bool} {M M' : ByteMem} {l : List (ι × MReq p × MResp p)}
    (h : SerialLog mask M l M') (k : ι) (X : Nat → Prop)
    (hown : ∀ e ∈ l, e.1 = k → ∀ x, LooksAt e.2.1 x → X x)
    (hother : ∀ e ∈ l, e.1 ≠ k → ∀ x, X x → ¬ Changes (mask e.1) e.2.1 x) :
    logResps k l = (alone (mask k) M (logReqs k l)).2 ∧
    ∀ x, X x → M' x = (alone (mask k) M (logReqs k l)).1 x := by
  induction h with
  | nil => exact ⟨rfl, fun x _ => rfl⟩
  | @snoc M' l j m h ih =>
    obtain ⟨h1, h2⟩ := ih (fun e he => hown e (by simp [he])) (fun e he => hother e (by simp [he]))
    rw [logResps_append, logReqs_append, alone_append]
    by_cases hj : j = k
    · subst hj
      have hx := exec_local (mask j) M' (alone (mask j) M (logReqs j l)).1 m (fun x hx =>
        h2 x (hown (j, m, (memExecG (mask j) M' m).2) (by simp) rfl x hx))
      have e1 : ∀ r, logReqs j [(j, m, r)] = [m] := fun r => by simp [logReqs]
      have e2 : ∀ r, logResps j [(j, m, r)] = [r] := fun r => by simp [logResps]
      rw [e1, e2]
      simp only [alone]
      exact ⟨by rw [h1, hx.1], fun x hX => hx.2 x (h2 x hX)⟩
    · have e1 : ∀ r, logReqs k [(j, m, r)] = [] := fun r => by simp [logReqs, hj]
      have e2 : ∀ r, logResps k [(j, m, r)] = [] := fun r => by simp [logResps, hj]
      rw [e1, e2]
      simp only [alone, List.append_nil]
      refine ⟨h1, fun x hX => ?_⟩
      rw [exec_frame _ _ _ _ (hother (j, m, (memExecG (mask j) M' m).2) (by simp) hj x hX)]
      exact h2 x hX

theorem mem_logReqs {l : List (ι × MReq p × MResp p)} {e : ι × MReq p × MResp p} (h : e ∈ l) :
    e.2.1 ∈ logReqs e.1 l :=
  List.mem_map.2 ⟨e, List.mem_filter.2 ⟨h, by simp⟩, rfl⟩

theorem run_alone (mask : ι → Bool) (ports : List ι) (M : ByteMem) (ops : List (MemOp ι p)) (H : MemHist ι p)
    (hH : (MemHist.start ι p M).run mask ports ops = some H) (k : ι) (X : Nat → Prop)
    (hown : ∀ m ∈ H.arrived k, ∀ x, LooksAt m x → X x)
    (hother : ∀ j, j ≠ k → ∀ w ∈ H.arrived j, ∀ x, X x → ¬ Changes (mask j) w x) :
    ∃ done, H.arrived k = done ++ H.st.reqQ k ∧
      H.delivered k ++ H.st.respQ k = (alone (mask k) M done).2 ∧
      ∀ x, X x → H.st.mem x = (alone (mask k) M done).1 x := by
  have hi : MemInv mask M H := MemInv.run ports ops ⟨fun _ => rfl, fun _ => rfl, .nil M⟩ hH
  have ha : ∀ e ∈ H.log, e.2.1 ∈ H.arrived e.1 := fun e he => by
    rw [hi.arrived]; exact List.mem_append_left _ (mem_logReqs he)
  obtain ⟨h1, h2⟩ := serial_alone hi.serial k X
    (fun e he hk x hx => hown e.2.1 (hk ▸ ha e he) x hx)
    (fun e he hk x hX => hother e.1 hk e.2.1 (ha e he) x hX)
  exact ⟨logReqs k H.log, hi.arrived k, by rw [hi.delivered, h1], h2⟩

/-- **C89 (responses).**  If no request of another port changes a byte that a request of port `k` looks at or
changes, then, for any number of ports, any interleaving, any latencies and stalls, port `k` gets exactly the
responses, in order, that its requests would get from a memory of their own with the same initial contents. -/
theorem C89_responses (mask : ι → Bool) (ports : List ι) (M : ByteMem) (ops : List (MemOp ι p)) (H : MemHist ι p)
    (hH : (MemHist.start ι p M).run mask ports ops = some H) (k : ι) (hk : Undisturbed mask H.arrived k) :
    H.delivered k <+: (alone (mask k) M (H.arrived k)).2 := by
  obtain ⟨d, h1, h2, _⟩ := run_alone mask ports M ops H hH k (fun x => ∃ m ∈ H.arrived k, LooksAt m x)
    (fun m hm x hx => ⟨m, hm, hx⟩) (fun j hj w hw x hX hc => by
      obtain ⟨m, hm, hl⟩ := hX
      exact (hk j hj w hw m hm x hc).1 hl)
  rw [h1, alone_append, ← h2, List.append_assoc]
  exact List.prefix_append ..

/-- **C89 (complete).**  When the memory has nothing left in its queues, every such port has exactly those
responses, all of them. -/
theorem C89_all_responses (mask : ι → Bool) (ports : List ι) (M : ByteMem) (ops : List (MemOp ι p))
    (H : MemHist ι p) (hH : (MemHist.start ι p M).run mask ports ops = some H) (hd : Drained H) (k : ι)
    (hk : Undisturbed mask H.arrived k) :
    H.delivered k = (alone (mask k) M (H.arrived k)).2 := by
  obtain ⟨d, h1, h2, _⟩ := run_alone mask ports M ops H hH k (fun x => ∃ m ∈ H.arrived k, LooksAt m x)
    (fun m hm x hx => ⟨m, hm, hx⟩) (fun j hj w hw x hX hc => by
      obtain ⟨m, hm, hl⟩ := hX
      exact (hk j hj w hw m hm x hc).1 hl)
  rw [(hd k).1, List.append_nil] at h1
  rw [(hd k).2, List.append_nil] at h2
  rw [h1, h2]

/-- **C89 (contents).**  At a byte that no other port changes, the contents are then what the requests of port
`k` alone would have left there. -/
theorem C89_contents (mask : ι → Bool) (ports : List ι) (M : ByteMem) (ops : List (MemOp ι p))
    (H : MemHist ι p) (hH : (MemHist.start ι p M).run mask ports ops = some H) (hd : Drained H) (k : ι)
    (hk : Undisturbed mask H.arrived k) (x : Nat)
    (hx : ∀ j, j ≠ k → ∀ w ∈ H.arrived j, ¬ Changes (mask j) w x) :
    H.st.mem x = (alone (mask k) M (H.arrived k)).1 x := by
  obtain ⟨d, h1, _, h3⟩ := run_alone mask ports M ops H hH k
    (fun y => (∃ m ∈ H.arrived k, LooksAt m y) ∨ y = x)
    (fun m hm y hy => Or.inl ⟨m, hm, hy⟩) (fun j hj w hw y hX hc => by
      rcases hX with ⟨m, hm, hl⟩ | e
      · exact (hk j hj w hw m hm y hc).1 hl
      · subst e; exact hx j hj w hw hc)
  rw [(hd k).1, List.append_nil] at h1
  rw [h1]; exact h3 x (Or.inr rfl)

/-- A byte that nobody changes keeps its initial value. -/
theorem untouched (mask : ι → Bool) {M M' : ByteMem} {l : List (ι × MReq p × MResp p)}
    (h : SerialLog mask M l M') (x : Nat) (hx : ∀ e ∈ l, ¬ Changes (mask e.1) e.2.1 x) : M' x = M x := by
  induction h with
  | nil => rfl
  | @snoc M' l j m h ih =>
    rw [exec_frame _ _ _ _ (hx (j, m, (memExecG (mask j) M' m).2) (by simp))]
    exact ih (fun e he => hx e (by simp [he]))

theorem exec_changed (mask : Bool) (M N : ByteMem) (m : MReq p) (h : ∀ x, LooksAt m x → M x = N x) (x : Nat)
    (hx : Changes mask m x) : (memExecG mask M m).1 x = (memExecG mask N m).1 x := by
  by_cases hr : m.ty = MT.READ
  · simp only [Changes, hr, if_true] at hx
  by_cases hw : m.ty = MT.WRITE
  · cases mask
    · rw [C28_plain_write M m hw x, C28_plain_write N m hw x]
      simp only [Changes, hw, MT.WRITE_ne_READ, if_false, if_true, Bool.false_eq_true] at hx
      rw [if_pos hx, if_pos hx]
    · rw [C28_masked_write M m hw x, C28_masked_write N m hw x]
      simp only [Changes, hw, MT.WRITE_ne_READ, if_false, if_true] at hx
      rw [if_pos hx, if_pos hx]
  · exact (exec_local mask M N m h).2 x (h x (by
      simp only [Changes, hr, hw, if_false] at hx; simp only [LooksAt, hr, hw, if_false]; exact hx))

theorem alone_congr (mask : Bool) (ms : List (MReq p)) : ∀ (before : List (MReq p)) (M N : ByteMem),
    (∀ x, (∃ w ∈ before, Changes mask w x) → M x = N x) →
    (∀ a m b, ms = a ++ m :: b → ∀ x, LooksAt m x → ∃ w ∈ before ++ a, Changes mask w x) →
    (alone mask M ms).2 = (alone mask N ms).2 ∧
    ∀ x, (∃ w ∈ before ++ ms, Changes mask w x) → (alone mask M ms).1 x = (alone mask N ms).1 x := by
  induction ms with
  | nil =>
    intro before M N h _
    exact ⟨rfl, fun x hx => h x (by simpa using hx)⟩
  | cons m ms ih =>
    intro before M N h hs
    have hl : ∀ x, LooksAt m x → M x = N x := fun x hx =>
      h x (by simpa using hs [] m ms rfl x hx)
    have hx := exec_local mask M N m hl
    have := ih (before ++ [m]) (memExecG mask M m).1 (memExecG mask N m).1 (fun x hx' => by
        obtain ⟨w, hw, hc⟩ := hx'
        rcases List.mem_append.1 hw with hw | hw
        · exact hx.2 x (h x ⟨w, hw, hc⟩)
        · rw [List.mem_singleton] at hw; subst hw
          exact exec_changed mask M N w hl x hc)
      (fun a m' b e x hx' => by
        simpa using hs (m :: a) m' b (by rw [e]; rfl) x hx')
    simp only [alone]
    refine ⟨by rw [hx.1, this.1], fun x hx' => this.2 x (by simpa using hx')⟩

/-- **C89 (initial contents).**  Requests that look only at bytes that earlier requests of the same port changed
get the same responses whatever the memory contained at power-up. -/
theorem C89_any_contents (mask : Bool) (reqs : List (MReq p)) (h : WritesFirst mask reqs) (M N : ByteMem) :
    (alone mask M reqs).2 = (alone mask N reqs).2 :=
  (alone_congr mask reqs [] M N (fun x hx => by obtain ⟨w, hw, _⟩ := hx; cases hw)
    (fun a m b e x hx => by simpa using h a m b e x hx)).1

/-- **C89 (regions).**  It is enough that the requests of every port stay in a region of its own. -/
theorem C89_regions (mask : ι → Bool) (reqs : ι → List (MReq p)) (region : ι → Nat → Prop)
    (hdis : ∀ j k, j ≠ k → ∀ x, region j x → ¬ region k x)
    (hin : ∀ j, ∀ m ∈ reqs j, ∀ x, LooksAt m x ∨ Changes (mask j) m x → region j x) (k : ι) :
    Undisturbed mask reqs k := by
  intro j hj w hw m hm x hc
  have h1 := hin j w hw x (Or.inr hc)
  exact ⟨fun h => hdis j k hj x h1 (hin k m hm x (Or.inl h)), fun h => hdis j k hj x h1 (hin k m hm x (Or.inr h))⟩

/-- **C89 (timing).**  If the ports share no changed bytes, the interleaving, the latencies and the stalls make no
difference: two drained runs over the same requests give every port the same responses and leave the same
contents. -/
theorem C89_timing (mask : ι → Bool) (ports₁ ports₂ : List ι) (M : ByteMem) (ops₁ ops₂ : List (MemOp ι p))
    (H₁ H₂ : MemHist ι p)
    (h₁ : (MemHist.start ι p M).run mask ports₁ ops₁ = some H₁) (d₁ : Drained H₁)
    (h₂ : (MemHist.start ι p M).run mask ports₂ ops₂ = some H₂) (d₂ : Drained H₂)
    (he : ∀ k, H₁.arrived k = H₂.arrived k) (hu : ∀ k, Undisturbed mask H₁.arrived k) :
    (∀ k, H₁.delivered k = H₂.delivered k) ∧ H₁.st.mem = H₂.st.mem := by
  have he' : H₁.arrived = H₂.arrived := funext he
  have hu₂ : ∀ k, Undisturbed mask H₂.arrived k := he' ▸ hu
  refine ⟨fun k => ?_, funext fun x => ?_⟩
  · rw [C89_all_responses mask ports₁ M ops₁ H₁ h₁ d₁ k (hu k),
      C89_all_responses mask ports₂ M ops₂ H₂ h₂ d₂ k (hu₂ k), he k]
  · by_cases hx : ∃ k, ∃ m ∈ H₁.arrived k, Changes (mask k) m x
    · obtain ⟨k, m, hm, hc⟩ := hx
      have ho : ∀ j, j ≠ k → ∀ w ∈ H₁.arrived j, ¬ Changes (mask j) w x :=
        fun j hj w hw hcw => (hu k j hj w hw m hm x hcw).2 hc
      rw [C89_contents mask ports₁ M ops₁ H₁ h₁ d₁ k (hu k) x ho,
        C89_contents mask ports₂ M ops₂ H₂ h₂ d₂ k (hu₂ k) x (he' ▸ ho), he k]
    · have hn : ∀ k, ∀ m ∈ H₁.arrived k, ¬ Changes (mask k) m x := fun k m hm hc => hx ⟨k, m, hm, hc⟩
      have i₁ : MemInv mask M H₁ := MemInv.run ports₁ ops₁ ⟨fun _ => rfl, fun _ => rfl, .nil M⟩ h₁
      have i₂ : MemInv mask M H₂ := MemInv.run ports₂ ops₂ ⟨fun _ => rfl, fun _ => rfl, .nil M⟩ h₂
      rw [untouched mask i₁.serial x (fun e hm => hn _ _ (by
          rw [i₁.arrived]; exact List.mem_append_left _ (mem_logReqs hm))),
        untouched mask i₂.serial x (fun e hm => hn _ _ (by
          rw [he, i₂.arrived]; exact List.mem_append_left _ (mem_logReqs hm)))]

end Verif.MemPorts
