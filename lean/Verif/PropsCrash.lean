import Verif.Crash
import Verif.Blocking
import Verif.Addr
import Verif.PropsSingle

/-!
# C55: the memory behind the cache never goes back in time

What a user finds in memory when the cache is stopped (power loss, reset) at an
arbitrary moment.
-/

namespace Verif
variable {p : Params}

/-- The two memories hold the same 32-bit word at `x`. Proof device; not in the source. -/
def EqWord (M M' : ByteMem) (x : Nat) : Prop := ∀ b, b < 4 → M (x + b) = M' (x + b)

/-- The word at `x` of `mem` is the one of the flat memory after the first `k`
of the requests `qs`. Proof device; not in the source. -/
def IsPast (M0 : ByteMem) (qs : List (CReq p)) (x k : Nat) (mem : ByteMem) : Prop :=
  k ≤ qs.length ∧ EqWord mem (flatRun M0 (qs.take k)).1 x

/-- Requests that make everything up to them durable at `x`: FLUSH, and an AMO
on the line of `x`. -/
def Durable (q : CReq p) (x : Nat) : Prop :=
  q.ty = MT.FLUSH ∨ (MT.isAmo q.ty = true ∧ q.addr.flat / 2 ^ p.offBits = x / 2 ^ p.offBits)

/-- Line and word number of an address. -/
theorem SameW.word {x : Nat} (hx : 4 ∣ x) (ha : x < 2 ^ p.addrBits) {M M' : ByteMem}
    (h : SameW (Addr.ofFlat p x).la (x % 2 ^ p.offBits / 4) M M') : EqWord M M' x := by
  intro b hb
  have hflat := (C27_pack_unpack p).2 x ha
  have hn : (Addr.ofFlat p x).la.num = x / 2 ^ p.offBits := by rw [← Addr.flat_div, hflat]
  have hm : x % 2 ^ p.offBits < 2 ^ p.offBits := Nat.mod_lt _ (Nat.two_pow_pos _)
  have hdm := Nat.div_add_mod x (2 ^ p.offBits)
  have h4 : 4 ∣ 2 ^ p.offBits := by rw [offBits_pow]; exact Nat.dvd_mul_right _ _
  have hx4 : 4 ∣ x % 2 ^ p.offBits := (Nat.dvd_mod_iff h4).2 hx
  generalize hy : x % 2 ^ p.offBits = y at *
  obtain ⟨c, hc⟩ := hx4
  obtain ⟨d, hd⟩ := h4
  apply BitVec.eq_of_getLsbD_eq
  intro i hi
  have hlt : 8 * (y + b) + i < p.lineBits := by rw [lineBits_eq]; omega
  have := h (8 * (y + b) + i) hlt (by omega)
  rw [getLsbD_view _ _ _ hlt, getLsbD_view _ _ _ hlt, hn] at this
  have e1 : (8 * (y + b) + i) / 8 = y + b := by omega
  have e2 : (8 * (y + b) + i) % 8 = i := by omega
  have e3 : x / 2 ^ p.offBits * 2 ^ p.offBits + (y + b) = x + b := by
    rw [Nat.mul_comm]; omega
  rwa [e1, e2, e3] at this

/-- After a durable request the word is not dirty. -/
theorem durable_clean (wf : p.WF) (M : ByteMem) {qs : List (CReq p)} (hv : ∀ q ∈ qs, q.Valid) {n x : Nat}
    {q : CReq p} (hq : qs[n]? = some q) (hd : Durable q x) (ha : x < 2 ^ p.addrBits) (wi : Nat) :
    ¬ ((L1.init p).ops M (qs.take (n + 1))).1.dirtyAt (Addr.ofFlat p x).la wi := by
  have htake : qs.take (n + 1) = qs.take n ++ [q] := by rw [List.take_add_one, hq]; rfl
  rw [htake, ops_snoc]
  obtain ⟨c1, c2, _⟩ := ops_spec wf (coh_init M) init_ok rfl
    (fun q hq => hv q (List.mem_of_mem_take (i := n) hq))
  rcases hd with hd | ⟨hd, hl⟩
  · exact flush_clean c2 hd
  · have hflat := (C27_pack_unpack p).2 x ha
    have : (Addr.ofFlat p x).la = q.addr.la := by
      apply LAddr.num_inj
      rw [← Addr.flat_div, ← Addr.flat_div, hflat, hl]
    rw [this]
    refine amo_clean (c1.uniqAt _) ?_ ?_ hd <;>
    · intro h; rw [h] at hd; simp [MT.isAmo] at hd

/-- The executed part of the log of the requests accepted at the end of a run. -/
theorem done_take {M0 : ByteMem} {T : ESys Unit p} {tr : List (Ev Unit p)} {D : List (Msg p)}
    (hD : Done M0 T tr D) (hl : LogInv M0 T tr) : D <+: ((L1.init p).ops M0 (accepted () tr)).2.2 := by
  rw [hl.ops, hD.eq]
  simp only [List.append_assoc]
  exact List.prefix_append _ _

/-- Everything a response was given for has been executed. -/
theorem done_resp {M0 : ByteMem} {T : ESys Unit p} {tr : List (Ev Unit p)} {D : List (Msg p)}
    (hD : Done M0 T tr D) (hl : LogInv M0 T tr) (hi : ∀ q ∈ accepted () tr, q.ty ≠ MT.INIT) {n : Nat}
    (hn : n ≤ (responses () tr).length) : logN M0 (accepted () tr) n <+: D := by
  obtain ⟨rest, hr⟩ := done_take hD hl
  have h1 : (respMsgs D).length = (responses () tr).length := by
    rw [← respMsgs_emitted, hD.eq, respMsgs_append, respMsgs_map_mem, List.append_nil]
  rw [segs_flatten] at hr
  obtain ⟨_, e', he⟩ := seg_prefix (segs_isSeg rfl M0 hi) hr.symm (n := n) (by omega)
  rw [he, segs_take, ← segs_flatten]
  exact List.prefix_append _ _

/-- **C55.**  At every moment every aligned word of memory is the word of the flat
memory after some prefix of the accepted requests.  The prefix only grows with
time, and it contains every answered FLUSH and every answered AMO on the line. -/
theorem C55_memory_never_goes_back (wf : p.WF) {S S₁ S₂ : Sys Unit p} {tr₁ tr₂ : List (Ev Unit p)} (h0 : Start S)
    (h₁ : Run S tr₁ S₁) (h₂ : Run S₁ tr₂ S₂) (hv : ∀ q ∈ accepted () (tr₁ ++ tr₂), q.Valid) {x : Nat}
    (hx : 4 ∣ x) (ha : x < 2 ^ p.addrBits) :
    ∃ k₁ k₂, k₁ ≤ k₂ ∧
      IsPast S.mem (accepted () tr₁) x k₁ S₁.mem ∧
      IsPast S.mem (accepted () (tr₁ ++ tr₂)) x k₂ S₂.mem ∧
      (∀ n q, n < (responses () tr₁).length → (accepted () tr₁)[n]? = some q → Durable q x → n < k₁) ∧
      (∀ n q, n < (responses () (tr₁ ++ tr₂)).length → (accepted () (tr₁ ++ tr₂))[n]? = some q →
        Durable q x → n < k₂) := by
  obtain ⟨T₁, e₁, r₁⟩ := refine wf h0 h₁
  obtain ⟨T₂, e₂, r₂⟩ := refine_from wf r₁ h₂
  have d0 : Done S.mem (ESys.init Unit p S.mem) [] [] := ⟨rfl, rfl⟩
  obtain ⟨D₁, _, d₁⟩ := d0.run e₁
  rw [List.nil_append] at d₁
  obtain ⟨D₂, p₁₂, d₂⟩ := d₁.run e₂
  have l₁ := LogInv.run e₁
  have e₁₂ := e₁.trans e₂
  have l₂ := LogInv.run e₁₂
  have i₁ := acc_ne_init e₁ ()
  have i₂ := acc_ne_init e₁₂ ()
  have t₁ := done_take d₁ l₁
  have t₂ := done_take d₂ l₂
  have a₁ := accepted_canon () tr₁
  have a₂ : accepted () (tr₁.map Ev.canon ++ tr₂.map Ev.canon) = accepted () (tr₁ ++ tr₂) := by
    rw [← List.map_append, accepted_canon]
  have b₁ := responses_canon () tr₁
  have b₂ : responses () (tr₁.map Ev.canon ++ tr₂.map Ev.canon) = responses () (tr₁ ++ tr₂) := by
    rw [← List.map_append, responses_canon]
  have R₁ := fun n => done_resp (n := n) d₁ l₁ i₁
  have R₂ := fun n => done_resp (n := n) d₂ l₂ i₂
  rw [a₁, b₁] at R₁
  rw [a₂, b₂] at R₂
  rw [a₁] at t₁ i₁
  rw [a₂] at t₂ i₂
  have happ := accepted_append () tr₁ tr₂
  generalize hqs : accepted () (tr₁ ++ tr₂) = qs at *
  have hq1 : accepted () tr₁ = qs.take (accepted () tr₁).length := by rw [happ, List.take_left]
  have hn1 : (accepted () tr₁).length ≤ qs.length := by rw [happ]; simp
  generalize (accepted () tr₁).length = n1 at hq1 hn1
  rw [hq1] at t₁ R₁ ⊢
  obtain ⟨f, hf⟩ := stamps wf S.mem hv (Addr.ofFlat p x).la (x % 2 ^ p.offBits / 4) qs.length (Nat.le_refl _)
  have hfull : logN S.mem qs qs.length = ((L1.init p).ops S.mem qs).2.2 := by simp [logN]
  rw [← hfull] at t₂
  have hD1 : D₁ = (logN S.mem qs qs.length).take D₁.length := List.prefix_iff_eq_take.1 (p₁₂.trans t₂)
  have hD2 : D₂ = (logN S.mem qs qs.length).take D₂.length := List.prefix_iff_eq_take.1 t₂
  have s1 := (hf.same D₁.length (p₁₂.trans t₂).length_le).word hx ha
  have s2 := (hf.same D₂.length t₂.length_le).word hx ha
  rw [← hD1, ← d₁.mem, r₁.mem] at s1
  rw [← hD2, ← d₂.mem, r₂.mem] at s2
  have u1 : f D₁.length ≤ n1 := Nat.le_trans (hf.mono _ _ t₁.length_le) (hf.upper n1 hn1)
  have u2 : f D₂.length ≤ qs.length := Nat.le_trans (hf.mono _ _ t₂.length_le) (hf.upper _ (Nat.le_refl _))
  refine ⟨f D₁.length, f D₂.length, hf.mono _ _ p₁₂.length_le, ⟨?_, ?_⟩, ⟨u2, s2⟩, ?_, ?_⟩
  · rw [List.length_take]; omega
  · rw [List.take_take, Nat.min_eq_left u1]; exact s1
  · intro n q hn hq hd
    have hnq : n < n1 ∧ qs[n]? = some q := by
      rw [List.getElem?_take] at hq
      split at hq
      · exact ⟨by assumption, hq⟩
      · cases hq
    have h1 := R₁ (n + 1) hn
    rw [logN, List.take_take, Nat.min_eq_left (by omega)] at h1
    have h2 := hf.lower n (by omega) (durable_clean wf S.mem hv hnq.2 hd ha _)
    exact Nat.lt_of_lt_of_le h2 (hf.mono _ _ h1.length_le)
  · intro n q hn hq hd
    have hnq : n < qs.length := by
      obtain ⟨h, _⟩ := List.getElem?_eq_some_iff.1 hq; exact h
    have h2 := hf.lower n hnq (durable_clean wf S.mem hv hq hd ha _)
    exact Nat.lt_of_lt_of_le h2 (hf.mono _ _ (R₂ (n + 1) hn).length_le)

/-- **C55** (restart).  The cache is stopped at any moment and started again by a
reset on the memory it left behind.  A word read first thing afterwards is one
the program had at that address after some prefix of its requests, no older than
the last answered FLUSH (or AMO on the line). -/
theorem C55_restart (wf : p.WF) {S S₁ R R' : Sys Unit p} {tr tr' : List (Ev Unit p)} (h0 : Start S)
    (h : Run S tr S₁) (hv : ∀ q ∈ accepted () tr, q.Valid) (hR : Start R) (hm : R.mem = S₁.mem)
    (h' : Run R tr' R') {q : CReq p} (hq : accepted () tr' = [q]) (ty : q.ty = MT.READ) (hb : q.bytes = 4)
    (hal : 4 ∣ q.addr.flat) {r : CResp p} (hr : responses () tr' = [r]) :
    ∃ k, k ≤ (accepted () tr).length ∧
      r.data = BitVec.ofNat _ (readLE (flatRun S.mem ((accepted () tr).take k)).1 q.addr.flat 4) ∧
      ∀ n f, n < (responses () tr).length → (accepted () tr)[n]? = some f → Durable f q.addr.flat → n < k := by
  obtain ⟨k, _, _, ⟨h1, h2⟩, _, h3, _⟩ := C55_memory_never_goes_back wf h0 h (.refl _) (by simpa using hv) hal
    q.addr.flat_lt
  refine ⟨k, h1, ?_, h3⟩
  have hc := C01_responses_equal_flat_memory wf hR h' (by
    rw [hq]; intro q' hq'
    simp only [List.mem_singleton] at hq'
    subst hq'
    exact .read ty 2 (by rw [hb]) (by exact hal))
  rw [hr, hq] at hc
  simp only [List.map_cons, List.map_nil, flatRun, flatStep, ty, if_true, hb] at hc
  obtain ⟨t, ht⟩ := hc
  simp only [List.cons_append, List.nil_append, List.cons.injEq] at ht
  rw [ht.1, hm]
  congr 1
  have e0 := h2 0 (by omega)
  have e1 := h2 1 (by omega)
  have e2 := h2 2 (by omega)
  have e3 := h2 3 (by omega)
  simp only [readLE, Nat.add_zero] at e0 e1 e2 e3 ⊢
  simp only [Nat.add_assoc] at *
  rw [e0, e1, e2, e3]

/-! ## Concrete runs -/

namespace Ex55
/-- Store to line A, store to line B, read A, read a third line of the set (which
evicts B), FLUSH. -/
def reqs : List (CReq p0) :=
  [⟨MT.WRITE, 0, ⟨0, 0, 0⟩, 0, 0x11111111⟩, ⟨MT.WRITE, 0, ⟨1, 0, 4⟩, 0, 0x22222222⟩, ⟨MT.READ, 0, ⟨0, 0, 0⟩, 0, 0⟩,
    ⟨MT.READ, 0, ⟨2, 0, 0⟩, 0, 0⟩, ⟨MT.FLUSH, 0, ⟨0, 0, 0⟩, 0, 0⟩]

theorem valid : ∀ q ∈ reqs, q.Valid := by
  intro q hq
  simp only [reqs, List.mem_cons, List.not_mem_nil, or_false] at hq
  rcases hq with rfl | rfl | rfl | rfl | rfl
  · exact .write rfl 2 (by decide) (by decide) (by decide)
  · exact .write rfl 2 (by decide) (by decide) (by decide)
  · exact .read rfl 2 (by decide) (by decide)
  · exact .read rfl 2 (by decide) (by decide)
  · exact .flush rfl

/-- 40 cycles without the FLUSH, then 30 cycles with it. Proof device; not in the source. -/
def mid : Sys Unit p0 × List (Ev Unit p0) := drive 40 (start0 p0) (reqs.take 4)
/-- Proof device; not in the source. -/
def fin : Sys Unit p0 × List (Ev Unit p0) := drive 30 mid.1 (reqs.drop 4)

theorem midRun : Run (start0 p0) mid.2 mid.1 := drive_run _ _ _
theorem finRun : Run mid.1 fin.2 fin.1 := drive_run _ _ _

theorem midAcc : accepted () mid.2 = reqs.take 4 := by decide +kernel
theorem finAcc : accepted () (mid.2 ++ fin.2) = reqs := by decide +kernel
theorem midResp : (responses () mid.2).length = 4 := by decide +kernel
theorem finResp : (responses () (mid.2 ++ fin.2)).length = 5 := by decide +kernel

/-- All four requests are answered, yet memory has the later store (word 20) and
not the earlier one (word 0): each word is a past value, but not all of them from
the same moment. -/
theorem late : readLE mid.1.mem 20 4 = 0x22222222 ∧ readLE mid.1.mem 0 4 = readLE (start0 p0).mem 0 4 ∧
    readLE (start0 p0).mem 0 4 ≠ 0x11111111 := by decide +kernel

/-- After the FLUSH memory has both. -/
theorem published : readLE fin.1.mem 20 4 = 0x22222222 ∧ readLE fin.1.mem 0 4 = 0x11111111 := by decide +kernel

/-- The words of the flat memory at 0 after 0 and after 1 requests differ, so the
prefix of word 0 before the FLUSH can only be the empty one. -/
theorem forced {k : Nat} (h : IsPast (start0 p0).mem (reqs.take 4) 0 k mid.1.mem) : k = 0 := by
  obtain ⟨h1, h2⟩ := h
  have h1 : k ≤ 4 := h1
  have : k = 0 ∨ k = 1 ∨ k = 2 ∨ k = 3 ∨ k = 4 := by omega
  have e := h2 0 (by omega)
  rcases this with rfl | rfl | rfl | rfl | rfl
  · rfl
  all_goals (exfalso; revert e; decide +kernel)
end Ex55

/-- The hypotheses of C55 are met, with a FLUSH answered in the second part. -/
example : ∃ (S S₁ S₂ : Sys Unit p0) (tr₁ tr₂ : List (Ev Unit p0)), p0.WF ∧ Start S ∧ Run S tr₁ S₁ ∧ Run S₁ tr₂ S₂ ∧
    (∀ q ∈ accepted () (tr₁ ++ tr₂), q.Valid) ∧ (accepted () tr₁).length = 4 ∧
    4 < (responses () (tr₁ ++ tr₂)).length ∧
    ∃ q, (accepted () (tr₁ ++ tr₂))[4]? = some q ∧ Durable q 0 :=
  ⟨_, _, _, _, _, p0_wf, start0_start p0, Ex55.midRun, Ex55.finRun, by rw [Ex55.finAcc]; exact Ex55.valid,
    by rw [Ex55.midAcc]; rfl, by rw [Ex55.finResp]; decide, _, by rw [Ex55.finAcc]; rfl, .inl rfl⟩

namespace Ex55
/-- Power loss after the fourth answer: the same memory, another cache state and
reset. Proof device; not in the source. -/
def withMem (M : ByteMem) : Sys Unit p0 := { start0 p0 with mem := M }
theorem withMem_mem (M : ByteMem) : (withMem M).mem = M := rfl
theorem withMem_start (M : ByteMem) : Start (withMem M) := ⟨(start0_start p0).reset, fun _ => rfl, fun _ => rfl⟩
/-- Proof device; not in the source. -/
def again : Sys Unit p0 := withMem mid.1.mem
theorem again_mem : again.mem = mid.1.mem := withMem_mem _
theorem again_start : Start again := withMem_start _
/-- Proof device; not in the source. -/
def q0 : CReq p0 := ⟨MT.READ, 0, ⟨1, 0, 4⟩, 0, 0⟩
end Ex55

/-- The hypotheses of the restart theorem are met; the word of the evicted line
is found again. -/
example : ∃ (R R' : Sys Unit p0) (tr' : List (Ev Unit p0)) (r : CResp p0), Start R ∧ R.mem = Ex55.mid.1.mem ∧
    Run R tr' R' ∧ accepted () tr' = [Ex55.q0] ∧ Ex55.q0.ty = MT.READ ∧ Ex55.q0.bytes = 4 ∧ 4 ∣ Ex55.q0.addr.flat ∧
    responses () tr' = [r] ∧ r.data = 0x22222222 :=
  ⟨Ex55.again, (drive 20 Ex55.again [Ex55.q0]).1, (drive 20 Ex55.again [Ex55.q0]).2, ⟨MT.READ, 0, 0, 0, 0x22222222⟩,
    Ex55.again_start, Ex55.again_mem, drive_run _ _ _, by decide +kernel, rfl, by decide, by decide, by decide +kernel, rfl⟩

end Verif
