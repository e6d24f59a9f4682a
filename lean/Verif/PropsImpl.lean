import Verif.ImplOp
import Verif.PropsIsolate

/-!
# C54: the meaning of requests of every length and alignment

`implStep` (`Verif/SpecImpl.lean`) is the flat-memory meaning the hardware gives
to all reads and to all writes and atomic operations that stay inside the words
they mark dirty (`CReq.Contained`).  The remaining requests have no flat-memory
meaning (`C53_harm_is_real`), but they can corrupt only the lines they address.
-/

namespace Verif
variable {p : Params}

/-- Byte `x` lies in a line that the request `q` may corrupt. -/
def HarmsC (q : CReq p) (x : Nat) : Prop :=
  ¬ q.Contained ∧
  (q.ty = MT.WRITE ∧ x / 2 ^ p.offBits = q.addr.flat / 2 ^ p.offBits ∨
   MT.isAmo q.ty = true ∧ ∃ y, q.addr.flat ≤ y ∧ y < q.addr.flat + 4 ∧
     x / 2 ^ p.offBits = y / 2 ^ p.offBits)

open Classical in
/-- The contained requests among `qs`. Proof device; not in the source. -/
noncomputable def containedOf (qs : List (CReq p)) : List (CReq p) := qs.filter (fun q => decide q.Contained)

/-- Bits of the lines that none of the requests harms. -/
def safeBitsC (qs : List (CReq p)) : Bits p :=
  fun la _ => ∀ q ∈ qs, ¬ HarmsC q (la.num * 2 ^ p.offBits)

theorem safeBitsC_lines (qs : List (CReq p)) : (safeBitsC qs).Lines := fun _ _ _ h => h

theorem HarmsC.line {q : CReq p} {x y : Nat} (h : HarmsC q x) (hxy : x / 2 ^ p.offBits = y / 2 ^ p.offBits) :
    HarmsC q y := by
  obtain ⟨h1, h2⟩ := h
  rw [hxy] at h2
  exact ⟨h1, h2⟩

theorem safeC_of_flat {qs : List (CReq p)} {a : Addr p} (h : ∀ q ∈ qs, ¬ HarmsC q a.flat) (i : Nat) :
    safeBitsC qs a.la i := fun q hq hx =>
  h q hq (hx.line (by rw [a.flat_div, Nat.mul_div_cancel _ (Nat.two_pow_pos _)]))

/-- One request of any shape. -/
theorem op_anyC (wf : p.WF) {A : L1 p} {M S : ByteMem} {q : CReq p} {qs : List (CReq p)} (hq : q ∈ qs)
    (h : Coh (safeBitsC qs) A (view M) (view S))
    (hok : A.Ok) (hc : A.cur = .idle) (hi : q.ty ≠ MT.INIT) :
    Coh (safeBitsC qs) (A.op M q).1 (view (A.op M q).2.1) (view (implRun S (containedOf [q])).1) := by
  by_cases hv : q.Contained
  · have : containedOf [q] = [q] := by simp [containedOf, hv]
    rw [this]
    exact (op_impl wf (safeBitsC_lines qs) h hok hc hv).1
  · have : containedOf [q] = [] := by simp [containedOf, hv]
    rw [this]
    simp only [implRun]
    by_cases t1 : q.ty = MT.READ
    · exact op_rw_other h hok hc (.inl t1) (by rw [t1]; simp)
    by_cases t2 : q.ty = MT.WRITE
    · refine op_rw_other h hok hc (.inr t2) (fun _ i hP => hP q hq ⟨hv, .inl ⟨t2, ?_⟩⟩)
      rw [mul_pow_div, q.addr.flat_div]
    by_cases t3 : MT.isAmo q.ty = true
    · refine op_amo_other h t3 (fun la i hP x h1 h2 h3 => hP q hq ⟨hv, .inr ⟨t3, x, h1, h2, ?_⟩⟩)
      rw [mul_pow_div, h3]
    · exfalso
      have hlt := q.ty.isLt
      simp only [MT.isAmo, Bool.and_eq_true, decide_eq_true_eq, not_and] at t3
      have e : ∀ n, q.ty.toNat = n → q.ty = BitVec.ofNat 4 n := by
        intro n hn; rw [← hn]; simp
      have h0 : q.ty.toNat ≠ 0 := fun h => t1 (e 0 h)
      have h1 : q.ty.toNat ≠ 1 := fun h => t2 (e 1 h)
      have h2 : q.ty.toNat ≠ 2 := fun h => hi (e 2 h)
      have h14 : q.ty.toNat ≠ 14 := fun h => hv (.inv (e 14 h))
      have h15 : q.ty.toNat ≠ 15 := fun h => hv (.flush (e 15 h))
      omega

theorem containedOf_cons (q : CReq p) (l : List (CReq p)) : containedOf (q :: l) = containedOf [q] ++ containedOf l := by
  simp only [containedOf]
  rw [show q :: l = [q] ++ l from rfl, List.filter_append]

theorem implRun_append (M : ByteMem) (a b : List (CReq p)) :
    implRun M (a ++ b) = ((implRun (implRun M a).1 b).1, (implRun M a).2 ++ (implRun (implRun M a).1 b).2) := by
  induction a generalizing M with
  | nil => simp [implRun]
  | cons q a ih => simp [implRun, ih]

/-- Request sequences of any shape. -/
theorem ops_anyC (wf : p.WF) {A : L1 p} {M S : ByteMem} {qs l : List (CReq p)} (hl : ∀ q ∈ l, q ∈ qs)
    (h : Coh (safeBitsC qs) A (view M) (view S))
    (hok : A.Ok) (hc : A.cur = .idle) (hi : ∀ q ∈ l, q.ty ≠ MT.INIT) :
    Coh (safeBitsC qs) (A.ops M l).1 (view (A.ops M l).2.1) (view (implRun S (containedOf l)).1) ∧
    (A.ops M l).1.cur = .idle ∧ (A.ops M l).1.Ok := by
  induction l generalizing A M S with
  | nil => exact ⟨by simpa [containedOf, implRun, L1.ops] using h, hc, hok⟩
  | cons q l ih =>
    have h1 := op_anyC wf (hl q (by simp)) h hok hc (hi q (by simp))
    rw [containedOf_cons, implRun_append]
    exact ih (fun q hq => hl q (by simp [hq])) h1 (ok_op hok M q) (op_cur _ _ _)
      (fun q hq => hi q (by simp [hq]))

/-- **C54.**  Requests of any type (except WRITE_INIT), length and alignment in
any order and timing: the answer to every contained request to a line that no
earlier request may have corrupted is the one of the flat memory `implStep`. -/
theorem C54_any_request (wf : p.WF) {S S' : Sys Unit p} {tr : List (Ev Unit p)}
    (h0 : Start S) (h : Run S tr S') {n : Nat} {q : CReq p} {r : CResp p}
    (hq : (accepted () tr)[n]? = some q) (hr : (responses () tr)[n]? = some r) (hv : q.Contained)
    (hsafe : ∀ q' ∈ (accepted () tr).take n, ¬ HarmsC q' q.addr.flat) :
    r.data = (implStep (implRun S.mem (containedOf ((accepted () tr).take n))).1 q).2 := by
  have hl := logged wf h0 h
  obtain ⟨rest, h1, _⟩ := hl.resp
  have hat := ops_resp_at (A := L1.init p) rfl S.mem hl.notInit hq
  have hlt : n < (responses () tr).length := (List.getElem?_eq_some_iff.1 hr).1
  rw [h1, List.getElem?_append_left hlt, hr] at hat
  obtain ⟨hc, hi, hok⟩ := ops_anyC wf (qs := (accepted () tr).take n) (fun _ h => h) (coh_init S.mem) init_ok rfl
    (fun q hq => hl.notInit q (List.mem_of_mem_take hq))
  obtain ⟨_, d, hd, ha⟩ := op_impl wf (safeBitsC_lines _) hc hok hi hv
  rw [hd] at hat
  simp only [List.head?_cons, Option.some.injEq] at hat
  rw [hat]
  exact ha (safeC_of_flat hsafe 0)

/-- **C54** (contained requests only).  If all accepted requests are contained
the responses are those of `implStep`, in order: C01 for every read and for
every write and atomic operation that stays inside its word or line. -/
theorem C54_contained (wf : p.WF) {S S' : Sys Unit p} {tr : List (Ev Unit p)}
    (h0 : Start S) (h : Run S tr S') (hv : ∀ q ∈ accepted () tr, q.Contained) :
    (responses () tr).map (·.data) <+: (implRun S.mem (accepted () tr)).2 := by
  have hl := logged wf h0 h
  obtain ⟨rest, h1, _⟩ := hl.resp
  have key : ∀ (l : List (CReq p)) (A : L1 p) (M T : ByteMem), Coh (Bits.all p) A (view M) (view T) → A.Ok →
      A.cur = .idle → (∀ q ∈ l, q.Contained) →
      (respMsgs (A.ops M l).2.2).map (·.data) = (implRun T l).2 := by
    intro l
    induction l with
    | nil => intros; rfl
    | cons q l ih =>
      intro A M T hC hok hc hv
      obtain ⟨g1, d, g2, g3⟩ := op_impl wf (fun _ _ _ h => h) hC hok hc (hv q (by simp))
      have := ih _ _ _ g1 (ok_op hok M q) (op_cur _ _ _) (fun q hq => hv q (by simp [hq]))
      simp only [L1.ops, respMsgs_append, List.map_append, g2, this, implRun, g3 trivial]
      simp [mkResp]
  rw [← key _ _ _ _ (coh_init S.mem) init_ok rfl hv, h1, List.map_append]
  exact List.prefix_append _ _

/-- **C54** (memory). -/
theorem C54_memory (wf : p.WF) {S S₁ S₂ : Sys Unit p} {tr ev : List (Ev Unit p)} {r : CResp p}
    (h0 : Start S) (h : Run S tr S₁) (hs : Step S₁ ev S₂) (hr : .resp () r ∈ ev)
    {n : Nat} (hn : n = (responses () tr).length) {f : CReq p}
    (hf : (accepted () (tr ++ ev))[n]? = some f) (ty : f.ty = MT.FLUSH) (x : Nat)
    (hx : x < 2 ^ p.addrBits) (hsafe : ∀ q' ∈ (accepted () (tr ++ ev)).take n, ¬ HarmsC q' x) :
    S₂.mem x = (implRun S.mem (containedOf ((accepted () (tr ++ ev)).take n))).1 x := by
  have hmem := flush_point wf h0 h hs hr hn hf
  have hl := logged wf h0 (.snoc h hs)
  obtain ⟨hc, hi, hok⟩ := ops_anyC wf (qs := (accepted () (tr ++ ev)).take n) (fun _ h => h) (coh_init S.mem) init_ok
    rfl (fun q hq => hl.notInit q (List.mem_of_mem_take hq))
  have := (op_flush hc hi ty).2
  rw [hmem] at this
  obtain ⟨_, ha⟩ := C27_pack_unpack p
  have hax : (Addr.ofFlat p x).flat = x := ha x hx
  have hP := safeC_of_flat (a := Addr.ofFlat p x) (by rw [hax]; exact hsafe)
  have hv : view S₂.mem (Addr.ofFlat p x).la = view (implRun S.mem
      (containedOf ((accepted () (tr ++ ev)).take n))).1 (Addr.ofFlat p x).la :=
    BitVec.eq_of_getLsbD_eq fun i hi => this _ i hi (hP i)
  apply BitVec.eq_of_getLsbD_eq
  intro b hb
  have ho := (Addr.ofFlat p x).off.isLt
  have hi : 8 * (Addr.ofFlat p x).off.toNat + b < p.lineBits := by rw [lineBits_eq]; omega
  have := congrArg (·.getLsbD (8 * (Addr.ofFlat p x).off.toNat + b)) hv
  simp only [getLsbD_view _ _ _ hi] at this
  rw [show (8 * (Addr.ofFlat p x).off.toNat + b) / 8 = (Addr.ofFlat p x).off.toNat by omega,
    show (8 * (Addr.ofFlat p x).off.toNat + b) % 8 = b by omega, ← flat_eq, hax] at this
  exact this

/-- **C54** (conservative).  Valid requests are contained and mean in `implStep`
what they mean in the flat memory. -/
theorem C54_valid (wf : p.WF) {q : CReq p} (hv : q.Valid) :
    q.Contained ∧ ∀ M, implStep M q = flatStep M q := ⟨Valid.contained wf hv, implStep_valid wf hv⟩

namespace Ex54
/-- A half-word write at an odd address, a word read at an odd address, the
double-word write at a word address that is not a multiple of 8 and whose second
half would lie in the next line, an unaligned read of that word, a read of
length 3, an atomic addition at an odd address, a read of the first word. -/
def reqs : List (CReq p0) :=
  [⟨MT.WRITE, 1, ⟨0, 0, 1⟩, 2, 0xbbaa⟩, ⟨MT.READ, 0, ⟨0, 0, 3⟩, 0, 0⟩, ⟨MT.WRITE, 1, ⟨0, 0, 4⟩, 3, 0x11223344⟩,
   ⟨MT.READ, 0, ⟨0, 0, 6⟩, 0, 0⟩, ⟨MT.READ, 0, ⟨0, 0, 4⟩, 3, 0⟩, ⟨3, 1, ⟨0, 0, 3⟩, 0, 1⟩,
   ⟨MT.READ, 0, ⟨0, 0, 0⟩, 0, 0⟩]
/-- Proof device; not in the source. -/
def run : Sys Unit p0 × List (Ev Unit p0) := drive 90 (start0 p0) reqs

theorem isRun : Run (start0 p0) run.2 run.1 := drive_run _ _ _

theorem acc : accepted () run.2 = reqs := by decide +kernel

theorem contained : ∀ q ∈ reqs, q.Contained := by
  intro q hq
  simp only [reqs, List.mem_cons, List.not_mem_nil, or_false] at hq
  rcases hq with rfl | rfl | rfl | rfl | rfl | rfl | rfl
  · refine .write rfl (fun x h1 h2 _ => .inl ?_)
    have h3 : (⟨0, 0, 1⟩ : Addr p0).flat = 1 := by decide
    have h4 : (⟨MT.WRITE, 1, ⟨0, 0, 1⟩, 2, 0xbbaa⟩ : CReq p0).stored = 2 := by decide
    simp only [h3, h4] at h1 h2 ⊢
    omega
  · exact .read rfl
  · refine .write rfl (fun x h1 _ h2 => .inl ?_)
    have h3 : (⟨0, 0, 4⟩ : Addr p0).flat = 4 := by decide
    have h4 : (⟨MT.WRITE, 1, ⟨0, 0, 4⟩, 3, 0x11223344⟩ : CReq p0).lineEnd = 8 := by decide
    simp only [h3, h4] at h1 h2 ⊢
    omega
  · exact .read rfl
  · exact .read rfl
  · exact .amo (by decide) (by decide) (by decide)
  · exact .read rfl

/-- The word write at address 2 is not contained. -/
theorem bad : ¬ (⟨MT.WRITE, 1, ⟨0, 0, 2⟩, 0, 0xddccbbaa⟩ : CReq p0).Contained := by
  intro h
  cases h with
  | read ty => simp at ty
  | write _ word =>
    have := word 4 (by decide) (by decide) (by decide)
    revert this; decide
  | amo ty => revert ty; decide
  | inv ty => simp at ty
  | flush ty => simp at ty

theorem harms (x : Nat) : HarmsC (⟨MT.WRITE, 1, ⟨0, 0, 2⟩, 0, 0xddccbbaa⟩ : CReq p0) x ↔ x < 8 := by
  have h2 : (⟨0, 0, 2⟩ : Addr p0).flat = 2 := by decide
  have h3 : 2 ^ p0.offBits = 8 := by decide
  simp only [HarmsC, h2, h3]
  have hn : ¬ MT.isAmo MT.WRITE = true := by decide
  constructor
  · rintro ⟨_, ⟨_, h⟩ | ⟨h, _⟩⟩
    · omega
    · exact absurd h hn
  · intro h; exact ⟨bad, .inl ⟨trivial, by omega⟩⟩
end Ex54

/-- The hypotheses of `C54_contained` are met by unaligned requests, all
answered; the half-word `0xbbaa` at address 1 is stored as `0xaabb`. -/
example : ∃ (S S' : Sys Unit p0) (tr : List (Ev Unit p0)), Start S ∧ Run S tr S' ∧
    (∀ q ∈ accepted () tr, q.Contained) ∧ accepted () tr = Ex54.reqs ∧ S.mem 0 = 1 ∧ S.mem 3 = 4 ∧
    (responses () tr).map (·.data) = [0, 0x04aabb01, 0, 0, 0, 4, 0x05aabb01] :=
  ⟨_, _, _, start0_start p0, Ex54.isRun, by rw [Ex54.acc]; exact Ex54.contained, Ex54.acc, by decide, by decide,
    by decide +kernel⟩

/-- The hypotheses of `C54_any_request` are met by the unaligned read that
follows a harmful write in the run of C53: it is aligned downwards. -/
example : ∃ (S S' : Sys Unit p0) (tr : List (Ev Unit p0)) (q : CReq p0) (r : CResp p0), Start S ∧ Run S tr S' ∧
    (accepted () tr)[1]? = some q ∧ (responses () tr)[1]? = some r ∧ q.Contained ∧ ¬ q.Valid ∧
    (∀ q' ∈ (accepted () tr).take 1, ¬ HarmsC q' q.addr.flat) ∧ (∃ q' ∈ (accepted () tr).take 1, ∃ x, HarmsC q' x) ∧
    q.addr.flat = 11 ∧ S.mem 8 = 9 ∧ r.data = 0x0c0b0a09 := by
  refine ⟨start0 p0, _, Ex53.run.2, ⟨MT.READ, 0, ⟨0, 1, 3⟩, 0, 0⟩, ⟨MT.READ, 0, 0, 0, 0x0c0b0a09⟩, start0_start p0,
    Ex53.isRun, by rw [Ex53.acc]; rfl, by decide +kernel, .read rfl, ?_, ?_, ?_, by decide, by decide, rfl⟩
  · intro h
    cases h with
    | read _ k hk al =>
      have h4 : (⟨MT.READ, 0, ⟨0, 1, 3⟩, 0, 0⟩ : CReq p0).bytes = 4 := by decide
      rw [h4] at hk
      rw [← hk] at al
      revert al; decide
    | write ty => simp at ty
    | dword ty => simp at ty
    | amo ty => revert ty; decide
    | inv ty => simp at ty
    | flush ty => simp at ty
  · rw [Ex53.acc]
    intro q' hq'
    simp only [Ex53.reqs, List.take_succ_cons, List.take_zero, List.mem_cons, List.not_mem_nil, or_false] at hq'
    subst hq'
    rw [Ex54.harms]; decide
  · rw [Ex53.acc]
    exact ⟨_, List.mem_cons_self, 0, (Ex54.harms 0).2 (by decide)⟩

/-- The hypotheses of `C54_memory` are met by the FLUSH of C53. -/
example : ∃ (S S₁ S₂ : Sys Unit p0) (tr ev : List (Ev Unit p0)) (r : CResp p0) (f : CReq p0),
    Start S ∧ Run S tr S₁ ∧ Step S₁ ev S₂ ∧ .resp () r ∈ ev ∧ 2 = (responses () tr).length ∧
    (accepted () (tr ++ ev))[2]? = some f ∧ f.ty = MT.FLUSH ∧
    (∀ q' ∈ (accepted () (tr ++ ev)).take 2, ¬ HarmsC q' 12) ∧ S₂.mem 12 = 0xab := by
  refine ⟨start0 p0, Ex53.frun.1, _, Ex53.frun.2, Ex53.fevs, ⟨MT.FLUSH, 1, 0, 0, 0⟩,
    ⟨MT.FLUSH, 1, ⟨0, 0, 0⟩, 0, 0⟩, start0_start p0, drive_run _ _ _,
    .clock _ () Ex.idleIn ⟨rfl, by simp [Ex.idleIn], by simp [Ex.idleIn]⟩, Ex53.fresp, by decide +kernel,
    by rw [Ex53.facc]; rfl, rfl, ?_, by decide +kernel⟩
  rw [Ex53.facc]
  intro q' hq'
  simp only [Ex53.freqs, List.take_succ_cons, List.take_zero, List.mem_cons, List.not_mem_nil, or_false] at hq'
  rcases hq' with rfl | rfl
  · rw [Ex54.harms]; decide
  · rintro ⟨h, _⟩
    exact h (Valid.contained p0_wf (.write rfl 0 (by decide) (by decide) (by decide)))

end Verif
