import Verif.Isolate
import Verif.PropsSingle

/-!
# C53: malformed requests are isolated

The cache accepts requests of every length and alignment.  Those outside
`CReq.Valid` are not served correctly (C33 and the refutations of
`Verif/Defects.lean`), but the damage is confined to the line or lines they
address (`Harms`): everything else continues to behave as the flat memory that
executes the valid requests only.
-/

namespace Verif
variable {p : Params}

/-- Response number `n` of the event-level machine. -/
theorem ops_resp_at {A : L1 p} (hc : A.cur = .idle) (M : ByteMem) {l : List (CReq p)} {n : Nat} {q : CReq p}
    (hi : ∀ q ∈ l, q.ty ≠ MT.INIT) (hq : l[n]? = some q) :
    (respMsgs (A.ops M l).2.2)[n]? =
      (respMsgs ((A.ops M (l.take n)).1.op (A.ops M (l.take n)).2.1 q).2.2).head? := by
  obtain ⟨hlt, hq'⟩ := List.getElem?_eq_some_iff.1 hq
  have hl : l = l.take n ++ q :: l.drop (n + 1) := by
    rw [← hq', ← List.drop_eq_getElem_cons hlt, List.take_append_drop]
  have hlen : (respMsgs (A.ops M (l.take n)).2.2).length = n := by
    obtain ⟨segs, h3, h4⟩ := ops_shape (A := A) hc M (qs := l.take n)
      (fun q hq => hi q (List.mem_of_mem_take hq))
    rw [h3, respMsgs_segs, List.length_map]
    have := congrArg List.length h4
    simp only [List.length_map, List.length_take] at this
    omega
  have hcur : ∀ (l : List (CReq p)) (A : L1 p) (M : ByteMem), A.cur = .idle → (A.ops M l).1.cur = .idle := by
    intro l
    induction l with
    | nil => intro A M h; exact h
    | cons q l ih => intro A M _; exact ih _ _ (op_cur _ _ _)
  obtain ⟨ms, hh, d, hm⟩ := op_shape (hcur (l.take n) A M hc) (A.ops M (l.take n)).2.1 (q := q)
    (hi q (List.mem_of_getElem? hq))
  conv => lhs; rw [hl]
  rw [ops_append]
  simp only [L1.ops, respMsgs_append]
  have hnil : ∀ ms : List (MReq p), respMsgs (ms.map Msg.mem) = [] := by
    intro ms
    induction ms with
    | nil => rfl
    | cons m ms ih => rw [List.map_cons, respMsgs_mem, ih]
  rw [List.getElem?_append_right (by omega), hlen, Nat.sub_self, hm, respMsgs_append, hnil]
  simp

/-- **C53.**  Requests of any type (except WRITE_INIT), length and alignment in
any order and timing: a valid request whose line no earlier malformed request
may have corrupted gets the data of the flat memory that executed the valid
requests before it and ignored the malformed ones. -/
theorem C53_malformed_requests_isolated (wf : p.WF) {S S' : Sys Unit p} {tr : List (Ev Unit p)}
    (h0 : Start S) (h : Run S tr S') {n : Nat} {q : CReq p} {r : CResp p}
    (hq : (accepted () tr)[n]? = some q) (hr : (responses () tr)[n]? = some r) (hv : q.Valid)
    (hsafe : ∀ q' ∈ (accepted () tr).take n, ¬ Harms q' q.addr.flat) :
    r.data = (flatStep (flatRun S.mem (validOf ((accepted () tr).take n))).1 q).2 := by
  have hl := logged wf h0 h
  obtain ⟨rest, h1, _⟩ := hl.resp
  have hat := ops_resp_at (A := L1.init p) rfl S.mem hl.notInit hq
  have hlt : n < (responses () tr).length := (List.getElem?_eq_some_iff.1 hr).1
  rw [h1, List.getElem?_append_left hlt, hr] at hat
  obtain ⟨hc, hi, hok⟩ := ops_any wf (qs := (accepted () tr).take n) (fun _ h => h) (coh_init S.mem) init_ok rfl
    (fun q hq => hl.notInit q (List.mem_of_mem_take hq))
  obtain ⟨_, _, d, hd, ha⟩ := op_spec wf (safeBits_words _) hc hok hi hv
  rw [hd] at hat
  simp only [List.head?_cons, Option.some.injEq] at hat
  rw [hat]
  have hP := safe_of_flat hsafe
  simp only [mkResp]
  by_cases t1 : q.ty = MT.READ
  · exact BitVec.eq_of_getLsbD_eq fun i hi => ha.1 t1 i hi (fun _ => hP _)
  · cases t2 : MT.isAmo q.ty
    · exact ha.2.2 t1 t2
    · exact ha.2.1 t2 (hP _)

/-- **C53** (memory).  When the response to a FLUSH is delivered, every byte
whose line no earlier malformed request may have corrupted has in memory the
value of the flat memory that executed the valid requests only. -/
theorem C53_memory (wf : p.WF) {S S₁ S₂ : Sys Unit p} {tr ev : List (Ev Unit p)} {r : CResp p}
    (h0 : Start S) (h : Run S tr S₁) (hs : Step S₁ ev S₂) (hr : .resp () r ∈ ev)
    {n : Nat} (hn : n = (responses () tr).length) {f : CReq p}
    (hf : (accepted () (tr ++ ev))[n]? = some f) (ty : f.ty = MT.FLUSH) (x : Nat)
    (hx : x < 2 ^ p.addrBits) (hsafe : ∀ q' ∈ (accepted () (tr ++ ev)).take n, ¬ Harms q' x) :
    S₂.mem x = (flatRun S.mem (validOf ((accepted () (tr ++ ev)).take n))).1 x := by
  have hmem := flush_point wf h0 h hs hr hn hf
  have hl := logged wf h0 (.snoc h hs)
  obtain ⟨hc, hi, hok⟩ := ops_any wf (qs := (accepted () (tr ++ ev)).take n) (fun _ h => h) (coh_init S.mem) init_ok
    rfl (fun q hq => hl.notInit q (List.mem_of_mem_take hq))
  have := (op_flush hc hi ty).2
  rw [hmem] at this
  obtain ⟨_, ha⟩ := C27_pack_unpack p
  have hax : (Addr.ofFlat p x).flat = x := ha x hx
  have hP := safe_of_flat (a := Addr.ofFlat p x) (by rw [hax]; exact hsafe)
  have hv : view S₂.mem (Addr.ofFlat p x).la = view (flatRun S.mem
      (validOf ((accepted () (tr ++ ev)).take n))).1 (Addr.ofFlat p x).la :=
    BitVec.eq_of_getLsbD_eq fun i hi => this _ i hi (hP i)
  apply BitVec.eq_of_getLsbD_eq
  intro b hb
  have ho := (Addr.ofFlat p x).off.isLt
  have hi : 8 * (Addr.ofFlat p x).off.toNat + b < p.lineBits := by rw [lineBits_eq]; omega
  have := congrArg (·.getLsbD (8 * (Addr.ofFlat p x).off.toNat + b)) hv
  simp only [getLsbD_view _ _ _ hi] at this
  rw [show (8 * (Addr.ofFlat p x).off.toNat + b) / 8 = (Addr.ofFlat p x).off.toNat by omega,
    show (8 * (Addr.ofFlat p x).off.toNat + b) % 8 = b by omega, ← flat_eq, hax] at this
  exact this

namespace Ex53
/-- An unaligned word write, an unaligned read, a store to another line and
three reads: of that line, of the corrupted line before and after it is
displaced by two others. -/
def reqs : List (CReq p0) :=
  [⟨MT.WRITE, 1, ⟨0, 0, 2⟩, 0, 0xddccbbaa⟩, ⟨MT.READ, 0, ⟨0, 1, 3⟩, 0, 0⟩, ⟨MT.WRITE, 1, ⟨0, 1, 4⟩, 1, 0xab⟩,
   ⟨MT.READ, 0, ⟨0, 1, 4⟩, 0, 0⟩, ⟨MT.READ, 0, ⟨0, 0, 4⟩, 0, 0⟩, ⟨MT.READ, 0, ⟨1, 0, 0⟩, 0, 0⟩,
   ⟨MT.READ, 0, ⟨2, 0, 0⟩, 0, 0⟩, ⟨MT.READ, 0, ⟨0, 0, 4⟩, 0, 0⟩]
/-- Proof device; not in the source. -/
def run : Sys Unit p0 × List (Ev Unit p0) := drive 90 (start0 p0) reqs

theorem isRun : Run (start0 p0) run.2 run.1 := drive_run _ _ _

theorem acc : accepted () run.2 = reqs := by decide +kernel

theorem datas : (responses () run.2).map (·.data) =
    [0, 0x0c0b0a09, 0, 0x100f0eab, 0x0807bbaa, 0x14131211, 0x24232221, 0x08070605] := by decide +kernel

/-- The unaligned write is malformed. -/
theorem bad : ¬ (⟨MT.WRITE, 1, ⟨0, 0, 2⟩, 0, 0xddccbbaa⟩ : CReq p0).Valid := by
  intro h
  cases h with
  | read ty => simp at ty
  | write _ k hk hk2 al =>
    have h4 : (⟨MT.WRITE, 1, ⟨0, 0, 2⟩, 0, 0xddccbbaa⟩ : CReq p0).bytes = 4 := by decide
    rw [h4] at hk
    rw [← hk] at al
    revert al; decide
  | dword _ len => revert len; decide
  | amo ty => revert ty; decide
  | inv ty => simp at ty
  | flush ty => simp at ty

/-- It may corrupt the bytes 0 to 7, that is line 0. -/
theorem harms (x : Nat) : Harms (⟨MT.WRITE, 1, ⟨0, 0, 2⟩, 0, 0xddccbbaa⟩ : CReq p0) x ↔ x < 8 := by
  have h2 : (⟨0, 0, 2⟩ : Addr p0).flat = 2 := by decide
  have h3 : 2 ^ p0.offBits = 8 := by decide
  simp only [Harms, h2, h3]
  have hn : ¬ MT.isAmo MT.WRITE = true := by decide
  constructor
  · rintro ⟨_, ⟨_, h⟩ | ⟨h, _⟩⟩
    · omega
    · exact absurd h hn
  · intro h; exact ⟨bad, .inl ⟨trivial, by omega⟩⟩
end Ex53

/-- The hypotheses of C53 are met after an unaligned write and an unaligned
read: request number 3 is a valid read of byte 12. -/
example : ∃ (S S' : Sys Unit p0) (tr : List (Ev Unit p0)) (q : CReq p0) (r : CResp p0), Start S ∧ Run S tr S' ∧
    (accepted () tr)[3]? = some q ∧ (responses () tr)[3]? = some r ∧ q.Valid ∧
    (∀ q' ∈ (accepted () tr).take 3, ¬ Harms q' q.addr.flat) ∧ (∃ q' ∈ (accepted () tr).take 3, ∃ x, Harms q' x) ∧
    r.data = 0x100f0eab := by
  refine ⟨_, _, Ex53.run.2, ⟨MT.READ, 0, ⟨0, 1, 4⟩, 0, 0⟩, ⟨MT.READ, 0, 1, 0, 0x100f0eab⟩, start0_start p0,
    Ex53.isRun, by rw [Ex53.acc]; rfl, by decide +kernel, .read rfl 2 (by decide) (by decide), ?_, ?_, rfl⟩
  · rw [Ex53.acc]
    intro q' hq'
    simp only [Ex53.reqs, List.take_succ_cons, List.take_zero, List.mem_cons, List.not_mem_nil, or_false] at hq'
    rcases hq' with rfl | rfl | rfl
    · rw [Ex53.harms]; decide
    · rintro ⟨_, ⟨h, _⟩ | ⟨h, _⟩⟩
      · simp at h
      · revert h; decide
    · rintro ⟨h, _⟩
      exact h (.write rfl 0 (by decide) (by decide) (by decide))
  · rw [Ex53.acc]
    exact ⟨_, List.mem_cons_self, 0, (Ex53.harms 0).2 (by decide)⟩

namespace Ex53
/-- The unaligned write, a store to another line, a FLUSH. -/
def freqs : List (CReq p0) :=
  [⟨MT.WRITE, 1, ⟨0, 0, 2⟩, 0, 0xddccbbaa⟩, ⟨MT.WRITE, 1, ⟨0, 1, 4⟩, 1, 0xab⟩, ⟨MT.FLUSH, 1, ⟨0, 0, 0⟩, 0, 0⟩]
/-- Proof device; not in the source. -/
def frun : Sys Unit p0 × List (Ev Unit p0) := drive 31 (start0 p0) freqs
/-- Proof device; not in the source. -/
def fevs : List (Ev Unit p0) := frun.1.clockEvs () Ex.idleIn
theorem facc : accepted () (frun.2 ++ fevs) = freqs := by decide +kernel
theorem fresp : .resp () ⟨MT.FLUSH, 1, 0, 0, 0⟩ ∈ fevs := by
  have hm : (⟨MT.FLUSH, 1, 0, 0, 0⟩ : CResp p0) ∈ responses () fevs := by decide +kernel
  simp only [responses, List.mem_filterMap] at hm
  obtain ⟨e, he, h2⟩ := hm
  cases e <;> simp at h2
  subst h2; exact he
end Ex53

/-- The hypotheses of `C53_memory` are met: the FLUSH is request number 2 and
byte 12 is not harmed by the unaligned write before it. -/
example : ∃ (S S₁ S₂ : Sys Unit p0) (tr ev : List (Ev Unit p0)) (r : CResp p0) (f : CReq p0),
    Start S ∧ Run S tr S₁ ∧ Step S₁ ev S₂ ∧ .resp () r ∈ ev ∧ 2 = (responses () tr).length ∧
    (accepted () (tr ++ ev))[2]? = some f ∧ f.ty = MT.FLUSH ∧
    (∀ q' ∈ (accepted () (tr ++ ev)).take 2, ¬ Harms q' 12) ∧
    (∃ q' ∈ (accepted () (tr ++ ev)).take 2, Harms q' 0) ∧ S₂.mem 12 = 0xab := by
  refine ⟨start0 p0, Ex53.frun.1, _, Ex53.frun.2, Ex53.fevs, ⟨MT.FLUSH, 1, 0, 0, 0⟩,
    ⟨MT.FLUSH, 1, ⟨0, 0, 0⟩, 0, 0⟩, start0_start p0, drive_run _ _ _,
    .clock _ () Ex.idleIn ⟨rfl, by simp [Ex.idleIn], by simp [Ex.idleIn]⟩, ?_, by decide +kernel, ?_, rfl, ?_, ?_,
    by decide +kernel⟩
  · exact Ex53.fresp
  · rw [Ex53.facc]; rfl
  · rw [Ex53.facc]
    intro q' hq'
    simp only [Ex53.freqs, List.take_succ_cons, List.take_zero, List.mem_cons, List.not_mem_nil, or_false] at hq'
    rcases hq' with rfl | rfl
    · rw [Ex53.harms]; decide
    · rintro ⟨h, _⟩
      exact h (.write rfl 0 (by decide) (by decide) (by decide))
  · rw [Ex53.facc]
    exact ⟨_, List.mem_cons_self, (Ex53.harms 0).2 (by decide)⟩

/-- **C53** (the harm is real).  After an unaligned write two reads of the same
word, with only reads of other lines in between, return different data: no
flat-memory meaning of the malformed write explains the corrupted line. -/
theorem C53_harm_is_real : ∃ (S S' : Sys Unit p0) (tr : List (Ev Unit p0)), Start S ∧ Run S tr S' ∧
    (accepted () tr)[4]? = (accepted () tr)[7]? ∧ ((accepted () tr)[4]?.map (·.ty)) = some MT.READ ∧
    (∀ q ∈ ((accepted () tr).drop 4), q.ty = MT.READ) ∧
    ((responses () tr).map (·.data))[4]? = some 0x0807bbaa ∧
    ((responses () tr).map (·.data))[7]? = some 0x08070605 := by
  refine ⟨_, _, Ex53.run.2, start0_start p0, Ex53.isRun, ?_, ?_, ?_, ?_, ?_⟩
  · rw [Ex53.acc]; rfl
  · rw [Ex53.acc]; rfl
  · rw [Ex53.acc]; decide
  · rw [Ex53.datas]; rfl
  · rw [Ex53.datas]; rfl

end Verif
