import Verif.PropsInit
import Verif.PropsSeq

/-!
# C57: warming up an empty cache with WRITE_INIT

The use the tests of the repository make of WRITE_INIT: right after reset.
-/

namespace Verif
variable {p : Params}

/-! ## Memories that differ in some lines -/

/-- The memories agree on the lines outside `I`. -/
def OffLines (I : LAddr p → Prop) (M M' : ByteMem) : Prop := ∀ la, ¬ I la → view M la = view M' la

/-- A memory request of the cache that reads no line of `I`. -/
inductive Avoids (I : LAddr p → Prop) : MReq p → Prop
  | wr (a : LAddr p) (mask : Dty p) (d : Line p) : Avoids I (.wr a mask d)
  | rd (a : LAddr p) (h : ¬ I a) : Avoids I (.rd a)
  | amo (q : CReq p) (ty : 3 ≤ q.ty.toNat ∧ q.ty.toNat ≤ 11) (fit : q.addr.off.toNat + 4 ≤ 2 ^ p.offBits)
      (h : ¬ I q.addr.la) : Avoids I (.amo q)

theorem OffLines.exec {I : LAddr p → Prop} {M M' : ByteMem} (h : OffLines I M M') {m : MReq p} (hm : Avoids I m) :
    (memExec M m).2 = (memExec M' m).2 ∧ OffLines I (memExec M m).1 (memExec M' m).1 := by
  cases hm with
  | wr a mask d =>
    refine ⟨?_, ?_⟩
    · simp [memExec, MReq.wr]
    · intro la hla
      rw [exec_wr_view, exec_wr_view, h la hla]
  | rd a ha =>
    rw [exec_rd, exec_rd, h a ha]
    exact ⟨rfl, h⟩
  | amo q ty fit ha =>
    obtain ⟨t1, t2, _, _, _⟩ := amo_ty ty
    have e : readLE M q.addr.flat 4 = readLE M' q.addr.flat 4 := by
      apply Nat.eq_of_testBit_eq
      intro i
      rw [flat_eq, read_view _ _ _ _ _ fit, read_view _ _ _ _ _ fit, h _ ha]
    simp only [memExec, MReq.amo, t1, t2, if_false, e]
    refine ⟨trivial, ?_⟩
    intro la hla
    rw [view_putBytes _ _ _ _ fit, view_putBytes _ _ _ _ fit]
    simp only [putView]
    split
    · rename_i hx; subst hx; rw [h _ ha]
    · exact h la hla

theorem OffLines.run {I : LAddr p → Prop} {M M' : ByteMem} (h : OffLines I M M') {ms : List (MReq p)}
    (hm : ∀ m ∈ ms, Avoids I m) :
    (memRun M ms).2 = (memRun M' ms).2 ∧ OffLines I (memRun M ms).1 (memRun M' ms).1 := by
  induction ms generalizing M M' with
  | nil => exact ⟨rfl, h⟩
  | cons m ms ih =>
    obtain ⟨h1, h2⟩ := h.exec (hm m (by simp))
    obtain ⟨h3, h4⟩ := ih h2 (fun m hm' => hm m (by simp [hm']))
    exact ⟨by simp only [memRun, h1, h3], h4⟩

/-- The shapes of the memory requests of a valid request. -/
theorem accept_avoids {I : LAddr p → Prop} {A : L1 p} {q : CReq p} (hv : q.Valid)
    (h : ∀ m ∈ memMsgs (A.accept q).2, m.ty ≠ MT.WRITE → ∀ la, I la → m.addr.flat / 2 ^ p.offBits ≠ la.num) :
    ∀ m ∈ memMsgs (A.accept q).2, Avoids I m := by
  have hrd : .rd q.addr.la ∈ memMsgs (A.accept q).2 → Avoids I (.rd q.addr.la) := by
    intro hm
    refine .rd _ fun hi => h _ hm (by simp [MReq.rd]) _ hi ?_
    rw [show (MReq.rd q.addr.la).addr.flat = q.addr.la.num * 2 ^ p.offBits from flat_off0 _, mul_pow_div]
  have hwb : ∀ w j, Avoids I (.wr ⟨(A.ent w j).tag, j⟩ (A.ent w j).dty (A.dat w j)) := fun w j => .wr _ _ _
  intro m hm
  have hm0 := hm
  simp only [L1.accept] at hm
  split at hm
  · simp only [L1.rw] at hm
    split at hm
    · split at hm <;> simp at hm
    split at hm
    · simp only [memMsgs_mem, memMsgs_nil, List.mem_singleton] at hm
      subst hm; exact hrd hm0
    · simp only [memMsgs_append, List.mem_append, memMsgs_mem, memMsgs_nil, List.mem_singleton] at hm
      rcases hm with hm | hm
      · split at hm
        · simp only [L1.wb, memMsgs_mem, memMsgs_nil, List.mem_singleton] at hm
          subst hm; exact hwb _ _
        · simp at hm
      · subst hm; exact hrd hm0
  rename_i hrw
  split at hm
  · rename_i ha
    simp only [L1.amo, memMsgs_append, List.mem_append, memMsgs_mem, memMsgs_nil, List.mem_singleton] at hm
    rcases hm with hm | hm
    · split at hm
      · simp only [L1.wb, memMsgs_mem, memMsgs_nil, List.mem_singleton] at hm
        subst hm; exact hwb _ _
      · simp at hm
    · subst hm
      have hx : (3 ≤ q.ty.toNat ∧ q.ty.toNat ≤ 11) ∧ 4 ∣ q.addr.flat := by
        cases hv with
        | read ty => exact absurd (.inl ty) hrw
        | write ty => exact absurd (.inr ty) hrw
        | dword ty => exact absurd (.inr ty) hrw
        | amo ty _ al => exact ⟨ty, al⟩
        | inv ty => rw [ty] at ha; simp [MT.isAmo] at ha
        | flush ty => rw [ty] at ha; simp [MT.isAmo] at ha
      have h2 : 2 ≤ p.offBits := by simp only [Params.offBits]; omega
      refine .amo q hx.1 (fits_line (k := 2) h2 (dvd_off (q := q) (k := 2) h2 hx.2)) fun hi => ?_
      refine h _ hm0 (fun ht => hrw (.inr ht)) _ hi ?_
      show q.addr.flat / 2 ^ p.offBits = _
      rw [q.addr.flat_div]
  split at hm
  · simp at hm
  split at hm
  · simp only [memMsgs_append, memMsgs_resp, memMsgs_nil, List.append_nil] at hm
    have : ∀ n, m ∈ memMsgs (A.flushMsgs n) → Avoids I m := by
      intro n
      induction n with
      | zero => intro h; simp [L1.flushMsgs] at h
      | succ n ih =>
        intro h
        simp only [L1.flushMsgs, memMsgs_append, List.mem_append] at h
        rcases h with h | h
        · split at h
          · simp only [L1.wb, memMsgs_mem, memMsgs_nil, List.mem_singleton] at h
            subst h; exact hwb _ _
          · simp at h
        · exact ih h
    exact this _ hm
  · simp at hm

/-- Runs on two memories that differ in lines that are not read are the same. -/
theorem OffLines.ops {I : LAddr p → Prop} {A : L1 p} {M M' : ByteMem} (h : OffLines I M M') {qs : List (CReq p)}
    (hv : ∀ q ∈ qs, q.Valid)
    (hm : ∀ m ∈ memMsgs (A.ops M qs).2.2, m.ty ≠ MT.WRITE → ∀ la, I la → m.addr.flat / 2 ^ p.offBits ≠ la.num) :
    (A.ops M qs).1 = (A.ops M' qs).1 ∧ (A.ops M qs).2.2 = (A.ops M' qs).2.2 := by
  induction qs generalizing A M M' with
  | nil => exact ⟨rfl, rfl⟩
  | cons q qs ih =>
    simp only [L1.ops, L1.op, memMsgs_append, List.mem_append] at hm
    have h1 := h.run (accept_avoids (hv q (by simp)) fun m hm' => hm m (.inl (.inl hm')))
    have e : (A.op M q).1 = (A.op M' q).1 ∧ (A.op M q).2.2 = (A.op M' q).2.2 := by
      simp only [L1.op, h1.1]; exact ⟨trivial, trivial⟩
    obtain ⟨h2, h3⟩ := ih (A := (A.op M q).1) (M := (A.op M q).2.1) (M' := (A.op M' q).2.1) h1.2
      (fun q hq => hv q (by simp [hq])) (fun m hm' => hm m (.inr hm'))
    simp only [L1.ops]
    rw [h2, h3, e.1, e.2]
    exact ⟨rfl, rfl⟩

/-! ## The state after the warm-up -/

/-- The request as a plain write. Proof device; not in the source. -/
def CReq.asWrite (q : CReq p) : CReq p := { q with ty := MT.WRITE }

/-- The memory with the lines of the requests `qs` set to zero. -/
def zeroLines (M : ByteMem) (qs : List (CReq p)) : ByteMem :=
  fun x => if qs.any (fun q => q.addr.flat / 2 ^ p.offBits == x / 2 ^ p.offBits) then 0 else M x

/-- The memory a warmed-up cache shows: each line addressed by a WRITE_INIT starts as
zero and then receives the data of the WRITE_INITs. -/
def warmMem (M : ByteMem) (qs : List (CReq p)) : ByteMem :=
  (flatRun (zeroLines M qs) (qs.map CReq.asWrite)).1

theorem view_zero {M : ByteMem} {qs : List (CReq p)} {q : CReq p} (h : q ∈ qs) :
    view (zeroLines M qs) q.addr.la = 0 := by
  apply BitVec.eq_of_getLsbD_eq
  intro i hi
  rw [getLsbD_view _ _ _ hi]
  have hb : i / 8 < 2 ^ p.offBits := by rw [lineBits_eq] at hi; omega
  have e : (q.addr.la.num * 2 ^ p.offBits + i / 8) / 2 ^ p.offBits = q.addr.la.num := by
    rw [Nat.add_comm, Nat.add_mul_div_right _ _ (Nat.two_pow_pos _), Nat.div_eq_of_lt hb, Nat.zero_add]
  have : (qs.any fun q' => q'.addr.flat / 2 ^ p.offBits ==
      (q.addr.la.num * 2 ^ p.offBits + i / 8) / 2 ^ p.offBits) = true := by
    rw [List.any_eq_true]
    exact ⟨q, h, by rw [e, q.addr.flat_div]; simp⟩
  simp [zeroLines, this]

theorem view_zero_other {M : ByteMem} {qs : List (CReq p)} {la : LAddr p} (h : ∀ q ∈ qs, q.addr.la ≠ la) :
    view (zeroLines M qs) la = view M la := by
  apply BitVec.eq_of_getLsbD_eq
  intro i hi
  rw [getLsbD_view _ _ _ hi, getLsbD_view _ _ _ hi]
  have hb : i / 8 < 2 ^ p.offBits := by rw [lineBits_eq] at hi; omega
  have e : (la.num * 2 ^ p.offBits + i / 8) / 2 ^ p.offBits = la.num := by
    rw [Nat.add_comm, Nat.add_mul_div_right _ _ (Nat.two_pow_pos _), Nat.div_eq_of_lt hb, Nat.zero_add]
  have : (qs.any fun q' => q'.addr.flat / 2 ^ p.offBits ==
      (la.num * 2 ^ p.offBits + i / 8) / 2 ^ p.offBits) = false := by
    rw [List.any_eq_false]
    intro q hq hx
    rw [e, q.addr.flat_div, beq_iff_eq] at hx
    exact h q hq (LAddr.num_inj hx)
  simp [zeroLines, this]

/-- The cache after the WRITE_INITs `done`, part of `all`; `M` is the memory of the specification. -/
structure Warm (all : List (CReq p)) (A : L1 p) (M : ByteMem) : Prop where
  ent : ∀ w j, A.ent w j = Entry.zero p ∨
    w = false ∧ ∃ q ∈ all, q.addr.idx = j ∧ A.ent w j = ⟨true, 0, q.addr.tag⟩
  dat : ∀ q ∈ all, A.dat false q.addr.idx = view M q.addr.la
  rep : ∀ j, A.rep j ∈ p.ways
  cur : A.cur = .idle

theorem Warm.init (M : ByteMem) (qs : List (CReq p)) : Warm qs (L1.init p) (zeroLines M qs) :=
  ⟨fun _ _ => .inl rfl, fun q hq => by rw [view_zero hq]; rfl, init_ok.rep, rfl⟩

/-- No two requests address different lines of the same set. -/
def NoConflict (qs : List (CReq p)) : Prop :=
  ∀ q ∈ qs, ∀ q' ∈ qs, q.addr.idx = q'.addr.idx → q.addr.tag = q'.addr.tag

theorem Warm.step (wf : p.WF) {all : List (CReq p)} (hn : NoConflict all) {A : L1 p} {M : ByteMem}
    (h : Warm all A M) {q : CReq p} (hq : q ∈ all) (hv : q.asWrite.Valid) :
    Warm all (A.initOp q false 0).1 (flatStep M q.asWrite).1 := by
  obtain ⟨n, hst, hfl⟩ := valid_write wf hv rfl M
  have hl : ∀ l, writeLine q l = putBytes l q.addr.off.toNat n q.data.toNat := hst.line
  have hvw : view (flatStep M q.asWrite).1 = putView (view M) q.addr.la q.addr.off.toNat n q.data.toNat := by
    rw [hfl]; exact view_putBytes M q.asWrite n _ hst.fits
  refine ⟨?_, ?_, ?_, h.cur⟩
  · intro w j
    simp only [L1.initOp]
    by_cases hx : w = false ∧ j = q.addr.idx
    · obtain ⟨rfl, rfl⟩ := hx
      rw [setAt_same]
      exact .inr ⟨rfl, q, hq, rfl, rfl⟩
    · rw [setAt_ne _ _ hx]
      exact h.ent w j
  · intro q' hq'
    simp only [L1.initOp]
    rw [hvw]
    by_cases hx : q'.addr.idx = q.addr.idx
    · have ht := hn q' hq' q hq hx
      have hla : q'.addr.la = q.addr.la := by simp only [Addr.la, hx, ht]
      rw [hx, setAt_same, hla]
      simp only [putView, if_true]
      rw [hl, h.dat q hq]
    · have hla : q'.addr.la ≠ q.addr.la := fun e => hx (congrArg LAddr.idx e)
      rw [setAt_ne _ _ (fun e => hx e.2)]
      simp only [putView, hla, if_false]
      exact h.dat q' hq'
  · intro j
    simp only [L1.initOp, setRep]
    split
    · exact replPolicy_mem _ _ _ _ (h.rep _)
    · exact h.rep j

theorem Warm.ops (wf : p.WF) {all : List (CReq p)} (hn : NoConflict all) {A : L1 p} {M M0 : ByteMem}
    (h : Warm all A M) {l : List (HReq p)}
    (hl : ∀ x ∈ l, x.q ∈ all ∧ x.q.ty = MT.INIT ∧ x.q.asWrite.Valid ∧ x.w = false ∧ x.d = 0) :
    Warm all (A.opsI M0 l).1 (flatRun M (l.map (·.q.asWrite))).1 ∧ (A.opsI M0 l).2.1 = M0 ∧
      (A.opsI M0 l).2.2 = l.map (fun x => .resp (mkResp x.q false 0)) := by
  induction l generalizing A M with
  | nil => exact ⟨h, rfl, rfl⟩
  | cons x l ih =>
    obtain ⟨h1, h2, h3, h4, h5⟩ := hl x (by simp)
    have h6 := h.step wf hn h1 h3
    obtain ⟨i1, i2, i3⟩ := ih h6 (fun y hy => hl y (by simp [hy]))
    have e : A.opI M0 x = ((A.initOp x.q false 0).1, M0, [.resp (mkResp x.q false 0)]) := by
      rw [L1.opI, if_pos h2, h4, h5]; rfl
    simp only [L1.opsI, e]
    exact ⟨i1, i2, by rw [i3]; rfl⟩

/-- The warmed-up cache is coherent with the memory of the specification. -/
theorem Warm.coh {all : List (CReq p)} {A : L1 p} {M : ByteMem} (h : Warm all A M) :
    Coh (Bits.all p) A (view M) (view M) ∧ A.Ok := by
  have hp : ∀ w j, (A.ent w j).Present → w = false := by
    intro w j hp
    rcases h.ent w j with e | ⟨e, _⟩
    · rw [e] at hp; rcases hp with hp | hp <;> simp [Entry.zero] at hp
    · exact e
  refine ⟨⟨?_, fun _ _ _ _ _ => rfl, ?_⟩, ⟨h.rep, by rw [h.cur]; trivial, ?_, by rw [h.cur]; trivial⟩⟩
  · intro w _ j i _ _ hd
    rcases h.ent w j with e | ⟨rfl, q, hq, rfl, e⟩
    · rw [e] at hd; simp [Entry.zero] at hd
    · rw [e, h.dat q hq]; rfl
  · intro w _ w' _ j h1 h2 _
    rw [hp w j h1, hp w' j h2]
  · intro w _ w' _ j h1 h2 _
    rw [hp w j h1, hp w' j h2]

theorem warm_off (wf : p.WF) {M : ByteMem} {qs : List (CReq p)} (hv : ∀ q ∈ qs, q.asWrite.Valid) :
    OffLines (fun la => ∃ q ∈ qs, q.addr.la = la) M (warmMem M qs) := by
  intro la hla
  have h0 : view (zeroLines M qs) la = view M la := view_zero_other fun q hq e => hla ⟨q, hq, e⟩
  have : ∀ (l : List (CReq p)) (N : ByteMem), (∀ q ∈ l, q ∈ qs) →
      view (flatRun N (l.map CReq.asWrite)).1 la = view N la := by
    intro l
    induction l with
    | nil => intro N _; rfl
    | cons q l ih =>
      intro N hN
      simp only [List.map_cons, flatRun]
      rw [ih _ (fun q hq => hN q (by simp [hq]))]
      have hq := hN q (by simp)
      obtain ⟨n, hst, hfl⟩ := valid_write wf (hv q hq) rfl N
      rw [hfl]
      show view (writeLE N q.asWrite.addr.flat n _) la = _
      rw [view_putBytes N q.asWrite n _ hst.fits]
      simp only [putView]
      rw [if_neg (fun e => hla ⟨q, hq, e.symm⟩)]
  rw [warmMem, this qs _ (fun _ h => h), h0]

/-! ## The property -/

theorem segsI_length (A : L1 p) (M : ByteMem) (xs : List (HReq p)) : (A.segsI M xs).length = xs.length := by
  induction xs generalizing A M with
  | nil => rfl
  | cons x xs ih => simp [L1.segsI, ih]

/-- The delivered responses are those of the first requests, whose messages were all sent. -/
theorem LoggedI.done {S S' : Sys Unit p} {tr : List (Ev Unit p)} {hs : List (HReq p)} (h : LoggedI S S' tr hs) :
    respMsgs ((L1.init p).opsI S.mem (hs.take (responses () tr).length)).2.2 = responses () tr ∧
    ∀ m ∈ memMsgs ((L1.init p).opsI S.mem (hs.take (responses () tr).length)).2.2,
      m ∈ (sent () tr).map MReq.canon := by
  obtain ⟨rest, h1, _⟩ := h.log
  have hr : respMsgs (emitted () (tr.map Ev.canon)) = responses () tr := by
    rw [respMsgs_emitted, responses_canon]
  rw [segsI_flatten] at h1
  obtain ⟨h2, e', h3⟩ := seg_prefix (segsI_isSeg rfl S.mem hs) h1 (n := (responses () tr).length) (by rw [hr]; exact Nat.le_refl _)
  rw [segsI_length] at h2
  rw [segsI_take, ← segsI_flatten] at h3
  refine ⟨?_, ?_⟩
  · rw [h3, respMsgs_append] at hr
    obtain ⟨R, h4, h5, _⟩ := opsI_resp (A := L1.init p) rfl S.mem (hs.take (responses () tr).length)
    have h6 : (respMsgs ((L1.init p).opsI S.mem (hs.take (responses () tr).length)).2.2).length =
        (responses () tr).length := by
      have := congrArg List.length h5
      simp only [List.length_map, List.length_take] at this
      rw [h4]; omega
    have := congrArg (List.take (responses () tr).length) hr
    rwa [List.take_left' h6, List.take_length] at this
  · intro m hm
    rw [← sent_canon, ← memMsgs_emitted, h3, memMsgs_append]
    exact List.mem_append_left _ hm

theorem canon_ty (m : MReq p) : m.canon.ty = m.ty := by
  simp only [MReq.canon]; split <;> (try split) <;> rfl

theorem resp_zero (l : List (HReq p)) :
    (respMsgs (l.map (fun x => Msg.resp (mkResp x.q false 0)))).map (·.data) = l.map (fun _ => (0 : Data p)) := by
  induction l with
  | nil => rfl
  | cons x l ih => simp only [List.map_cons, respMsgs_resp]; rw [ih]; rfl

/-- **C57.**  A direct-mapped cache that is reset and then warmed up with WRITE_INITs
of supported lengths and alignments, no two of them to different lines of a set (a
two-way cache: with one WRITE_INIT), answers the supported requests that follow with
the data of the memory in which the lines of the WRITE_INITs are zero except for the
data of the WRITE_INITs, as long as it does not fetch these lines from memory. -/
theorem C57_warm_up (wf : p.WF) {S S' : Sys Unit p} {tr : List (Ev Unit p)} (h0 : Start S)
    (h : InitRun S tr S') {inits rest : List (CReq p)} (hacc : accepted () tr = inits ++ rest)
    (hi : ∀ q ∈ inits, q.ty = MT.INIT ∧ q.asWrite.Valid) (hw : p.twoWay = false ∨ inits.length ≤ 1)
    (hn : NoConflict inits) (hv : ∀ q ∈ rest, q.Valid)
    (hk : ∀ m ∈ sent () tr, m.ty ≠ MT.WRITE → ∀ q ∈ inits,
      m.addr.flat / 2 ^ p.offBits ≠ q.addr.flat / 2 ^ p.offBits) :
    (responses () tr).map (·.data) <+:
      inits.map (fun _ => 0) ++ (flatRun (warmMem S.mem inits) rest).2 := by
  obtain ⟨hs, hl⟩ := loggedI wf h0 h
  obtain ⟨hd1, hd2⟩ := hl.done
  have hacc' := hl.acc
  rw [hacc] at hacc'
  obtain ⟨a, b, rfl, ha, hb⟩ := List.map_eq_append_iff.1 hacc'
  -- the hints of the WRITE_INITs
  have hA : ∀ x ∈ a, x.q ∈ inits ∧ x.q.ty = MT.INIT ∧ x.q.asWrite.Valid ∧ x.w = false ∧ x.d = 0 := by
    intro x hx
    have hq : x.q ∈ inits := by rw [← ha]; exact List.mem_map_of_mem hx
    obtain ⟨n, hlt, hn⟩ := List.getElem_of_mem hx
    have hget : (a ++ b)[n]? = some x := by
      rw [List.getElem?_append_left hlt, List.getElem?_eq_getElem hlt, hn]
    refine ⟨hq, (hi _ hq).1, (hi _ hq).2, ?_, ?_⟩
    · rcases hw with hw | hw
      · have := hl.hints.way x (by simp [hx])
        simpa [Params.ways, hw] using this
      · have hn0 : n = 0 := by
          have : a.length ≤ 1 := by rw [← ha, List.length_map] at hw; exact hw
          omega
        subst hn0
        exact hl.hints.first x (by rw [← hget]; simp [List.head?_eq_getElem?])
    · refine hl.hints.dty n x hget ?_
      intro y hy
      rw [List.take_append_of_le_length (by omega)] at hy
      have : y.q ∈ inits := by rw [← ha]; exact List.mem_map_of_mem (List.mem_of_mem_take hy)
      exact (hi _ this).1
  by_cases hlen : (responses () tr).length ≤ a.length
  · -- not all WRITE_INITs are answered
    rw [List.take_append_of_le_length hlen] at hd1
    obtain ⟨_, _, h3⟩ := (Warm.init S.mem inits).ops (M0 := S.mem) wf hn
      (l := a.take (responses () tr).length) (fun x hx => hA x (List.mem_of_mem_take hx))
    rw [h3] at hd1
    have e : (responses () tr).map (·.data) = (inits.map (fun _ => (0 : Data p))).take (responses () tr).length := by
      rw [← ha, List.map_map, ← List.map_take]
      conv => lhs; rw [← hd1]
      exact resp_zero _
    rw [e]
    exact (List.take_prefix _ _).trans (List.prefix_append _ _)
  · have ht : (a ++ b).take (responses () tr).length = a ++ b.take ((responses () tr).length - a.length) := by
      rw [List.take_append, List.take_of_length_le (by omega)]
    rw [ht, opsI_append] at hd1 hd2
    obtain ⟨h1, h2, h3⟩ := (Warm.init S.mem inits).ops (M0 := S.mem) wf hn (l := a) hA
    have hmem : (flatRun (zeroLines S.mem inits) (a.map (·.q.asWrite))).1 = warmMem S.mem inits := by
      rw [warmMem, ← ha, List.map_map]; rfl
    rw [hmem] at h1
    generalize hc : b.take ((responses () tr).length - a.length) = c at *
    have hcr : c.map (·.q) <+: rest := by
      rw [← hc, List.map_take, hb]; exact List.take_prefix _ _
    have hcv : ∀ q ∈ c.map (·.q), q.Valid := fun q hq => hv q (hcr.subset hq)
    have hops : ((L1.init p).opsI S.mem a).1.opsI S.mem c = ((L1.init p).opsI S.mem a).1.ops S.mem (c.map (·.q)) :=
      opsI_ops _ _ _ fun x hx hx' => init_not_valid hx' (hcv _ (List.mem_map_of_mem hx))
    simp only [h2, hops] at hd1 hd2
    obtain ⟨hcoh, hok⟩ := h1.coh
    have hoff := (warm_off (M := S.mem) wf (fun q hq => (hi q hq).2)).ops
      (A := ((L1.init p).opsI S.mem a).1) hcv (by
        intro m hm ht la hla
        obtain ⟨q, hq, rfl⟩ := hla
        obtain ⟨m', hm', rfl⟩ := List.mem_map.1 (hd2 m (by rw [memMsgs_append]; exact List.mem_append_right _ hm))
        rw [canon_ty] at ht
        rw [canon_addr, ← q.addr.flat_div]
        exact hk m' hm' ht q hq)
    obtain ⟨_, _, _, hsp, _⟩ := ops_spec wf hcoh hok h1.cur hcv
    rw [respMsgs_append, hoff.2, h3] at hd1
    rw [← hd1, List.map_append, hsp]
    have e : (respMsgs (a.map (fun x => Msg.resp (mkResp x.q false 0)))).map (·.data) =
        inits.map (fun _ => (0 : Data p)) := by
      rw [← ha, List.map_map]
      exact resp_zero _
    rw [e]
    obtain ⟨t, ht⟩ := hcr
    refine (List.prefix_append_right_inj _).2 ?_
    rw [← ht]
    exact flatRun_prefix _ _ _

/-! ## A concrete case -/

namespace Ex57
/-- Two WRITE_INITs to line 2 of set 0 and one to set 1; then reads of all words, a
write and a read of another line in set 1. -/
def inits : List (CReq p1) :=
  [⟨MT.INIT, 0, ⟨2, 0, 0⟩, 0, 7⟩, ⟨MT.INIT, 1, ⟨2, 0, 6⟩, 2, 0x1234⟩, ⟨MT.INIT, 0, ⟨1, 1, 4⟩, 0, 9⟩]

/-- Proof device; not in the source. -/
def rest : List (CReq p1) :=
  [⟨MT.READ, 0, ⟨2, 0, 0⟩, 0, 0⟩, ⟨MT.READ, 1, ⟨2, 0, 4⟩, 0, 0⟩, ⟨MT.WRITE, 0, ⟨2, 0, 0⟩, 0, 5⟩,
   ⟨MT.READ, 0, ⟨2, 0, 0⟩, 0, 0⟩, ⟨MT.READ, 1, ⟨1, 1, 0⟩, 0, 0⟩, ⟨MT.READ, 1, ⟨0, 1, 0⟩, 0, 0⟩]

/-- Proof device; not in the source. -/
def run : Sys Unit p1 × List (Ev Unit p1) := initDrive 100 (start0 p1) (inits ++ rest)

theorem isRun : InitRun (start0 p1) run.2 run.1 := by
  have := initDrive_run 100 (.refl (start0 p1)) (inits ++ rest)
  rw [List.nil_append] at this
  exact this

theorem acc : accepted () run.2 = inits ++ rest := by decide +kernel

theorem resps : (responses () run.2).map (·.data.toNat) =
    [0, 0, 0, 7, 0x12340000, 0, 5, 0, 0x0c0b0a09] := by decide +kernel

/-- C57 applies to the run. -/
example : (responses () run.2).map (·.data) <+:
    inits.map (fun _ => 0) ++ (flatRun (warmMem (start0 p1).mem inits) rest).2 := by
  refine C57_warm_up p1_wf (start0_start p1) isRun acc ?_ (.inl rfl) (by unfold NoConflict; decide) ?_ (by decide +kernel)
  · intro q hq
    simp only [inits, List.mem_cons, List.not_mem_nil, or_false] at hq
    rcases hq with rfl | rfl | rfl
    · exact ⟨rfl, .write rfl 2 (by decide) (by decide) (by decide)⟩
    · exact ⟨rfl, .write rfl 1 (by decide) (by decide) (by decide)⟩
    · exact ⟨rfl, .write rfl 2 (by decide) (by decide) (by decide)⟩
  · intro q hq
    simp only [rest, List.mem_cons, List.not_mem_nil, or_false] at hq
    rcases hq with rfl | rfl | rfl | rfl | rfl | rfl
    · exact .read rfl 2 (by decide) (by decide)
    · exact .read rfl 2 (by decide) (by decide)
    · exact .write rfl 2 (by decide) (by decide) (by decide)
    · exact .read rfl 2 (by decide) (by decide)
    · exact .read rfl 2 (by decide) (by decide)
    · exact .read rfl 2 (by decide) (by decide)

/-- The condition on fetches is needed: WRITE_INIT sets no dirty bit, so after the line
was replaced (read of line 0 of set 1) its data are gone. -/
theorem fetched : (responses () (initDrive 100 (start0 p1)
      [⟨MT.INIT, 0, ⟨1, 1, 0⟩, 0, 9⟩, ⟨MT.READ, 0, ⟨0, 1, 0⟩, 0, 0⟩, ⟨MT.READ, 0, ⟨1, 1, 0⟩, 0, 0⟩]).2).map (·.data.toNat) =
    [0, 0x0c0b0a09, 0x1c1b1a19] := by decide +kernel
end Ex57

end Verif
