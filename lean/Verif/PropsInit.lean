import Verif.InitIso
import Verif.PropsIsolate

/-!
# C56: WRITE_INIT requests are isolated

WRITE_INIT does not behave as a write (C34).  This file proves what users of a
cache that receives such requests can still rely on, whatever the timing:
every request gets its response, and a WRITE_INIT harms only addresses of the
cache set it addresses.
-/

namespace Verif
variable {p : Params}

/-! ## Shape of the log -/

theorem opI_shape {A : L1 p} (hc : A.cur = .idle) (M : ByteMem) (x : HReq p) :
    ∃ (ms : List (MReq p)) (h : Bool) (d : Data p), (A.opI M x).2.2 = ms.map Msg.mem ++ [.resp (mkResp x.q h d)] ∧
      (x.q.ty = MT.INIT → ms = [] ∧ h = false ∧ d = 0) := by
  by_cases hq : x.q.ty = MT.INIT
  · exact ⟨[], false, 0, by simp [L1.opI, hq, L1.initOp], fun _ => ⟨rfl, rfl, rfl⟩⟩
  · obtain ⟨ms, h, d, hm⟩ := op_shape hc M hq
    exact ⟨ms, h, d, by simp [L1.opI, hq, hm], fun h => absurd h hq⟩

theorem opI_cur {A : L1 p} (hc : A.cur = .idle) (M : ByteMem) (x : HReq p) : (A.opI M x).1.cur = .idle := by
  simp only [L1.opI]
  split
  · exact hc
  · exact op_cur _ _ _

theorem opsI_cur {A : L1 p} (hc : A.cur = .idle) (M : ByteMem) (l : List (HReq p)) :
    (A.opsI M l).1.cur = .idle := by
  induction l generalizing A M with
  | nil => exact hc
  | cons x l ih => exact ih (opI_cur hc M x) _

/-- The segments of a request sequence. Proof device; not in the source. -/
def L1.segsI (A : L1 p) (M : ByteMem) : List (HReq p) → List (List (Msg p))
  | [] => []
  | x :: xs => (A.opI M x).2.2 :: (A.opI M x).1.segsI (A.opI M x).2.1 xs

theorem segsI_flatten (A : L1 p) (M : ByteMem) (xs : List (HReq p)) :
    (A.opsI M xs).2.2 = (A.segsI M xs).flatten := by
  induction xs generalizing A M with
  | nil => rfl
  | cons q qs ih => simp [L1.opsI, L1.segsI, ih]

theorem segsI_take (A : L1 p) (M : ByteMem) (xs : List (HReq p)) (n : Nat) :
    (A.segsI M xs).take n = A.segsI M (xs.take n) := by
  induction xs generalizing A M n with
  | nil => simp [L1.segsI]
  | cons q qs ih => cases n <;> simp [L1.segsI, ih]

theorem segsI_isSeg {A : L1 p} (hc : A.cur = .idle) (M : ByteMem) (xs : List (HReq p)) :
    ∀ l ∈ A.segsI M xs, IsSeg l := by
  induction xs generalizing A M with
  | nil => simp [L1.segsI]
  | cons x xs ih =>
    intro l hl
    simp only [L1.segsI, List.mem_cons] at hl
    rcases hl with rfl | hl
    · obtain ⟨ms, h, d, hm, _⟩ := opI_shape hc M x
      exact ⟨ms, _, hm⟩
    · exact ih (opI_cur hc M x) _ l hl

theorem opsI_mem (A : L1 p) (M : ByteMem) (hc : A.cur = .idle) (xs : List (HReq p)) :
    (A.opsI M xs).2.1 = (memRun M (memMsgs (A.opsI M xs).2.2)).1 := by
  induction xs generalizing A M with
  | nil => rfl
  | cons x xs ih =>
    simp only [L1.opsI, memMsgs_append, memRun_append]
    rw [ih _ _ (opI_cur hc M x)]
    have : (A.opI M x).2.1 = (memRun M (memMsgs (A.opI M x).2.2)).1 := by
      simp only [L1.opI]
      split
      · rfl
      · simp only [L1.op, memMsgs_append, answer_noMem, List.append_nil]
    rw [this]

/-- The responses of the log: one per request, in order. -/
theorem opsI_resp {A : L1 p} (hc : A.cur = .idle) (M : ByteMem) (xs : List (HReq p)) :
    ∃ R : List (CResp p), respMsgs (A.opsI M xs).2.2 = R ∧
      R.map (fun r => (r.ty, r.opq, r.len)) = xs.map (fun x => (x.q.ty, x.q.opq, x.q.len)) ∧
      ∀ r ∈ R, r.ty = MT.INIT → r.data = 0 ∧ r.test = 0 := by
  induction xs generalizing A M with
  | nil => exact ⟨[], rfl, rfl, by simp⟩
  | cons x xs ih =>
    obtain ⟨ms, h, d, hm, h0⟩ := opI_shape hc M x
    obtain ⟨R, h1, h2, h3⟩ := ih (opI_cur hc M x) (A.opI M x).2.1
    refine ⟨mkResp x.q h d :: R, ?_, ?_, ?_⟩
    · simp only [L1.opsI, respMsgs_append, hm, respMsgs_map_mem, h1]
      simp
    · simp [h2, mkResp]
    · intro r hr ht
      rcases List.mem_cons.1 hr with rfl | hr
      · obtain ⟨_, rfl, rfl⟩ := h0 ht
        exact ⟨rfl, by simp [mkResp]⟩
      · exact h3 r hr ht

theorem opsI_resp_at {A : L1 p} (hc : A.cur = .idle) (M : ByteMem) {l : List (HReq p)} {n : Nat} {x : HReq p}
    (hx : l[n]? = some x) :
    (respMsgs (A.opsI M l).2.2)[n]? =
      (respMsgs ((A.opsI M (l.take n)).1.opI (A.opsI M (l.take n)).2.1 x).2.2).head? := by
  obtain ⟨hlt, hx'⟩ := List.getElem?_eq_some_iff.1 hx
  have hl : l = l.take n ++ x :: l.drop (n + 1) := by
    rw [← hx', ← List.drop_eq_getElem_cons hlt, List.take_append_drop]
  have hlen : (respMsgs (A.opsI M (l.take n)).2.2).length = n := by
    obtain ⟨R, h1, h2, _⟩ := opsI_resp hc M (l.take n)
    have := congrArg List.length h2
    simp only [List.length_map, List.length_take] at this
    rw [h1]; omega
  obtain ⟨ms, hh, d, hm, _⟩ := opI_shape (opsI_cur hc M (l.take n)) (A.opsI M (l.take n)).2.1 x
  conv => lhs; rw [hl]
  rw [opsI_append]
  simp only [L1.opsI, respMsgs_append]
  rw [List.getElem?_append_right (by omega), hlen, Nat.sub_self, hm, respMsgs_append, respMsgs_map_mem]
  simp

/-- **C56** (responses).  Whatever requests the cache accepts, WRITE_INIT included, in
whatever timing: the responses come in the order of the requests, one per
request, with its type, opaque field and length; at most two are outstanding.
The response to a WRITE_INIT carries zero data and zero test bits. -/
theorem C56_every_request_answered (wf : p.WF) {S S' : Sys Unit p} {tr : List (Ev Unit p)} (h0 : Start S)
    (h : InitRun S tr S') :
    (responses () tr).map (fun r => (r.ty, r.opq, r.len)) =
      ((accepted () tr).take (responses () tr).length).map (fun q => (q.ty, q.opq, q.len)) ∧
    (accepted () tr).length ≤ (responses () tr).length + 2 ∧
    ∀ r ∈ responses () tr, r.ty = MT.INIT → r.data = 0 ∧ r.test = 0 := by
  obtain ⟨hs, hl⟩ := loggedI wf h0 h
  obtain ⟨rest, h1, h2⟩ := hl.resp
  obtain ⟨R, h3, h4, h5⟩ := opsI_resp (A := L1.init p) rfl S.mem hs
  rw [h1] at h3
  subst h3
  have h6 : (responses () tr ++ rest).map (fun r => (r.ty, r.opq, r.len)) =
      (accepted () tr).map (fun q => (q.ty, q.opq, q.len)) := by
    rw [h4, ← hl.acc, List.map_map]; rfl
  refine ⟨?_, ?_, fun r hr => h5 r (by simp [hr])⟩
  · have := congrArg (List.take (responses () tr).length) h6
    rw [List.map_append, List.take_left' (by simp)] at this
    rw [this, List.map_take]
  · have := congrArg List.length h6
    simp only [List.length_map, List.length_append] at this
    omega

/-! ## Isolation -/

/-- Byte `x` may be corrupted by the request `q`: as in C53 by a malformed write or AMO,
or by a WRITE_INIT to the cache set of `x`. Proof device; not in the source. -/
def HarmsI (q : CReq p) (x : Nat) : Prop :=
  Harms q x ∨ q.ty = MT.INIT ∧ x / 2 ^ p.offBits % 2 ^ p.idxBits = q.addr.idx.toNat

/-- Bits of the lines that none of the requests harms. -/
def safeBitsI (qs : List (CReq p)) : Bits p :=
  fun la _ => ∀ q ∈ qs, ¬ HarmsI q (la.num * 2 ^ p.offBits)

theorem safeBitsI_words (qs : List (CReq p)) : (safeBitsI qs).Words := fun _ _ _ _ h => h

theorem HarmsI.line {q : CReq p} {x y : Nat} (h : HarmsI q x) (hxy : x / 2 ^ p.offBits = y / 2 ^ p.offBits) :
    HarmsI q y := by
  rcases h with h | h
  · exact .inl (h.line hxy)
  · rw [hxy] at h; exact .inr h

theorem safe_of_flatI {qs : List (CReq p)} {a : Addr p} (h : ∀ q ∈ qs, ¬ HarmsI q a.flat) (i : Nat) :
    safeBitsI qs a.la i := fun q hq hx =>
  h q hq (hx.line (by rw [a.flat_div, Nat.mul_div_cancel _ (Nat.two_pow_pos _)]))

open Classical in
/-- The sets addressed by a WRITE_INIT. Proof device; not in the source. -/
noncomputable def initSets (qs : List (CReq p)) : Idx p → Bool :=
  fun j => decide (∃ q ∈ qs, q.ty = MT.INIT ∧ q.addr.idx = j)

theorem safe_set {qs : List (CReq p)} {la : LAddr p} {i : Nat} (h : safeBitsI qs la i) :
    initSets qs la.idx = false := by
  cases hb : initSets qs la.idx
  · rfl
  · obtain ⟨q, hq, ht, hj⟩ := of_decide_eq_true hb
    exact (h q hq (.inr ⟨ht, by rw [mul_pow_div, la.num_mod, hj]⟩)).elim

/-- What holds of the machine between requests. Proof device; not in the source. -/
structure Iso (qs : List (CReq p)) (A : L1 p) (M S : ByteMem) : Prop where
  coh : Coh (safeBitsI qs) (A.mask (initSets qs)) (view M) (view S)
  ok : (A.mask (initSets qs)).Ok
  cur : A.cur = .idle

theorem mask_zero (B : Idx p → Bool) : (L1.init p).mask B = L1.init p := by
  simp only [L1.mask, L1.init]
  congr 1
  · funext w j; split <;> rfl
  · funext w j; split <;> rfl
  · funext j; split <;> rfl

theorem Iso.init (qs : List (CReq p)) (M : ByteMem) : Iso qs (L1.init p) M M :=
  ⟨by rw [mask_zero]; exact coh_init M, by rw [mask_zero]; exact init_ok, rfl⟩

theorem init_not_valid {q : CReq p} (h : q.ty = MT.INIT) : ¬ q.Valid := by
  intro hv
  cases hv with
  | read ty => rw [h] at ty; cases ty
  | write ty => rw [h] at ty; cases ty
  | dword ty => rw [h] at ty; cases ty
  | amo ty => rw [h] at ty; revert ty; decide
  | inv ty => rw [h] at ty; cases ty
  | flush ty => rw [h] at ty; cases ty

theorem Iso.op (wf : p.WF) {qs : List (CReq p)} {A : L1 p} {M S : ByteMem} (h : Iso qs A M S) {x : HReq p}
    (hx : x.q ∈ qs) : Iso qs (A.opI M x).1 (A.opI M x).2.1 (flatRun S (validOf [x.q])).1 := by
  obtain ⟨q, w, d⟩ := x
  simp only at hx
  by_cases hi : q.ty = MT.INIT
  · have hb : initSets qs q.addr.idx = true := decide_eq_true ⟨q, hx, hi, rfl⟩
    have hv : validOf [q] = [] := by simp [validOf, init_not_valid hi]
    have he := mask_init (B := initSets qs) A hb w d
    simp only [hv, flatRun, L1.opI, hi, if_true]
    exact ⟨by rw [he]; exact h.coh, by rw [he]; exact h.ok, h.cur⟩
  · simp only [L1.opI, hi, if_false]
    have hH : ∀ la i, safeBitsI qs la i → ¬ Harms q (la.num * 2 ^ p.offBits) :=
      fun la i hP hh => hP q hx (.inl hh)
    by_cases hf : q.ty = MT.FLUSH
    · obtain ⟨h1, h2, _⟩ := mask_op_flush (B := initSets qs) h.cur M hf
      have h3 := op_any_on wf (safeBitsI_words qs) hH h.coh h.ok h.cur hi
      have h4 := ok_op h.ok M q
      rw [h1] at h3 h4
      refine ⟨h3.congr_bits rfl (fun _ _ _ _ _ _ _ => rfl) ?_ (fun _ _ _ _ => rfl), h4, op_cur _ _ _⟩
      intro la i _ hP
      rw [h2 la (safe_set hP)]
    by_cases hj : q.ty = MT.INV ∨ initSets qs q.addr.idx = false
    · have h1 := mask_op_good (B := initSets qs) h.cur M hj hf
      have h3 := op_any_on wf (safeBitsI_words qs) hH h.coh h.ok h.cur hi
      have h4 := ok_op h.ok M q
      rw [h1] at h3 h4
      exact ⟨h3, h4, op_cur _ _ _⟩
    · have hn : q.ty ≠ MT.INV := fun hx => hj (.inl hx)
      have hb : initSets qs q.addr.idx = true := by
        cases hb : initSets qs q.addr.idx
        · exact absurd (.inr hb) hj
        · rfl
      have h1 := mask_op_bad (B := initSets qs) h.cur M hb hn hf
      have hne : ∀ la i, safeBitsI qs la i → la.idx ≠ q.addr.idx := by
        intro la i hP he
        have := safe_set hP
        rw [he, hb] at this; cases this
      refine ⟨?_, by rw [h1]; exact h.ok, op_cur _ _ _⟩
      rw [h1]
      refine h.coh.congr_bits rfl (fun _ _ _ _ _ _ _ => rfl) ?_ ?_
      · intro la i _ hP
        rw [view_op_other A M (hne la i hP) hi hn hf]
        intro ty y hy1 hy2 hy3
        by_cases hv : q.Valid
        · have ty' : 3 ≤ q.ty.toNat ∧ q.ty.toNat ≤ 11 ∧ 4 ∣ q.addr.flat := by
            cases hv with
            | read t => rw [t] at ty; cases ty
            | write t => rw [t] at ty; cases ty
            | dword t => rw [t] at ty; cases ty
            | amo t _ al => exact ⟨t.1, t.2, al⟩
            | inv t => rw [t] at ty; cases ty
            | flush t => rw [t] at ty; cases ty
          have h2 : 2 ≤ p.offBits := by simp only [Params.offBits]; omega
          have hfit := fits_line (k := 2) h2 (dvd_off (q := q) (k := 2) h2 ty'.2.2)
          have : y / 2 ^ p.offBits = q.addr.la.num := by
            rw [flat_eq] at hy1 hy2
            rw [Nat.div_eq_iff (Nat.two_pow_pos _)]
            omega
          rw [this] at hy3
          have := LAddr.num_inj hy3
          exact hne la i hP (by rw [← this]; rfl)
        · exact hH la i hP ⟨hv, .inr ⟨ty, y, hy1, hy2, by rw [mul_pow_div, hy3]⟩⟩
      · intro la i _ hP
        by_cases hv : q.Valid
        · have e : validOf [q] = [q] := by simp [validOf, hv]
          rw [e]
          show (view (flatStep S q).1 la).getLsbD i = _
          rw [view_flat_other wf S hv (hne la i hP)]
        · have e : validOf [q] = [] := by simp [validOf, hv]
          rw [e]; rfl

theorem Iso.ops (wf : p.WF) {qs : List (CReq p)} {A : L1 p} {M S : ByteMem} (h : Iso qs A M S)
    {l : List (HReq p)} (hl : ∀ x ∈ l, x.q ∈ qs) :
    Iso qs (A.opsI M l).1 (A.opsI M l).2.1 (flatRun S (validOf (l.map (·.q)))).1 := by
  induction l generalizing A M S with
  | nil => simpa [validOf, flatRun, L1.opsI] using h
  | cons x l ih =>
    rw [List.map_cons, validOf_cons, flatRun_append]
    exact ih (h.op wf (hl x (by simp))) (fun y hy => hl y (by simp [hy]))

/-- The response of a valid request that no WRITE_INIT harmed. -/
theorem Iso.resp (wf : p.WF) {qs : List (CReq p)} {A : L1 p} {M S : ByteMem} (h : Iso qs A M S) {q : CReq p}
    (hv : q.Valid) (hsafe : q.ty = MT.INV ∨ q.ty = MT.FLUSH ∨ initSets qs q.addr.idx = false) :
    ∃ hit d, respMsgs (A.op M q).2.2 = [mkResp q hit d] ∧ Agree (safeBitsI qs) q d (flatStep S q).2 := by
  by_cases hf : q.ty = MT.FLUSH
  · obtain ⟨_, _, h3⟩ := mask_op_flush (B := initSets qs) h.cur M hf
    have e : (flatStep S q).2 = 0 := by simp [flatStep, hf, MT.isAmo]
    exact ⟨_, _, h3, by rw [e]; exact Agree.refl _ _ _⟩
  · have hj : q.ty = MT.INV ∨ initSets qs q.addr.idx = false := by
      rcases hsafe with h | h | h
      · exact .inl h
      · exact absurd h hf
      · exact .inr h
    have h1 := mask_op_good (B := initSets qs) h.cur M hj hf
    obtain ⟨_, _, d, hd, ha⟩ := op_spec wf (safeBitsI_words qs) h.coh h.ok h.cur hv
    rw [h1] at hd
    exact ⟨_, d, hd, ha⟩

/-- **C56** (data).  Requests of any type, length and alignment, WRITE_INIT included,
in any order and timing: a valid request gets the data of the flat memory
that executed the valid requests before it, unless an earlier malformed request
addressed its line or an earlier WRITE_INIT its cache set. -/
theorem C56_write_init_isolated (wf : p.WF) {S S' : Sys Unit p} {tr : List (Ev Unit p)}
    (h0 : Start S) (h : InitRun S tr S') {n : Nat} {q : CReq p} {r : CResp p}
    (hq : (accepted () tr)[n]? = some q) (hr : (responses () tr)[n]? = some r) (hv : q.Valid)
    (hsafe : ∀ q' ∈ (accepted () tr).take n, ¬ HarmsI q' q.addr.flat) :
    r.data = (flatStep (flatRun S.mem (validOf ((accepted () tr).take n))).1 q).2 := by
  obtain ⟨hs, hl⟩ := loggedI wf h0 h
  obtain ⟨rest, h1, _⟩ := hl.resp
  rw [← hl.acc, List.getElem?_map] at hq
  obtain ⟨x, hx, hxq⟩ := Option.map_eq_some_iff.1 hq
  have hat := opsI_resp_at (A := L1.init p) rfl S.mem hx
  have hlt : n < (responses () tr).length := (List.getElem?_eq_some_iff.1 hr).1
  rw [h1, List.getElem?_append_left hlt, hr] at hat
  have hac : (hs.take n).map (·.q) = (accepted () tr).take n := by rw [List.map_take, hl.acc]
  have hiso := (Iso.init ((accepted () tr).take n) S.mem).ops wf (l := hs.take n)
    (fun y hy => by rw [← hac]; exact List.mem_map_of_mem hy)
  rw [hac] at hiso
  have hP := safe_of_flatI hsafe
  have hne : x.q.ty ≠ MT.INIT := fun hi => init_not_valid hi (by rw [hxq]; exact hv)
  obtain ⟨hit, d, hd, ha⟩ := hiso.resp wf hv (.inr (.inr (safe_set (la := q.addr.la) (hP 0))))
  have e : ((L1.init p).opsI S.mem (hs.take n)).1.opI ((L1.init p).opsI S.mem (hs.take n)).2.1 x =
      ((L1.init p).opsI S.mem (hs.take n)).1.op ((L1.init p).opsI S.mem (hs.take n)).2.1 q := by
    rw [L1.opI, if_neg hne, hxq]
  rw [e, hd] at hat
  simp only [List.head?_cons, Option.some.injEq] at hat
  rw [hat]
  simp only [mkResp]
  by_cases t1 : q.ty = MT.READ
  · exact BitVec.eq_of_getLsbD_eq fun i hi => ha.1 t1 i hi (fun _ => hP _)
  · cases t2 : MT.isAmo q.ty
    · exact ha.2.2 t1 t2
    · exact ha.2.1 t2 (hP _)

/-- **C56** (memory).  In the cycle in which the response to a FLUSH is delivered, every
byte that no earlier request may have corrupted has in memory the value of the
flat memory that executed the valid requests only. -/
theorem C56_memory (wf : p.WF) {S S₁ : Sys Unit p} {tr : List (Ev Unit p)} {i : In p}
    (h0 : Start S) (h : InitRun S tr S₁) (noReset : i.reset = false)
    (req : i.reqEn = true → ((S₁.cache ()).out i).reqRdy = true)
    (mem : i.mrespEn = true → ∃ l, S₁.respQ () = i.mresp :: l)
    (hr : ((S₁.cache ()).out i).respEn = true)
    {n : Nat} (hn : n = (responses () tr).length) {f : CReq p}
    (hf : (accepted () (tr ++ S₁.clockEvs () i))[n]? = some f) (ty : f.ty = MT.FLUSH) (x : Nat)
    (hx : x < 2 ^ p.addrBits) (hsafe : ∀ q' ∈ (accepted () (tr ++ S₁.clockEvs () i)).take n, ¬ HarmsI q' x) :
    (S₁.clock () i).mem x =
      (flatRun S.mem (validOf ((accepted () (tr ++ S₁.clockEvs () i)).take n))).1 x := by
  have hrun : InitRun S (tr ++ S₁.clockEvs () i) (S₁.clock () i) := .clock h () i noReset req mem
  -- the port is empty and the response is the last message
  obtain ⟨e0, he, hn0, hq⟩ : ∃ e0, emitted () ((tr ++ S₁.clockEvs () i).map Ev.canon) =
      e0 ++ [.resp ((S₁.cache ()).out i).resp] ∧ (respMsgs e0).length = n ∧ (S₁.clock () i).reqQ () = [] := by
    obtain ⟨T, hs, h1, h2, _⟩ := refineI wf h0 h
    have hme : ((S₁.cache ()).out i).mreqEn = false := by
      cases hm : ((S₁.cache ()).out i).mreqEn
      · rfl
      · exact absurd ⟨hr, hm⟩ (C05_enrdy _ _).2.2
    have hO := h2.cache.resp_quiet (i := i) (r := ((S₁.cache ()).out i).resp) (by simp [Out.msgs, hr])
    have hq := outTys_nil hO
    refine ⟨emitted () (tr.map Ev.canon), ?_, ?_, ?_⟩
    · simp only [List.map_append, emitted_append, Sys.clockEvs, hr, hme]
      congr 1
      cases i.reqEn <;> rfl
    · rw [respMsgs_emitted, responses_canon, hn]
    · simp [Sys.clock, hme, hq.2]
  obtain ⟨hs, hl⟩ := loggedI wf h0 hrun
  obtain ⟨rest, hlog, _⟩ := hl.log
  have hmem := hl.mem
  rw [hq] at hmem
  simp only [List.map_nil, memRun] at hmem
  rw [segsI_flatten, he] at hlog
  obtain ⟨g1, g2⟩ := seg_exact (segsI_isSeg rfl S.mem hs) hlog (n := n + 1) (by omega)
  rw [segsI_take, ← segsI_flatten] at g2
  rw [he, g2, ← opsI_mem _ _ rfl] at hmem
  rw [← hl.acc, List.getElem?_map] at hf
  obtain ⟨y, hy, hyq⟩ := Option.map_eq_some_iff.1 hf
  have htake : hs.take (n + 1) = hs.take n ++ [y] := by rw [List.take_add_one, hy]; rfl
  rw [htake, opsI_snoc] at hmem
  have hac : (hs.take n).map (·.q) = (accepted () (tr ++ S₁.clockEvs () i)).take n := by
    rw [List.map_take, hl.acc]
  have hiso := (Iso.init ((accepted () (tr ++ S₁.clockEvs () i)).take n) S.mem).ops wf (l := hs.take n)
    (fun y hy => by rw [← hac]; exact List.mem_map_of_mem hy)
  rw [hac] at hiso
  have hne : y.q.ty ≠ MT.INIT := by rw [hyq, ty]; decide
  have e : ((L1.init p).opsI S.mem (hs.take n)).1.opI ((L1.init p).opsI S.mem (hs.take n)).2.1 y =
      ((L1.init p).opsI S.mem (hs.take n)).1.op ((L1.init p).opsI S.mem (hs.take n)).2.1 f := by
    rw [L1.opI, if_neg hne, hyq]
  rw [e] at hmem
  obtain ⟨_, m2, _⟩ := mask_op_flush (B := initSets ((accepted () (tr ++ S₁.clockEvs () i)).take n))
    hiso.cur ((L1.init p).opsI S.mem (hs.take n)).2.1 ty
  have hfl := (op_flush hiso.coh hiso.cur ty).2
  obtain ⟨_, ha⟩ := C27_pack_unpack p
  have hax : (Addr.ofFlat p x).flat = x := ha x hx
  have hP := safe_of_flatI (a := Addr.ofFlat p x) (by rw [hax]; exact hsafe)
  have hv : view (S₁.clock () i).mem (Addr.ofFlat p x).la = view (flatRun S.mem
      (validOf ((accepted () (tr ++ S₁.clockEvs () i)).take n))).1 (Addr.ofFlat p x).la := by
    rw [← hmem, m2 _ (safe_set (hP 0))]
    exact BitVec.eq_of_getLsbD_eq fun i hi => hfl _ i hi (hP i)
  apply BitVec.eq_of_getLsbD_eq
  intro b hb
  have ho := (Addr.ofFlat p x).off.isLt
  have hi : 8 * (Addr.ofFlat p x).off.toNat + b < p.lineBits := by rw [lineBits_eq]; omega
  have := congrArg (·.getLsbD (8 * (Addr.ofFlat p x).off.toNat + b)) hv
  simp only [getLsbD_view _ _ _ hi] at this
  rw [show (8 * (Addr.ofFlat p x).off.toNat + b) / 8 = (Addr.ofFlat p x).off.toNat by omega,
    show (8 * (Addr.ofFlat p x).off.toNat + b) % 8 = b by omega, ← flat_eq, hax] at this
  exact this

namespace Ex56
/-- A write to set 1, a WRITE_INIT and a write to set 0, an atomic add and a read
in set 1, a FLUSH and another read in set 1. Proof device; not in the source. -/
def reqs : List (CReq p0) :=
  [⟨MT.WRITE, 1, ⟨0, 1, 0⟩, 0, 5⟩, ⟨MT.INIT, 0, ⟨2, 0, 0⟩, 0, 7⟩, ⟨MT.WRITE, 1, ⟨1, 0, 4⟩, 0, 9⟩,
   ⟨3, 0, ⟨0, 1, 0⟩, 0, 1⟩, ⟨MT.READ, 1, ⟨0, 1, 0⟩, 0, 0⟩, ⟨MT.FLUSH, 0, ⟨0, 0, 0⟩, 0, 0⟩,
   ⟨MT.READ, 0, ⟨0, 1, 4⟩, 0, 0⟩]

/-- Proof device; not in the source. -/
def run : Sys Unit p0 × List (Ev Unit p0) := initDrive 100 (start0 p0) reqs

theorem isRun : InitRun (start0 p0) run.2 run.1 := by
  have := initDrive_run 100 (.refl (start0 p0)) reqs
  rw [List.nil_append] at this
  exact this

theorem acc : accepted () run.2 = reqs := by decide +kernel

theorem resps : (responses () run.2).map (fun r => (r.ty.toNat, r.opq.toNat, r.data.toNat)) =
    [(1, 1, 0), (2, 0, 0), (1, 1, 0), (3, 0, 5), (0, 1, 6), (15, 0, 0), (0, 0, 0x100f0e0d)] := by decide +kernel

/-- No request of the example harms set 1. -/
theorem safe : ∀ q ∈ reqs, ¬ HarmsI q (⟨0, 1, 0⟩ : Addr p0).flat := by
  intro q hq h
  rcases h with h | ⟨h1, h2⟩
  · refine h.1 ?_
    simp only [reqs, List.mem_cons, List.not_mem_nil, or_false] at hq
    rcases hq with rfl | rfl | rfl | rfl | rfl | rfl | rfl
    · exact .write rfl 2 (by decide) (by decide) (by decide)
    · exact absurd h.2 (by
        rintro (⟨h, _⟩ | ⟨h, _⟩)
        · cases h
        · cases h)
    · exact .write rfl 2 (by decide) (by decide) (by decide)
    · exact .amo (by decide) (.inl rfl) (by decide)
    · exact .read rfl 2 (by decide) (by decide)
    · exact .flush rfl
    · exact .read rfl 2 (by decide) (by decide)
  · simp only [reqs, List.mem_cons, List.not_mem_nil, or_false] at hq
    rcases hq with rfl | rfl | rfl | rfl | rfl | rfl | rfl <;>
      first
        | (revert h1; decide)
        | (revert h2; decide)

/-- C56 applies to the read after the WRITE_INIT (request number 4): it returns 6. -/
example : ∃ r, (responses () run.2)[4]? = some r ∧
    r.data = (flatStep (flatRun (start0 p0).mem (validOf (reqs.take 4))).1 (⟨MT.READ, 1, ⟨0, 1, 0⟩, 0, 0⟩ : CReq p0)).2 ∧
    r.data = 6 := by
  have h4 : ((responses () run.2)[4]?).map (·.data) = some 6 := by decide +kernel
  obtain ⟨r, hr, hd⟩ := Option.map_eq_some_iff.1 h4
  refine ⟨r, hr, ?_, hd⟩
  have := C56_write_init_isolated p0_wf (start0_start p0) isRun (n := 4) (by rw [acc]; rfl) hr
    (.read rfl 2 (by decide) (by decide)) (by rw [acc]; exact fun q hq => safe q (List.mem_of_mem_take hq))
  rwa [acc] at this

/-- The system one cycle before the response to the FLUSH is delivered. Proof device; not in the source. -/
def pre : Sys Unit p0 × List (Ev Unit p0) := initDrive 40 (start0 p0) reqs

theorem preRun : InitRun (start0 p0) pre.2 pre.1 := by
  have := initDrive_run 40 (.refl (start0 p0)) reqs
  rw [List.nil_append] at this
  exact this

/-- Inputs of a cycle without request and memory response. Proof device; not in the source. -/
def idle : In p0 := ⟨false, false, default, true, true, false, default⟩

theorem preAcc : accepted () (pre.2 ++ pre.1.clockEvs () idle) = reqs := by decide +kernel

/-- C56 applies to the FLUSH (request number 5): the byte at address 8 is 6 in memory
when its response is delivered, as in the flat memory; it was 9 in the beginning. -/
example : (pre.1.clock () idle).mem 8 = (flatRun (start0 p0).mem (validOf (reqs.take 5))).1 8 ∧
    (pre.1.clock () idle).mem 8 = 6 ∧ (start0 p0).mem 8 = 9 := by
  refine ⟨?_, by decide +kernel, by decide +kernel⟩
  have := C56_memory p0_wf (start0_start p0) preRun (i := idle) rfl (by intro h; cases h) (by intro h; cases h)
    (by decide +kernel) (n := 5) (by decide +kernel) (f := ⟨MT.FLUSH, 0, ⟨0, 0, 0⟩, 0, 0⟩)
    (by rw [preAcc]; rfl) rfl 8 (by decide) (by
      rw [preAcc]
      intro q hq
      have h8 : (⟨0, 1, 0⟩ : Addr p0).flat = 8 := by decide
      rw [← h8]
      exact safe q (List.mem_of_mem_take hq))
  rw [preAcc] at this
  exact this

/-- The WRITE_INIT harms set 0. -/
example : HarmsI (⟨MT.INIT, 0, ⟨2, 0, 0⟩, 0, 7⟩ : CReq p0) 4 := .inr ⟨rfl, by decide⟩
end Ex56

end Verif
