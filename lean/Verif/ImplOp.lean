import Verif.Impl

/-!
# One request of any shape on cache and memory agrees with `implStep`
-/

namespace Verif
variable {p : Params} {P : Bits p}

/-- The set consists of whole lines. -/
def Bits.Lines (P : Bits p) : Prop := ∀ la i i', P la i → P la i'

/-- The effect of the store `q` on a valid entry of its line. -/
theorem Coh.patch {L : L1 p} {V : LAddr p → Line p} {S S' : ByteMem} {q : CReq p} (h : Coh P L V (view S))
    {w : Way} (hw : w ∈ p.ways) (hv : (L.ent w q.addr.idx).val = true)
    (ht : (L.ent w q.addr.idx).tag = q.addr.tag) (hst : StoreG q S S') (d : Dty p)
    (hmono : ∀ b, (L.ent w q.addr.idx).dty.getLsbD b = true → d.getLsbD b = true)
    (hcov : ∀ i, (∀ d : Dty p, (markDirty p d q.addr.off q.len).getLsbD (i / 32) = true) →
      (∀ e : Entry p, wordDirty p e q.addr.off q.len = true → e.dty.getLsbD (i / 32) = true) →
      d.getLsbD (i / 32) = true) :
    Coh P { L with
        ent := setAt L.ent w q.addr.idx ⟨true, d, q.addr.tag⟩
        dat := setAt L.dat w q.addr.idx (writeLine q (L.dat w q.addr.idx)) }
      V (view S') := by
  have hla : (⟨(L.ent w q.addr.idx).tag, q.addr.idx⟩ : LAddr p) = q.addr.la := by rw [ht]; rfl
  refine ⟨?_, ?_, ?_⟩
  · intro w' hw' j' i hi hP hp
    by_cases hwj : w' = w ∧ j' = q.addr.idx
    · obtain ⟨rfl, rfl⟩ := hwj
      simp only [setAt_same] at hp hP ⊢
      rcases hst.bits (L.dat w' q.addr.idx) i hi with ⟨h1, _, _⟩ | ⟨h1, h2⟩
      · exact h1
      · have := h.hitc w' hw' q.addr.idx i hi (by rw [hla]; exact hP) (.inl hv)
        rw [hla] at this
        rw [h1]; exact this.trans h2.symm
    · simp only [setAt_ne _ _ hwj] at hp hP ⊢
      rw [h.hitc w' hw' j' i hi hP hp, hst.other]
      intro he
      have hj : j' = q.addr.idx := congrArg LAddr.idx he
      subst hj
      have htt : (L.ent w' q.addr.idx).tag = q.addr.tag := congrArg LAddr.tag he
      have hpr : (L.ent w' q.addr.idx).Present := by
        rcases hp with hp | hp
        · exact .inl hp
        · right; intro h0; rw [h0] at hp; simp at hp
      exact hwj ⟨h.uniq w' hw' w hw q.addr.idx hpr (.inl hv) (by rw [htt, ht]), rfl⟩
  · intro la i hi hP hc
    have hold : (∀ w' ∈ p.ways, (L.ent w' la.idx).tag = la.tag → (L.ent w' la.idx).dty.getLsbD (i / 32) = false) := by
      intro w' hw' ht'
      have := hc w' hw'
      by_cases hwj : w' = w ∧ la.idx = q.addr.idx
      · obtain ⟨rfl, hj⟩ := hwj
        simp only [hj, setAt_same] at this ht' ⊢
        have := this (by rw [← ht', ht])
        cases hb : (L.ent w' q.addr.idx).dty.getLsbD (i / 32)
        · rfl
        · rw [hmono _ hb] at this; cases this
      · simp only [setAt_ne _ _ hwj] at this
        exact this ht'
    rw [h.memc la i hi hP hold]
    by_cases hq : la = q.addr.la
    · subst hq
      rcases hst.bits 0 i hi with ⟨_, h1, h2⟩ | ⟨_, h2⟩
      · exfalso
        have := hc w hw
        simp only [Addr.la, setAt_same] at this
        rw [hcov i h1 h2] at this
        simp at this
      · exact h2.symm
    · rw [hst.other la hq]
  · intro w1 hw1 w2 hw2 j' h1 h2 htt
    have key : ∀ w', (setAt L.ent w q.addr.idx ⟨true, d, q.addr.tag⟩ w' j').Present →
        (L.ent w' j').Present ∧
        (setAt L.ent w q.addr.idx ⟨true, d, q.addr.tag⟩ w' j').tag = (L.ent w' j').tag := by
      intro w' hp
      by_cases hwj : w' = w ∧ j' = q.addr.idx
      · obtain ⟨rfl, rfl⟩ := hwj
        rw [setAt_same]; exact ⟨.inl hv, ht.symm⟩
      · rw [setAt_ne _ _ hwj] at hp ⊢
        exact ⟨hp, rfl⟩
    have k1 := key w1 h1
    have k2 := key w2 h2
    simp only at htt
    rw [k1.2, k2.2] at htt
    exact h.uniq w1 hw1 w2 hw2 j' k1.1 k2.1 htt

/-- The specification of one request. -/
def OpImpl (P : Bits p) (A : L1 p) (M S : ByteMem) (q : CReq p) : Prop :=
  Coh P (A.op M q).1 (view (A.op M q).2.1) (view (implStep S q).1) ∧
  ∃ d, respMsgs (A.op M q).2.2 = [mkResp q (A.isHit q) d] ∧ (P q.addr.la 0 → d = (implStep S q).2)

theorem readLine_congr (wf : p.WF) (hL : P.Lines) {q : CReq p} (ty : q.ty = MT.READ) {S : ByteMem} {l : Line p}
    (hl : ∀ i, i < p.lineBits → P q.addr.la i → l.getLsbD i = (view S q.addr.la).getLsbD i)
    (hP : P q.addr.la 0) : readLine q l = (implStep S q).2 := by
  rw [← readLine_impl wf ty]
  congr 1
  exact BitVec.eq_of_getLsbD_eq fun i hi => hl i hi (hL _ _ _ hP)

theorem implStep_read {q : CReq p} (ty : q.ty = MT.READ) (S : ByteMem) : (implStep S q).1 = S := by
  simp [implStep, ty]

theorem implStep_write {q : CReq p} (ty : q.ty = MT.WRITE) (S : ByteMem) : (implStep S q).2 = 0 := by
  simp [implStep, ty]

/-- Completion of a refill. -/
theorem fill_impl (wf : p.WF) (hL : P.Lines) {L : L1 p} {V : LAddr p → Line p} {S : ByteMem} {q : CReq p} {w : Way}
    {d : Dty p} (hw : w ∈ p.ways) (hc : L.cur = .fill q w d)
    (h : Coh P { L with ent := setAt L.ent w q.addr.idx ⟨false, d, q.addr.tag⟩ } V (view S))
    (hoth : ∀ w' ∈ p.ways, w' ≠ w → (L.ent w' q.addr.idx).Present → (L.ent w' q.addr.idx).tag ≠ q.addr.tag)
    (hv : q.Contained) (hrw : q.ty = MT.READ ∨ q.ty = MT.WRITE) :
    Coh P (L.answer (V q.addr.la)).1 V (view (implStep S q).1) ∧
    ∃ d, (L.answer (V q.addr.la)).2 = [.resp (mkResp q false d)] ∧ (P q.addr.la 0 → d = (implStep S q).2) := by
  have hf := h.fill hw q.addr.idx (by
    intro w' hw' hne
    simp only [setAt_same, setAt_ne _ _ (fun hx : w' = w ∧ q.addr.idx = q.addr.idx => hne hx.1)]
    exact hoth w' hw' hne)
  simp only [setAt_same, setAt_setAt] at hf
  rcases hrw with ty | ty
  · simp only [L1.answer, hc, ty, MT.READ_ne_WRITE, if_false]
    refine ⟨by rw [implStep_read ty]; exact hf.congr rfl rfl, _, rfl, readLine_congr wf hL ty ?_⟩
    intro i hi hP
    have := hf.hitc w hw q.addr.idx i hi (by simp only [setAt_same]; exact hP) (.inl (by simp only [setAt_same]))
    simp only [setAt_same] at this
    exact this
  · have hs := hf.patch hw (by simp only [setAt_same]) (by simp only [setAt_same]) (store_contained wf ty hv S)
      (markDirty p d q.addr.off q.len) (by simp only [setAt_same]; exact markDirty_mono d _ _)
      (fun i h1 _ => h1 d)
    simp only [setAt_same, setAt_setAt] at hs
    simp only [L1.answer, hc, ty, if_true]
    exact ⟨hs.congr rfl rfl, _, rfl, fun _ => (implStep_write ty S).symm⟩

/-- Read or write. -/
theorem op_rw_impl (wf : p.WF) (hL : P.Lines) {A : L1 p} {M S : ByteMem} {q : CReq p}
    (h : Coh P A (view M) (view S)) (hok : A.Ok)
    (hc : A.cur = .idle) (hv : q.Contained) (hrw : q.ty = MT.READ ∨ q.ty = MT.WRITE) : OpImpl P A M S q := by
  have hw := A.lookup_way_mem q.addr
  have hqt : decide (q.ty = MT.READ ∨ q.ty = MT.WRITE) = true := decide_eq_true hrw
  have hacc : A.accept q = A.rw q := by simp only [L1.accept]; rw [if_pos hrw]
  simp only [OpImpl, L1.op, hacc, L1.isHit, hqt, Bool.true_and]
  cases lookup_cases (h.uniqAt q.addr.idx) with
  | hit hh hi hval ht =>
    rw [rw_hit hh]
    simp only [memMsgs_resp, memMsgs_nil, memRun]
    rw [answer_of_idle (by exact hc)]
    simp only [respMsgs_append, respMsgs_resp, respMsgs_nil, List.append_nil, hh]
    rcases hrw with ty | ty
    · refine ⟨by rw [implStep_read ty]; exact h.congr (by simp [ty]) (by simp [ty]), _, rfl, ?_⟩
      simp only [ty, MT.READ_ne_WRITE, if_false]
      refine readLine_congr wf hL ty ?_
      intro i hi hP
      have := h.hitc _ hw q.addr.idx i hi (by rw [ht]; exact hP) (.inl hval)
      rwa [ht] at this
    · refine ⟨?_, _, rfl, fun _ => by simp [ty, implStep_write ty S]⟩
      have hs := h.patch hw hval ht (store_contained wf ty hv S)
      cases hwd : wordDirty p (A.ent (A.lookup q.addr).way q.addr.idx) q.addr.off q.len
      · refine (hs (markDirty p (A.ent (A.lookup q.addr).way q.addr.idx).dty q.addr.off q.len)
          (markDirty_mono _ _ _) (fun i h1 _ => h1 _)).congr ?_ ?_
        · simp only [ty, hi, hval, true_and, if_true]
        · simp only [ty, if_true]
      · refine (hs (A.ent (A.lookup q.addr).way q.addr.idx).dty (fun _ hb => hb)
          (fun i _ h2 => h2 _ hwd)).congr ?_ ?_
        · simp only [Bool.true_eq_false, and_false, if_false]
          rw [setAt_self]
          cases he : A.ent (A.lookup q.addr).way q.addr.idx
          rw [he] at hval ht
          simp only at hval ht ⊢
          rw [hval, ht]
        · simp only [ty, if_true]
  | inval hh hi hval hd ht =>
    rw [rw_inval hh hi]
    simp only [memMsgs_mem, memMsgs_nil, memRun, exec_rd, lastData, List.getLast?_singleton, Option.map_some,
      Option.getD_some, hh]
    have hf := fill_impl wf hL (L := { A with
        rep := setRep A.rep q.addr.idx
          (replPolicy p true true (A.lookup q.addr).way (A.rep q.addr.idx))
        cur := .fill q (A.lookup q.addr).way (A.ent (A.lookup q.addr).way q.addr.idx).dty })
      (V := view M) (S := S) hw rfl (by
        refine h.congr ?_ rfl
        simp only
        rw [setAt_self]
        cases he : A.ent (A.lookup q.addr).way q.addr.idx
        rw [he] at hval ht
        simp only at hval ht ⊢
        rw [hval, ht]) (by
        intro w' hw' hne hp ht'
        exact hne (h.uniq w' hw' _ hw _ hp (.inr hd) (by simp only at ht'; rw [ht', ht]))) hv hrw
    obtain ⟨hf1, d, hd1, hd2⟩ := hf
    exact ⟨hf1, d, by rw [hd1]; simp, hd2⟩
  | miss hh hi hn =>
    rw [rw_miss hh hi]
    simp only [memMsgs_append, memMsgs_mem, memMsgs_nil, memRun_append, hh]
    have hev := h.evict (hok.rep q.addr.idx) q.addr.idx ⟨false, 0, q.addr.tag⟩ rfl (by simp)
    rw [← view_wb] at hev
    generalize hM' : (memRun M (memMsgs (if (A.ent (A.rep q.addr.idx) q.addr.idx).dty != 0 then
        [A.wb (A.rep q.addr.idx) q.addr.idx] else []))).1 = M' at hev ⊢
    have hf := fill_impl wf hL (L := { A with
        rep := setRep A.rep q.addr.idx
          (replPolicy p true false (A.lookup q.addr).way (A.rep q.addr.idx))
        cur := .fill q (A.rep q.addr.idx) 0 })
      (V := view M') (S := S) (hok.rep q.addr.idx) rfl (hev.congr rfl rfl)
      (fun w' hw' _ => hn w' hw') hv hrw
    simp only [memRun, exec_rd]
    rw [lastData_append_ne (by simp)]
    simp only [lastData, List.getLast?_singleton, Option.map_some, Option.getD_some]
    obtain ⟨hf1, d, hd1, hd2⟩ := hf
    refine ⟨hf1, d, ?_, hd2⟩
    rw [hd1]
    simp only [respMsgs_append, respMsgs_mem, respMsgs_resp, respMsgs_nil]
    split <;> simp [L1.wb]

/-- Requests that are neither reads nor writes mean the same in both specifications. -/
theorem implStep_flat {q : CReq p} (t1 : q.ty ≠ MT.READ) (t2 : q.ty ≠ MT.WRITE) (S : ByteMem) :
    implStep S q = flatStep S q := by
  simp [implStep, flatStep, t1, t2]

theorem OpImpl.of_spec {A : L1 p} {M S : ByteMem} {q : CReq p} (h : OpSpec P A M S q) (hL : P.Lines)
    (t1 : q.ty ≠ MT.READ) (t2 : q.ty ≠ MT.WRITE) : OpImpl P A M S q := by
  obtain ⟨h1, _, d, h2, h3⟩ := h
  rw [OpImpl, implStep_flat t1 t2]
  refine ⟨h1, d, h2, fun hP => ?_⟩
  cases ha : MT.isAmo q.ty
  · exact h3.2.2 t1 ha
  · exact h3.2.1 ha (hL _ _ _ hP)

/-- **One contained request.** -/
theorem op_impl (wf : p.WF) (hL : P.Lines) {A : L1 p} {M S : ByteMem} {q : CReq p} (h : Coh P A (view M) (view S))
    (hok : A.Ok) (hc : A.cur = .idle) (hv : q.Contained) : OpImpl P A M S q := by
  have hv' := hv
  cases hv with
  | read ty => exact op_rw_impl wf hL h hok hc hv' (.inl ty)
  | write ty => exact op_rw_impl wf hL h hok hc hv' (.inr ty)
  | amo ty len inside =>
    obtain ⟨t1, t2, _⟩ := amo_ty ty
    refine .of_spec (op_amo_in wf h ty ?_ (fun i i' _ _ => hL _ _ _)) hL t1 t2
    rw [lineEnd_eq, flat_eq] at inside
    omega
  | inv ty => exact .of_spec (op_inv h hc ty) hL (by rw [ty]; simp) (by rw [ty]; simp)
  | flush ty => exact .of_spec (op_flush h hc ty).1 hL (by rw [ty]; simp) (by rw [ty]; simp)

/-! ## Valid requests -/

theorem Valid.contained (wf : p.WF) {q : CReq p} (hv : q.Valid) : q.Contained := by
  have hoff := q.addr.off.isLt
  have h4 : 4 ∣ 2 ^ p.offBits := by rw [offBits_pow]; exact Nat.dvd_mul_right _ _
  cases hv with
  | read ty => exact .read ty
  | write ty k hk hk2 al =>
    refine .write ty (fun x h1 h2 _ => .inl ?_)
    have hs : q.stored = 2 ^ k := by
      rw [← maskBytes_stored wf, wordMaskBytes_pow wf hk]
    rw [hs] at h2
    obtain ⟨c, hc⟩ := al
    have : k = 0 ∨ k = 1 ∨ k = 2 := by omega
    rcases this with rfl | rfl | rfl <;> omega
  | dword ty len hp al =>
    refine .write ty (fun x h1 h2 _ => ?_)
    have hs : q.stored = 8 := by simp [CReq.stored, len]
    rw [hs] at h2
    obtain ⟨c, hc⟩ := al
    rcases Nat.lt_or_ge x (q.addr.flat + 4) with h | h
    · left; omega
    · right; exact ⟨len, by omega⟩
  | amo ty len al =>
    refine .amo ty len ?_
    have hko : 2 ≤ p.offBits := by simp only [Params.offBits]; omega
    have := fits_line hko (dvd_off (k := 2) hko al)
    rw [lineEnd_eq, flat_eq]
    omega
  | inv ty => exact .inv ty
  | flush ty => exact .flush ty

/-- For valid requests `implStep` is the flat memory `flatStep`. -/
theorem implStep_valid (wf : p.WF) {q : CReq p} (hv : q.Valid) (S : ByteMem) : implStep S q = flatStep S q := by
  by_cases t1 : q.ty = MT.READ
  · obtain ⟨k, hk, al⟩ := valid_read hv t1
    have hs : q.Sized := (sized_iff wf q).2 ⟨k, hk⟩
    simp only [implStep, flatStep, t1, if_true, hs, hk]
    rw [Nat.div_mul_cancel al]
  by_cases t2 : q.ty = MT.WRITE
  · simp only [implStep, flatStep, t2, MT.WRITE_ne_READ, if_false, if_true]
    have hpos : 0 < 2 ^ p.offBits := Nat.two_pow_pos _
    have key : ∀ k : Nat, k ≤ p.offBits → 2 ^ k ∣ q.addr.flat → q.stored = 2 ^ k →
        (∀ x, q.storedByte x = BitVec.ofNat 8 (q.data.toNat / 256 ^ (x % 2 ^ k))) →
        (fun x => if q.addr.flat ≤ x ∧ x < q.addr.flat + q.stored ∧ x < q.lineEnd then q.storedByte x else S x) =
        writeLE S q.addr.flat (2 ^ k) q.data.toNat := by
      intro k hko al hst hb
      have hf := fits_line hko (dvd_off hko al)
      funext x
      simp only [writeLE, hst, hb, lineEnd_eq]
      have hx : (q.addr.flat ≤ x ∧ x < q.addr.flat + 2 ^ k ∧ x < q.addr.la.num * 2 ^ p.offBits + 2 ^ p.offBits) ↔
          (q.addr.flat ≤ x ∧ x < q.addr.flat + 2 ^ k) := by
        rw [flat_eq]; omega
      simp only [hx]
      split
      · rename_i hr
        obtain ⟨c, hc⟩ := al
        have : x = (x - q.addr.flat) + 2 ^ k * c := by omega
        rw [show x % 2 ^ k = x - q.addr.flat by
          conv => lhs; rw [this]
          rw [Nat.add_mul_mod_self_left, Nat.mod_eq_of_lt (by omega)]]
      · rfl
    cases hv with
    | read ty => exact absurd ty t1
    | write ty k hk hk2 al =>
      have hs : q.stored = 2 ^ k := by rw [← maskBytes_stored wf, wordMaskBytes_pow wf hk]
      have h3 : ¬ q.len.toNat = 3 := by
        rcases bytes_cases hk with ⟨h1, _⟩ | ⟨h1, _⟩
        · omega
        · rw [h1]; intro h3
          have : k = 0 ∨ k = 1 ∨ k = 2 := by omega
          rcases this with rfl | rfl | rfl <;> simp at h3
      rw [key k (by simp only [Params.offBits]; omega) al hs
        (fun x => by simp only [CReq.storedByte, h3, if_false, hk])]
      simp only [h3, if_false, hk]
    | dword ty len hp al =>
      rw [key 3 (by have := wf.nw; simp only [Params.offBits]; omega) al (by simp [CReq.stored, len])
        (fun x => by simp only [CReq.storedByte, len, if_true, hp, show 2 ^ 3 = 8 by rfl])]
      simp only [len, if_true, show 2 ^ 3 = 8 by rfl]
    | amo ty => exact absurd t2 (amo_ty ty).2.1
    | inv ty => rw [t2] at ty; simp at ty
    | flush ty => rw [t2] at ty; simp at ty
  · exact implStep_flat t1 t2 S

end Verif
