import Verif.SpecEnv
import Verif.PropsConf
import Verif.PropsDisc
import Verif.PropsLive
import Verif.HetLemmas

/-!
# Whatever happens to memory can be done by other caches

For C87: every change of memory can be brought about by caches of the same shape that work on the same memory, by
atomic swaps.  So a cache in an arbitrary environment goes through what a cache of a system of equal caches goes
through, and all theorems about the events of one cache of `Sys ι p` hold for it.
-/

namespace Verif
variable {p : Params} {ι : Type} [DecidableEq ι]

/-! ## One cache of a system -/

/-- Cache `k` of the system, alone with memory (proof device). -/
def Sys.alone (S : Sys ι p) (k : ι) : Sys Unit p := ⟨fun _ => S.cache k, fun _ => S.reqQ k, fun _ => S.respQ k, S.mem⟩

/-- Put the cache back (proof device). -/
def Sys.back (S : Sys ι p) (k : ι) (U : Sys Unit p) : Sys ι p :=
  ⟨upd S.cache k (U.cache ()), upd S.reqQ k (U.reqQ ()), upd S.respQ k (U.respQ ()), U.mem⟩

/-- Name the cache of an event (proof device). -/
def Ev.to (k : ι) : Ev Unit p → Ev ι p
  | .acc _ q => .acc k q
  | .mreq _ m => .mreq k m
  | .resp _ r => .resp k r
  | .exec _ m r => .exec k m r

theorem upd_self {α : Type} (f : ι → α) (k : ι) : upd f k (f k) = f := by
  funext k'; simp only [upd]; split
  · rename_i h; rw [h]
  · rfl

theorem Sys.back_back (S : Sys ι p) (k : ι) (U V : Sys Unit p) : (S.back k U).back k V = S.back k V := by
  simp [Sys.back, upd_upd]

theorem Sys.back_alone (S : Sys ι p) (k : ι) : S.back k (S.alone k) = S := by
  simp [Sys.back, Sys.alone, upd_self]

theorem Sys.alone_back (S : Sys ι p) (k : ι) (U : Sys Unit p) : (S.back k U).alone k = U := by
  simp [Sys.back, Sys.alone]

theorem Sys.back_other (S : Sys ι p) {k k' : ι} (h : k' ≠ k) (U : Sys Unit p) :
    (S.back k U).cache k' = S.cache k' ∧ (S.back k U).reqQ k' = S.reqQ k' ∧ (S.back k U).respQ k' = S.respQ k' :=
  ⟨upd_other _ h _, upd_other _ h _, upd_other _ h _⟩

theorem step_back {U V : Sys Unit p} {ev : List (Ev Unit p)} (h : Step U ev V) (S : Sys ι p) (k : ι) :
    Step (S.back k U) (ev.map (Ev.to k)) (S.back k V) := by
  cases h with
  | clock k' i h =>
    cases k'
    have h' : (S.back k U).CanClock k i := by
      refine ⟨h.noReset, ?_, ?_⟩
      · simpa [Sys.back] using h.req
      · simpa [Sys.back] using h.mem
    have := Step.clock _ k i h'
    have e1 : (S.back k U).clock k i = S.back k (U.clock () i) := by
      simp [Sys.back, Sys.clock, upd_upd]
    have e2 : (S.back k U).clockEvs k i = (U.clockEvs () i).map (Ev.to k) := by
      simp only [Sys.clockEvs, List.map_append, apply_ite (List.map _), List.map_cons, List.map_nil, Ev.to, Sys.back, upd_same]
    rw [e1, e2] at this
    exact this
  | exec k' m ms h =>
    cases k'
    have := Step.exec (S.back k U) k m ms (by simpa [Sys.back] using h)
    have e1 : (S.back k U).exec k m = S.back k (U.exec () m) := by
      simp [Sys.back, Sys.exec, upd_upd]
    rw [e1] at this
    simpa [Ev.to, Sys.back] using this

theorem run_back {U V : Sys Unit p} {tr : List (Ev Unit p)} (h : Run U tr V) (S : Sys ι p) (k : ι) :
    Run (S.back k U) (tr.map (Ev.to k)) (S.back k V) := by
  induction h with
  | refl => exact .refl _
  | snoc _ hs ih => rw [List.map_append]; exact .snoc ih (step_back hs S k)

theorem only_to (k : ι) (tr : List (Ev Unit p)) : (tr.map (Ev.to k)).filterMap (Ev.only k) = tr := by
  induction tr with
  | nil => rfl
  | cons e tr ih =>
    rw [List.map_cons, List.filterMap_cons, ih]
    cases e <;> simp [Ev.to, Ev.only]

theorem only_to_other {k k' : ι} (h : k' ≠ k) (tr : List (Ev Unit p)) : (tr.map (Ev.to k')).filterMap (Ev.only k) = [] := by
  rw [List.filterMap_eq_nil_iff]
  intro e he
  rw [List.mem_map] at he
  obtain ⟨e, -, rfl⟩ := he
  cases e <;> simp [Ev.to, Ev.only, h]

theorem accepted_only (k : ι) (tr : List (Ev ι p)) : accepted () (tr.filterMap (Ev.only k)) = accepted k tr := by
  simp only [accepted, List.filterMap_filterMap]
  congr 1
  funext e
  cases e <;> (simp only [Ev.only]; split <;> simp)

theorem responses_only (k : ι) (tr : List (Ev ι p)) : responses () (tr.filterMap (Ev.only k)) = responses k tr := by
  simp only [responses, List.filterMap_filterMap]
  congr 1
  funext e
  cases e <;> (simp only [Ev.only]; split <;> simp)

theorem sent_only (k : ι) (tr : List (Ev ι p)) : sent () (tr.filterMap (Ev.only k)) = sent k tr := by
  simp only [sent, List.filterMap_filterMap]
  congr 1
  funext e
  cases e <;> (simp only [Ev.only]; split <;> simp)

theorem execd_only (k : ι) (tr : List (Ev ι p)) : execd () (tr.filterMap (Ev.only k)) = execd k tr := by
  simp only [execd, List.filterMap_filterMap]
  congr 1
  funext e
  cases e <;> (simp only [Ev.only]; split <;> simp)

/-! ## A cache that swaps one word -/

/-- The atomic swap of word `W` with `v` (proof device). -/
def swapReq (p : Params) (W : Nat) (v : BitVec 32) : CReq p :=
  ⟨6, 0, Addr.ofFlat p (4 * W), BitVec.ofNat _ 4, v.setWidth _⟩

theorem driveIn_some (S : Sys Unit p) (q : CReq p) (h : (driveIn S (some q)).reqEn = true) : (driveIn S (some q)).req = q := by
  simp only [driveIn] at h ⊢
  by_cases hc : (((S.cache ()).out ⟨false, false, default, true, true, false, default⟩).reqRdy && (q.ty != MT.INIT)) = true
  · simp only [if_pos hc]; split <;> rfl
  · simp only [if_neg hc] at h; split at h <;> cases h

theorem driveIn_rdy' (S : Sys Unit p) (q : CReq p) (hq : q.ty ≠ MT.INIT)
    (h : ∀ i : In p, i.respRdy = true → i.mreqRdy = true → ((S.cache ()).out i).reqRdy = true) :
    (driveIn S (some q)).reqEn = true := by
  have hc : (((S.cache ()).out ⟨false, false, default, true, true, false, default⟩).reqRdy && (q.ty != MT.INIT)) = true := by
    rw [h _ rfl rfl]; simpa using hq
  simp only [driveIn, if_pos hc]
  split <;> rfl

theorem driveIn_none (S : Sys Unit p) : (driveIn S none).reqEn = false := by
  simp only [driveIn]; split <;> rfl

theorem accepted_clockEvs_one (S : Sys Unit p) (i : In p) : accepted () (S.clockEvs () i) = if i.reqEn then [i.req] else [] := by
  simp only [Sys.clockEvs, accepted_append]
  have e1 : accepted () (if ((S.cache ()).out i).mreqEn = true then [(Ev.mreq () ((S.cache ()).out i).mreq : Ev Unit p)] else []) = [] := by
    split <;> rfl
  have e2 : accepted () (if ((S.cache ()).out i).respEn = true then [(Ev.resp () ((S.cache ()).out i).resp : Ev Unit p)] else []) = [] := by
    split <;> rfl
  rw [e1, e2, List.append_nil, List.append_nil]
  split <;> rfl

theorem live_step (S : Sys Unit p) (qs : List (CReq p)) :
    accepted () (S.clockEvs () (driveIn S qs.head?)) ++ (if (driveIn S qs.head?).reqEn then qs.tail else qs) = qs := by
  rw [accepted_clockEvs_one]
  cases qs with
  | nil =>
    show (if (driveIn S none).reqEn then _ else _) ++ (if (driveIn S none).reqEn then _ else _) = _
    rw [driveIn_none]; rfl
  | cons q l =>
    show (if (driveIn S (some q)).reqEn = true then [(driveIn S (some q)).req] else []) ++
      (if (driveIn S (some q)).reqEn = true then l else q :: l) = _
    by_cases hd : (driveIn S (some q)).reqEn = true
    · rw [if_pos hd, if_pos hd, driveIn_some _ _ hd]; rfl
    · rw [if_neg hd, if_neg hd]; rfl

/-- What was accepted and what is still to be offered. -/
theorem live_accepted (S : Sys Unit p) (qs : List (CReq p)) (t : Nat) :
    accepted () ((LiveEx.inf S qs).trace t) ++ (LiveEx.st t S qs).2 = qs := by
  induction t with
  | zero => rfl
  | succ t ih =>
    have e : (LiveEx.inf S qs).trace (t + 1) = (LiveEx.inf S qs).trace t ++
        LiveEx.evs (LiveEx.st t S qs).1 (LiveEx.st t S qs).2.head? := rfl
    rw [e, accepted_append, List.append_assoc]
    refine Eq.trans ?_ ih
    congr 1
    simp only [LiveEx.evs, LiveEx.st]
    generalize LiveEx.st t S qs = x
    cases hq : x.1.reqQ () with
    | cons m ms => rfl
    | nil => exact live_step x.1 x.2

theorem accepted_visible_one (tr : List (Ev Unit p)) :
    WM.accepted () (visible (tr.map Ev.split)) = (accepted () tr).map CReq.req := by
  induction tr with
  | nil => rfl
  | cons e tr ih =>
    have e1 : ∀ l l' : List (WM.Ev Unit), WM.accepted () (l ++ l') = WM.accepted () l ++ WM.accepted () l' := by
      intro l l'; simp [WM.accepted]
    have e2 : visible ((e :: tr).map Ev.split) = visible [Ev.split e] ++ visible (tr.map Ev.split) := by
      simp only [visible, List.map_cons]; rw [← List.filterMap_append]; rfl
    have e3 : accepted () (e :: tr) = accepted () [e] ++ accepted () tr := by
      rw [← accepted_append]; rfl
    rw [e2, e1, ih, e3, List.map_append]
    congr 1
    cases e <;> rfl

theorem responses_visible_one (tr : List (Ev Unit p)) :
    WM.responses () (visible (tr.map Ev.split)) = (responses () tr).map CResp.resp := by
  induction tr with
  | nil => rfl
  | cons e tr ih =>
    have e1 : ∀ l l' : List (WM.Ev Unit), WM.responses () (l ++ l') = WM.responses () l ++ WM.responses () l' := by
      intro l l'; simp [WM.responses]
    have e2 : visible ((e :: tr).map Ev.split) = visible [Ev.split e] ++ visible (tr.map Ev.split) := by
      simp only [visible, List.map_cons]; rw [← List.filterMap_append]; rfl
    have e3 : responses () (e :: tr) = responses () [e] ++ responses () tr := by
      simp only [responses]; rw [← List.filterMap_append]; rfl
    rw [e2, e1, ih, e3, List.map_append]
    congr 1
    cases e <;> rfl

theorem latest_one (M : ByteMem) (tr : List (WM.Ev Unit)) :
    WM.latest M tr = (WM.accepted () tr).foldl (fun M q => (WM.flat M q).1) M := by
  induction tr generalizing M with
  | nil => rfl
  | cons e tr ih =>
    cases e with
    | acc k q => simp only [WM.latest, ih, WM.accepted, List.filterMap_cons]; rfl
    | resp k r => simp only [WM.latest, ih, WM.accepted, List.filterMap_cons]

/-- The request is answered. -/
theorem live_answered (wf : p.WF) {S : Sys Unit p} (h0 : Start S) (q : CReq p) (hq : q.ty ≠ MT.INIT) :
    ∃ t, accepted () ((LiveEx.inf S [q]).trace t) = [q] ∧ 0 < (responses () ((LiveEx.inf S [q]).trace t)).length := by
  obtain ⟨f1, f2⟩ := LiveEx.inf_fair S [q]
  have acc : ∃ t, accepted () ((LiveEx.inf S [q]).trace t) = [q] := by
    rcases C15_eventually_ready wf (LiveEx.inf S [q]) h0 () f1 f2 0 with ⟨t, -, ht⟩ | ⟨t, -, ht⟩
    · refine ⟨t, ?_⟩
      have h1 := live_accepted S [q] t
      cases hs : (LiveEx.st t S [q]).2 with
      | nil => rwa [hs, List.append_nil] at h1
      | cons a l =>
        have := congrArg List.length h1
        rw [hs, List.length_append] at this
        simp only [List.length_cons, List.length_nil] at this
        omega
    · obtain ⟨t', h1, h2, -⟩ := LiveEx.inf_clock S [q] t
      have h3 := live_accepted S [q] t'
      cases hs : (LiveEx.st t' S [q]).2 with
      | nil => exact ⟨t', by rwa [hs, List.append_nil] at h3⟩
      | cons a l =>
        have h4 := congrArg List.length h3
        rw [hs, List.length_append] at h4
        simp only [List.length_cons, List.length_nil] at h4
        have h5 := List.eq_nil_of_length_eq_zero (l := accepted () ((LiveEx.inf S [q]).trace t')) (by omega)
        rw [hs, h5, List.nil_append] at h3
        obtain ⟨rfl, rfl⟩ := List.cons.inj h3
        refine ⟨t' + 1, ?_⟩
        have e : (LiveEx.inf S [a]).trace (t' + 1) = (LiveEx.inf S [a]).trace t' ++
            LiveEx.evs (LiveEx.st t' S [a]).1 (LiveEx.st t' S [a]).2.head? := rfl
        have h2 : (LiveEx.st t' S [a]).1.reqQ () = [] := h2
        have ho := driveIn_rdy' (LiveEx.st t' S [a]).1 a hq (ht t' h1)
        rw [e, accepted_append, h5, hs]
        simp only [LiveEx.evs, h2, List.head?_cons, accepted_clockEvs_one, ho, if_true, List.nil_append]
        rw [driveIn_some _ _ ho]
  obtain ⟨t, ht⟩ := acc
  obtain ⟨t', h1, h2⟩ := C15_eventually_answered wf (LiveEx.inf S [q]) h0 () f1 f2 t
  refine ⟨t', ?_, by rw [ht] at h2; exact h2⟩
  have h3 := live_accepted S [q] t'
  obtain ⟨d, rfl⟩ : ∃ d, t' = t + d := ⟨t' - t, by omega⟩
  rw [Inf.trace_add, accepted_append, ht] at h3 ⊢
  have := congrArg List.length h3
  simp only [List.length_append, List.length_cons, List.length_nil] at this
  rw [List.eq_nil_of_length_eq_zero (l := accepted () ((LiveEx.inf S [q]).from t d)) (by omega)]
  rfl

theorem swap_flat {W : Nat} (hW : 4 * W < 2 ^ p.addrBits) (v : BitVec 32) : (swapReq p W v).addr.flat = 4 * W :=
  (C27_pack_unpack p).2 _ hW

theorem swap_valid (wf : p.WF) {W : Nat} (hW : 4 * W < 2 ^ p.addrBits) (v : BitVec 32) : (swapReq p W v).Valid := by
  refine .amo (by decide : 3 ≤ (6 : MType).toNat ∧ (6 : MType).toNat ≤ 11) ?_ (by rw [swap_flat hW]; omega)
  by_cases h : p.lenBits = 2
  · exact .inl h
  · refine .inr ?_
    have h2 := wf.len.1
    have : 2 ^ 3 ≤ 2 ^ p.lenBits := Nat.pow_le_pow_right (by decide) (by omega)
    simp only [swapReq, BitVec.toNat_ofNat]
    exact Nat.mod_eq_of_lt (by omega)

/-- A cache that has just been reset can change any word of memory to any value. -/
theorem swap_run (wf : p.WF) {S : Sys Unit p} (h0 : Start S) {W : Nat} (hW : 4 * W < 2 ^ p.addrBits) (v : BitVec 32) :
    ∃ tr S', Run S tr S' ∧ accepted () tr = [swapReq p W v] ∧ ∀ x, S'.mem x = if x / 4 = W then BitVec.ofNat 8 (v.toNat / 256 ^ (x % 4)) else S.mem x := by
  obtain ⟨t, h1, h2⟩ := live_answered wf h0 (swapReq p W v) (show (6 : MType) ≠ MT.INIT by decide)
  have hr : Run S _ _ := (LiveEx.inf S [swapReq p W v]).run t
  refine ⟨_, _, hr, h1, ?_⟩
  generalize (LiveEx.inf S [swapReq p W v]).trace t = tr at h1 h2 hr
  generalize (LiveEx.inf S [swapReq p W v]).st t = S' at hr
  have hfl := swap_flat hW v
  have ha : WM.accepted () (visible (tr.map Ev.split)) = [(swapReq p W v).req] := by rw [accepted_visible_one, h1]; rfl
  have hl : 0 < (WM.responses () (visible (tr.map Ev.split))).length := by rw [responses_visible_one, List.length_map]; exact h2
  have hamo : MT.isAmo (swapReq p W v).req.ty = true := rfl
  have hv : HValid (tr.map Ev.split) := by
    intro k u q hq
    rw [List.mem_map] at hq
    obtain ⟨e, he, h⟩ := hq
    have : q ∈ accepted () tr := by
      cases e with
      | acc k' q' =>
        cases h
        simp only [accepted, List.mem_filterMap]
        exact ⟨_, he, by simp⟩
      | mreq => cases h
      | resp => cases h
      | exec => cases h
    rw [h1, List.mem_singleton] at this
    subst this
    exact swap_valid wf hW v
  intro x
  have key := C65_memory (p := fun _ => p) (fun _ => wf) (split_start h0) (split_run hr) hv (W := x / 4) ?_ ?_ (x := x) rfl
  · refine Eq.trans key ?_
    rw [latest_one, ha]
    have hty : (swapReq p W v).req.ty = 6 := rfl
    have had : (swapReq p W v).req.addr = 4 * W := hfl
    have hda : BitVec.ofNat 32 (swapReq p W v).req.data = v := by
      have h32 : 32 ≤ p.dataBits := by
        have : 2 ^ 2 ≤ 2 ^ p.lenBits := Nat.pow_le_pow_right (by decide) wf.len.1
        simp only [Params.dataBits]; omega
      have hlt : v.toNat < 2 ^ p.dataBits := Nat.lt_of_lt_of_le v.isLt (Nat.pow_le_pow_right (by decide) h32)
      have e : (swapReq p W v).req.data = v.toNat := by
        show (v.setWidth p.dataBits).toNat = _
        rw [BitVec.toNat_setWidth, Nat.mod_eq_of_lt hlt]
      rw [e]
      apply BitVec.eq_of_toNat_eq
      rw [BitVec.toNat_ofNat, Nat.mod_eq_of_lt v.isLt]
    have hfun : ∀ m a : BitVec 32, amoFun 6 m a = a := fun _ _ => rfl
    simp only [List.foldl_cons, List.foldl_nil, WM.flat, hty, had, hda, hfun]
    rw [if_neg (by decide : ¬ (6 : MType) = MT.READ), if_neg (by decide : ¬ (6 : MType) = MT.WRITE),
      if_pos (by decide : MT.isAmo (6 : MType) = true)]
    simp only [writeLE]
    by_cases hx : x / 4 = W
    · rw [if_pos hx, if_pos (by omega), show x - 4 * W = x % 4 by omega]
    · rw [if_neg hx, if_neg (by omega)]; rfl
  · intro k a q b he
    exact ⟨fun _ k' hk => absurd rfl hk, fun _ k' hk => absurd rfl hk⟩
  · intro k a q b he hs
    cases k
    have hq : WM.accepted () a ++ q :: WM.accepted () b = [(swapReq p W v).req] := by
      rw [← ha, he]; simp [WM.accepted]
    have hn : WM.accepted () a = [] := by
      have := congrArg List.length hq
      simp only [List.length_append, List.length_cons, List.length_nil] at this
      exact List.eq_nil_of_length_eq_zero (by omega)
    rw [hn, List.nil_append] at hq
    obtain ⟨rfl, -⟩ := List.cons.inj hq
    refine ⟨[], _, b, rfl, .inr ⟨hamo, ?_⟩, ?_⟩
    · rcases hs with h | h
      · exact absurd h.1 (show ¬ (6 : MType) = MT.WRITE by decide)
      · exact h.2
    · rw [List.append_nil, hn, ← he]; exact hl

/-! ## Playing the environment -/

/-- Only messages of a cache that stay within the address space. -/
theorem asked_local {m : MReq p} {qs : List (CReq p)} (h : m.AskedFor qs)
    (hf : ∀ q ∈ qs, MT.isAmo q.ty = true → q.addr.flat + 4 ≤ 2 ^ p.addrBits) {M M' : ByteMem}
    (hM : ∀ x, x < 2 ^ p.addrBits → M x = M' x) :
    (memExec M m).2 = (memExec M' m).2 ∧ ∀ x, x < 2 ^ p.addrBits → (memExec M m).1 x = (memExec M' m).1 x := by
  have hbase : ∀ (t : Tag p) (j : Idx p), (⟨t, j, 0⟩ : Addr p).flat + 2 ^ p.offBits ≤ 2 ^ p.addrBits := by
    intro t j
    have h1 := Addr.num_lt (⟨t, j, 0⟩ : Addr p).la
    have h2 : (⟨t, j, 0⟩ : Addr p).flat = (⟨t, j, 0⟩ : Addr p).la.num * 2 ^ p.offBits := by
      rw [flat_eq]; simp
    have e : 2 ^ p.addrBits = 2 ^ (p.tagBits + p.idxBits) * 2 ^ p.offBits := by
      rw [← Nat.pow_add]; simp only [Params.addrBits]; congr 1; omega
    rw [h2, e, ← Nat.succ_mul]
    exact Nat.mul_le_mul_right _ h1
  rcases h with ⟨q, -, -, h1, h2, h3⟩ | ⟨q, -, -, h1, -, -, -⟩ | ⟨q, hq, h1, h2, h3, -⟩
  · have hb : m.bytes = 2 ^ p.offBits := by simp [MReq.bytes, h3]
    have := hbase q.addr.tag q.addr.idx
    simp only [memExec, if_pos h1]
    refine ⟨?_, hM⟩
    rw [readLE_agree (M := M) (M' := M')]
    intro x _ hx
    rw [h2, hb] at hx
    exact hM x (by omega)
  · have t : m.ty ≠ MT.READ := by rw [h1]; decide
    simp only [memExec, if_neg t, if_pos h1]
    refine ⟨trivial, fun x hx => ?_⟩
    rw [portMaskedWrite_byte, portMaskedWrite_byte, hM x hx]
  · have t1 : m.ty ≠ MT.READ := by rw [h2]; intro h; rw [h] at h1; cases h1
    have t2 : m.ty ≠ MT.WRITE := by rw [h2]; intro h; rw [h] at h1; cases h1
    have hr : readLE M m.addr.flat 4 = readLE M' m.addr.flat 4 := by
      have := hf q hq h1
      refine readLE_agree fun x _ hx => hM x ?_
      rw [h3] at hx
      omega
    simp only [memExec, if_neg t1, if_neg t2, hr]
    refine ⟨trivial, fun x hx => ?_⟩
    simp only [writeLE, hM x hx]

/-- The system of equal caches in which cache `none` goes through what the cache of `G` goes through, and caches
`some 0` to `some (n - 1)` have changed memory (proof device). -/
structure Played (F : Sys Unit p) (n : Nat) (R : Sys (Option Nat) p) (G : Sys Unit p) : Prop where
  cache : R.cache none = G.cache ()
  reqQ : R.reqQ none = G.reqQ ()
  respQ : R.respQ none = G.respQ ()
  mem : ∀ x, x < 2 ^ p.addrBits → R.mem x = G.mem x
  fresh : ∀ j, n ≤ j → R.cache (some j) = F.cache () ∧ R.reqQ (some j) = [] ∧ R.respQ (some j) = []

/-- The other caches were only asked to swap words outside `D` (proof device). -/
def Pokes (D : Nat → Prop) (tr : List (Ev (Option Nat) p)) : Prop :=
  ∀ j, ∀ q ∈ accepted (some j) tr, ∃ W v, q = swapReq p W v ∧ 4 * W < 2 ^ p.addrBits ∧ ¬ D W

theorem Pokes.append {D : Nat → Prop} {a b : List (Ev (Option Nat) p)} (h : Pokes D a) (h' : Pokes D b) : Pokes D (a ++ b) := by
  intro j q hq
  rw [accepted_append, List.mem_append] at hq
  exact hq.elim (h j q) (h' j q)

theorem Pokes.nil {D : Nat → Prop} : Pokes D ([] : List (Ev (Option Nat) p)) := fun _ _ h => by cases h

theorem accepted_to (k k' : ι) (tr : List (Ev Unit p)) :
    accepted k' (tr.map (Ev.to k)) = if k = k' then accepted () tr else [] := by
  rw [← accepted_only]
  split
  · rename_i h; subst h; rw [only_to]
  · rename_i h; rw [only_to_other h]; rfl

theorem poke (wf : p.WF) {F : Sys Unit p} (hF : Start F) {n : Nat} {R : Sys (Option Nat) p} {G : Sys Unit p}
    (h : Played F n R G) {W : Nat} (hW : 4 * W < 2 ^ p.addrBits) {D : Nat → Prop} (hD : ¬ D W) (M : ByteMem) :
    ∃ tr R', Run R tr R' ∧ Pokes D tr ∧ tr.filterMap (Ev.only none) = [] ∧
      Played F (n + 1) R' { G with mem := R'.mem } ∧ ∀ x, R'.mem x = if x / 4 = W then M x else R.mem x := by
  obtain ⟨f1, f2, f3⟩ := h.fresh n (Nat.le_refl _)
  have hS : Start (R.alone (some n)) := by
    refine ⟨fun k => ?_, fun _ => f2, fun _ => f3⟩
    obtain ⟨s, i, h1, h2⟩ := hF.reset ()
    exact ⟨s, i, h1, by rw [← h2, ← f1]; rfl⟩
  obtain ⟨tr, S', hr, ha, hm⟩ := swap_run wf hS hW (BitVec.ofNat 32 (readLE M (4 * W) 4))
  have hr' := run_back hr R (some n)
  rw [Sys.back_alone] at hr'
  have hp : Pokes D (tr.map (Ev.to (some n))) := by
    intro j q hq
    rw [accepted_to] at hq
    split at hq
    · rw [ha, List.mem_singleton] at hq
      exact ⟨W, _, hq, hW, hD⟩
    · cases hq
  refine ⟨_, _, hr', hp, only_to_other (by simp) tr, ⟨?_, ?_, ?_, fun _ _ => rfl, fun j hj => ?_⟩, ?_⟩
  · exact (Sys.back_other R (by simp : (none : Option Nat) ≠ some n) S').1.trans h.cache
  · exact (Sys.back_other R (by simp : (none : Option Nat) ≠ some n) S').2.1.trans h.reqQ
  · exact (Sys.back_other R (by simp : (none : Option Nat) ≠ some n) S').2.2.trans h.respQ
  · have hne : (some j : Option Nat) ≠ some n := by intro h; cases h; omega
    obtain ⟨g1, g2, g3⟩ := h.fresh j (by omega)
    obtain ⟨e1, e2, e3⟩ := Sys.back_other R hne S'
    exact ⟨e1.trans g1, e2.trans g2, e3.trans g3⟩
  · intro x
    show S'.mem x = _
    rw [hm]
    by_cases hx : x / 4 = W
    · rw [if_pos hx, if_pos hx]
      apply BitVec.eq_of_toNat_eq
      have h1 := readLE_lt M (4 * W) 4
      rw [BitVec.toNat_ofNat, BitVec.toNat_ofNat, Nat.mod_eq_of_lt h1]
      refine (readLE_byte M (4 * W) 4 (x % 4) (by omega)).trans ?_
      rw [show 4 * W + x % 4 = x by omega]
    · rw [if_neg hx, if_neg hx]; rfl

/-- Other caches can bring memory into any state. -/
theorem sync (wf : p.WF) {F : Sys Unit p} (hF : Start F) {n : Nat} {R : Sys (Option Nat) p} {G : Sys Unit p}
    (h : Played F n R G) {D : Nat → Prop} (M : ByteMem) (hD : ∀ x, D (x / 4) → M x = G.mem x) :
    ∃ tr R' n', Run R tr R' ∧ Pokes D tr ∧ tr.filterMap (Ev.only none) = [] ∧ Played F n' R' { G with mem := M } := by
  have key : ∀ N, 4 * N ≤ 2 ^ p.addrBits → ∃ tr R' n', Run R tr R' ∧ Pokes D tr ∧ tr.filterMap (Ev.only none) = [] ∧
      Played F n' R' { G with mem := R'.mem } ∧ (∀ x, x / 4 < N → R'.mem x = M x) ∧ ∀ x, N ≤ x / 4 → R'.mem x = R.mem x := by
    intro N
    induction N with
    | zero =>
      exact fun _ => ⟨[], R, n, .refl _, .nil, rfl, ⟨h.cache, h.reqQ, h.respQ, fun _ _ => rfl, h.fresh⟩, fun x hx => by omega,
        fun _ _ => rfl⟩
    | succ N ih =>
      intro hN
      obtain ⟨tr, R', n', h1, h0, h2, h3, h4, h5⟩ := ih (by omega)
      by_cases hDN : D N
      · refine ⟨tr, R', n', h1, h0, h2, h3, fun x hx => ?_, fun x hx => h5 x (by omega)⟩
        by_cases hx' : x / 4 < N
        · exact h4 x hx'
        · have e : x / 4 = N := by omega
          rw [h5 x (by omega), hD x (by rw [e]; exact hDN)]
          exact h.mem x (by omega)
      · obtain ⟨tr', R'', g1, g0, g2, g3, g4⟩ := poke wf hF h3 (W := N) (by omega) hDN M
        refine ⟨tr ++ tr', R'', n' + 1, h1.trans g1, h0.append g0, by rw [List.filterMap_append, h2, g2]; rfl, g3, fun x hx => ?_,
          fun x hx => ?_⟩
        · rw [g4]
          split
          · rfl
          · exact h4 x (by omega)
        · rw [g4, if_neg (by omega)]
          exact h5 x (by omega)
  have h4 : 4 ∣ 2 ^ p.addrBits := by
    have : p.addrBits = (p.tagBits + p.idxBits + p.nwBits) + 2 := by simp only [Params.addrBits, Params.offBits]; omega
    rw [this, Nat.pow_add]; exact ⟨_, Nat.mul_comm _ _⟩
  obtain ⟨N, hN⟩ := h4
  obtain ⟨tr, R', n', h1, h0, h2, h3, h5, -⟩ := key N (by omega)
  exact ⟨tr, R', n', h1, h0, h2, ⟨h3.cache, h3.reqQ, h3.respQ, fun x hx => h5 x (by omega), h3.fresh⟩⟩

theorem accepted_mono {a b : List (Ev Unit p)} {q : CReq p} (h : q ∈ accepted () a) : q ∈ accepted () (a ++ b) := by
  rw [accepted_append]; exact List.mem_append_left _ h

/-- **Representation.**  What a cache goes through in an environment that changes memory at will, it goes through in a
system of equal caches. -/
theorem ORun.play_on (wf : p.WF) {D : Nat → Prop} {F S S' : Sys Unit p} {tr₀ tr : List (Ev Unit p)} (hF : Start F) (h : ORun D S tr S')
    (hf : AmosFit (tr₀ ++ tr)) {R₀ R : Sys (Option Nat) p} {trR₀ : List (Ev (Option Nat) p)} {n : Nat} (g1 : Start R₀)
    (hr : Run R₀ trR₀ R) (hp : Played F n R S) (ht : trR₀.filterMap (Ev.only none) = tr₀) :
    ∃ (R' : Sys (Option Nat) p) (trR : List (Ev (Option Nat) p)) (n' : Nat), Run R trR R' ∧ Played F n' R' S' ∧
      trR.filterMap (Ev.only none) = tr ∧ Pokes D trR := by
  induction h with
  | refl => exact ⟨R, [], n, .refl _, hp, rfl, .nil⟩
  | @snoc S S' tr ev h hs ih =>
    obtain ⟨R', trR, n, g2, g3, g4, g5⟩ := ih (fun q hq => hf q (by rw [← List.append_assoc]; exact accepted_mono hq))
    cases hs with
    | outside M hM =>
      obtain ⟨tr', R'', n', k1, k0, k2, k3⟩ := sync wf hF g3 M hM
      exact ⟨R'', trR ++ tr', n', g2.trans k1, k3, by rw [List.filterMap_append, g4, k2], g5.append k0⟩
    | own hs =>
      cases hs with
      | clock k i hc =>
        cases k
        have hc' : R'.CanClock none i := ⟨hc.noReset, by rw [g3.cache]; exact hc.req, by rw [g3.respQ]; exact hc.mem⟩
        refine ⟨_, _, n, g2.snoc (.clock _ none i hc'), ⟨?_, ?_, ?_, g3.mem, ?_⟩, ?_, g5.append ?_⟩
        · simp [Sys.clock, g3.cache]
        · simp [Sys.clock, g3.cache, g3.reqQ]
        · simp [Sys.clock, g3.respQ]
        · intro j hj
          have hne : (some j : Option Nat) ≠ none := by simp
          obtain ⟨e1, e2, e3⟩ := g3.fresh j hj
          obtain ⟨d1, d2, d3⟩ := clock_other (S := R') hne i
          exact ⟨d1.trans e1, d2.trans e2, d3.trans e3⟩
        · rw [List.filterMap_append, g4]
          congr 1
          have e2 : R'.clockEvs none i = (S.clockEvs () i).map (Ev.to none) := by
            simp only [Sys.clockEvs, List.map_append, apply_ite (List.map _), List.map_cons, List.map_nil, Ev.to, g3.cache]
          rw [e2, only_to]
        · have e2 : R'.clockEvs none i = (S.clockEvs () i).map (Ev.to none) := by
            simp only [Sys.clockEvs, List.map_append, apply_ite (List.map _), List.map_cons, List.map_nil, Ev.to, g3.cache]
          intro j q hq
          rw [e2, accepted_to, if_neg (by simp)] at hq
          cases hq
      | exec k m ms hq =>
        cases k
        have hst := Step.exec R' none m ms (by rw [g3.reqQ]; exact hq)
        have hask := exec_cause wf g1 (a := trR₀ ++ trR) (b := []) ((hr.trans g2).snoc hst)
        rw [← accepted_only, List.filterMap_append, ht, g4] at hask
        obtain ⟨l1, l2⟩ := asked_local hask (fun q hq => hf q (by rw [← List.append_assoc]; exact accepted_mono hq)) g3.mem
        refine ⟨_, _, n, g2.snoc hst, ⟨g3.cache, ?_, ?_, l2, ?_⟩, ?_, g5.append ?_⟩
        · simp [Sys.exec, g3.reqQ]
        · simp [Sys.exec, g3.respQ, l1]
        · intro j hj
          have hne : (some j : Option Nat) ≠ none := by simp
          obtain ⟨e1, e2, e3⟩ := g3.fresh j hj
          refine ⟨e1, ?_, ?_⟩
          · simpa [Sys.exec, upd] using e2
          · simpa [Sys.exec, upd] using e3
        · rw [List.filterMap_append, g4, l1]; rfl
        · intro j q hq; cases hq

theorem ORun.play (wf : p.WF) {D : Nat → Prop} {F S' : Sys Unit p} {tr : List (Ev Unit p)} (hF : Start F) (h : ORun D F tr S')
    (hf : AmosFit tr) :
    ∃ (R R' : Sys (Option Nat) p) (trR : List (Ev (Option Nat) p)) (n : Nat), Start R ∧ R.mem = F.mem ∧ Run R trR R' ∧
      Played F n R' S' ∧ trR.filterMap (Ev.only none) = tr ∧ Pokes D trR := by
  have g1 : Start (⟨fun _ => F.cache (), fun _ => [], fun _ => [], F.mem⟩ : Sys (Option Nat) p) :=
    ⟨fun _ => hF.reset (), fun _ => rfl, fun _ => rfl⟩
  obtain ⟨R', trR, n, h1, h2, h3, h4⟩ := h.play_on wf hF (tr₀ := []) hf g1 (.refl _) (n := 0)
    ⟨rfl, (hF.reqQ ()).symm, (hF.respQ ()).symm, fun _ _ => rfl, fun _ _ => ⟨rfl, rfl, rfl⟩⟩ rfl
  exact ⟨_, R', trR, n, g1, rfl, h1, h2, h3, h4⟩

end Verif
