import Verif.Addr
import Verif.PropsFL

/-!
# RTL against the FL reference model: test bits (C03), data (C30), whole
responses
-/

namespace Verif
namespace FL
variable {p : Params} {ι : Type} [DecidableEq ι]

/-- What `gen_req_resp` (sim_utils.py:94-107) does to the tracker for one
request, and the value of the test field. -/
def Tracker.request (c : Cfg) (s : Tracker) (q : CReq p) : Tracker × Bool :=
  if q.ty = MT.READ ∨ q.ty = MT.WRITE then s.access c q.addr.flat
  else if MT.isAmo q.ty then (s.amo c q.addr.flat, false)
  else if q.ty = MT.INV then (s.invalidate, false)
  else (s, false)

/-- Hit values predicted by the tracker for a request sequence. Proof device; not in the source. -/
def Tracker.hits (c : Cfg) : Tracker → List (CReq p) → List Bool
  | _, [] => []
  | s, q :: qs => (s.request c q).2 :: (s.request c q).1.hits c qs

/-- The tracker and the LRU directory agree. Proof device; not in the source. -/
def Agree (s : Tracker) (d : Lru p) : Prop :=
  TInv (Cfg.of p) s ∧ ∀ j : Idx p, s.dir j.toNat = (d j).map BitVec.toNat

theorem map_erase_toNat {n : Nat} (l : List (BitVec n)) (t : BitVec n) :
    (l.map BitVec.toNat).erase t.toNat = (l.erase t).map BitVec.toNat :=
  (map_erase_of_inj fun _ _ h => BitVec.eq_of_toNat_eq h).symm

theorem nways_pos : 1 ≤ (Cfg.of p).nways := by
  simp only [Cfg.of, Params.ways]; split <;> simp

theorem Agree.request {s : Tracker} {d : Lru p} (h : Agree s d) (q : CReq p) :
    Agree (s.request (Cfg.of p) q).1 (lruStep p.ways.length d q).1 ∧
    (s.request (Cfg.of p) q).2 = (lruStep p.ways.length d q).2 := by
  obtain ⟨h1, h2⟩ := h
  have hinj : ∀ (j : Idx p), (j.toNat = q.addr.idx.toNat) ↔ (j = q.addr.idx) := fun j =>
    ⟨BitVec.eq_of_toNat_eq, fun h => h ▸ rfl⟩
  simp only [Tracker.request, lruStep]
  split
  · obtain ⟨a1, a2, a3⟩ := access_set nways_pos h1 q.addr.flat
    refine ⟨⟨a1, fun j => ?_⟩, ?_⟩
    · rw [a3, idx_flat, tag_flat, if_congr (hinj j) rfl rfl]
      by_cases hj : j = q.addr.idx
      · subst hj
        simp only [if_true, touch, h2, map_erase_toNat]
        rw [← List.map_cons, List.map_take]; rfl
      · simp only [hj, if_false, h2]
    · rw [a2, idx_flat, tag_flat, h2, decide_eq_decide]
      constructor
      · intro h
        obtain ⟨x, hx, he⟩ := List.mem_map.1 h
        exact BitVec.eq_of_toNat_eq he ▸ hx
      · exact fun h => List.mem_map_of_mem h
  · split
    · obtain ⟨a1, a3⟩ := amo_set h1 q.addr.flat
      refine ⟨⟨a1, fun j => ?_⟩, rfl⟩
      rw [a3, idx_flat, tag_flat, if_congr (hinj j) rfl rfl]
      by_cases hj : j = q.addr.idx
      · subst hj
        simp only [if_true, h2, map_erase_toNat]
      · simp only [hj, if_false, h2]
    · split
      · exact ⟨⟨h1.invalidate, fun j => by simp [invalidate_dir]⟩, rfl⟩
      · exact ⟨⟨h1, h2⟩, rfl⟩

theorem Agree.init : Agree (Tracker.init (Cfg.of p)) (fun _ : Idx p => []) :=
  ⟨TInv.init _, fun j => by simp [Tracker.init, Tracker.dir]⟩

theorem lruFold_eq (n : Nat) (qs : List (CReq p)) (d : Lru p) (bs : List Bool) :
    ∀ s, Agree s d → n = p.ways.length →
    (qs.foldl (fun x q => ((lruStep n x.1 q).1, x.2 ++ [(lruStep n x.1 q).2])) (d, bs)).2 =
      bs ++ s.hits (Cfg.of p) qs := by
  induction qs generalizing d bs with
  | nil => intro s _ _; simp [Tracker.hits]
  | cons q qs ih =>
    intro s h hn
    obtain ⟨h1, h2⟩ := h.request q
    rw [List.foldl_cons, ih _ _ _ (hn ▸ h1) hn, Tracker.hits, h2, hn]
    simp

theorem hits_eq_lru (qs : List (CReq p)) :
    (Tracker.init (Cfg.of p)).hits (Cfg.of p) qs = (lruRun p.ways.length qs).2 := by
  have := lruFold_eq p.ways.length qs (fun _ => []) [] _ Agree.init rfl
  rw [lruRun, this]; simp

/-- **C03.**  The test fields of the responses delivered so far by a cache are, in
order, the hit values that the `HitMissTracker` of the FL reference model
predicts for the accepted requests (0 for AMO, INV and FLUSH).  Any number of
caches, any stalls and latencies. -/
theorem C03_test_equals_FL_tracker (wf : p.WF) {S S' : Sys ι p} {tr : List (Ev ι p)} (h0 : Start S)
    (h : Run S tr S') (k : ι) :
    (responses k tr).map (·.test) <+:
      ((Tracker.init (Cfg.of p)).hits (Cfg.of p) (accepted k tr)).map testBit := by
  rw [hits_eq_lru]
  exact C03_test_is_lru_hit wf h0 h k

set_option maxRecDepth 10000 in
/-- Write (miss), read (hit), flush. -/
example : ∃ (S S' : Sys Unit p0) (tr : List (Ev Unit p0)), Start S ∧ Run S tr S' ∧
    (responses () tr).map (·.test) = [0, 1, 0] ∧
    ((Tracker.init (Cfg.of p0)).hits (Cfg.of p0) (accepted () tr)) = [false, true, false] :=
  ⟨_, _, _, start0_start p0, Ex.isRun 28, by decide, by decide⟩

/-! ## Data -/

/-- The dictionary of `ModelCache` and the flat memory agree. Proof device; not in the source. -/
def DAgree (m : Nat → Option (Line p)) (M : ByteMem) : Prop := ∀ la : LAddr p, lookup m la.num = view M la

theorem lookup_put (m : Nat → Option (Line p)) (n k : Nat) (v : Line p) :
    lookup (put m n (some v)) k = if k = n then v else lookup m k := by
  simp only [lookup, put]; split <;> rfl

theorem setSlice_eq {w : Nat} (l : Line p) (off n : Nat) (d : BitVec w) :
    setSlice l (8 * off) (8 * n) d = putBytes l off n d.toNat := by
  apply BitVec.eq_of_getLsbD_eq
  intro i hi
  rw [getLsbD_putBytes _ _ _ _ _ hi]
  simp only [setSlice, getLsbD_mkBits, hi, decide_true, Bool.true_and]
  exact if_congr (by omega) rfl rfl

theorem DAgree.write {m : Nat → Option (Line p)} {M : ByteMem} (h : DAgree m M) {w : Nat} (a : Addr p) (n : Nat)
    (d : BitVec w) (hf : a.off.toNat + n ≤ 2 ^ p.offBits) :
    DAgree (put m a.la.num (some (setSlice (lookup m a.la.num) (8 * a.off.toNat) (8 * n) d)))
      (writeLE M a.flat n d.toNat) := by
  intro la
  rw [lookup_put, flat_eq, view_write _ _ _ _ _ hf, setSlice_eq, h]
  by_cases hla : la = a.la
  · subst hla; simp
  · have : ¬ la.num = a.la.num := fun e => hla (LAddr.num_inj e)
    simp only [hla, this, if_false, h la]

theorem getSlice_eq {m : Nat → Option (Line p)} {M : ByteMem} (h : DAgree m M) (w : Nat) (a : Addr p) (n : Nat)
    (hf : a.off.toNat + n ≤ 2 ^ p.offBits) :
    getSlice (lookup m a.la.num) w (8 * a.off.toNat) (8 * n) = BitVec.ofNat w (readLE M a.flat n) := by
  apply BitVec.eq_of_getLsbD_eq
  intro i hi
  rw [BitVec.getLsbD_ofNat, flat_eq, read_view _ _ _ _ _ hf, h]
  simp only [getSlice, getLsbD_mkBits]

theorem DAgree.touch {m : Nat → Option (Line p)} {M : ByteMem} (h : DAgree m M) (n : Nat) :
    DAgree (put m n (some (lookup m n))) M := by
  intro la
  rw [lookup_put]
  split
  · rename_i e; rw [← e]; exact h la
  · exact h la

/-- The AMO table of the FL model is the specification. -/
theorem AMO_FUNS_spec {t : MType} {f} (h : AMO_FUNS t = some f) (m a : BitVec 32) : f m a = amoFun t m a := by
  simp only [AMO_FUNS] at h
  simp only [amoFun]
  split at h
  case h_6 he =>
    injection h with h; subst h; simp only [he]
    by_cases h1 : a.toNat < m.toNat
    · have : ¬ m.toNat < a.toNat := by omega
      simp [h1, this]
    · by_cases h2 : m.toNat < a.toNat
      · simp [h1, h2]
      · simp only [h1, h2, if_false]; exact BitVec.eq_of_toNat_eq (by omega)
  case h_8 he =>
    injection h with h; subst h; simp only [he]
    by_cases h1 : a.toNat > m.toNat
    · have : ¬ m.toNat > a.toNat := by omega
      simp [h1, this]
    · by_cases h2 : m.toNat > a.toNat
      · simp [h1, h2]
      · simp only [h1, h2, if_false]; exact BitVec.eq_of_toNat_eq (by omega)
  case h_10 => exact absurd h (by simp)
  all_goals
    rename_i he
    injection h with h; subst h; simp only [he]

/-- One request: if the FL model does not raise, its response carries the data
of the flat memory.  (The FL model writes 3 bytes for a length-3 write; there the
RTL and the flat memory store a double word, so that case is excluded.) -/
theorem step_data {c : Cfg} {s s' : Model p} {q : CReq p} {r : CResp p} {M : ByteMem}
    (h : DAgree s.mem M) (hq : q.ty ≠ MT.INIT) (h3 : ¬ (q.ty = MT.WRITE ∧ q.len.toNat = 3))
    (hs : s.step c q = some (s', r)) :
    DAgree s'.mem (flatStep M q).1 ∧ r.data = (flatStep M q).2 ∧
    s'.tracker = (s.tracker.request c q).1 ∧ r.test = testBit (s.tracker.request c q).2 ∧
    r.ty = q.ty ∧ r.opq = q.opq ∧ r.len = (if q.ty = MT.INV ∨ q.ty = MT.FLUSH then 0 else q.len) := by
  have hnb : nbytes q = q.bytes := rfl
  simp only [Model.step, slice_num, slice_off, hq, if_false] at hs
  by_cases h0 : q.ty = MT.READ
  · simp only [h0, if_true] at hs
    split at hs
    · rename_i hf
      simp only [Option.some.injEq, Prod.mk.injEq] at hs
      obtain ⟨rfl, rfl⟩ := hs
      simp only [flatStep, Tracker.request, h0, if_true, MT.READ_ne_INV, MT.READ_ne_FLUSH, or_self, if_false, true_or, true_and]
      refine ⟨h.touch _, ?_, trivial⟩
      rw [getSlice_eq h _ _ _ hf, hnb]
    · simp at hs
  by_cases h1 : q.ty = MT.WRITE
  · simp only [h1, if_true, MT.WRITE_ne_READ, if_false] at hs
    split at hs
    · rename_i hf
      simp only [Option.some.injEq, Prod.mk.injEq] at hs
      obtain ⟨rfl, rfl⟩ := hs
      have h3 : ¬ q.len.toNat = 3 := fun e => h3 ⟨h1, e⟩
      simp only [flatStep, Tracker.request, h1, if_true, MT.WRITE_ne_READ, MT.WRITE_ne_INV, MT.WRITE_ne_FLUSH, or_self,
        if_false, or_true, true_and, h3]
      refine ⟨?_, trivial⟩
      exact h.write _ _ _ hf
    · simp at hs
  simp only [h0, h1, if_false] at hs
  by_cases h4 : MT.AMO.toNat ≤ q.ty.toNat ∧ q.ty.toNat ≤ 11
  · simp only [h4, and_self, if_true] at hs
    have ha : MT.isAmo q.ty = true := by
      have h43 : 3 ≤ q.ty.toNat := h4.1
      have : q.ty.toNat < 14 := by omega
      simp [MT.isAmo, h43, this]
    have hinv : q.ty ≠ MT.INV := fun e => by rw [e] at ha; simp at ha
    have hfl : q.ty ≠ MT.FLUSH := fun e => by rw [e] at ha; simp at ha
    split at hs
    · rename_i k f hk hf
      split at hs
      · rename_i l hl
        split at hs
        · rename_i hfit
          simp only [Option.some.injEq, Prod.mk.injEq] at hs
          obtain ⟨rfl, rfl⟩ := hs
          simp only [amoKey, slice_num] at hk
          split at hk
          · simp only [Option.some.injEq] at hk
            subst hk
            have hll : lookup s.mem q.addr.la.num = l := by simp [lookup, hl]
            have hg := getSlice_eq h 32 q.addr 4 hfit
            rw [hll, show 8 * 4 = 32 from rfl] at hg
            simp only [flatStep, Tracker.request, h0, h1, ha, if_true, if_false, or_self, hinv, hfl, true_and, hg]
            refine ⟨?_, rfl, trivial⟩
            have := h.write q.addr 4 (f (BitVec.ofNat 32 (readLE M q.addr.flat 4)) (q.data.setWidth 32)) hfit
            rw [hll, show 8 * 4 = 32 from rfl, AMO_FUNS_spec hf] at this
            rw [AMO_FUNS_spec hf]
            exact this
          · simp at hk
        · simp at hs
      · simp at hs
    · simp at hs
  simp only [h4, if_false] at hs
  split at hs
  · rename_i hinv
    simp only [Option.some.injEq, Prod.mk.injEq] at hs
    obtain ⟨rfl, rfl⟩ := hs
    simp only [flatStep, Tracker.request, hinv, MT.INV_ne_READ, MT.INV_ne_WRITE, MT.isAmo_INV, if_false, if_true, or_self,
      true_or, Bool.false_eq_true]
    exact ⟨h, trivial, trivial, rfl, trivial, trivial, trivial⟩
  · rename_i hinv
    split at hs
    · rename_i hfl
      simp only [Option.some.injEq, Prod.mk.injEq] at hs
      obtain ⟨rfl, rfl⟩ := hs
      simp only [flatStep, Tracker.request, hfl, MT.FLUSH_ne_READ, MT.FLUSH_ne_WRITE, MT.FLUSH_ne_INV, MT.isAmo_FLUSH,
        if_false, if_true, or_self, or_true, Bool.false_eq_true]
      exact ⟨h, trivial, trivial, rfl, trivial, trivial, trivial⟩
    · simp at hs

/-- Flat memory with the given words at the given addresses, 0 elsewhere. Proof device; not in the source. -/
def flatImage (image : List (Nat × BitVec 32)) : ByteMem :=
  image.foldl (fun M av => writeLE M av.1 4 av.2.toNat) (fun _ => 0)

/-- Word-aligned addresses inside the address space. Proof device; not in the source. -/
def ImageOk (p : Params) (image : List (Nat × BitVec 32)) : Prop :=
  ∀ av ∈ image, 4 ∣ av.1 ∧ av.1 < 2 ^ p.addrBits

theorem four_dvd_off {a : Addr p} (h : 4 ∣ a.flat) : a.off.toNat + 4 ≤ 2 ^ p.offBits := by
  have h1 := a.off.isLt
  have h2 : 2 ^ p.offBits = 4 * 2 ^ p.nwBits := by
    simp only [Params.offBits, Nat.pow_add]; omega
  rw [flat_eq, h2] at h
  have h3 : 4 ∣ a.off.toNat := by
    have : 4 ∣ a.la.num * (4 * 2 ^ p.nwBits) := ⟨a.la.num * 2 ^ p.nwBits, by
      rw [Nat.mul_comm, Nat.mul_assoc, Nat.mul_comm (2 ^ _)]⟩
    exact (Nat.dvd_add_right this).1 h
  obtain ⟨u, hu⟩ := h3
  omega

theorem image_agree {image : List (Nat × BitVec 32)} (hi : ImageOk p image) {m : Nat → Option (Line p)} {M : ByteMem}
    (h : DAgree m M) :
    DAgree (image.foldl loadWord m) (image.foldl (fun M av => writeLE M av.1 4 av.2.toNat) M) := by
  induction image generalizing m M with
  | nil => exact h
  | cons av image ih =>
    refine ih (fun x hx => hi x (by simp [hx])) ?_
    obtain ⟨h4, hlt⟩ := hi av (by simp)
    have hfl := (C27_pack_unpack p).2 av.1 hlt
    have := h.write (Addr.ofFlat p av.1) 4 av.2 (four_dvd_off (by rw [hfl]; exact h4))
    rw [← slice_num, ← slice_off, hfl] at this
    exact this

theorem view_zero (la : LAddr p) : view (fun _ => 0) la = 0 := by
  apply BitVec.eq_of_getLsbD_eq
  intro i hi
  rw [getLsbD_view _ _ _ hi]; simp

theorem run_spec {c : Cfg} : ∀ (qs : List (CReq p)) {s s' : Model p} {rs : List (CResp p)} {M : ByteMem},
    DAgree s.mem M → (∀ q ∈ qs, q.ty ≠ MT.INIT ∧ ¬ (q.ty = MT.WRITE ∧ q.len.toNat = 3)) →
    s.run c qs = some (s', rs) →
    DAgree s'.mem (flatRun M qs).1 ∧ rs.map (·.data) = (flatRun M qs).2 ∧
    rs.map (·.test) = (s.tracker.hits c qs).map testBit ∧
    rs.map (fun r => (r.ty, r.opq, r.len)) =
      qs.map (fun q => (q.ty, q.opq, if q.ty = MT.INV ∨ q.ty = MT.FLUSH then 0 else q.len))
  | [], s, s', rs, M, h, _, hr => by
    simp only [Model.run, Option.some.injEq, Prod.mk.injEq] at hr
    obtain ⟨rfl, rfl⟩ := hr
    exact ⟨h, rfl, rfl, rfl⟩
  | q :: qs, s, s', rs, M, h, hq, hr => by
    simp only [Model.run] at hr
    split at hr
    · simp at hr
    · rename_i s1 r hs
      split at hr
      · simp at hr
      · rename_i s2 rs2 hs2
        simp only [Option.some.injEq, Prod.mk.injEq] at hr
        obtain ⟨rfl, rfl⟩ := hr
        obtain ⟨a1, a2, a3, a4, a5, a6, a7⟩ := step_data h (hq q (by simp)).1 (hq q (by simp)).2 hs
        obtain ⟨b1, b2, b3, b4⟩ := run_spec qs a1 (fun x hx => hq x (by simp [hx])) hs2
        refine ⟨b1, ?_, ?_, ?_⟩
        · simp only [List.map_cons, flatRun, a2, b2]
        · simp only [List.map_cons, Tracker.hits, a4, b3, a3]
        · simp only [List.map_cons, a5, a6, a7, b4]

/-- **C30.**  If `gen_req_resp` runs without exception on a request sequence, the
responses carry exactly the data of a flat byte memory started with the initial
memory image, for every number of ways (excluded: WRITE_INIT, and writes of
length 3, which the FL model treats as 3-byte writes). -/
theorem C30_fl_data_equals_flat_memory (c : Cfg) (image : List (Nat × BitVec 32)) (hi : ImageOk p image)
    (qs : List (CReq p)) (hq : ∀ q ∈ qs, q.ty ≠ MT.INIT ∧ ¬ (q.ty = MT.WRITE ∧ q.len.toNat = 3))
    {s' : Model p} {rs : List (CResp p)} (hr : (Model.init c image).run c qs = some (s', rs)) :
    rs.map (·.data) = (flatRun (flatImage image) qs).2 := by
  have h0 : DAgree (p := p) (fun _ => none) (fun _ => 0) := fun la => (view_zero la).symm
  exact (run_spec qs (image_agree hi h0) hq hr).2.1

/-- Lines that are keys of the dictionary after a step. -/
theorem step_total {c : Cfg} {s : Model p} {q : CReq p} (wf : p.WF) (hv : q.Valid) (h3 : ¬ (q.ty = MT.WRITE ∧ q.len.toNat = 3))
    (ha : MT.isAmo q.ty = true → q.addr.flat < 2 ^ (p.addrBits - 1) ∧ (s.mem q.addr.la.num).isSome) :
    ∃ s' r, s.step c q = some (s', r) ∧
      (∀ n, (s.mem n).isSome → (s'.mem n).isSome) ∧
      (q.ty = MT.READ ∨ q.ty = MT.WRITE → (s'.mem q.addr.la.num).isSome) := by
  have hmono : ∀ (m : Nat → Option (Line p)) (k : Nat) (v : Line p) n, (m n).isSome → ((put m k (some v)) n).isSome := by
    intro m k v n h; simp only [put]; split
    · rfl
    · exact h
  have hfit : ∀ k, q.bytes = 2 ^ k → 2 ^ k ∣ q.addr.flat → q.addr.off.toNat + nbytes q ≤ 2 ^ p.offBits := by
    intro k hk hal
    have hnb : nbytes q = q.bytes := rfl
    rw [hnb, hk]
    have hko : k ≤ p.offBits := by
      have h1 : q.bytes ≤ 2 ^ p.lenBits := by
        simp only [CReq.bytes]; split
        · exact Nat.le_refl _
        · exact Nat.le_of_lt q.len.isLt
      rw [hk] at h1
      exact Nat.le_trans ((Nat.pow_le_pow_iff_right (by omega)).1 h1) wf.fits
    have hd : 2 ^ k ∣ q.addr.off.toNat := by
      rw [flat_eq] at hal
      exact (Nat.dvd_add_right (Nat.dvd_mul_left_of_dvd (Nat.pow_dvd_pow 2 hko) _)).1 hal
    obtain ⟨u, hu⟩ := hd
    obtain ⟨e, he⟩ := Nat.pow_dvd_pow 2 hko
    have hlt := q.addr.off.isLt
    rw [hu, he] at hlt ⊢
    have : u < e := Nat.lt_of_mul_lt_mul_left hlt
    calc 2 ^ k * u + 2 ^ k = 2 ^ k * (u + 1) := by rw [Nat.mul_add, Nat.mul_one]
      _ ≤ 2 ^ k * e := Nat.mul_le_mul_left _ this
  simp only [Model.step, slice_num, slice_off]
  cases hv with
  | read ty k hk al =>
    simp only [ty, if_true, hfit k hk al, true_or, forall_const]
    exact ⟨_, _, rfl, fun n hn => hmono _ _ _ n hn, by simp [put]⟩
  | write ty k hk _ al =>
    simp only [ty, if_true, hfit k hk al, MT.WRITE_ne_READ, if_false, or_true, forall_const]
    exact ⟨_, _, rfl, fun n hn => hmono _ _ _ n hn, by simp [put]⟩
  | dword ty len => exact (h3 ⟨ty, len⟩).elim
  | inv ty => simp [ty]
  | flush ty =>
    simp only [ty]
    refine ⟨_, _, rfl, fun n h => h, by simp⟩
  | amo ty len al =>
    have t0 : q.ty ≠ MT.READ := fun e => by rw [e] at ty; simp at ty
    have t1 : q.ty ≠ MT.WRITE := fun e => by rw [e] at ty; simp at ty
    have t2 : q.ty ≠ MT.INIT := fun e => by rw [e] at ty; simp at ty
    have hamo : MT.isAmo q.ty = true := by
      have : q.ty.toNat < 14 := by omega
      simp [MT.isAmo, ty.1, this]
    obtain ⟨hlt, hs⟩ := ha hamo
    obtain ⟨l, hl⟩ := Option.isSome_iff_exists.1 hs
    have hr : MT.AMO.toNat ≤ q.ty.toNat ∧ q.ty.toNat ≤ 11 := ty
    have hkey : amoKey (p := p) q.addr.flat = some q.addr.la.num := by
      simp only [amoKey, slice_num]
      rw [if_pos]
      have hx : q.addr.la.num * 2 ^ p.offBits < 2 ^ (p.addrBits - p.offBits - 1) * 2 ^ p.offBits := by
        rw [← Nat.pow_add]
        have e : p.addrBits - p.offBits - 1 + p.offBits = p.addrBits - 1 := by
          have := wf.idx; simp only [Params.addrBits]; omega
        rw [e]
        rw [flat_eq] at hlt
        omega
      exact Nat.lt_of_mul_lt_mul_right hx
    obtain ⟨f, hf⟩ : ∃ f, AMO_FUNS q.ty = some f := by
      have : ∀ t : MType, 3 ≤ t.toNat ∧ t.toNat ≤ 11 → (AMO_FUNS t).isSome := by decide
      exact Option.isSome_iff_exists.1 (this _ ty)
    simp only [t0, t1, t2, if_false, hr, and_self, if_true, hkey, hf, hl, four_dvd_off al, or_self]
    exact ⟨_, _, rfl, fun n hn => hmono _ _ _ n hn, by simp⟩

/-- **C30 (totality).**  `gen_req_resp` raises no exception on aligned requests
if every AMO addresses the lower half of the address space and its line occurs in
the memory image or in an earlier READ or WRITE. -/
theorem C30_fl_no_exception (wf : p.WF) (c : Cfg) (image : List (Nat × BitVec 32)) (hi : ImageOk p image)
    (qs : List (CReq p)) (hv : ∀ q ∈ qs, q.Valid ∧ ¬ (q.ty = MT.WRITE ∧ q.len.toNat = 3))
    (ha : ∀ pre q post, qs = pre ++ q :: post → MT.isAmo q.ty = true → q.addr.flat < 2 ^ (p.addrBits - 1) ∧
      ((∃ av ∈ image, (Addr.ofFlat p av.1).la = q.addr.la) ∨
        ∃ r ∈ pre, (r.ty = MT.READ ∨ r.ty = MT.WRITE) ∧ r.addr.la = q.addr.la)) :
    ∃ s' rs, (Model.init (p := p) c image).run c qs = some (s', rs) := by
  suffices H : ∀ (qs pre : List (CReq p)) (s : Model p), (∀ q ∈ qs, q.Valid ∧ ¬ (q.ty = MT.WRITE ∧ q.len.toNat = 3)) →
      (∀ la : LAddr p, ((∃ av ∈ image, (Addr.ofFlat p av.1).la = la) ∨
        ∃ r ∈ pre, (r.ty = MT.READ ∨ r.ty = MT.WRITE) ∧ r.addr.la = la) → (s.mem la.num).isSome) →
      (∀ pre' q post, qs = pre' ++ q :: post → MT.isAmo q.ty = true → q.addr.flat < 2 ^ (p.addrBits - 1) ∧
        ((∃ av ∈ image, (Addr.ofFlat p av.1).la = q.addr.la) ∨
          ∃ r ∈ pre ++ pre', (r.ty = MT.READ ∨ r.ty = MT.WRITE) ∧ r.addr.la = q.addr.la)) →
      ∃ s' rs, s.run c qs = some (s', rs) by
    refine H qs [] _ hv ?_ (by simpa using ha)
    intro la h
    rcases h with ⟨av, hav, hla⟩ | ⟨r, hr, _⟩
    · have : ∀ (im : List (Nat × BitVec 32)) (m : Nat → Option (Line p)) n, ImageOk p im →
          (m n).isSome ∨ (∃ av ∈ im, (Addr.ofFlat p av.1).la.num = n) → ((im.foldl loadWord m) n).isSome := by
        intro im
        induction im with
        | nil => intro m n _ h; rcases h with h | ⟨_, h, _⟩
                 · exact h
                 · simp at h
        | cons x im ih =>
          intro m n hok h
          rw [List.foldl_cons]
          refine ih _ n (fun y hy => hok y (by simp [hy])) ?_
          have hn : slice x.1 p.offBits p.addrBits = (Addr.ofFlat p x.1).la.num := by
            rw [← slice_num, (C27_pack_unpack p).2 x.1 (hok x (by simp)).2]
          have hsome : ∀ h : n = (Addr.ofFlat p x.1).la.num, (loadWord m x n).isSome := by
            intro h; simp [loadWord, put, hn, h]
          rcases h with h | ⟨av, hav, he⟩
          · left
            by_cases hx : n = (Addr.ofFlat p x.1).la.num
            · exact hsome hx
            · simp only [loadWord, put, hn, hx, if_false]; exact h
          · rcases List.mem_cons.1 hav with rfl | hav
            · left; exact hsome he.symm
            · right; exact ⟨av, hav, he⟩
      exact this image _ _ hi (.inr ⟨av, hav, by rw [hla]⟩)
    · simp at hr
  intro qs
  induction qs with
  | nil => intro pre s _ _ _; exact ⟨s, [], rfl⟩
  | cons q qs ih =>
    intro pre s hv hm ha
    obtain ⟨s1, r, hs, hmono, hnew⟩ := step_total (c := c) (s := s) wf (hv q (by simp)).1 (hv q (by simp)).2 (by
      intro h
      obtain ⟨h1, h2⟩ := ha [] q qs rfl h
      exact ⟨h1, hm _ (by simpa using h2)⟩)
    obtain ⟨s2, rs, h2⟩ := ih (pre ++ [q]) s1 (fun x hx => hv x (by simp [hx])) (by
      intro la h
      rcases h with h | ⟨r, hr, ht, hla⟩
      · exact hmono _ (hm la (.inl h))
      · rcases List.mem_append.1 hr with hr | hr
        · exact hmono _ (hm la (.inr ⟨r, hr, ht, hla⟩))
        · simp at hr; subst hr; rw [← hla]; exact hnew ht) (by
      intro pre' x post he hx
      obtain ⟨h1, h2⟩ := ha (q :: pre') x post (by rw [he]; rfl) hx
      exact ⟨h1, by simpa using h2⟩)
    exact ⟨s2, r :: rs, by simp only [Model.run, hs, h2]⟩

/-- **RTL equals FL.**  A cache started on a memory holding the image given to
the FL reference model answers with exactly the responses (all fields) that
`gen_req_resp` generates for the accepted requests. -/
theorem C30_rtl_equals_fl (wf : p.WF) {S S' : Sys Unit p} {tr : List (Ev Unit p)} (h0 : Start S) (h : Run S tr S')
    (image : List (Nat × BitVec 32)) (hi : ImageOk p image) (hm : S.mem = flatImage image)
    (hv : ∀ q ∈ accepted () tr, q.Valid ∧ ¬ (q.ty = MT.WRITE ∧ q.len.toNat = 3) ∧
      (q.ty = MT.INV ∨ q.ty = MT.FLUSH → q.len = 0))
    {s' : Model p} {rs : List (CResp p)}
    (hr : (Model.init (Cfg.of p) image).run (Cfg.of p) (accepted () tr) = some (s', rs)) :
    responses () tr <+: rs := by
  have hq : ∀ q ∈ accepted () tr, q.ty ≠ MT.INIT ∧ ¬ (q.ty = MT.WRITE ∧ q.len.toNat = 3) := by
    intro q hm
    refine ⟨fun e => ?_, (hv q hm).2.1⟩
    cases (hv q hm).1 with
    | read ty => rw [e] at ty; simp at ty
    | write ty => rw [e] at ty; simp at ty
    | dword ty => rw [e] at ty; simp at ty
    | amo ty => rw [e] at ty; simp at ty
    | inv ty => rw [e] at ty; simp at ty
    | flush ty => rw [e] at ty; simp at ty
  have hz : DAgree (p := p) (fun _ => none) (fun _ => 0) := fun la => (view_zero la).symm
  obtain ⟨_, b2, b3, b4⟩ := run_spec _ (image_agree hi hz) hq hr
  have c1 := C01_responses_equal_flat_memory wf h0 h (fun q hm => (hv q hm).1)
  obtain ⟨rest, c2, _⟩ := C02_one_response_per_request wf h0 h
  have c3 := C03_test_equals_FL_tracker wf h0 h ()
  rw [hm] at c1
  rw [show (image.foldl _ _ : ByteMem) = flatImage image from rfl] at b2
  rw [← b2] at c1
  rw [show ((Model.init (Cfg.of p) image : Model p).tracker) = Tracker.init (Cfg.of p) from rfl] at b3
  rw [← b3] at c3
  have b4' : rs.map (fun r => (r.ty, r.opq, r.len)) = (accepted () tr).map (fun q => (q.ty, q.opq, q.len)) := by
    rw [b4]
    apply List.map_congr_left
    intro q hm
    by_cases hx : q.ty = MT.INV ∨ q.ty = MT.FLUSH
    · rw [if_pos hx, (hv q hm).2.2 hx]
    · rw [if_neg hx]
  have c2' : (responses () tr).map (fun r => (r.ty, r.opq, r.len)) <+: rs.map (fun r => (r.ty, r.opq, r.len)) := by
    rw [b4', c2]; exact List.prefix_append _ _
  generalize responses () tr = as at c1 c2' c3
  clear b2 b3 b4 b4' c2 hr
  induction as generalizing rs with
  | nil => exact List.nil_prefix
  | cons a as ih =>
    cases rs with
    | nil => simp at c1
    | cons r rs =>
      simp only [List.map_cons, List.cons_prefix_cons] at c1 c2' c3 ⊢
      refine ⟨?_, ih c1.2 c2'.2 c3.2⟩
      have e1 := c1.1
      have e2 := c2'.1
      have e3 := c3.1
      cases a; cases r
      simp only [Prod.mk.injEq] at e2
      simp only at e1 e3
      simp [e1, e2, e3]

namespace Ex
/-- Two words of the line of address 0 (8-byte lines). -/
def image : List (Nat × BitVec 32) := [(0, 0x11223344), (4, 0x55667788)]
theorem imageOk : ImageOk p0 image := by
  intro av h
  simp only [image, List.mem_cons, List.not_mem_nil, or_false] at h
  rcases h with rfl | rfl <;> decide
/-- Proof device; not in the source. -/
def start : Sys Unit p0 := { start0 p0 with mem := flatImage image }
theorem isStart : Start start := ⟨(start0_start p0).1, fun _ => rfl, fun _ => rfl⟩
/-- Byte write, read of the word. Proof device; not in the source. -/
def reqs : List (CReq p0) :=
  [⟨MT.WRITE, 1, ⟨0, 0, 4⟩, 1, 0xab⟩, ⟨MT.READ, 0, ⟨0, 0, 4⟩, 0, 0⟩]
theorem reqsOk : ∀ q ∈ reqs, q.Valid ∧ ¬ (q.ty = MT.WRITE ∧ q.len.toNat = 3) ∧
      (q.ty = MT.INV ∨ q.ty = MT.FLUSH → q.len = 0) := by
  intro q hq
  simp only [reqs, List.mem_cons, List.not_mem_nil, or_false] at hq
  rcases hq with rfl | rfl
  · exact ⟨.write rfl 0 (by decide) (by decide) (by decide), by decide, by decide⟩
  · exact ⟨.read rfl 2 (by decide) (by decide), by decide, by decide⟩

set_option maxRecDepth 10000 in
theorem acc : accepted () (drive 20 start reqs).2 = reqs := by decide

set_option maxRecDepth 10000 in
theorem flRun : ((Model.init (Cfg.of p0) image).run (Cfg.of p0) reqs).map (·.2) =
    some [⟨MT.WRITE, 1, 0, 1, 0⟩, ⟨MT.READ, 0, 1, 0, 0x556677ab⟩] := by decide
end Ex

set_option maxRecDepth 10000 in
/-- The FL model on a byte write, an AMO and a read. -/
example : ((Model.init (p := p0) (Cfg.of p0) Ex.image).run (Cfg.of p0)
    [⟨MT.WRITE, 1, ⟨0, 0, 4⟩, 1, 0xab⟩, ⟨3, 1, ⟨0, 0, 4⟩, 0, 1⟩, ⟨MT.READ, 0, ⟨0, 0, 4⟩, 0, 0⟩]).map (·.2) =
    some [⟨MT.WRITE, 1, 0, 1, 0⟩, ⟨3, 1, 0, 0, 0x556677ab⟩, ⟨MT.READ, 0, 0, 0, 0x556677ac⟩] := by decide

set_option maxRecDepth 10000 in
/-- A run in which the RTL delivers both responses of the FL model. -/
example : ∃ (S S' : Sys Unit p0) (tr : List (Ev Unit p0)), Start S ∧ Run S tr S' ∧ S.mem = flatImage Ex.image ∧
    ImageOk p0 Ex.image ∧ (∀ q ∈ accepted () tr, q.Valid ∧ ¬ (q.ty = MT.WRITE ∧ q.len.toNat = 3) ∧
      (q.ty = MT.INV ∨ q.ty = MT.FLUSH → q.len = 0)) ∧
    ((Model.init (Cfg.of p0) Ex.image).run (Cfg.of p0) (accepted () tr)).map (·.2) = some (responses () tr) ∧
    (responses () tr).map (·.data) = [0, 0x556677ab] := by
  refine ⟨Ex.start, _, _, Ex.isStart, drive_run 20 Ex.start Ex.reqs, rfl, Ex.imageOk, ?_, ?_, by decide⟩
  · rw [Ex.acc]; exact Ex.reqsOk
  · rw [Ex.acc, Ex.flRun]; decide

/-- The FL model raises (`KeyError`) on an AMO to a line that was never touched,
although the RTL answers it: the exception hypothesis of the theorems above is
needed. -/
theorem C30_fl_amo_raises (c : Cfg) (q : CReq p) (hq : MT.AMO.toNat ≤ q.ty.toNat ∧ q.ty.toNat ≤ 11) :
    (Model.init (p := p) c []).run c [q] = none := by
  have t0 : q.ty ≠ MT.READ := fun e => by rw [e] at hq; simp at hq
  have t1 : q.ty ≠ MT.WRITE := fun e => by rw [e] at hq; simp at hq
  have t2 : q.ty ≠ MT.INIT := fun e => by rw [e] at hq; simp at hq
  have : (Model.init (p := p) c []).step c q = none := by
    simp only [Model.step, t0, t1, t2, if_false, hq, and_self, if_true, Model.init, List.foldl_nil]
    split <;> rfl
  simp only [Model.run, this]

end FL
end Verif
