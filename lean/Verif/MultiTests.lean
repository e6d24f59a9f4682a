import Verif.PropsDet
set_option linter.unusedSectionVars false

/-!
# The multi-cache tests of the repository, for every timing

A checker for `Prog.Synchronised`, and the four programs of
blocking_cache/test/MultiCacheTestCases.py.
-/

namespace Verif
variable {p : Params} {n : Nat}

/-! ## The checker -/

instance (q : CReq p) (W : Nat) : Decidable (q.onLine W) := by unfold CReq.onLine; infer_instance
instance (q : CReq p) (W : Nat) : Decidable (q.drops W) := by unfold CReq.drops; infer_instance

/-- Bytes a request may touch (proof device). -/
def CReq.span (q : CReq p) : Nat := max q.bytes 8

/-- Proof device: decides whether the request may store to byte group `W`. -/
def CReq.writesB (q : CReq p) (W : Nat) : Bool :=
  (q.ty == MT.WRITE && decide (q.addr.flat < 4 * W + 4) &&
    decide (4 * W < q.addr.flat + if q.len.toNat = 3 then 8 else q.bytes)) ||
  (MT.isAmo q.ty && decide (q.addr.flat < 4 * W + 4) && decide (4 * W < q.addr.flat + 4))

/-- Proof device: decides whether the request may read from byte group `W`. -/
def CReq.readsB (q : CReq p) (W : Nat) : Bool :=
  (q.ty == MT.READ && decide (q.addr.flat < 4 * W + 4) && decide (4 * W < q.addr.flat + q.bytes)) ||
  (MT.isAmo q.ty && decide (q.addr.flat < 4 * W + 4) && decide (4 * W < q.addr.flat + 4))

theorem writesB_of {q : CReq p} {W : Nat} (h : q.writesWord W) : q.writesB W = true := by
  obtain ⟨x, hx, h | h⟩ := h
  · simp only [CReq.writesB, Bool.or_eq_true, Bool.and_eq_true, beq_iff_eq, decide_eq_true_eq]
    exact .inl ⟨⟨h.1, by omega⟩, by omega⟩
  · simp only [CReq.writesB, Bool.or_eq_true, Bool.and_eq_true, beq_iff_eq, decide_eq_true_eq]
    exact .inr ⟨⟨h.1, by omega⟩, by omega⟩

theorem readsB_of {q : CReq p} {W : Nat} (h : q.readsWord W) : q.readsB W = true := by
  obtain ⟨x, hx, h | h⟩ := h
  · simp only [CReq.readsB, Bool.or_eq_true, Bool.and_eq_true, beq_iff_eq, decide_eq_true_eq]
    exact .inl ⟨⟨h.1, by omega⟩, by omega⟩
  · simp only [CReq.readsB, Bool.or_eq_true, Bool.and_eq_true, beq_iff_eq, decide_eq_true_eq]
    exact .inr ⟨⟨h.1, by omega⟩, by omega⟩

/-- Words a request may touch (proof device). -/
def CReq.words (q : CReq p) : List Nat := (List.range (q.span / 4 + 2)).map (q.addr.flat / 4 + ·)

theorem mem_words {q : CReq p} {W : Nat} (h1 : q.addr.flat < 4 * W + 4) (h2 : 4 * W < q.addr.flat + q.span) :
    W ∈ q.words := by
  simp only [CReq.words, List.mem_map, List.mem_range]
  exact ⟨W - q.addr.flat / 4, by omega, by omega⟩

theorem words_of_writes {q : CReq p} {W : Nat} (h : q.writesWord W) : W ∈ q.words := by
  have hs : q.bytes ≤ q.span ∧ 8 ≤ q.span := by simp only [CReq.span]; omega
  obtain ⟨x, hx, ⟨_, h1, h2⟩ | ⟨_, h1, h2⟩⟩ := h
  · refine mem_words (by omega) ?_
    split at h2 <;> omega
  · exact mem_words (by omega) (by omega)

theorem words_of_reads {q : CReq p} {W : Nat} (h : q.readsWord W) : W ∈ q.words := by
  have hs : q.bytes ≤ q.span ∧ 8 ≤ q.span := by simp only [CReq.span]; omega
  obtain ⟨x, hx, ⟨_, h1, h2⟩ | ⟨_, h1, h2⟩⟩ := h
  · exact mem_words (by omega) (by omega)
  · exact mem_words (by omega) (by omega)

/-- `NoCopyL` for the reversed list (proof device). -/
def noCopyR (W : Nat) : List (CReq p) → Bool
  | [] => true
  | q :: l => decide (q.ty = MT.INV ∨ q.drops W) ||
      (!decide ((q.ty = MT.READ ∨ q.ty = MT.WRITE) ∧ q.onLine W) && noCopyR W l)

theorem noCopyR_sound {W : Nat} {l : List (CReq p)} (h : noCopyR W l = true) : NoCopyL W l.reverse := by
  induction l with
  | nil => exact ⟨[], [], rfl, .inl rfl, by simp⟩
  | cons q l ih =>
    simp only [noCopyR, Bool.or_eq_true, decide_eq_true_eq, Bool.and_eq_true, Bool.not_eq_true',
      decide_eq_false_iff_not] at h
    rcases h with h | ⟨h1, h2⟩
    · exact ⟨l.reverse ++ [q], [], by simp, .inr ⟨_, q, rfl, h⟩, by simp⟩
    · obtain ⟨l1, l2, e, g1, g2⟩ := ih h2
      refine ⟨l1, l2 ++ [q], by rw [List.reverse_cons, e]; simp, g1, ?_⟩
      intro q' hq' ht hl
      rcases List.mem_append.1 hq' with hq' | hq'
      · exact g2 q' hq' ht hl
      · rw [List.mem_singleton] at hq'; subst hq'
        exact h1 ⟨ht, hl⟩

/-- A store at `x` and an access at `y`, of different cores (proof device). -/
def Prog.storeB (g : Prog n p) (x y : Nat) (k k' : Fin n) (q' : CReq p) (W : Nat) : Bool :=
  (List.range g.length).any fun f => decide (x ≤ f) &&
    match g[f]? with
    | none => false
    | some (kf, of, qf) => decide (kf = k) && decide (qf.ty = MT.FLUSH ∨ qf.drops W) &&
      (List.range (y + 1)).any fun z =>
        match g[z]? with
        | none => false
        | some (kz, oz, _) => decide (kz = k') && decide (of < oz) &&
          (MT.isAmo q'.ty || noCopyR W (Prog.reqs (g.take z) k').reverse)

/-- A read at `x` and a store at `y`, of different cores (proof device). -/
def Prog.readB (g : Prog n p) (x y : Nat) (k k' : Fin n) : Bool :=
  (List.range g.length).any fun f => decide (x ≤ f) &&
    match g[f]? with
    | none => false
    | some (kf, of, _) => decide (kf = k) &&
      (List.range (y + 1)).any fun z =>
        match g[z]? with
        | none => false
        | some (kz, oz, _) => decide (kz = k') && decide (of < oz)

/-- The checker (proof device). -/
def Prog.check (g : Prog n p) : Bool :=
  (List.range g.length).all fun y => (List.range y).all fun x =>
    match g[x]?, g[y]? with
    | some (k, _, q), some (k', _, q') => decide (k = k') || q.words.all fun W =>
        (!(q.writesB W && (q'.readsB W || q'.writesB W)) || g.storeB x y k k' q' W) &&
        (!(q.readsB W && q'.writesB W) || g.readB x y k k')
    | _, _ => true

theorem check_sound {g : Prog n p} (h : g.check = true) : g.Synchronised := by
  have key : ∀ {x y : Nat} {k k' : Fin n} {o o' : BitVec 32} {q q' : CReq p} {W : Nat}, x < y → k ≠ k' →
      g[x]? = some (k, o, q) → g[y]? = some (k', o', q') → W ∈ q.words →
      ((q.writesB W && (q'.readsB W || q'.writesB W)) = true → g.storeB x y k k' q' W = true) ∧
      ((q.readsB W && q'.writesB W) = true → g.readB x y k k' = true) := by
    intro x y k k' o o' q q' W hxy hk hx hy hW
    have hyl := (List.getElem?_eq_some_iff.1 hy).1
    have h1 := List.all_eq_true.1 (List.all_eq_true.1 h y (List.mem_range.2 hyl)) x (List.mem_range.2 hxy)
    simp only [hx, hy, Bool.or_eq_true, decide_eq_true_eq, hk, false_or, List.all_eq_true] at h1
    have h2 := h1 W hW
    rw [Bool.and_eq_true, Bool.or_eq_true, Bool.or_eq_true] at h2
    refine ⟨fun h => ?_, fun h => ?_⟩
    · rw [h] at h2; exact h2.1.resolve_left (by decide)
    · rw [h] at h2; exact h2.2.resolve_left (by decide)
  constructor
  · intro x y k k' o o' q q' W hxy hk hx hy hw hr
    have h1 := (key hxy hk hx hy (words_of_writes hw)).1 (by
      rw [writesB_of hw, Bool.true_and, Bool.or_eq_true]
      exact hr.imp readsB_of writesB_of)
    simp only [Prog.storeB, List.any_eq_true, List.mem_range, Bool.and_eq_true, decide_eq_true_eq] at h1
    obtain ⟨f, hf, hxf, h1⟩ := h1
    cases hgf : g[f]? with
    | none => rw [hgf] at h1; cases h1
    | some e =>
      obtain ⟨kf, of, qf⟩ := e
      rw [hgf] at h1
      simp only [Bool.and_eq_true, decide_eq_true_eq, List.any_eq_true, List.mem_range] at h1
      obtain ⟨⟨rfl, h2⟩, z, hz, h3⟩ := h1
      cases hgz : g[z]? with
      | none => rw [hgz] at h3; cases h3
      | some e =>
        obtain ⟨kz, oz, qz⟩ := e
        rw [hgz] at h3
        simp only [Bool.and_eq_true, decide_eq_true_eq, Bool.or_eq_true] at h3
        obtain ⟨⟨rfl, h4⟩, h5⟩ := h3
        exact ⟨f, of, qf, z, oz, qz, hxf, hgf, h2, by omega, hgz, h4,
          h5.imp id fun h => by simpa using noCopyR_sound h⟩
  · intro x y k k' o o' q q' W hxy hk hx hy hr hw
    have h1 := (key hxy hk hx hy (words_of_reads hr)).2 (by rw [readsB_of hr, writesB_of hw]; rfl)
    simp only [Prog.readB, List.any_eq_true, List.mem_range, Bool.and_eq_true, decide_eq_true_eq] at h1
    obtain ⟨f, hf, hxf, h1⟩ := h1
    cases hgf : g[f]? with
    | none => rw [hgf] at h1; cases h1
    | some e =>
      obtain ⟨kf, of, qf⟩ := e
      rw [hgf] at h1
      simp only [Bool.and_eq_true, decide_eq_true_eq, List.any_eq_true, List.mem_range] at h1
      obtain ⟨rfl, z, hz, h3⟩ := h1
      cases hgz : g[z]? with
      | none => rw [hgz] at h3; cases h3
      | some e =>
        obtain ⟨kz, oz, qz⟩ := e
        rw [hgz] at h3
        simp only [Bool.and_eq_true, decide_eq_true_eq] at h3
        obtain ⟨rfl, h4⟩ := h3
        exact ⟨f, of, qf, z, oz, qz, hxf, hgf, by omega, hgz, h4⟩

/-! ## The programs -/

/-- 32-byte direct-mapped cache, 16-byte lines, 32-bit addresses and data, 8-bit opaque field
(test/sim_utils.py:169-175, `associativities`, `cache_sizes`). -/
def pDM : Params := ⟨1, 27, 2, 2, 8, false⟩
/-- 64-byte two-way cache (MultiCacheTestCases.py:89). -/
def pSA : Params := ⟨1, 27, 2, 2, 8, true⟩

theorem pDM_wf : pDM.WF := ⟨by decide, by decide, by decide, by decide⟩
theorem pSA_wf : pSA.WF := ⟨by decide, by decide, by decide, by decide⟩

/-- The address struct of a 32-bit address (cacheStructs.py:178-186). -/
def addrOf (p : Params) (a : Nat) : Addr p :=
  ⟨BitVec.ofNat _ (a / 2 ^ p.offBits / 2 ^ p.idxBits), BitVec.ofNat _ (a / 2 ^ p.offBits), BitVec.ofNat _ a⟩

/-- `mreq`, test/sim_utils.py:236-243. -/
def mreq {n : Nat} (p : Params) (core : Fin n) (order : Nat) (ty : MType) (opq addr data : Nat) :
    Fin n × BitVec 32 × CReq p :=
  (core, BitVec.ofNat 32 order, ⟨ty, BitVec.ofNat _ opq, addrOf p addr, 0, BitVec.ofNat _ data⟩)

/-- `resp`, test/sim_utils.py. -/
def mresp (p : Params) (ty : MType) (opq test data : Nat) : CResp p :=
  ⟨ty, BitVec.ofNat _ opq, BitVec.ofNat _ test, 0, BitVec.ofNat _ data⟩

/-- `multicache_mem`, blocking_cache/test/MultiCacheTestCases.py:17-45, loaded word by word, little
endian (`load`, test/sim_utils.py:321-327); other bytes 0 (MultiCacheTestCases.py:17). -/
def multicacheMem : ByteMem := fun x =>
  let words : List (Nat × Nat) :=
    [(0x00000000, 0), (0x00000004, 1), (0x00000008, 2), (0x0000000c, 3), (0x00000010, 4), (0x00000014, 5),
     (0x00000018, 6), (0x0000001c, 7), (0x00000020, 8), (0x00000024, 9), (0x00000028, 0xa), (0x0000002c, 0xb),
     (0x00020000, 0xc), (0x00020004, 0xd), (0x00020008, 0xe), (0x0002000c, 0xf), (0x00020010, 0x10),
     (0x00020014, 0x11), (0x00001000, 0x01020304), (0x00001004, 0x05060708), (0x00001008, 0x090a0b0c),
     (0x0000100c, 0x0d0e0f10), (0x00002000, 0x00facade), (0x00002004, 0x05ca1ded), (0x00002070, 0x70facade),
     (0x00002074, 0x75ca1ded)]
  match words.find? (fun e => e.1 == x / 4 * 4) with
  | some e => BitVec.ofNat 8 (e.2 / 256 ^ (x % 4))
  | none => 0

/-- `rd_wr_2c`, blocking_cache/test/MultiCacheTestCases.py:47-58. -/
def rd_wr_2c : Prog 2 pDM :=
  [mreq pDM 0 0 MT.READ 0 0x00000000 0, mreq pDM 0 0 MT.WRITE 0 0x00000000 1,
   mreq pDM 0 0 MT.READ 0 0x00020004 0, mreq pDM 1 1 MT.READ 0 0x00000000 0]

/-- `amo_2c`, blocking_cache/test/MultiCacheTestCases.py:60-70. -/
def amo_2c : Prog 2 pDM :=
  [mreq pDM 0 0 MT.AMO 0 0x00000000 1, mreq pDM 0 1 MT.READ 1 0x00000000 0, mreq pDM 1 1 MT.READ 0 0x00000000 0]

/-- `inv_fl_2c`, blocking_cache/test/MultiCacheTestCases.py:72-85. -/
def inv_fl_2c : Prog 2 pDM :=
  [mreq pDM 0 0 MT.WRITE 0 0x00000000 0x01, mreq pDM 0 0 MT.WRITE 1 0x00000008 0x03,
   mreq pDM 1 0 MT.WRITE 0 0x00000004 0x12, mreq pDM 1 0 MT.FLUSH 1 0 0, mreq pDM 0 0 MT.INV 2 0 0,
   mreq pDM 0 1 MT.READ 3 0x00000008 0, mreq pDM 0 1 MT.READ 4 0x00000004 0]

/-- `inv_fl_4c`, blocking_cache/test/MultiCacheTestCases.py:87-109. -/
def inv_fl_4c : Prog 4 pSA :=
  [mreq pSA 0 0 MT.WRITE 0 0x00000000 0x01, mreq pSA 1 0 MT.WRITE 0 0x00000004 0x12,
   mreq pSA 2 0 MT.WRITE 0 0x00000008 0x23, mreq pSA 3 0 MT.WRITE 0 0x0000000c 0x34,
   mreq pSA 0 0 MT.FLUSH 1 0 0, mreq pSA 1 0 MT.FLUSH 1 0 0, mreq pSA 2 0 MT.FLUSH 1 0 0, mreq pSA 3 0 MT.FLUSH 1 0 0,
   mreq pSA 0 0 MT.INV 2 0 0, mreq pSA 1 0 MT.INV 2 0 0, mreq pSA 2 0 MT.INV 2 0 0, mreq pSA 3 0 MT.INV 2 0 0,
   mreq pSA 0 1 MT.READ 3 0x0000000c 0, mreq pSA 1 1 MT.READ 3 0x00000008 0, mreq pSA 2 1 MT.READ 3 0x00000004 0,
   mreq pSA 3 1 MT.READ 3 0x00000000 0]

/-- Validity of the requests used here (proof device). -/
def CReq.validB (q : CReq p) : Bool :=
  (decide (q.len.toNat = 0 ∧ q.bytes = 4 ∧ 4 ∣ q.addr.flat) &&
    decide (q.ty = MT.READ ∨ q.ty = MT.WRITE ∨ (q.ty = MT.AMO ∧ p.lenBits = 2))) || q.ty == MT.INV || q.ty == MT.FLUSH

theorem validB_sound {q : CReq p} (h : q.validB = true) : q.Valid := by
  simp only [CReq.validB, Bool.or_eq_true, Bool.and_eq_true, decide_eq_true_eq, beq_iff_eq] at h
  rcases h with (⟨⟨h1, h2, h3⟩, h4 | h4 | h4⟩ | h) | h
  · exact .read h4 2 h2 h3
  · exact .write h4 2 h2 (by omega) h3
  · exact .amo (by rw [h4.1]; decide) (.inl h4.2) h3
  · exact .inv h
  · exact .flush h

theorem valid_of {g : Prog n p} (h : g.all (fun e => e.2.2.validB) = true) : ∀ e ∈ g, e.2.2.Valid :=
  fun e he => validB_sound (List.all_eq_true.1 h e he)

/-- **C43, rd_wr_2c.**  In every execution the responses are those the test expects. -/
theorem C43_rd_wr_2c {X X' : MSys 2 pDM} {tr : List (Ev (Fin 2) pDM)} (h0 : MStart rd_wr_2c X)
    (hm : X.sys.mem = multicacheMem) (h : MRun rd_wr_2c X tr X') :
    responses 0 tr <+: [mresp pDM MT.READ 0 0 0, mresp pDM MT.WRITE 0 1 0, mresp pDM MT.READ 0 0 0xd] ∧
    responses 1 tr <+: [mresp pDM MT.READ 0 0 1] := by
  have key := C43_responses pDM_wf (by decide) (valid_of (by decide +kernel)) (check_sound (by decide +kernel)) h0 h
  rw [hm] at key
  exact ⟨(key 0).trans (by decide +kernel), (key 1).trans (by decide +kernel)⟩

/-- **C43, amo_2c.** -/
theorem C43_amo_2c {X X' : MSys 2 pDM} {tr : List (Ev (Fin 2) pDM)} (h0 : MStart amo_2c X)
    (hm : X.sys.mem = multicacheMem) (h : MRun amo_2c X tr X') :
    responses 0 tr <+: [mresp pDM MT.AMO 0 0 0, mresp pDM MT.READ 1 0 1] ∧
    responses 1 tr <+: [mresp pDM MT.READ 0 0 1] := by
  have key := C43_responses pDM_wf (by decide) (valid_of (by decide +kernel)) (check_sound (by decide +kernel)) h0 h
  rw [hm] at key
  exact ⟨(key 0).trans (by decide +kernel), (key 1).trans (by decide +kernel)⟩

/-- **C43, inv_fl_2c.** -/
theorem C43_inv_fl_2c {X X' : MSys 2 pDM} {tr : List (Ev (Fin 2) pDM)} (h0 : MStart inv_fl_2c X)
    (hm : X.sys.mem = multicacheMem) (h : MRun inv_fl_2c X tr X') :
    responses 0 tr <+: [mresp pDM MT.WRITE 0 0 0, mresp pDM MT.WRITE 1 1 0, mresp pDM MT.INV 2 0 0,
      mresp pDM MT.READ 3 0 3, mresp pDM MT.READ 4 1 0x12] ∧
    responses 1 tr <+: [mresp pDM MT.WRITE 0 0 0, mresp pDM MT.FLUSH 1 0 0] := by
  have key := C43_responses pDM_wf (by decide) (valid_of (by decide +kernel)) (check_sound (by decide +kernel)) h0 h
  rw [hm] at key
  exact ⟨(key 0).trans (by decide +kernel), (key 1).trans (by decide +kernel)⟩

/-- **C43, inv_fl_4c.** -/
theorem C43_inv_fl_4c {X X' : MSys 4 pSA} {tr : List (Ev (Fin 4) pSA)} (h0 : MStart inv_fl_4c X)
    (hm : X.sys.mem = multicacheMem) (h : MRun inv_fl_4c X tr X') (k : Fin 4) :
    responses k tr <+: [mresp pSA MT.WRITE 0 0 0, mresp pSA MT.FLUSH 1 0 0, mresp pSA MT.INV 2 0 0,
      mresp pSA MT.READ 3 0 ([0x34, 0x23, 0x12, 0x01].getD k 0)] := by
  have key := C43_responses pSA_wf (by decide) (valid_of (by decide +kernel)) (check_sound (by decide +kernel)) h0 h k
  rw [hm] at key
  refine key.trans ?_
  clear key
  revert k
  decide +kernel

/-! ## The programs do run -/

/-- Reset, garbage in the SRAMs (not in the source: example start state). -/
def mstartOf (g : Prog n p) : MSys n p :=
  ⟨⟨fun _ => (garbage p).step ⟨true, false, default, true, true, false, default⟩, fun _ => [], fun _ => [],
    multicacheMem⟩, Prog.of g, 0, BitVec.ofNat 32 (g.count 0)⟩

theorem mstartOf_start (g : Prog n p) : MStart g (mstartOf g) :=
  ⟨⟨fun _ => ⟨garbage p, ⟨true, false, default, true, true, false, default⟩, rfl, rfl⟩, fun _ => rfl, fun _ => rfl⟩,
    fun _ => rfl, rfl, rfl⟩

/-- `g` completes in `c` cycles of the driver of `Verif/Multicore.lean` (proof device). -/
def completes (g : Prog n p) (c : Nat) : Bool :=
  match mDrive g c (mstartOf g) with
  | some x => decide (∀ k, (Prog.of g k).length ≤ (responses k x.2).length)
  | none => false

theorem completes_run {g : Prog n p} {c : Nat} (h : completes g c = true) :
    ∃ X' tr, MRun g (mstartOf g) tr X' ∧ AllDone g tr := by
  simp only [completes] at h
  split at h
  · rename_i x hx
    exact ⟨x.1, x.2, mDrive_run hx, fun k => of_decide_eq_true h k⟩
  · cases h

/-- There is an execution of each program in which every request is answered; by `C43_complete` its
responses are exactly the expected ones. -/
example : ∃ X' tr, MRun rd_wr_2c (mstartOf rd_wr_2c) tr X' ∧ AllDone rd_wr_2c tr :=
  completes_run (c := 60) (by decide +kernel)
example : ∃ X' tr, MRun amo_2c (mstartOf amo_2c) tr X' ∧ AllDone amo_2c tr :=
  completes_run (c := 40) (by decide +kernel)
example : ∃ X' tr, MRun inv_fl_2c (mstartOf inv_fl_2c) tr X' ∧ AllDone inv_fl_2c tr :=
  completes_run (c := 60) (by decide +kernel)
example : ∃ X' tr, MRun inv_fl_4c (mstartOf inv_fl_4c) tr X' ∧ AllDone inv_fl_4c tr :=
  completes_run (c := 60) (by decide +kernel)

/-- The hypotheses of `C43_final_memory` are met: in `inv_fl_4c` the byte at address 8 is stored by
core 2 and flushed. -/
example : ∃ X' tr, MRun inv_fl_4c (mstartOf inv_fl_4c) tr X' ∧ X'.sys.mem 8 = 0x23 := by
  obtain ⟨X', tr, h1, h2⟩ := completes_run (g := inv_fl_4c) (c := 60) (by decide +kernel)
  refine ⟨X', tr, h1, ?_⟩
  rw [C43_final_memory pSA_wf (by decide) (valid_of (by decide +kernel)) (check_sound (by decide +kernel))
    (mstartOf_start _) h1 h2 (x := 8) (by decide)]
  · decide +kernel
  · have key : ∀ y : Fin 16, ∀ e ∈ inv_fl_4c[y.val]?, e.2.2.writesB 2 = true → (y.val = 2 ∧ e.1 = 2) := by
      decide +kernel
    intro y k o q hy hw
    have hl := (List.getElem?_eq_some_iff.1 hy).1
    obtain ⟨h3, h4⟩ := key ⟨y, hl⟩ (k, o, q) hy (writesB_of hw)
    simp only at h3 h4
    subst h4
    exact ⟨6, _, _, by omega, rfl, .inl rfl⟩

end Verif
