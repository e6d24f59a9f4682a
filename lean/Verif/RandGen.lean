import Verif.ProcFair
import Verif.PropsFL2
import Verif.Derived
set_option linter.unusedSectionVars false

/-!
# The random and the property-based tests (C50)

`HypothesisTests.hypothesis_test_harness` (blocking_cache/test/HypothesisTest.py) and
`random_test_generator` (blocking_cache/test/RandomTestCases.py) draw requests, let the FL reference
model produce the list of requests and responses, and run the RTL cache on it.  Here the generators are
modelled with every draw as a parameter, and the tests are proved to pass whatever is drawn.
-/

namespace Verif
namespace FL
variable {p : Params}

/-! ## The generators -/

/-- The values drawn for one request, HypothesisTest.py:22-85, RandomTestCases.py:64-94. -/
structure Draw where
  ty : MType
  addr : Nat
  data : Nat
  order : Nat

/-- The union of the type lists, HypothesisTest.py:26-60; the same as RandomTestCases.py:43-57. -/
def drawTypes : List MType := [MT.READ, MT.WRITE, 3, 4, 5, 6, 7, 8, 9, 10, 11, MT.INV, MT.FLUSH]

/-- The ranges of the draws, HypothesisTest.py:66-79, RandomTestCases.py:73-86. -/
structure Draw.Ok (p : Params) (amax : Nat) (d : Draw) : Prop where
  ty : d.ty ∈ drawTypes
  addr : d.addr ≤ amax
  data : d.data ≤ 0xffffffff
  order : d.order ≤ if d.ty = MT.WRITE then 2 else clog2 (p.dataBits / 8)

/-- Alignment of the address, HypothesisTest.py:80-89, RandomTestCases.py:87-96. -/
def alignAddr (a : BitVec 32) (len : Nat) : BitVec 32 :=
  if len = 2 then a &&& 0xfffffffe
  else if len = 4 then a &&& 0xfffffffc
  else if len = 8 then a &&& 0xfffffff8
  else if len = 16 then a &&& 0xfffffff0
  else if len = 32 then a &&& 0xffffffe0
  else a

/-- The request built from the draws; `i` is its position in the list (the opaque field),
HypothesisTest.py:62-94 and 112-116, RandomTestCases.py:66-99. -/
def Draw.req (p : Params) (i : Nat) (d : Draw) : CReq p :=
  if d.ty = MT.INV ∨ d.ty = MT.FLUSH then ⟨d.ty, BitVec.ofNat _ i, Addr.ofFlat p 0, 0, 0⟩
  else if 3 ≤ d.ty.toNat ∧ d.ty.toNat ≤ 11 then
    ⟨d.ty, BitVec.ofNat _ i, Addr.ofFlat p (BitVec.ofNat 32 d.addr &&& 0xfffffffc).toNat,
      BitVec.ofNat _ (if p.dataBits = 32 then 0 else 4), BitVec.ofNat _ d.data⟩
  else
    ⟨d.ty, BitVec.ofNat _ i, Addr.ofFlat p (alignAddr (BitVec.ofNat 32 d.addr) (2 ^ d.order)).toNat,
      BitVec.ofNat _ (2 ^ d.order), BitVec.ofNat _ d.data⟩

/-- The list of requests (HypothesisTest.py, RandomTestCases.py, lines at `Draw.req`). -/
def drawReqs (p : Params) (ds : List Draw) : List (CReq p) := ds.zipIdx.map fun x => x.1.req p x.2

/-- `rand_mem(0, top)`, test/sim_utils.py:110-121: a word at each multiple of 4 up to `top`; `v` are the
drawn values. -/
def randMem (top : Nat) (v : Nat → BitVec 32) : List (Nat × BitVec 32) :=
  (List.range (top / 4 + 1)).map fun k => (4 * k, v k)

/-- The request message in the transaction list of the FL model, which is what the source sends to the
RTL cache: reads are sent with data 0, the operand of an AMO is cut to 32 bits, INV and FLUSH are sent
with all fields but type and opaque 0; BlockingCacheFL.py:248, 264, 293-299, 304, 309. -/
def txReq (q : CReq p) : CReq p :=
  if q.ty = MT.READ then { q with data := 0 }
  else if q.ty = MT.WRITE then q
  else if MT.AMO.toNat ≤ q.ty.toNat ∧ q.ty.toNat ≤ 11 then { q with data := (q.data.setWidth 32).setWidth _ }
  else if q.ty = MT.INV ∨ q.ty = MT.FLUSH then ⟨q.ty, q.opq, Addr.ofFlat p 0, 0, 0⟩
  else q

/-! ## Sending `txReq q` instead of `q` makes no difference to the FL model -/

theorem step_tx (c : Cfg) (s : Model p) (q : CReq p) : s.step c (txReq q) = s.step c q := by
  simp only [txReq]
  split
  · rename_i h; simp only [Model.step, h, if_true, nbytes]; rfl
  split
  · rfl
  split
  · rename_i h1 h2 h3
    have hi : q.ty ≠ MT.INIT := fun e => by rw [e] at h3; exact absurd h3 (by decide)
    simp only [Model.step, h1, h2, hi, h3, if_false, and_self, if_true]
    have : (BitVec.setWidth 32 (BitVec.setWidth p.dataBits (BitVec.setWidth 32 q.data))) = q.data.setWidth 32 := by
      apply BitVec.eq_of_getLsbD_eq
      intro i hi
      simp only [BitVec.getLsbD_setWidth, hi, decide_true, Bool.true_and]
      by_cases hd : i < p.dataBits
      · simp [hd]
      · simp [hd, BitVec.getLsbD_of_ge q.data i (by omega)]
    simp only [this]
  split
  · rename_i h1 h2 h3 h4
    have hi : q.ty ≠ MT.INIT := fun e => by rw [e] at h4; exact absurd h4 (by decide)
    simp only [Model.step, h1, h2, h3, hi, if_false]
  · rfl

theorem run_tx (c : Cfg) (qs : List (CReq p)) (s : Model p) : s.run c (qs.map txReq) = s.run c qs := by
  induction qs generalizing s with
  | nil => rfl
  | cons q qs ih => simp only [List.map_cons, Model.run, step_tx, ih]

theorem run_length (c : Cfg) (qs : List (CReq p)) {s s' : Model p} {rs : List (CResp p)}
    (h : s.run c qs = some (s', rs)) : rs.length = qs.length := by
  induction qs generalizing s s' rs with
  | nil => simp only [Model.run, Option.some.injEq, Prod.mk.injEq] at h; rw [← h.2]; rfl
  | cons q qs ih =>
    simp only [Model.run] at h
    split at h
    · cases h
    · split at h
      · cases h
      · rename_i h2
        simp only [Option.some.injEq, Prod.mk.injEq] at h
        rw [← h.2, List.length_cons, List.length_cons, ih h2]

/-! ## Alignment -/

theorem and_mask_dvd (a : BitVec 32) (m : BitVec 32) (k : Nat) (hm : ∀ i, i < k → m.getLsbD i = false) :
    2 ^ k ∣ (a &&& m).toNat := by
  apply Nat.dvd_of_mod_eq_zero
  apply Nat.eq_of_testBit_eq
  intro i
  rw [Nat.testBit_mod_two_pow, Nat.zero_testBit]
  by_cases h : i < k
  · have := hm i h
    simp only [BitVec.getLsbD] at this
    simp [this]
  · simp [h]

theorem and_mask_le (a : Nat) (ha : a < 2 ^ 32) (m : BitVec 32) : (BitVec.ofNat 32 a &&& m).toNat ≤ a := by
  rw [BitVec.toNat_and, BitVec.toNat_ofNat, Nat.mod_eq_of_lt ha]
  exact Nat.and_le_left

theorem align_dvd (a : BitVec 32) {k : Nat} (hk : k ≤ 5) : 2 ^ k ∣ (alignAddr a (2 ^ k)).toNat := by
  have : k = 0 ∨ k = 1 ∨ k = 2 ∨ k = 3 ∨ k = 4 ∨ k = 5 := by omega
  rcases this with rfl | rfl | rfl | rfl | rfl | rfl
  · exact Nat.one_dvd _
  · exact and_mask_dvd a _ _ (by decide)
  · exact and_mask_dvd a _ _ (by decide)
  · exact and_mask_dvd a _ _ (by decide)
  · exact and_mask_dvd a _ _ (by decide)
  · exact and_mask_dvd a _ _ (by decide)

theorem align_le (a : Nat) (ha : a < 2 ^ 32) (len : Nat) : (alignAddr (BitVec.ofNat 32 a) len).toNat ≤ a := by
  simp only [alignAddr]
  split
  · exact and_mask_le a ha _
  split
  · exact and_mask_le a ha _
  split
  · exact and_mask_le a ha _
  split
  · exact and_mask_le a ha _
  split
  · exact and_mask_le a ha _
  · rw [BitVec.toNat_ofNat, Nat.mod_eq_of_lt ha]; exact Nat.le_refl _

theorem flat_of {a : Nat} (ha : a < 2 ^ p.addrBits) : (Addr.ofFlat p a).flat = a := (C27_pack_unpack p).2 a ha

/-! ## Every drawn request is valid -/

theorem Draw.bytes {k : Nat} (hk : k ≤ p.lenBits) (ty : MType) (o : BitVec p.opqBits) (a : Addr p) (d : Data p) :
    (⟨ty, o, a, BitVec.ofNat _ (2 ^ k), d⟩ : CReq p).bytes = 2 ^ k := by
  simp only [CReq.bytes, BitVec.toNat_ofNat]
  by_cases h : k < p.lenBits
  · rw [Nat.mod_eq_of_lt (Nat.pow_lt_pow_right (by decide) h), if_neg (Nat.ne_of_gt (Nat.two_pow_pos k))]
  · have : k = p.lenBits := by omega
    rw [this, Nat.mod_self, if_pos rfl]

theorem Draw.valid (wf : p.WF) (hp : p.addrBits = 32) {amax : Nat} (hm : amax < 2 ^ 31) {d : Draw} (h : d.Ok p amax)
    (i : Nat) : (d.req p i).Valid ∧ ¬ ((d.req p i).ty = MT.WRITE ∧ (d.req p i).len.toNat = 3) ∧
      ((d.req p i).ty = MT.INV ∨ (d.req p i).ty = MT.FLUSH → (d.req p i).len = 0) ∧
      (d.req p i).addr.flat ≤ amax ∧ (MT.isAmo (d.req p i).ty = true → 4 ∣ (d.req p i).addr.flat) := by
  have ha := h.addr
  have ha32 : d.addr < 2 ^ 32 := by omega
  have hflat : ∀ a, a ≤ amax → (Addr.ofFlat p a).flat = a := fun a h => flat_of (by rw [hp]; omega)
  have hlen : clog2 (p.dataBits / 8) = p.lenBits := by
    rw [show p.dataBits / 8 = 2 ^ p.lenBits by simp only [Params.dataBits]; omega, clog2_two_pow]
  by_cases h1 : d.ty = MT.INV ∨ d.ty = MT.FLUSH
  · simp only [Draw.req, if_pos h1]
    refine ⟨?_, ?_, fun _ => by simp, ?_, ?_⟩
    · rcases h1 with h1 | h1
      · exact .inv h1
      · exact .flush h1
    · rintro ⟨e, _⟩; rw [e] at h1; exact absurd h1 (by decide)
    · rw [hflat 0 (by omega)]; omega
    · intro _; rw [hflat 0 (by omega)]; exact Nat.dvd_zero 4
  by_cases h2 : 3 ≤ d.ty.toNat ∧ d.ty.toNat ≤ 11
  · have h3 := and_mask_le d.addr ha32 0xfffffffc
    have h4 := and_mask_dvd (BitVec.ofNat 32 d.addr) 0xfffffffc 2 (by decide)
    simp only [Draw.req, if_neg h1, if_pos h2]
    have e := hflat _ (Nat.le_trans h3 ha)
    refine ⟨.amo h2 ?_ ?_, ?_, ?_, ?_, ?_⟩
    · by_cases h5 : p.dataBits = 32
      · left
        have : (2 : Nat) ^ p.lenBits = 2 ^ 2 := by simp only [Params.dataBits] at h5; omega
        exact Nat.le_antisymm ((Nat.pow_le_pow_iff_right (a := 2) (by decide)).1 (Nat.le_of_eq this))
          ((Nat.pow_le_pow_iff_right (a := 2) (by decide)).1 (Nat.le_of_eq this.symm))
      · right
        simp only [if_neg h5, BitVec.toNat_ofNat]
        have : 2 < p.lenBits := by
          refine Nat.lt_of_le_of_ne wf.len.1 fun e => h5 ?_
          simp only [Params.dataBits, ← e]
        exact Nat.mod_eq_of_lt (Nat.lt_of_lt_of_le (by decide) (Nat.pow_le_pow_right (by decide) (show 3 ≤ _ from this)))
    · rw [e]; exact h4
    · rintro ⟨e, _⟩; rw [e] at h2; exact absurd h2 (by decide)
    · intro h; exact absurd h h1
    · rw [e]; exact Nat.le_trans h3 ha
    · intro _; rw [e]; exact h4
  · have h3 : d.ty = MT.READ ∨ d.ty = MT.WRITE := by
      have := h.ty
      revert h1 h2 this
      generalize d.ty = t
      revert t
      decide
    have hk : d.order ≤ p.lenBits ∧ (d.ty = MT.WRITE → d.order ≤ 2) := by
      have := h.order
      have h2 := wf.len.1
      split at this
      · exact ⟨by omega, fun _ => this⟩
      · rename_i hn
        rw [hlen] at this
        exact ⟨this, fun e => absurd e hn⟩
    have h5 := wf.len.2
    have h6 := align_le d.addr ha32 (2 ^ d.order)
    have h7 := align_dvd (BitVec.ofNat 32 d.addr) (k := d.order) (by omega)
    have e := hflat _ (Nat.le_trans h6 ha)
    simp only [Draw.req, if_neg h1, if_neg h2]
    have hb := Draw.bytes hk.1 d.ty (BitVec.ofNat _ i)
      (Addr.ofFlat p (alignAddr (BitVec.ofNat 32 d.addr) (2 ^ d.order)).toNat) (BitVec.ofNat _ d.data)
    refine ⟨?_, ?_, ?_, ?_, ?_⟩
    · rcases h3 with h3 | h3
      · exact .read h3 d.order hb (by rw [e]; exact h7)
      · exact .write h3 d.order hb (hk.2 h3) (by rw [e]; exact h7)
    · rintro ⟨_, e3⟩
      simp only [CReq.bytes] at hb
      rw [e3] at hb
      simp only [show (3 : Nat) ≠ 0 by decide, if_false] at hb
      have : d.order = 0 ∨ d.order = 1 ∨ 2 ≤ d.order := by omega
      rcases this with h | h | h
      · rw [h] at hb; simp at hb
      · rw [h] at hb; simp at hb
      · have := Nat.pow_le_pow_right (n := 2) (by decide) h
        omega
    · intro h; exact absurd h h1
    · rw [e]; exact Nat.le_trans h6 ha
    · intro h
      rcases h3 with h3 | h3 <;> · rw [h3] at h; exact absurd h (by decide)

/-! ## The FL model is the specification of C46 -/

/-- The requests of a directed list that `gen_req_resp` and the source can be given (not in the source: condition). -/
def Sendable (q : CReq p) : Prop :=
  q.Valid ∧ ¬ (q.ty = MT.WRITE ∧ q.len.toNat = 3) ∧ (q.ty = MT.INV ∨ q.ty = MT.FLUSH → q.len = 0)

theorem valid_not_init {q : CReq p} (h : q.Valid) : q.ty ≠ MT.INIT := by
  intro e
  cases h with
  | amo ty => rw [e] at ty; exact absurd ty (by decide)
  | read ty | write ty | dword ty | inv ty | flush ty => rw [e] at ty; exact absurd ty (by decide)

/-- **C50, reference.**  The responses generated by the FL model are the specified ones: flat memory,
LRU directory and echoed fields. -/
theorem C50_fl_is_spec (wf : p.WF) (image : List (Nat × BitVec 32)) (hi : ImageOk p image) (qs : List (CReq p))
    (hv : ∀ q ∈ qs, Sendable q) {s' : Model p} {rs : List (CResp p)}
    (hr : (Model.init (Cfg.of p) image).run (Cfg.of p) qs = some (s', rs)) : rs = expectSeq (flatImage image) qs := by
  let S : Sys Unit p := { start0 p with mem := flatImage image }
  have h0 : Start S := ⟨(start0_start p).1, fun _ => rfl, fun _ => rfl⟩
  obtain ⟨X, e, hP, h1, h2, h3⟩ := bench_fair wf S h0 (fun q hq => valid_not_init (hv q hq).1)
  obtain ⟨t, ht⟩ := C49_bench_terminates wf X hP h1 h2 (fun q hq => (hv q hq).1) h3
  have ht := ht t (Nat.le_refl t)
  have eS : (X.st 0).sys = S := by rw [e]
  have em : (X.st 0).sys.mem = flatImage image := by rw [eS]
  have hl : (responses () (X.trace t)).length = qs.length := by rw [ht, expectSeq_length]
  have hle : (responses () (X.trace t)).length ≤ (accepted () (X.trace t)).length := by
    have := (C36_counter_exact wf hP (X.run t) ()).1
    omega
  have hacc : accepted () (X.trace t) = qs := (h3.1 t).eq_of_length_le (by omega)
  have := C30_rtl_equals_fl wf hP.sys (X.run t).open image hi em (by rw [hacc]; exact hv) (by rw [hacc]; exact hr)
  rw [ht, em] at this
  exact (this.eq_of_length_le (by rw [expectSeq_length, run_length _ _ hr]; exact Nat.le_refl _)).symm

/-- **C50, the directed tests on the FL model** (BlockingCacheFL_test.py): on each directed test without
double-word writes the FL model lists the expected responses, unless it raises. -/
theorem C50_directed_fl : ∀ T ∈ repoTests, (∀ q ∈ T.reqs, Sendable q) → ∀ image : List (Nat × BitVec 32),
    ImageOk T.p image → flatImage image = T.mem → ∀ (s : Model T.p) (rs : List (CResp T.p)),
    (Model.init (Cfg.of T.p) image).run (Cfg.of T.p) T.reqs = some (s, rs) → rs = T.resps := by
  intro T hT hq image hi hm s rs hr
  obtain ⟨wf, hv, he⟩ := SeqTest.of_check (List.all_eq_true.1 repoTests_checked T hT)
  rw [C50_fl_is_spec wf image hi T.reqs hq hr, hm, he]

/-! ## The tests -/

theorem mem_drawReqs {ds : List Draw} {q : CReq p} (h : q ∈ drawReqs p ds) : ∃ d ∈ ds, ∃ i, q = d.req p i := by
  simp only [drawReqs, List.mem_map] at h
  obtain ⟨⟨d, i⟩, h1, rfl⟩ := h
  exact ⟨d, List.fst_mem_of_mem_zipIdx h1, i, rfl⟩

theorem imageOk_randMem (hp : p.addrBits = 32) {top : Nat} (ht : top < 2 ^ 32) (v : Nat → BitVec 32) :
    ImageOk p (randMem top v) := by
  intro av h
  simp only [randMem, List.mem_map, List.mem_range] at h
  obtain ⟨k, hk, rfl⟩ := h
  exact ⟨Nat.dvd_mul_right 4 k, by rw [hp]; simp only; omega⟩

/-- **C50, the generator always succeeds.**  Whatever is drawn, the FL model raises no exception and
lists one response for each request. -/
theorem C50_no_exception (wf : p.WF) (hp : p.addrBits = 32) {amax top : Nat} (hm : amax ≤ top) (ht : top < 2 ^ 31)
    (v : Nat → BitVec 32) (ds : List Draw) (hd : ∀ d ∈ ds, d.Ok p amax) :
    ∃ s rs, (Model.init (Cfg.of p) (randMem top v)).run (Cfg.of p) (drawReqs p ds) = some (s, rs) ∧
      rs.length = ds.length := by
  have key : ∃ s rs, (Model.init (Cfg.of p) (randMem top v)).run (Cfg.of p) (drawReqs p ds) = some (s, rs) := by
    refine C30_fl_no_exception wf _ _ (imageOk_randMem hp (by omega) v) _ ?_ ?_
    · intro q hq
      obtain ⟨d, hd', i, rfl⟩ := mem_drawReqs hq
      have := Draw.valid wf hp (by omega) (hd d hd') i
      exact ⟨this.1, this.2.1⟩
    · intro pre q post he ha
      obtain ⟨d, hd', i, rfl⟩ := mem_drawReqs (p := p) (ds := ds) (q := q) (by rw [he]; simp)
      obtain ⟨_, _, _, h4, h5⟩ := Draw.valid wf hp (by omega) (hd d hd') i
      refine ⟨by rw [hp]; omega, .inl ?_⟩
      obtain ⟨k, hk⟩ := h5 ha
      refine ⟨(4 * k, v k), ?_, ?_⟩
      · simp only [randMem, List.mem_map, List.mem_range]
        exact ⟨k, by omega, rfl⟩
      · rw [← hk, (C27_pack_unpack p).1 _ |>.2]
  obtain ⟨s, rs, h⟩ := key
  exact ⟨s, rs, h, by rw [run_length _ _ h]; simp [drawReqs]⟩

theorem tx_sendable (wf : p.WF) (hp : p.addrBits = 32) {amax : Nat} (hm : amax < 2 ^ 31) {d : Draw} (h : d.Ok p amax)
    (i : Nat) : Sendable (txReq (d.req p i)) := by
  obtain ⟨h1, h2, h3, _⟩ := Draw.valid wf hp hm h i
  generalize d.req p i = q at *
  simp only [txReq]
  split
  · rename_i e
    refine ⟨?_, h2, h3⟩
    cases h1 with
    | read ty k hk al => exact .read ty k hk al
    | amo ty => rw [e] at ty; exact absurd ty (by decide)
    | write ty | dword ty | inv ty | flush ty => rw [e] at ty; exact absurd ty (by decide)
  split
  · exact ⟨h1, h2, h3⟩
  split
  · rename_i e
    refine ⟨?_, h2, h3⟩
    cases h1 with
    | amo ty len al => exact .amo ty len al
    | read ty | write ty | dword ty | inv ty | flush ty => rw [ty] at e; exact absurd e (by decide)
  split
  · rename_i e1 e2 e3 e
    refine ⟨?_, fun h => absurd h.1 e2, fun _ => rfl⟩
    rcases e with e | e
    · exact .inv e
    · exact .flush e
  · exact ⟨h1, h2, h3⟩

/-- The outcome of a random test: the list `rs` produced by the FL model is what the sink of every
execution receives. `txs` are the requests the source sends, `M` the memory image
(test/sim_utils.py:89-108, 158-160). -/
structure Passes (p : Params) (M : ByteMem) (txs : List (CReq p)) (rs : List (CResp p)) : Prop where
  /-- Never a wrong or extra response, at any time of any execution of the bench with any timing. -/
  safe : ∀ (P P' : PSys Unit p) (tr : List (Ev Unit p)), PStart P → P.sys.mem = M → PRun P tr P' →
    accepted () tr <+: txs → responses () tr <+: rs
  /-- In every fair execution the test ends with exactly the list. -/
  ends : ∀ X : PInf Unit p, PStart (X.st 0) → (X.st 0).sys.mem = M → X.SinkReady () → X.MemoryAnswers () →
    X.Sources () txs → ∃ t, ∀ t', t ≤ t' → responses () (X.trace t') = rs

/-- A random test with memory image `randMem top v` and draws `ds` passes: the FL model produces a list
of responses, one for each request, without exception, and the RTL cache delivers exactly that list
(test/sim_utils.py:89-108, 158-160). -/
def TestPasses (p : Params) (c : Cfg) (top : Nat) (v : Nat → BitVec 32) (ds : List Draw) : Prop :=
  ∃ s rs, (Model.init c (randMem top v)).run c (drawReqs p ds) = some (s, rs) ∧
    rs.length = ds.length ∧ Passes p (flatImage (randMem top v)) ((drawReqs p ds).map txReq) rs

/-- **C50, random tests pass whatever is drawn.** -/
theorem C50_random (wf : p.WF) (hp : p.addrBits = 32) {amax top : Nat} (hm : amax ≤ top) (ht : top < 2 ^ 31)
    (v : Nat → BitVec 32) (ds : List Draw) (hd : ∀ d ∈ ds, d.Ok p amax) : TestPasses p (Cfg.of p) top v ds := by
  obtain ⟨s, rs, h1, h2⟩ := C50_no_exception wf hp hm ht v ds hd
  refine ⟨s, rs, h1, h2, ?_⟩
  have hv : ∀ q ∈ (drawReqs p ds).map txReq, Sendable q := by
    intro q hq
    obtain ⟨q', hq', rfl⟩ := List.mem_map.1 hq
    obtain ⟨d, hd', i, rfl⟩ := mem_drawReqs hq'
    exact tx_sendable wf hp (by omega) (hd d hd') i
  have e := C50_fl_is_spec wf _ (imageOk_randMem hp (show top < 2 ^ 32 by omega) v) ((drawReqs p ds).map txReq) hv
    (by rw [run_tx]; exact h1)
  rw [e]
  constructor
  · intro P P' tr h0 hM h ha
    have := (C46_test wf h0.sys h.open (fun q hq => (hv q hq).1) ha).1
    rwa [hM] at this
  · intro X h0 hM hs hma hsrc
    have := C49_bench_terminates wf X h0 hs hma (fun q hq => (hv q hq).1) hsrc
    rwa [hM] at this

/-! ## The configurations of the two test files -/

/-- The tracker parameters the FL model computes from the constructor arguments (`size` is converted to
bits), BlockingCacheFL.py:192-193. -/
def flCfg (c : Config) : Cfg := Cfg.make (c.numBytes * 8) c.associativity c.cacheline

theorem flCfg_of {c : Config} (h : c.Supported) (ha : c.addr = 32) : flCfg c = Cfg.of c.params := by
  obtain ⟨_, _, _, ho, _, _, _, _, _, hab, hw⟩ := Config.C40_model_params h
  obtain ⟨i, l, a, d, h1, h2, h3, h4, h5, h6, h7, h8, h9, h10⟩ := h.exps
  have hb : c.numBytes * 8 = 2 ^ i * 2 ^ a * 2 ^ (l + 3) := by rw [h9, show 8 = 2 ^ 3 from rfl]; simp only [Nat.pow_add]; ac_rfl
  have e1 : c.numBytes * 8 / c.cacheline = 2 ^ i * 2 ^ a := by
    rw [hb, h3, Nat.mul_div_cancel _ (Nat.two_pow_pos _)]
  have e2 : c.numBytes * 8 / c.cacheline / c.associativity = 2 ^ i := by
    rw [e1, h1, Nat.mul_div_cancel _ (Nat.two_pow_pos _)]
  have e3 : c.cacheline / 8 = 2 ^ l := by rw [h3, Nat.pow_add]; omega
  have e4 : c.params.idxBits = i := by
    simp only [Config.params, Config.bitwidth_index, Config.nblocks_per_way, Config.total_num_cachelines, e2, clog2_two_pow]
  have e5 : c.params.offBits = l := by
    rw [ho]; simp only [Config.bitwidth_offset, e3, clog2_two_pow]
  simp only [flCfg, Cfg.make, Cfg.of, e2, e3, Nat.log2_two_pow, e4, e5, hw, hab, ha]

/-- The configuration of a property-based test: `cacheSize`, 8-bit opaque and 32-bit address fields,
HypothesisTest.py:101-105. -/
def hypCfg (assoc clw dbw blocks : Nat) : Config := ⟨clw * assoc * blocks / 8, assoc, clw, 32, 8, dbw⟩

/-- `addr_max`, HypothesisTest.py:103. -/
def hypMax (assoc clw dbw blocks : Nat) : Nat := (hypCfg assoc clw dbw blocks).numBytes / 4 * 2 * assoc

/-- `clw_dbw`, HypothesisTest.py:144, 161, 212; the stress tests use (128, 32) and (128, 128). -/
def hypWidths : List (Nat × Nat) := [(64, 32), (64, 64), (128, 32), (128, 64), (128, 128)]

/-- The numeric conditions of `Config.Supported` in a decidable form (proof device). -/
def okCfg (c : Config) : Bool :=
  c.numBytes == 2 ^ c.numBytes.log2 && c.cacheline == 2 ^ c.cacheline.log2 &&
  (c.data == 32 || c.data == 64 || c.data == 128) && (c.associativity == 1 || c.associativity == 2) &&
  decide (64 ≤ c.cacheline) && decide (c.data ≤ c.cacheline) &&
  decide (2 * c.associativity * c.cacheline ≤ 8 * c.numBytes) &&
  decide (c.bitwidth_offset + c.bitwidth_index ≤ c.addr)

theorem okCfg_sound {c : Config} (h : okCfg c = true) : c.Supported := by
  simp only [okCfg, Bool.and_eq_true, Bool.or_eq_true, beq_iff_eq, decide_eq_true_eq] at h
  obtain ⟨⟨⟨⟨⟨⟨⟨h1, h2⟩, h3⟩, h4⟩, h5⟩, h6⟩, h7⟩, h8⟩ := h
  exact ⟨⟨_, h1⟩, ⟨_, h2⟩, by rcases h3 with (h | h) | h <;> simp [h], h4, h5, h6, h7, h8⟩

theorem hyp_checked : ∀ a ∈ [1, 2], ∀ x ∈ hypWidths, ∀ k ∈ [1, 2, 3, 4, 5, 6, 7, 8],
    okCfg (hypCfg a x.1 x.2 (2 ^ k)) = true ∧ hypMax a x.1 x.2 (2 ^ k) < 2 ^ 31 := by
  decide +kernel

theorem hyp_supported {assoc clw dbw k : Nat} (ha : assoc = 1 ∨ assoc = 2) (hw : (clw, dbw) ∈ hypWidths)
    (hk : 1 ≤ k ∧ k ≤ 8) : (hypCfg assoc clw dbw (2 ^ k)).Supported ∧ hypMax assoc clw dbw (2 ^ k) < 2 ^ 31 := by
  obtain ⟨h1, h2⟩ := hyp_checked assoc (by simpa using ha) _ hw k (by simp; omega)
  exact ⟨okCfg_sound h1, h2⟩

/-- **C50, the property-based tests.**  For every associativity, width pair, number of blocks, memory
image and list of requests the strategies can draw, the FL model produces its list without exception,
and the RTL cache passes the test with every timing. -/
theorem C50_hypothesis {assoc clw dbw k : Nat} (ha : assoc = 1 ∨ assoc = 2) (hw : (clw, dbw) ∈ hypWidths)
    (hk : 1 ≤ k ∧ k ≤ 8) (v : Nat → BitVec 32) (ds : List Draw)
    (hd : ∀ d ∈ ds, d.Ok (hypCfg assoc clw dbw (2 ^ k)).params (hypMax assoc clw dbw (2 ^ k))) :
    TestPasses (hypCfg assoc clw dbw (2 ^ k)).params (flCfg (hypCfg assoc clw dbw (2 ^ k))) (hypMax assoc clw dbw (2 ^ k)) v ds := by
  obtain ⟨hs, hm⟩ := hyp_supported ha hw hk
  obtain ⟨wf, _, _, _, _, _, _, _, _, hab, _⟩ := Config.C40_model_params hs
  rw [flCfg_of hs rfl]
  exact C50_random wf hab (Nat.le_refl _) hm v ds hd

/-- The configurations of the random tests: associativity, line width, data width, size,
RandomTestCases.py:114-141. -/
def rndCfgs : List Config :=
  [⟨16, 1, 64, 32, 8, 32⟩, ⟨32, 1, 128, 32, 8, 64⟩, ⟨32, 1, 128, 32, 8, 128⟩, ⟨32, 2, 64, 32, 8, 32⟩,
   ⟨64, 2, 128, 32, 8, 64⟩, ⟨64, 2, 128, 32, 8, 128⟩, ⟨4096, 2, 128, 32, 8, 128⟩, ⟨4096, 2, 128, 32, 8, 32⟩,
   ⟨4096, 1, 128, 32, 8, 128⟩, ⟨4096, 1, 128, 32, 8, 32⟩]

/-- `max_addr`, RandomTestCases.py:42. -/
def rndMax (c : Config) : Nat := c.numBytes / 4 * 3 * c.associativity

theorem rnd_checked : ∀ c ∈ rndCfgs, okCfg c = true ∧ c.addr = 32 ∧ rndMax c ≤ 0xffff := by decide +kernel

/-- **C50, the random tests.**  For each configuration of the random tests and whatever the random number
generator returns. -/
theorem C50_random_tests : ∀ c ∈ rndCfgs, ∀ (v : Nat → BitVec 32) (ds : List Draw),
    (∀ d ∈ ds, d.Ok c.params (rndMax c)) →
    TestPasses c.params (flCfg c) 0xffff v ds := by
  intro c hc v ds hd
  obtain ⟨h1, h9, h10⟩ := rnd_checked c hc
  obtain ⟨wf, _, _, _, _, _, _, _, _, hab, _⟩ := Config.C40_model_params (okCfg_sound h1)
  rw [flCfg_of (okCfg_sound h1) h9]
  exact C50_random wf (hab.trans h9) h10 (by decide) v ds hd

/-! ## Concrete cases -/

namespace RandEx

/-- A write of two bytes, an AMO, a 16-byte read, a flush, an invalidation, a byte read
(not in the source: example). -/
def ds : List Draw := [⟨MT.WRITE, 7, 0xdeadbeef, 1⟩, ⟨3, 7, 1, 0⟩, ⟨MT.READ, 22, 0, 4⟩, ⟨MT.FLUSH, 5, 5, 3⟩, ⟨MT.INV, 0, 0, 0⟩,
  ⟨MT.READ, 6, 0, 0⟩]

/-- Not in the source: example. -/
def c : Config := ⟨32, 1, 128, 32, 8, 128⟩

theorem ds_ok : ∀ d ∈ ds, d.Ok c.params (rndMax c) := by
  intro d hd
  simp only [ds, List.mem_cons, List.not_mem_nil, or_false] at hd
  rcases hd with rfl | rfl | rfl | rfl | rfl | rfl <;> exact ⟨by decide +kernel, by decide +kernel, by decide +kernel, by decide +kernel⟩

example : c ∈ rndCfgs := by decide

/-- The list of the FL model for these draws with memory word `k` holding `0x01010101 * k`. -/
example : ((Model.init (Cfg.of c.params) (randMem 100 fun k => BitVec.ofNat 32 (0x01010101 * k))).run (Cfg.of c.params)
    (drawReqs c.params ds)).map (fun x => x.2.map fun r => (r.ty.toNat, r.opq.toNat, r.test.toNat, r.len.toNat, r.data.toNat)) =
    some [(1, 0, 0, 2, 0), (3, 1, 0, 4, 0xbeef0101), (0, 2, 0, 0, 0x07070707060606060505050504040404), (15, 3, 0, 0, 0),
      (14, 4, 0, 0, 0), (0, 5, 0, 1, 0xef)] := by decide +kernel

/-- Fair executions of the bench for these draws exist. -/
example : ∃ X : PInf Unit c.params, PStart (X.st 0) ∧ (X.st 0).sys.mem = flatImage (randMem 0xffff fun _ => 7) ∧
    X.SinkReady () ∧ X.MemoryAnswers () ∧ X.Sources () ((drawReqs _ ds).map txReq) := by
  obtain ⟨wf, _, _, _, _, _, _, _, _, hab, _⟩ := Config.C40_model_params (okCfg_sound (c := c) (by decide +kernel))
  obtain ⟨X, e, a, b, d, f⟩ := bench_fair wf ({ start0 c.params with mem := flatImage (randMem 0xffff fun _ => 7) } : Sys Unit _)
    ⟨(start0_start _).1, fun _ => rfl, fun _ => rfl⟩ (qs := (drawReqs _ ds).map txReq) (by
      intro q hq
      obtain ⟨q', hq', rfl⟩ := List.mem_map.1 hq
      obtain ⟨d, hd, i, rfl⟩ := mem_drawReqs hq'
      exact valid_not_init (tx_sendable wf hab (amax := rndMax c) (by decide) (ds_ok d hd) i).1)
  exact ⟨X, a, by rw [e], b, d, f⟩

end RandEx

end FL
end Verif
