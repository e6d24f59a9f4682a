import Verif.MemPorts

set_option linter.unusedSectionVars false

/-!
# C89 on the message lists of test/MemoryCL_test.py

The message lists of the repository's tests of the memory, at every page, on every initial contents, with any
number of ports and any timing.
-/

namespace Verif.MemPorts

/-- `mk_mem_msg( 8, 32, 32 )`, test/MemoryCL_test.py:72: 8-bit opaque, 32-bit address, 32-bit data. -/
def p32 : Params := ⟨10, 20, 0, 2, 8, true⟩

/-- A 32-bit address in its three fields (test/MemoryCL_test.py:75-76). -/
def addr32 (n : Nat) : Addr p32 := ⟨BitVec.ofNat _ (n / 4096), BitVec.ofNat _ (n / 4), BitVec.ofNat _ n⟩

/-- `req`, test/MemoryCL_test.py:75-76. -/
def req (t : MType) (opq addr len data : Nat) : MReq p32 :=
  ⟨t, BitVec.ofNat _ opq, addr32 addr, BitVec.ofNat _ len, 0, BitVec.ofNat _ data⟩

/-- `resp`, test/MemoryCL_test.py:78-79 (the length is not part of the model's memory response). -/
def resp (t : MType) (opq data : Nat) : MResp p32 := ⟨t, BitVec.ofNat _ opq, BitVec.ofNat _ data⟩

/-- `basic_msgs`, test/MemoryCL_test.py:85-89, requests. -/
def basicReqs (b : Nat) : List (MReq p32) := [req MT.WRITE 0 b 0 0xdeadbeef, req MT.READ 1 b 0 0]
/-- `basic_msgs`, test/MemoryCL_test.py:85-89, responses. -/
def basicResps : List (MResp p32) := [resp MT.WRITE 0 0, resp MT.READ 1 0xdeadbeef]

/-- `stream_msgs`, test/MemoryCL_test.py:95-104, requests. -/
def streamReqs (b : Nat) : List (MReq p32) :=
  (List.range 20).flatMap fun i => [req MT.WRITE i (b + 4 * i) 0 i, req MT.READ i (b + 4 * i) 0 0]
/-- `stream_msgs`, test/MemoryCL_test.py:95-104, responses. -/
def streamResps : List (MResp p32) :=
  (List.range 20).flatMap fun i => [resp MT.WRITE i 0, resp MT.READ i i]

/-- `subword_rd_msgs`, test/MemoryCL_test.py:110-129, requests. -/
def subwordRdReqs (b : Nat) : List (MReq p32) :=
  [req MT.WRITE 0 b 0 0xdeadbeef,
   req MT.READ 1 b 1 0, req MT.READ 2 (b + 1) 1 0, req MT.READ 3 (b + 2) 1 0, req MT.READ 4 (b + 3) 1 0,
   req MT.READ 5 b 2 0, req MT.READ 6 (b + 1) 2 0, req MT.READ 7 (b + 2) 2 0,
   req MT.READ 8 b 3 0, req MT.READ 9 (b + 1) 3 0, req MT.READ 10 b 0 0]
/-- `subword_rd_msgs`, test/MemoryCL_test.py:110-129, responses. -/
def subwordRdResps : List (MResp p32) :=
  [resp MT.WRITE 0 0,
   resp MT.READ 1 0xef, resp MT.READ 2 0xbe, resp MT.READ 3 0xad, resp MT.READ 4 0xde,
   resp MT.READ 5 0xbeef, resp MT.READ 6 0xadbe, resp MT.READ 7 0xdead,
   resp MT.READ 8 0xadbeef, resp MT.READ 9 0xdeadbe, resp MT.READ 10 0xdeadbeef]

/-- `subword_wr_msgs`, test/MemoryCL_test.py:135-154, requests. -/
def subwordWrReqs (b : Nat) : List (MReq p32) :=
  [req MT.WRITE 0 b 1 0xef, req MT.WRITE 1 (b + 1) 1 0xbe, req MT.WRITE 2 (b + 2) 1 0xad,
   req MT.WRITE 3 (b + 3) 1 0xde, req MT.READ 4 b 0 0,
   req MT.WRITE 5 b 2 0xabcd, req MT.WRITE 6 (b + 2) 2 0xef01, req MT.READ 7 b 0 0,
   req MT.WRITE 8 (b + 1) 2 0x2345, req MT.READ 10 b 0 0,
   req MT.WRITE 11 b 3 0xcafe02, req MT.READ 12 b 0 0]
/-- `subword_wr_msgs`, test/MemoryCL_test.py:135-154, responses. -/
def subwordWrResps : List (MResp p32) :=
  [resp MT.WRITE 0 0, resp MT.WRITE 1 0, resp MT.WRITE 2 0, resp MT.WRITE 3 0, resp MT.READ 4 0xdeadbeef,
   resp MT.WRITE 5 0, resp MT.WRITE 6 0, resp MT.READ 7 0xef01abcd,
   resp MT.WRITE 8 0, resp MT.READ 10 0xef2345cd,
   resp MT.WRITE 11 0, resp MT.READ 12 0xefcafe02]

/-- `test_read_write_mem`, test/MemoryCL_test.py:298-340, requests: twenty word reads. -/
def readBackReqs (b n : Nat) : List (MReq p32) := (List.range n).map fun i => req MT.READ 1 (b + 4 * i) 0 0

/-- Proof device (not in the source): the specification can be evaluated. -/
instance (mask : Bool) (m : MReq p32) (x : Nat) : Decidable (Changes mask m x) := by
  unfold Changes; infer_instance
/-- Proof device (not in the source): the specification can be evaluated. -/
instance (m : MReq p32) (x : Nat) : Decidable (LooksAt m x) := by
  unfold LooksAt; infer_instance

/-- A check that implies `WritesFirst` and that a page is not left (proof device). -/
def listOk (b : Nat) (before : List (MReq p32)) : List (MReq p32) → Bool
  | [] => true
  | m :: ms =>
    decide (b ≤ m.addr.flat ∧ m.addr.flat + 4 ≤ b + 4096 ∧ m.bytes ≤ 4) &&
    (List.range 4).all (fun i => !decide (LooksAt m (m.addr.flat + i)) ||
      before.any (fun w => decide (Changes false w (m.addr.flat + i)))) &&
    listOk b (before ++ [m]) ms

theorem looks_at_four (m : MReq p32) (hb : m.bytes ≤ 4) (x : Nat) (h : LooksAt m x) :
    m.addr.flat ≤ x ∧ x < m.addr.flat + 4 := by
  unfold LooksAt at h
  split at h
  · omega
  split at h
  · cases h
  · exact h

theorem changes_four (m : MReq p32) (hb : m.bytes ≤ 4) (x : Nat) (h : Changes false m x) :
    m.addr.flat ≤ x ∧ x < m.addr.flat + 4 := by
  unfold Changes at h
  split at h
  · cases h
  split at h
  · rw [if_neg (by decide)] at h; omega
  · exact h

theorem listOk_writesFirst (b : Nat) (ms : List (MReq p32)) : ∀ before, listOk b before ms = true →
    ∀ a m c, ms = a ++ m :: c → ∀ x, LooksAt m x → ∃ w ∈ before ++ a, Changes false w x := by
  induction ms with
  | nil => intro before _ a m c e; cases a <;> cases e
  | cons m0 ms ih =>
    intro before h a m c e x hx
    simp only [listOk, Bool.and_eq_true, decide_eq_true_eq, List.all_eq_true, List.mem_range] at h
    obtain ⟨⟨⟨h1, h2, h3⟩, h4⟩, h5⟩ := h
    cases a with
    | nil =>
      cases e
      have hf := looks_at_four m0 h3 x hx
      have h6 := h4 (x - m0.addr.flat) (by omega)
      rw [show m0.addr.flat + (x - m0.addr.flat) = x by omega] at h6
      simp only [hx, decide_true, Bool.not_true, Bool.false_or, List.any_eq_true, decide_eq_true_eq] at h6
      simpa using h6
    | cons a0 a =>
      cases e
      simpa using ih (before ++ [m0]) h5 a m c rfl x hx

theorem listOk_page (b : Nat) (ms : List (MReq p32)) : ∀ before, listOk b before ms = true →
    ∀ m ∈ ms, ∀ x, LooksAt m x ∨ Changes false m x → b ≤ x ∧ x < b + 4096 := by
  induction ms with
  | nil => intro _ _ m hm; cases hm
  | cons m0 ms ih =>
    intro before h m hm x hx
    simp only [listOk, Bool.and_eq_true, decide_eq_true_eq] at h
    obtain ⟨⟨⟨h1, h2, h3⟩, _⟩, h5⟩ := h
    rcases List.mem_cons.1 hm with rfl | hm
    · have : m.addr.flat ≤ x ∧ x < m.addr.flat + 4 := hx.elim (looks_at_four m h3 x) (changes_four m h3 x)
      omega
    · exact ih _ h5 m hm x hx

/-- One of the four directed message lists of the test, test/MemoryCL_test.py:85-154. -/
inductive Case
  | basic | stream | subwordRd | subwordWr

/-- The requests of a list at page `b`, test/MemoryCL_test.py:85-154. -/
def Case.reqs (b : Nat) : Case → List (MReq p32)
  | .basic => basicReqs b
  | .stream => streamReqs b
  | .subwordRd => subwordRdReqs b
  | .subwordWr => subwordWrReqs b

/-- The responses that the test expects, test/MemoryCL_test.py:85-154. -/
def Case.resps : Case → List (MResp p32)
  | .basic => basicResps
  | .stream => streamResps
  | .subwordRd => subwordRdResps
  | .subwordWr => subwordWrResps

theorem case_ok (c : Case) (i : Fin 20) : listOk (0x1000 * i) [] (c.reqs (0x1000 * i)) = true := by
  revert i
  cases c <;> decide +kernel

theorem case_zero (c : Case) (i : Fin 20) :
    (alone false (fun _ => 0) (c.reqs (0x1000 * i))).2 = c.resps := by
  revert i
  cases c <;> decide +kernel

/-- **C89 on the tests of the repository** (`test_20port` of test/MemoryCL_test.py with any number of ports up to
twenty, and any list at any port): whatever the memory contains at power-up, whatever the latencies, stalls and
the interleaving, every port gets a prefix of the responses that the test expects, and all of them once nothing is
left in the queues. -/
theorem C89_test_20port (c : Fin 20 → Case) (ports : List (Fin 20)) (M : ByteMem) (ops : List (MemOp (Fin 20) p32))
    (H : MemHist (Fin 20) p32)
    (hH : (MemHist.start (Fin 20) p32 M).run (fun _ => false) ports ops = some H)
    (ha : ∀ i, H.arrived i <+: (c i).reqs (0x1000 * i)) (i : Fin 20) :
    H.delivered i <+: (c i).resps ∧
    (Drained H → H.arrived i = (c i).reqs (0x1000 * i) → H.delivered i = (c i).resps) := by
  have hu : ∀ k, Undisturbed (fun _ : Fin 20 => false) H.arrived k :=
    C89_regions (fun _ => false) H.arrived (fun j x => 0x1000 * j.val ≤ x ∧ x < 0x1000 * j.val + 4096)
      (fun j k hjk x h1 h2 => hjk (Fin.ext (by omega)))
      (fun j m hm => listOk_page _ _ [] (case_ok (c j) j) m ((ha j).subset hm))
  have hw : WritesFirst false ((c i).reqs (0x1000 * i)) := fun a m b e x hx => by
    simpa using listOk_writesFirst _ _ [] (case_ok (c i) i) a m b e x hx
  have hz : (alone false M ((c i).reqs (0x1000 * i))).2 = (c i).resps := by
    rw [C89_any_contents false _ hw M (fun _ => 0), case_zero]
  refine ⟨?_, fun hd he => ?_⟩
  · refine (C89_responses _ ports M ops H hH i (hu i)).trans ?_
    obtain ⟨t, ht⟩ := ha i
    rw [← hz, ← ht, alone_append]
    exact List.prefix_append ..
  · rw [C89_all_responses _ ports M ops H hH hd i (hu i), he, hz]

/-- Non-vacuity: ports 1 and 2 with two different lists, executed in an interleaved order with stalls, all
responses delivered (not in the source: schedule of test/MemoryCL_test.py:262-283). -/
def twoPorts : List (MemOp (Fin 20) p32) :=
  let e (i : Fin 20) (c : Case) := (c.reqs (0x1000 * i)).map (MemOp.enq i)
  e 2 .subwordWr ++ e 1 .subwordRd ++
  (List.range 24).flatMap (fun n => [.cycle (fun k => decide (k.val = n % 3) || decide (n % 2 = 0)),
    .deq (if n % 2 = 0 then 1 else 2)]) ++
  (List.range 12).flatMap (fun _ => [.deq 1, .deq 2])

example : ((MemHist.start (Fin 20) p32 (fun x => BitVec.ofNat 8 x)).run (fun _ => false) [1, 2] twoPorts).map
    (fun H => (H.delivered 1, H.delivered 2, (List.finRange 20).all fun k => (H.st.reqQ k).isEmpty && (H.st.respQ k).isEmpty)) =
      some (Case.resps .subwordRd, Case.resps .subwordWr, true) := by
  decide +kernel

/-- A port whose requests are not undisturbed really can be disturbed: port 1 writes the word that port 2 reads
between its two reads. -/
example : ((MemHist.start (Fin 2) p32 (fun _ => 0)).run (fun _ => false) [0, 1]
      [.enq 1 (req MT.READ 0 8 0 0), .enq 0 (req MT.WRITE 0 8 0 7), .enq 1 (req MT.READ 1 8 0 0),
       .cycle (fun k => k == 1), .cycle (fun k => k == 0), .cycle (fun _ => true), .deq 1, .deq 1]).map
    (fun H => (H.delivered 1).map (·.data.toNat)) = some [0, 7] := by
  decide +kernel

theorem readBack_data (M : ByteMem) (b : Nat) (hb : ∀ i, i < 20 → (addr32 (b + 4 * i)).flat = b + 4 * i) :
    (alone false M (readBackReqs b 20)).2 =
      (List.range 20).map fun i => ⟨MT.READ, 1, BitVec.ofNat _ (readLE M (b + 4 * i) 4)⟩ := by
  have : ∀ l : List Nat, (∀ i ∈ l, i < 20) →
      (alone false M (l.map fun i => req MT.READ 1 (b + 4 * i) 0 0)).2 =
        l.map fun i => ⟨MT.READ, 1, BitVec.ofNat _ (readLE M (b + 4 * i) 4)⟩ := by
    intro l
    induction l with
    | nil => intro _; rfl
    | cons i l ih =>
      intro h
      have hf := hb i (h i (by simp))
      have e : memExecG false M (req MT.READ 1 (b + 4 * i) 0 0) =
          (M, ⟨MT.READ, 1, BitVec.ofNat _ (readLE M (b + 4 * i) 4)⟩) := by
        simp only [memExecG, memExec, req, MT.READ_ne_WRITE, false_and, if_false, if_true, hf]
        rfl
      simp only [List.map_cons, alone, e, ih (fun j hj => h j (by simp [hj]))]
  exact this (List.range 20) (fun i hi => List.mem_range.1 hi)

/-- **C89 on `test_read_write_mem`** (test/MemoryCL_test.py:285-340): twenty word reads from 0x1000 on one port, no
request on the other, give the words that `write_mem` put there, and the contents stay as they are. -/
theorem C89_read_back (ports : List (Fin 2)) (M : ByteMem) (ops : List (MemOp (Fin 2) p32)) (H : MemHist (Fin 2) p32)
    (hH : (MemHist.start (Fin 2) p32 M).run (fun _ => false) ports ops = some H) (hd : Drained H)
    (h0 : H.arrived 0 = readBackReqs 0x1000 20) (h1 : H.arrived 1 = []) :
    H.delivered 0 = (List.range 20).map (fun i => ⟨MT.READ, 1, BitVec.ofNat _ (readLE M (0x1000 + 4 * i) 4)⟩) ∧
    H.st.mem = M := by
  have hn : ∀ j, ∀ m ∈ H.arrived j, ∀ x, ¬ Changes false m x := by
    intro j m hm x hc
    rcases (show j = 0 ∨ j = 1 by omega) with rfl | rfl
    · rw [h0] at hm
      obtain ⟨i, _, rfl⟩ := List.mem_map.1 hm
      simp [Changes, req] at hc
    · rw [h1] at hm; cases hm
  have hu : ∀ k, Undisturbed (fun _ : Fin 2 => false) H.arrived k :=
    fun k j hj w hw m hm x hc => absurd hc (hn j w hw x)
  refine ⟨?_, ?_⟩
  · rw [C89_all_responses _ ports M ops H hH hd 0 (hu 0), h0]
    exact readBack_data M 0x1000 (by decide +kernel)
  · have hi : MemInv (fun _ => false) M H := MemInv.run ports ops ⟨fun _ => rfl, fun _ => rfl, .nil M⟩ hH
    exact funext fun x => untouched _ hi.serial x (fun e he => hn e.1 e.2.1 (by
      rw [hi.arrived]; exact List.mem_append_left _ (mem_logReqs he)) x)

end Verif.MemPorts
