import Verif.MsgFmt
import Verif.NetUnitsEq
import Verif.PropsNetSys

/-!
# C75: the line trace

`line_trace` of the control unit (BlockingCacheCtrlRTL.py:762-857) and of the cache (BlockingCacheRTL.py:75-92), on
registers, input ports and wires.  The test benches call it in every cycle (`DefaultPassGroup( linetrace=True )`,
test/sim_utils.py:72), so that an exception in it aborts the simulation.
-/

namespace Verif.Net
open Verif.Fmt
variable {p : Params} {ι : Type} [DecidableEq ι]

/-! ## The model -/

/-- First part of `msg_M0`, BlockingCacheCtrlRTL.py:764-777; `none`: `assert False`. -/
def traceFsm (c : BitVec 3) : Option (List Char) :=
  if c == FS.INIT then some ['(', 'i', 'n', 'i', 't', ')']
  else if c == FS.READY then some ['(', 'r', 'd', 'y', ' ', ')']
  else if c == FS.REPLAY then some ['(', 'r', 'p', 'y', ' ', ')']
  else if c == FS.INV then some ['(', 'i', 'n', 'v', ' ', ')']
  else if c == FS.FLUSH then some ['(', 'f', 'l', 's', 'h', ')']
  else if c == FS.FLUSH_WAIT then some ['(', 'f', 'l', 's', '#', ')']
  else none

/-- Second part of `msg_M0`, BlockingCacheCtrlRTL.py:780-799. -/
def traceM0 (t : BitVec 5) : List Char :=
  if t == TR.INVALID then ['x', 'x', 'x']
  else if t == TR.REFILL then [' ', 'r', 'f']
  else if t == TR.CLEAN_HIT then [' ', 'w', 'c']
  else if t == TR.REPLAY_READ then ['r', 'p', 'r']
  else if t == TR.REPLAY_WRITE then ['r', 'p', 'w']
  else if t == TR.READ_REQ then [' ', 'r', 'd']
  else if t == TR.WRITE_REQ then [' ', 'w', 'r']
  else if t == TR.INIT_REQ then [' ', 'i', 'n']
  else if t == TR.CACHE_INIT then ['i', 'n', 'i']
  else if t == TR.AMO_REQ then ['a', 'm', 'o']
  else if t == TR.REPLAY_AMO then ['r', 'p', 'a']
  else if t == TR.INV_WRITE then ['i', 'v', 'w']
  else if t == TR.INV_START then ['i', 'v', '0']
  else if t == TR.REPLAY_INV then ['i', 'v', 'p']
  else if t == TR.FLUSH_START then ['f', 'l', '0']
  else if t == TR.FLUSH_READ then ['f', 'l', 'r']
  else if t == TR.FLUSH_WAIT then ['f', 'l', '#']
  else if t == TR.FLUSH_WRITE then ['f', 'l', 'w']
  else if t == TR.REPLAY_FLUSH then ['f', 'l', 'p']
  else [' ', ' ', ' ']

/-- The escape character that starts a colour sequence of the library `colorama` (the library `colorama`). -/
def esc : Char := '\x1b'

/-- `color_m1`, BlockingCacheCtrlRTL.py:805: `Back.BLACK + Fore.GREEN` or `Back.BLACK + Fore.RED`. -/
def traceColor (hit : Bool) : List Char :=
  [esc, '[', '4', '0', 'm'] ++ if hit then [esc, '[', '3', '2', 'm'] else [esc, '[', '3', '1', 'm']

/-- `Style.RESET_ALL` of `colorama`, BlockingCacheCtrlRTL.py:811-812. -/
def traceReset : List Char := [esc, '[', '0', 'm']

/-- `msg_M1`, BlockingCacheCtrlRTL.py:804-825. -/
def traceM1 (t : BitVec 5) (hit : Bool) : List Char :=
  if t == TR.REFILL then [' ', 'r', 'f']
  else if t == TR.CLEAN_HIT then [' ', 'w', 'c']
  else if t == TR.REPLAY_READ then ['r', 'p', 'r']
  else if t == TR.REPLAY_WRITE then ['r', 'p', 'w']
  else if t == TR.READ_REQ then traceColor hit ++ [' ', 'r', 'd'] ++ traceReset
  else if t == TR.WRITE_REQ then traceColor hit ++ [' ', 'w', 'r'] ++ traceReset
  else if t == TR.INIT_REQ then [' ', 'i', 'n']
  else if t == TR.CACHE_INIT then ['i', 'n', 'i']
  else if t == TR.AMO_REQ then ['a', 'm', 'o']
  else if t == TR.REPLAY_AMO then ['r', 'p', 'a']
  else if t == TR.INV_WRITE then ['i', 'v', 'w']
  else if t == TR.INV_START then ['i', 'v', '0']
  else if t == TR.REPLAY_INV then ['i', 'v', 'p']
  else if t == TR.FLUSH_START then ['f', 'l', '0']
  else if t == TR.FLUSH_READ then ['f', 'l', 'r']
  else if t == TR.FLUSH_WAIT then ['f', 'l', '#']
  else if t == TR.FLUSH_WRITE then ['f', 'r', 'w']
  else if t == TR.REPLAY_FLUSH then ['f', 'l', 'p']
  else [' ', ' ', ' ']

/-- `msg_M2`, BlockingCacheCtrlRTL.py:827-846. -/
def traceM2 (t : BitVec 5) (evict : Bool) : List Char :=
  if t == TR.REFILL then [' ', 'r', 'f']
  else if t == TR.CLEAN_HIT then [' ', 'w', 'c']
  else if t == TR.REPLAY_READ then ['r', 'p', 'r']
  else if t == TR.REPLAY_WRITE then ['r', 'p', 'w']
  else if evict then [' ', 'e', 'v']
  else if t == TR.READ_REQ then [' ', 'r', 'd']
  else if t == TR.WRITE_REQ then [' ', 'w', 'r']
  else if t == TR.INIT_REQ then [' ', 'i', 'n']
  else if t == TR.CACHE_INIT then ['i', 'n', 'i']
  else if t == TR.AMO_REQ then ['a', 'm', 'o']
  else if t == TR.REPLAY_AMO then ['r', 'p', 'a']
  else if t == TR.INV_WRITE then ['i', 'v', 'w']
  else if t == TR.INV_START then ['i', 'v', '0']
  else if t == TR.REPLAY_INV then ['i', 'v', 'p']
  else if t == TR.FLUSH_START then ['f', 'l', '0']
  else if t == TR.FLUSH_READ then ['f', 'l', 'r']
  else if t == TR.FLUSH_WAIT then ['f', 'l', '#']
  else if t == TR.FLUSH_WRITE then ['f', 'l', 'w']
  else if t == TR.REPLAY_FLUSH then ['f', 'l', 'p']
  else [' ', ' ', ' ']

/-- `line_trace` of the control unit, BlockingCacheCtrlRTL.py:762-857; `none`: an exception. -/
def ctrlTrace (r : Regs p) (i : PIn p) (w : (x : Wire) → T p x) : Option (List Char) :=
  match traceFsm r.fsmM0 with
  | none => none
  | some f =>
    some ((if i.memrespEn then '>' else ' ') :: '|' ::
      ((if w .cachereqRdy then ' ' else '#') :: (f ++ traceM0 (w .transM0))) ++
      '|' :: traceM1 r.transM1 (w .hitM1) ++
      '|' :: traceM2 r.transM2 r.isEvictM2 ++
      '|' :: [if w .memreqEn then '>' else ' '])

/-- The message format of the memory port, BlockingCacheRTL.py:26-50: line-wide data with a write mask. -/
abbrev memFmt (p : Params) : Widths := ⟨p.opqBits, p.addrBits, p.lineBits, true⟩

theorem memFmt_len (p : Params) : p.offBits = (memFmt p).len := by
  simp only [Widths.len, Params.offBits, Nat.shiftRight_eq_div_pow]
  exact (clog2_lineBytes p).symm

theorem memFmt_wmask (p : Params) : p.nWords = (memFmt p).wmask := by
  simp only [Widths.wmask, if_true, Params.lineBits, Nat.shiftRight_eq_div_pow]
  omega

/-- A memory request as a message of that format (the widths of its fields are equal, see `memFmt_len` and
`memFmt_wmask`), mem_ifcs/MemMsg.py:108-131. -/
def WMReq.fmt (m : WMReq p) : Req (memFmt p) :=
  ⟨m.ty, m.opq, m.addr, m.len.cast (memFmt_len p), m.wmask.cast (memFmt_wmask p), m.data⟩

/-- The string of a memory request, mem_ifcs/MemMsg.py:86-106. -/
abbrev WMReq.str (m : WMReq p) : List Char := m.fmt.str

/-- A memory response as a message of that format, mem_ifcs/MemMsg.py:168-191. -/
def WMResp.fmt (m : WMResp p) : Resp (memFmt p) :=
  ⟨m.ty, m.opq, m.test, m.len.cast (memFmt_len p), m.wmask.cast (memFmt_wmask p), m.data⟩

/-- `line_trace` of the cache, BlockingCacheRTL.py:75-92 (the data path contributes the empty string,
BlockingCacheDpathRTL.py:376-380). -/
def cacheTrace (level : Nat) (r : Regs p) (i : PIn p) (w : (x : Wire) → T p x) : Option (List Char) :=
  if level = 1 then ctrlTrace r i w
  else if level = 2 then
    match ctrlTrace r i w with
    | none => none
    | some c =>
      some (' ' :: (if i.memrespEn then i.memrespMsg.fmt.str else List.replicate (12 + p.lineBits / 4) ' ') ++ c ++
        (if w .memreqEn then WMReq.str (w .memreqM2) else List.replicate (19 + p.lineBits / 4) ' '))
  else some []

/-! ## Specification -/

/-- Moments of a simulation with arbitrary inputs (reset or not), in which the blocks run in any order, also before
the wires have settled.  At power-on the registers of the FSM state and of the transactions and their input wires are
zero, as PyMTL3 initialises them; all other registers, wires and SRAMs are arbitrary
(BlockingCacheCtrlRTL.py:762-857 runs in such moments). -/
inductive Sim : Regs p → ((x : Wire) → T p x) → Prop
  | power (r : Regs p) (w : (x : Wire) → T p x) (h : r.fsmM0 = 0 ∧ r.transM1 = 0 ∧ r.transM2 = 0)
      (hw : w .fsmNextM0 = 0#3 ∧ w .transM0 = 0#5) : Sim r w
  | block {r : Regs p} {w : (x : Wire) → T p x} (h : Sim r w) (i : PIn p) (B : Blk) : Sim r (runOne r i B w)
  | edge {r : Regs p} {w : (x : Wire) → T p x} (h : Sim r w) (i : PIn p) : Sim (regsNext r i w) w

/-- What a terminal shows: the text without colour sequences (from an escape character up to the letter `m`)
(not in the source: specification). -/
def visible (inside : Bool) : List Char → List Char
  | [] => []
  | c :: s =>
    if inside then visible (c != 'm') s
    else if c == esc then visible true s
    else c :: visible false s

/-- The colour sequence for green text (the library `colorama`). -/
def green : List Char := ['\x1b', '[', '3', '2', 'm']

/-- The colour sequence for red text (the library `colorama`). -/
def red : List Char := ['\x1b', '[', '3', '1', 'm']

/-- Number of hexadecimal digits shown for a field of `n` bits (PyMTL3 (`Bits.__str__`)). Python and PyMTL3 libraries; not in the source. -/
def digits (n : Nat) : Nat := (n - 1) / 4 + 1

/-! ## Lemmas -/

theorem traceFsm_isSome (c : BitVec 3) : (traceFsm c).isSome = decide (c.toNat ≤ 5) := by
  revert c; decide

theorem fsmNext_le {n : Nat} (f : BitVec 3) (c : BitVec n) (a b : Bool) (t u : MType) (d e g h : Bool) :
    (fsmNextB f c a b t u d e g h).toNat ≤ 5 := by
  unfold fsmNextB
  simp only [Id.run, pure]
  repeat' split
  all_goals decide

theorem ite_le {c : Prop} [Decidable c] {a b : BitVec 5} (ha : a.toNat ≤ 18) (hb : b.toNat ≤ 18) :
    (if c then a else b).toNat ≤ 18 := by
  split <;> assumption

theorem trans_le (f : BitVec 3) (a b : Bool) (t : MType) (c d e g h : Bool) (u : MType) :
    (transB f a b t c d e g h u).toNat ≤ 18 := by
  unfold transB
  simp only [Id.run, pure]
  repeat' apply ite_le
  all_goals decide

/-- All codes are among those of the source (proof device). -/
structure Codes (r : Regs p) (w : (x : Wire) → T p x) : Prop where
  fsm : r.fsmM0.toNat ≤ 5
  next : BitVec.toNat (w := 3) (w .fsmNextM0) ≤ 5
  t0 : BitVec.toNat (w := 5) (w .transM0) ≤ 18
  t1 : r.transM1.toNat ≤ 18
  t2 : r.transM2.toNat ≤ 18

theorem Sim.codes {r : Regs p} {w : (x : Wire) → T p x} (h : Sim r w) : Codes r w := by
  induction h with
  | power r w h hw =>
    refine ⟨?_, ?_, ?_, ?_, ?_⟩
    · rw [h.1]; exact (by decide : BitVec.toNat (0 : BitVec 3) ≤ 5)
    · rw [hw.1]; decide
    · rw [hw.2]; decide
    · rw [h.2.1]; exact (by decide : BitVec.toNat (0 : BitVec 5) ≤ 18)
    · rw [h.2.2]; exact (by decide : BitVec.toNat (0 : BitVec 5) ≤ 18)
  | block h i B ih =>
    refine ⟨ih.fsm, ?_, ?_, ih.t1, ih.t2⟩
    · simp only [runOne, Sched.runBlk]
      split
      · exact fsmNext_le _ _ _ _ _ _ _ _ _ _
      · exact ih.next
    · simp only [runOne, Sched.runBlk]
      split
      · exact trans_le _ _ _ _ _ _ _ _ _ _
      · exact ih.t0
  | edge h i ih =>
    refine ⟨?_, ih.next, ih.t0, ?_, ?_⟩ <;> simp only [regsNext, regEnRst] <;> split
    · decide
    · split
      · exact ih.next
      · exact ih.fsm
    · decide
    · split
      · exact ih.t0
      · exact ih.t1
    · decide
    · split
      · exact ih.t1
      · exact ih.t2

theorem visible_append (s t : List Char) (b : Bool) (h : ∀ c ∈ s, c ≠ esc) (hb : b = false) :
    visible b (s ++ t) = s ++ visible false t := by
  subst hb
  induction s with
  | nil => rfl
  | cons c s ih =>
    have hc : (c == esc) = false := by simpa using h c (List.mem_cons_self ..)
    simp only [List.cons_append, visible, Bool.false_eq_true, if_false, hc]
    rw [ih (fun d hd => h d (List.mem_cons_of_mem _ hd))]

theorem digitChar_ne : ∀ d, d < 16 → Nat.digitChar d ≠ esc := by decide

theorem toDigits_ne (n : Nat) : ∀ c ∈ Nat.toDigits 16 n, c ≠ esc := by
  induction n using Nat.strongRecOn with
  | _ n ih =>
    rw [Nat.toDigits_eq_if (by omega)]
    split
    · intro c hc
      rw [List.mem_singleton] at hc
      exact hc ▸ digitChar_ne _ ‹_›
    · intro c hc
      rw [List.mem_append, List.mem_singleton] at hc
      rcases hc with hc | rfl
      · exact ih (n / 16) (by omega) c hc
      · exact digitChar_ne _ (by omega)

theorem bitsStr_ne {n : Nat} (v : BitVec n) : ∀ c ∈ bitsStr v, c ≠ esc := by
  intro c hc
  simp only [bitsStr, zfill, List.mem_append] at hc
  rcases hc with hc | hc
  · rw [List.eq_of_mem_replicate hc]; decide
  · exact toDigits_ne _ c hc

theorem typeStr_ne (t : BitVec 4) : ∀ c ∈ typeStr t, c ≠ esc := by
  revert t; decide

theorem ite_ne {c : Prop} [Decidable c] {n k : Nat} (v : BitVec n) :
    ∀ x ∈ (if c then bitsStr v else List.replicate k ' '), x ≠ esc := by
  split
  · exact bitsStr_ne v
  · intro x hx; rw [List.eq_of_mem_replicate hx]; decide

theorem reqStr_ne (m : WMReq p) : ∀ c ∈ m.fmt.str, c ≠ esc := by
  simp only [Req.str, if_true, List.forall_mem_append, List.forall_mem_cons]
  exact ⟨typeStr_ne _, by decide, bitsStr_ne _, by decide, bitsStr_ne _, by decide, bitsStr_ne _, by decide,
    ⟨bitsStr_ne _, by decide, fun _ h => nomatch h⟩, ite_ne _⟩

theorem respStr_ne (m : WMResp p) : ∀ c ∈ m.fmt.str, c ≠ esc := by
  simp only [Resp.str, if_true, List.forall_mem_append, List.forall_mem_cons]
  exact ⟨typeStr_ne _, by decide, bitsStr_ne _, by decide, bitsStr_ne _, by decide, bitsStr_ne _, by decide,
    ⟨bitsStr_ne _, by decide, fun _ h => nomatch h⟩, ite_ne _⟩

theorem lineBits_pos : 0 < p.lineBits ∧ p.lineBits % 4 = 0 := by
  have : 0 < 2 ^ p.nwBits := Nat.pow_pos (by omega)
  simp only [Params.lineBits, Params.nWords]
  omega

theorem reqStr_length (m : WMReq p) :
    m.fmt.str.length = 7 + digits p.opqBits + digits p.addrBits + digits p.offBits + digits p.nWords + p.lineBits / 4 := by
  simp only [Req.str, if_true, List.length_append, List.length_cons, List.length_nil, typeStr_length, bitsStr_length,
    data_length lineBits_pos.1 lineBits_pos.2, ← memFmt_len, ← memFmt_wmask, digits]
  omega

theorem respStr_length (m : WMResp p) :
    m.fmt.str.length = 8 + digits p.opqBits + digits p.offBits + digits p.nWords + p.lineBits / 4 := by
  simp only [Resp.str, if_true, List.length_append, List.length_cons, List.length_nil, typeStr_length, bitsStr_length,
    data_length lineBits_pos.1 lineBits_pos.2, ← memFmt_len, ← memFmt_wmask, digits]
  omega

theorem traceFsm_shape : ∀ c : BitVec 3, ∀ f, traceFsm c = some f → f.length = 6 ∧ ∀ x ∈ f, x ≠ esc := by
  have key : ∀ c : BitVec 3, ((traceFsm c).all fun f => f.length == 6 && f.all (· != esc)) = true := by decide
  intro c f h
  have := key c
  rw [h] at this
  simpa using this

theorem traceFsm_inj : ∀ c d : BitVec 3, traceFsm c ≠ none → traceFsm c = traceFsm d → c = d := by decide +kernel

theorem traceM0_length : ∀ t : BitVec 5, (traceM0 t).length = 3 := by decide

theorem traceM0_ne : ∀ t : BitVec 5, ∀ c ∈ traceM0 t, c ≠ esc := by decide

theorem traceM0_inj : ∀ t u : BitVec 5, t.toNat ≤ 18 → u.toNat ≤ 18 → traceM0 t = traceM0 u → t = u := by
  decide +kernel

theorem traceM1_inj : ∀ t u : BitVec 5, ∀ a b : Bool, t.toNat ≤ 18 → u.toNat ≤ 18 → traceM1 t a = traceM1 u b →
    t = u ∧ (t = TR.READ_REQ ∨ t = TR.WRITE_REQ → a = b) := by
  decide +kernel

theorem traceM1_vis : ∀ t : BitVec 5, ∀ a : Bool, (visible false (traceM1 t a)).length = 3 := by decide

theorem traceM2_length : ∀ t : BitVec 5, ∀ e : Bool, (traceM2 t e).length = 3 := by decide

theorem traceM2_ne : ∀ t : BitVec 5, ∀ e : Bool, ∀ c ∈ traceM2 t e, c ≠ esc := by decide

theorem traceM2_inj : ∀ t u : BitVec 5, ∀ a b : Bool, t.toNat ≤ 18 → u.toNat ≤ 18 → traceM2 t a = traceM2 u b →
    t = u ∨ (a = true ∧ b = true) := by
  decide +kernel

/-- Whether a text ends inside a colour sequence (proof device). -/
def endsInside (inside : Bool) : List Char → Bool
  | [] => inside
  | c :: s => endsInside (if inside then c != 'm' else c == esc) s

theorem visible_cat (s t : List Char) : ∀ b : Bool, visible b (s ++ t) = visible b s ++ visible (endsInside b s) t := by
  induction s with
  | nil => intro b; cases b <;> rfl
  | cons c s ih =>
    intro b
    cases b
    · cases hc : c == esc <;> simp [visible, endsInside, hc, ih]
    · simp [visible, endsInside, ih]

theorem traceM1_closed : ∀ t : BitVec 5, ∀ a : Bool, endsInside false (traceM1 t a) = false := by decide

theorem visible_M1 (t : BitVec 5) (a : Bool) (s : List Char) :
    visible false (traceM1 t a ++ s) = visible false (traceM1 t a) ++ visible false s := by
  rw [visible_cat, traceM1_closed]

theorem ctrlTrace_some {r : Regs p} {i : PIn p} {w : (x : Wire) → T p x} {s : List Char} (h : ctrlTrace r i w = some s) :
    ∃ f, traceFsm r.fsmM0 = some f ∧
      s = ([if i.memrespEn then '>' else ' ', '|', if w .cachereqRdy then ' ' else '#'] ++ f ++ traceM0 (w .transM0) ++
        ['|']) ++ (traceM1 r.transM1 (w .hitM1) ++
        (['|'] ++ traceM2 r.transM2 r.isEvictM2 ++ ['|', if w .memreqEn then '>' else ' '])) := by
  unfold ctrlTrace at h
  split at h
  · exact nomatch h
  · rename_i f hf
    refine ⟨f, hf, ?_⟩
    injection h with h
    rw [← h]
    simp

theorem vis_of_ne {s : List Char} (h : ∀ c ∈ s, c ≠ esc) : visible false s = s := by
  have := visible_append s [] false h rfl
  simpa [visible] using this

theorem ctrlTrace_vis {r : Regs p} {i : PIn p} {w : (x : Wire) → T p x} {s : List Char} (h : ctrlTrace r i w = some s)
    (t : List Char) : ∃ v, v.length = 22 ∧ visible false (s ++ t) = v ++ visible false t := by
  obtain ⟨f, hf, rfl⟩ := ctrlTrace_some h
  have hs := traceFsm_shape _ _ hf
  refine ⟨([if i.memrespEn then '>' else ' ', '|', if w .cachereqRdy then ' ' else '#'] ++ f ++ traceM0 (w .transM0) ++
        ['|']) ++ (visible false (traceM1 r.transM1 (w .hitM1)) ++
        (['|'] ++ traceM2 r.transM2 r.isEvictM2 ++ ['|', if w .memreqEn then '>' else ' '])), ?_, ?_⟩
  · simp only [List.length_append, List.length_cons, List.length_nil, traceM0_length, traceM1_vis, traceM2_length, hs.1,
      Nat.reduceAdd]
  · have h1 : ∀ b : Bool, ∀ x y : Char, x ≠ esc → y ≠ esc → (if b then x else y) ≠ esc := by
      intro b x y hx hy; cases b <;> assumption
    have cat : ∀ A C : List Char, (∀ c ∈ C, c ≠ esc) → (∀ c ∈ A, c ≠ esc) →
        visible false (A ++ (traceM1 r.transM1 (w .hitM1) ++ C) ++ t) =
          A ++ (visible false (traceM1 r.transM1 (w .hitM1)) ++ C) ++ visible false t := by
      intro A C hC hA
      rw [List.append_assoc, visible_append _ _ _ hA rfl, List.append_assoc, visible_M1, visible_append _ _ _ hC rfl]
      simp only [List.append_assoc]
    apply cat
    · intro c hc
      simp only [List.mem_append, List.mem_cons, List.not_mem_nil, or_false] at hc
      rcases hc with (rfl | hc) | rfl | rfl
      · decide
      · exact traceM2_ne _ _ c hc
      · decide
      · exact h1 _ _ _ (by decide) (by decide)
    · intro c hc
      simp only [List.mem_append, List.mem_cons, List.not_mem_nil, or_false] at hc
      rcases hc with (((rfl | rfl | rfl) | hc) | hc) | rfl
      · exact h1 _ _ _ (by decide) (by decide)
      · decide
      · exact h1 _ _ _ (by decide) (by decide)
      · exact hs.2 c hc
      · exact traceM0_ne _ c hc
      · decide

theorem markResp {a b : Bool} (h : (if a then '>' else ' ') = (if b then '>' else ' ')) : a = b := by
  cases a <;> cases b <;> first | rfl | exact absurd h (by decide)

theorem markRdy {a b : Bool} (h : (if a then ' ' else '#') = (if b then ' ' else '#')) : a = b := by
  cases a <;> cases b <;> first | rfl | exact absurd h (by decide)

/-! ## Theorems -/

/-- **C75, no exception.**  At every moment of every simulation from power-on, whatever the inputs, resets and orders
of the update blocks, `line_trace` returns a string, at every level. -/
theorem C75_never_fails {r : Regs p} {w : (x : Wire) → T p x} (h : Sim r w) (i : PIn p) (level : Nat) :
    (cacheTrace level r i w).isSome = true := by
  have h1 : (ctrlTrace r i w).isSome = true := by
    have := traceFsm_isSome r.fsmM0
    rw [decide_eq_true h.codes.fsm] at this
    unfold ctrlTrace
    split
    · rename_i hf; rw [hf] at this; exact nomatch this
    · rfl
  unfold cacheTrace
  split
  · exact h1
  · split
    · split
      · rename_i hf; rw [hf] at h1; exact nomatch h1
      · rfl
    · rfl

/-- **C75, no exception after a reset**, with arbitrary registers before it: in every cycle of every execution of
the caches. -/
theorem C75_never_fails_after_reset (wf : p.WF) {N N' : NSys ι p} {tr : List (WEv ι p)} (h0 : NStart N) (h : NRun N tr N')
    (k : ι) (i : PIn p) (w : (x : Wire) → T p x) (level : Nat) : (cacheTrace level (N'.regs k) i w).isSome = true := by
  obtain ⟨S, hs, he⟩ := h0.refine
  obtain ⟨S', hr, he'⟩ := h.refine wf he
  have hc : (N'.regs k).fsmM0.toNat ≤ 5 := by
    rw [(he'.cache k).fsmM0]
    cases (S'.cache k).fsm <;> decide
  have h1 : (ctrlTrace (N'.regs k) i w).isSome = true := by
    have := traceFsm_isSome (N'.regs k).fsmM0
    rw [decide_eq_true hc] at this
    unfold ctrlTrace
    split
    · rename_i hf; rw [hf] at this; exact nomatch this
    · rfl
  unfold cacheTrace
  split
  · exact h1
  · split
    · split
      · rename_i hf; rw [hf] at h1; exact nomatch h1
      · rfl
    · rfl

/-- **C75, the marks are true.**  The first character is `>` exactly if a memory response arrives, the third one is
`#` exactly if the cache does not accept requests, the last one is `>` exactly if a memory request leaves. -/
theorem C75_marks {r : Regs p} {i : PIn p} {w : (x : Wire) → T p x} {s : List Char} (h : ctrlTrace r i w = some s) :
    (s[0]? = some '>' ↔ i.memrespEn = true) ∧
    (s[2]? = some '#' ↔ (outOf w).cachereqRdy = false) ∧
    (s.getLast? = some '>' ↔ (outOf w).memreqEn = true) := by
  obtain ⟨f, hf, rfl⟩ := ctrlTrace_some h
  refine ⟨?_, ?_, ?_⟩
  · cases i.memrespEn <;> simp
  · simp only [outOf]
    cases w .cachereqRdy <;> simp
  · simp only [outOf]
    rw [List.getLast?_append, List.getLast?_append, List.getLast?_append]
    cases w .memreqEn <;> simp

/-- **C75, the trace identifies the control state.**  Two moments of simulations (of caches of any sizes) with the
same trace have the same FSM state, the same transactions in M0 and M1 - and, for a read or write in M1, the same
hit or miss -, the same transaction in M2 or an eviction in both, and the same handshakes. -/
theorem C75_identifies {p' : Params} {r : Regs p} {w : (x : Wire) → T p x} {i : PIn p}
    {r' : Regs p'} {w' : (x : Wire) → T p' x} {i' : PIn p'} (hs : Sim r w) (hs' : Sim r' w') {s : List Char}
    (h : ctrlTrace r i w = some s) (h' : ctrlTrace r' i' w' = some s) :
    r.fsmM0 = r'.fsmM0 ∧ (w .transM0 : BitVec 5) = w' .transM0 ∧ r.transM1 = r'.transM1 ∧
    (r.transM1 = TR.READ_REQ ∨ r.transM1 = TR.WRITE_REQ → (w .hitM1 : Bool) = w' .hitM1) ∧
    (r.transM2 = r'.transM2 ∨ (r.isEvictM2 = true ∧ r'.isEvictM2 = true)) ∧
    (outOf w).cachereqRdy = (outOf w').cachereqRdy ∧ (outOf w).memreqEn = (outOf w').memreqEn ∧
    i.memrespEn = i'.memrespEn := by
  obtain ⟨f, hf, rfl⟩ := ctrlTrace_some h
  obtain ⟨f', hf', e⟩ := ctrlTrace_some h'
  have l1 := (traceFsm_shape _ _ hf).1
  have l2 := (traceFsm_shape _ _ hf').1
  have e1 := List.append_inj e (by
    simp only [List.length_append, List.length_cons, List.length_nil, traceM0_length, l1, l2])
  have e2 := List.append_inj' e1.2 (by
    simp only [List.length_append, List.length_cons, List.length_nil, traceM2_length])
  have e3 := List.append_inj e2.2 (by simp only [List.length_append, List.length_cons, List.length_nil, traceM2_length])
  have e4 := List.append_inj e3.1 rfl
  have e5 := (List.append_inj e1.1 (by
    simp only [List.length_append, List.length_cons, List.length_nil, traceM0_length, l1, l2])).1
  have e6 := List.append_inj e5 (by simp only [List.length_append, List.length_cons, List.length_nil, l1, l2])
  have e7 := List.append_inj e6.1 rfl
  have m1 := traceM1_inj _ _ _ _ hs.codes.t1 hs'.codes.t1 e2.1
  have e8 := e7.1
  have e9 := e3.2
  injection e8 with x1 e8
  injection e8 with _ e8
  injection e8 with x2 _
  injection e9 with _ e9
  injection e9 with x3 _
  refine ⟨?_, ?_, m1.1, m1.2, ?_, markRdy x2, markResp x3, markResp x1⟩
  · exact traceFsm_inj _ _ (by rw [hf]; exact nofun) (by rw [hf, hf', e7.2])
  · exact traceM0_inj _ _ hs.codes.t0 hs'.codes.t0 e6.2
  · exact traceM2_inj _ _ _ _ hs.codes.t2 hs'.codes.t2 e4.2

/-- **C75, columns.**  On a terminal the trace of the control unit is 22 columns wide in every cycle. -/
theorem C75_columns {r : Regs p} {i : PIn p} {w : (x : Wire) → T p x} {s : List Char} (h : ctrlTrace r i w = some s) :
    (visible false s).length = 22 := by
  obtain ⟨v, hv, e⟩ := ctrlTrace_vis h []
  rw [List.append_nil] at e
  rw [e]
  simpa [visible] using hv

/-- **C75, columns of the whole cache** (level 2, the default): the exact width with and without messages on the
memory port. -/
theorem C75_columns_cache {r : Regs p} {i : PIn p} {w : (x : Wire) → T p x} {s : List Char}
    (h : cacheTrace 2 r i w = some s) :
    (visible false s).length = 23 + 2 * (p.lineBits / 4) +
      (if i.memrespEn then 8 + digits p.opqBits + digits p.offBits + digits p.nWords else 12) +
      (if (outOf w).memreqEn then 7 + digits p.opqBits + digits p.addrBits + digits p.offBits + digits p.nWords
        else 19) := by
  simp only [cacheTrace, show ¬ (2 = 1) from by decide, if_false, if_true] at h
  split at h
  · exact nomatch h
  · rename_i c hc
    injection h with h
    have n1 : ∀ x ∈ (if i.memrespEn then i.memrespMsg.fmt.str else List.replicate (12 + p.lineBits / 4) ' '), x ≠ esc := by
      split
      · exact respStr_ne _
      · intro x hx; rw [List.eq_of_mem_replicate hx]; decide
    have n2 : ∀ x ∈ (if w .memreqEn then WMReq.str (w .memreqM2) else List.replicate (19 + p.lineBits / 4) ' '), x ≠ esc := by
      split
      · exact reqStr_ne _
      · intro x hx; rw [List.eq_of_mem_replicate hx]; decide
    have h' : s = (' ' :: (if i.memrespEn then i.memrespMsg.fmt.str else List.replicate (12 + p.lineBits / 4) ' ')) ++ (c ++
        (if w .memreqEn then WMReq.str (w .memreqM2) else List.replicate (19 + p.lineBits / 4) ' ')) := by
      rw [← h]; simp [WMReq.str]
    obtain ⟨v, hv, e⟩ := ctrlTrace_vis hc (if w .memreqEn then WMReq.str (w .memreqM2) else List.replicate (19 + p.lineBits / 4) ' ')
    rw [h', visible_append _ _ _ (List.forall_mem_cons.2 ⟨by decide, n1⟩) rfl, e, vis_of_ne n2]
    simp only [List.length_append, List.length_cons, hv]
    have k1 : (if i.memrespEn then i.memrespMsg.fmt.str else List.replicate (12 + p.lineBits / 4) ' ').length =
        p.lineBits / 4 + (if i.memrespEn then 8 + digits p.opqBits + digits p.offBits + digits p.nWords else 12) := by
      split
      · rw [respStr_length]; omega
      · rw [List.length_replicate]; omega
    rw [k1]
    by_cases hm : (w .memreqEn : Bool) = true
    · rw [if_pos hm, if_pos (show (outOf w).memreqEn = true from hm), WMReq.str, reqStr_length]; omega
    · rw [if_neg hm, if_neg (show ¬ (outOf w).memreqEn = true from hm), List.length_replicate]; omega

/-- **C75, aligned columns.**  With opaque fields of 5 to 8 bits, addresses of 29 to 32 bits and lines of 4 to 16
bytes the whole trace has the same width in every cycle, with and without messages. -/
theorem C75_columns_aligned {r : Regs p} {i : PIn p} {w : (x : Wire) → T p x} {s : List Char}
    (h : cacheTrace 2 r i w = some s) (ho : 5 ≤ p.opqBits ∧ p.opqBits ≤ 8) (ha : 29 ≤ p.addrBits ∧ p.addrBits ≤ 32)
    (hn : p.nwBits ≤ 2) : (visible false s).length = 54 + 2 * (p.lineBits / 4) := by
  rw [C75_columns_cache h]
  have d1 : digits p.opqBits = 2 := by simp only [digits]; omega
  have d2 : digits p.addrBits = 8 := by simp only [digits]; omega
  have d3 : digits p.offBits = 1 := by simp only [digits, Params.offBits]; omega
  have d4 : digits p.nWords = 1 := by
    have : p.nWords ≤ 2 ^ 2 := Nat.pow_le_pow_right (by omega) hn
    simp only [digits]; omega
  rw [d1, d2, d3, d4]
  split <;> split <;> omega

theorem hit_not_evict {n : Nat} (t : BitVec 5) (ht : t = TR.READ_REQ ∨ t = TR.WRITE_REQ) (dl dw : BitVec n) (h v : Bool) (a b : Way) :
    (statusB t dl dw h v a b).hit = true → (statusB t dl dw h v a b).evict = false := by
  rcases ht with rfl | rfl <;> simp only [statusB] <;> generalize dl.getLsbD b.toNat = x <;>
    generalize dw.getLsbD a.toNat = y <;> cases h <;> cases v <;> cases x <;> cases y <;>
    first | exact fun _ => rfl | exact fun h => Bool.noConfusion h

theorem cs2_noStall : ∀ t : BitVec 5, ∀ e h f : Bool, (cs2Word t true true e h f).getLsbD 6 = false := by decide +kernel

theorem cs2_colour : ∀ t : BitVec 5, t = TR.READ_REQ ∨ t = TR.WRITE_REQ → ∀ e h f : Bool, (h = true → e = false) →
    (cs2Word t true true e h f).getLsbD 0 = h ∧ (cs2Word t true true e h f).getLsbD 1 = !h := by decide +kernel

theorem traceM1_colour : ∀ t : BitVec 5, t = TR.READ_REQ ∨ t = TR.WRITE_REQ → ∀ a : Bool,
    ((traceM1 t a).drop 5).take 5 = if a then green else red := by decide +kernel

theorem traceM1_long : ∀ t : BitVec 5, t = TR.READ_REQ ∨ t = TR.WRITE_REQ → ∀ a : Bool, 10 ≤ (traceM1 t a).length := by
  decide +kernel

theorem colour_columns {r : Regs p} {i : PIn p} {w : (x : Wire) → T p x} {s : List Char} (h : ctrlTrace r i w = some s)
    (ht : r.transM1 = TR.READ_REQ ∨ r.transM1 = TR.WRITE_REQ) :
    (s.drop 18).take 5 = if (w .hitM1 : Bool) then green else red := by
  obtain ⟨f, hf, rfl⟩ := ctrlTrace_some h
  have l1 := (traceFsm_shape _ _ hf).1
  rw [← traceM1_colour _ ht]
  have : 18 = ([if i.memrespEn then '>' else ' ', '|', if w .cachereqRdy then ' ' else '#'] ++ f ++ traceM0 (w .transM0) ++
        ['|']).length + 5 := by
    simp only [List.length_append, List.length_cons, List.length_nil, traceM0_length, l1]
  rw [this, ← List.drop_drop, List.drop_left]
  have := traceM1_long _ ht (w .hitM1)
  rw [List.drop_append_of_le_length (by omega), List.take_append_of_le_length (by rw [List.length_drop]; omega)]

/-- **C75, the colour is true.**  A read or write shown in M1 leaves it in a cycle in which both output ports are
ready; if they are ready in the next cycle too, then a green one is answered in that cycle as a hit and sends nothing
to memory, and a red one sends a memory request and is not answered.  The colour is at a fixed place, before the name
of the transaction.  This holds for all values of all registers. -/
theorem C75_colour {r : Regs p} {i i' : PIn p} {w w' : (x : Wire) → T p x} {s : List Char}
    (hs : ctrlTrace r i w = some s) (hw : Settled r i w) (hw' : Settled (regsNext r i w) i' w') (hr : i.reset = false)
    (ht : r.transM1 = TR.READ_REQ ∨ r.transM1 = TR.WRITE_REQ)
    (h1 : i.memreqRdy = true ∧ i.cacherespRdy = true) (h2 : i'.memreqRdy = true ∧ i'.cacherespRdy = true) :
    ((s.drop 18).take 5 = green ↔ (outOf w').cacherespEn = true ∧ (outOf w').cacherespMsg.test = 1) ∧
    ((s.drop 18).take 5 = red ↔ (outOf w').memreqEn = true) ∧
    (outOf w').cacherespEn = !(outOf w').memreqEn := by
  have eS : (w .ostallM2 : Bool) = false := by
    rw [← hw .ostallM2]
    simp only [net, h1.1, h1.2]
    exact cs2_noStall _ _ _ _
  have eP : (w .pipeEnM2 : Bool) = true := by
    rw [← hw .pipeEnM2]
    simp only [net]
    rw [← hw .cRegEnM2]
    simp only [net]
    rw [← hw .stallM2]
    simp only [net, eS]
    rcases ht with ht | ht <;> rw [ht] <;> rfl
  have eT : (regsNext r i w).transM2 = r.transM1 := by simp only [regsNext, regEnRst, hr, eP]; rfl
  have eV : (regsNext r i w).isEvictM2 = w .isEvictM1 := by simp only [regsNext, regEnRst, hr, eP]; rfl
  have eH : (regsNext r i w).hitRegM2 = w .hitM1 := by simp only [regsNext, regEnRst, hr, eP]; rfl
  have hv : (w .hitM1 : Bool) = true → (w .isEvictM1 : Bool) = false := by
    rw [← hw .hitM1, ← hw .isEvictM1]
    exact hit_not_evict _ ht _ _ _ _ _ _
  have eT' : (w' .cHitM2 : BitVec 2) = 0#1 ++ BitVec.ofBool (w .hitM1) := by
    rw [← hw' .cHitM2]
    simp only [net, eH]
  have eB : (w' .cHitM2 : BitVec 2).getLsbD 0 = w .hitM1 := by
    rw [eT']
    generalize (w .hitM1 : Bool) = b
    cases b <;> decide
  have key := cs2_colour r.transM1 ht (w .isEvictM1) (w .hitM1) (regsNext r i w).flushSentM2 hv
  have eR : (outOf w').cacherespEn = w .hitM1 := by
    show (w' .cacherespEn : Bool) = _
    rw [← hw' .cacherespEn]
    simp only [net, h2.1, h2.2, eT, eV, eB]
    exact key.1
  have eM : (outOf w').memreqEn = !(w .hitM1) := by
    show (w' .memreqEn : Bool) = _
    rw [← hw' .memreqEn]
    simp only [net, h2.1, h2.2, eT, eV, eB]
    exact key.2
  have eX : (outOf w').cacherespMsg.test = 0#1 ++ BitVec.ofBool (w .hitM1) := by
    show (CResp.test (w' .cacherespM2) : BitVec 2) = _
    rw [← hw' .cacherespM2]
    exact eT'
  rw [eR, eM, eX, colour_columns hs ht]
  generalize (w .hitM1 : Bool) = b
  cases b <;> decide

theorem traceM2_evict : ∀ t : BitVec 5, t = TR.READ_REQ ∨ t = TR.WRITE_REQ → ∀ e : Bool,
    (traceM2 t e = [' ', 'e', 'v'] ↔ e = true) := by decide +kernel

theorem cs2_evict : ∀ t : BitVec 5, t = TR.READ_REQ ∨ t = TR.WRITE_REQ → ∀ e h f : Bool,
    (e = true ↔ (cs2Word t true true e h f).getLsbD 1 = true ∧
      ¬ 3 ≤ ((cs2Word t true true e h f).extractLsb' 2 4).toNat ∧ (cs2Word t true true e h f).extractLsb' 2 4 = MT.WRITE) ∧
    ¬ 3 ≤ ((cs2Word t true true e h f).extractLsb' 2 4).toNat := by
  decide +kernel

theorem evict_columns {r : Regs p} {i : PIn p} {w : (x : Wire) → T p x} {s : List Char} (h : ctrlTrace r i w = some s) :
    (∃ a c, s = a ++ ['|', ' ', 'e', 'v', '|', c]) ↔ traceM2 r.transM2 r.isEvictM2 = [' ', 'e', 'v'] := by
  obtain ⟨f, hf, rfl⟩ := ctrlTrace_some h
  rw [← List.append_assoc]
  constructor
  · rintro ⟨a, c, h⟩
    have h1 := (List.append_inj' h (by simp [traceM2_length])).2
    have h2 := (List.append_inj' h1 (s₂ := ['|', ' ', 'e', 'v']) (t₂ := ['|', c]) (by simp)).1
    injection h2
  · intro h
    rw [h]
    exact ⟨_, _, rfl⟩

/-- **C75, evictions are shown.**  For a read or write in M2, in a cycle with ready output ports, the trace shows `ev`
in place of the transaction exactly if a write goes to memory.  This holds for all values of all registers. -/
theorem C75_eviction {r : Regs p} {i : PIn p} {w : (x : Wire) → T p x} {s : List Char}
    (hs : ctrlTrace r i w = some s) (hw : Settled r i w) (ht : r.transM2 = TR.READ_REQ ∨ r.transM2 = TR.WRITE_REQ)
    (h1 : i.memreqRdy = true ∧ i.cacherespRdy = true) :
    (∃ a c, s = a ++ ['|', ' ', 'e', 'v', '|', c]) ↔ (outOf w).memreqEn = true ∧ (outOf w).memreqMsg.ty = MT.WRITE := by
  rw [evict_columns hs, traceM2_evict _ ht]
  have key := cs2_evict r.transM2 ht r.isEvictM2 ((w .cHitM2 : BitVec 2).getLsbD 0) r.flushSentM2
  have eM : (outOf w).memreqEn = (cs2Word r.transM2 true true r.isEvictM2 ((w .cHitM2 : BitVec 2).getLsbD 0) r.flushSentM2).getLsbD 1 := by
    show (w .memreqEn : Bool) = _
    rw [← hw .memreqEn]
    simp only [net, h1.1, h1.2]
  have eT : (outOf w).memreqMsg.ty =
      (cs2Word r.transM2 true true r.isEvictM2 ((w .cHitM2 : BitVec 2).getLsbD 0) r.flushSentM2).extractLsb' 2 4 := by
    have : (outOf w).memreqMsg.ty = (w .cMemreqType : BitVec 4) := by
      show (WMReq.ty (w .memreqM2) : BitVec 4) = _
      rw [← hw .memreqM2]
      rfl
    rw [this, ← hw .cMemreqType]
    simp only [net, h1.1, h1.2]
    rw [if_neg key.2]
  rw [eM, eT, key.1]
  exact ⟨fun h => ⟨h.1, h.2.2⟩, fun h => ⟨h.1, key.2, h.2⟩⟩

/-! ## The trace in terms of the cycle model, and an example -/

/-- The trace of the control unit as a function of the state of the cycle model (BlockingCacheCtrlRTL.py:762-857). -/
def stTrace (s : St p) (i : In p) : Option (List Char) :=
  match traceFsm (encFsm s.fsm) with
  | none => none
  | some f =>
    some ((if i.mrespEn then '>' else ' ') :: '|' ::
      ((if s.reqRdy i then ' ' else '#') :: (f ++ traceM0 (encTrans (s.trans0 i)))) ++
      '|' :: traceM1 (encTrans s.t1) s.status1.hit ++
      '|' :: traceM2 (encTrans s.t2) s.evict2 ++
      '|' :: [if (s.cs2 i).mreqEn then '>' else ' '])

/-- **C75, cycle model.**  For settled wires the trace shows the transactions, hits and handshakes of the cycle
model. -/
theorem C75_cycle_model (wf : p.WF) {r : Regs p} {s : St p} (hE : Enc r s) {i : PIn p} {w : (x : Wire) → T p x}
    (hw : Settled r i w) : ctrlTrace r i w = stTrace s (decIn i) := by
  have v := vals wf hE hw
  have h1 : i.memrespEn = (decIn i).mrespEn := rfl
  unfold ctrlTrace stTrace
  rw [hE.fsmM0, hE.transM1, hE.transM2, hE.isEvictM2, v.transM0, v.hitM1, h1]
  cases traceFsm (encFsm s.fsm) with
  | none => rfl
  | some f =>
    simp only [show (w .cachereqRdy : Bool) = s.reqRdy (decIn i) from v.cachereqRdy,
      show (w .memreqEn : Bool) = (s.cs2 (decIn i)).mreqEn from v.memreqEn]

/-- Traces of `n` cycles of the driver of `Exec.lean`, without colours (not in the source: iteration). -/
def traces : Nat → Sys Unit p → List (CReq p) → List (Option String)
  | 0, _, _ => []
  | n + 1, S, qs =>
    let i := driveIn S qs.head?
    ((stTrace (S.cache ()) i).map fun s => String.ofList (visible false s)) ::
      traces n (driveMem (S.clock () i)).1 (if i.reqEn then qs.tail else qs)

/-- Initialisation, a write miss (request to memory, response, refill, replay), a read hit, a flush. -/
theorem C75_example : traces 17 (start0 p0) Ex.reqs = [
    some " |#(init)ini|   |   | ", some " |#(init)ini|ini|   | ", some " |#(init)ini|ini|ini| ",
    some " |#(init)ini|ini|ini| ", some " | (rdy ) wr|ini|ini| ", some " |#(rdy )xxx| wr|ini| ",
    some " |#(rdy )xxx|   | wr|>", some ">|#(rdy )xxx|   |   | ", some " |#(rdy ) rf|   |   | ",
    some " |#(rpy )rpw| rf|   | ", some " | (rdy ) rd|rpw| rf| ", some " | (rdy )fl0| rd|rpw| ",
    some " |#(flsh)flr|fl0| rd| ", some " |#(flsh)flr|flr|fl0| ", some " |#(flsh)flr|flr|flr| ",
    some " |#(flsh)flr|flr|flr| ", some " |#(rpy )fl#|flr|flr| "] := by
  decide +kernel

/-- The shape of lines and messages of the tests (128-bit lines, 32-bit addresses, 8-bit opaque fields) has aligned
columns. -/
example : ∃ p : Params, p.WF ∧ (5 ≤ p.opqBits ∧ p.opqBits ≤ 8) ∧ (29 ≤ p.addrBits ∧ p.addrBits ≤ 32) ∧ p.nwBits ≤ 2 ∧
    54 + 2 * (p.lineBits / 4) = 118 :=
  ⟨⟨8, 20, 2, 2, 8, false⟩, by constructor <;> decide, by decide, by decide, by decide, by decide⟩

/-- Moments of simulations: power-on, some blocks, a clock edge. -/
example (i : PIn p) : ∃ (r : Regs p) (w : (x : Wire) → T p x), Sim r w ∧ r.fsmM0 = FS.INIT :=
  ⟨_, _, (((Sim.power { encSt (garbage p) with fsmM0 := 0, transM1 := 0, transM2 := 0 } zeroW ⟨rfl, rfl, rfl⟩ ⟨rfl, rfl⟩).block
    { i with reset := true } .b_memrespRdy).edge { i with reset := true }), rfl⟩

/-- The hypotheses of `C75_colour` can be met: registers with a read in M1, two cycles with ready ports, settled wires. -/
example (i : PIn p) (hi : i.reset = false) (h : i.memreqRdy = true ∧ i.cacherespRdy = true) :
    ∃ (r : Regs p) (w w' : (x : Wire) → T p x), r.transM1 = TR.READ_REQ ∧ Settled r i w ∧ Settled (regsNext r i w) i w' ∧
      (outOf w').cacherespEn = !(outOf w').memreqEn :=
  have hw := runBlks_settled { encSt (garbage p) with transM1 := TR.READ_REQ } i (rounds_rep mem_blks levels) zeroW
  have hw' := runBlks_settled (regsNext { encSt (garbage p) with transM1 := TR.READ_REQ } i _) i
    (rounds_rep mem_blks levels) zeroW
  ⟨_, _, _, rfl, hw, hw', (C75_colour rfl hw hw' hi (.inl rfl) h h).2.2⟩

/-- The hypotheses of `C75_eviction` can be met: registers with a read that evicts in M2. -/
example (i : PIn p) (h : i.memreqRdy = true ∧ i.cacherespRdy = true) :
    ∃ (r : Regs p) (w : (x : Wire) → T p x), r.transM2 = TR.READ_REQ ∧ Settled r i w ∧ (ctrlTrace r i w).isSome = true ∧
      (outOf w).memreqEn = true ∧ (outOf w).memreqMsg.ty = MT.WRITE :=
  have hw := runBlks_settled { encSt (garbage p) with transM2 := TR.READ_REQ, isEvictM2 := true } i
    (rounds_rep mem_blks levels) zeroW
  ⟨_, _, rfl, hw, rfl, (C75_eviction rfl hw (.inl rfl) h).1
    ((evict_columns (r := { encSt (garbage p) with transM2 := TR.READ_REQ, isEvictM2 := true }) rfl).2 rfl)⟩

end Verif.Net
