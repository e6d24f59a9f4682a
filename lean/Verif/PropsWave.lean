import Verif.PropsNetSys
import Verif.PropsTime
import Verif.ExTime

/-!
# C76: waveforms

What someone who watches the ports of the design, clock cycle by clock cycle, can rely on.  The specification talks about
the waveform alone, a list of the values of the input and output ports in successive cycles; the design is the netlist
of `Net.lean` with the update blocks in any order.
-/

namespace Verif.Net
variable {p : Params}

/-! ## Specification -/

/-- The values of the ports in one clock cycle. Proof device; not in the source. -/
structure Cyc (p : Params) where
  inp : PIn p
  out : POut p

/-- The waveforms of the design: from the registers `r`, with arbitrary wires before each cycle and the blocks in any
complete order, up to the registers `r'`. Proof device; not in the source. -/
inductive Waves : Regs p → List (Cyc p) → Regs p → Prop
  | nil (r : Regs p) : Waves r [] r
  | cons {r r' : Regs p} {l : List (Cyc p)} (i : PIn p) (w₀ : (x : Wire) → T p x) (L : List Blk)
      (hL : Sched.Rounds Blk levels L) (h : Waves (regsNext r i (runBlks r i L w₀)) l r') :
      Waves r (⟨i, outOf (runBlks r i L w₀)⟩ :: l) r'

/-- Registers after a clock edge with reset, whatever they were before. Proof device; not in the source. -/
def AfterReset (r : Regs p) : Prop := ∃ r₀ i w, i.reset = true ∧ r = regsNext r₀ i w

/-- The types of the memory requests that are not yet answered, after one more cycle. Proof device; not in the source. -/
def owesW (O : List MType) (c : Cyc p) : List MType :=
  (if c.inp.memrespEn then O.tail else O) ++ (if c.out.memreqEn then [c.out.memreqMsg.ty] else [])

/-- The same after several cycles. Proof device; not in the source. -/
def owesW' (O : List MType) (l : List (Cyc p)) : List MType := l.foldl owesW O

/-- The environment obeys the rules of the ports: no reset, requests only to a ready cache, memory answers in order,
each request once and with its type (and with any data). Proof device; not in the source. -/
def Fair : List MType → List (Cyc p) → Prop
  | _, [] => True
  | O, c :: l =>
    c.inp.reset = false ∧ (c.inp.cachereqEn = true → c.out.cachereqRdy = true) ∧
    (c.inp.memrespEn = true → O.head? = some c.inp.memrespMsg.ty) ∧ Fair (owesW O c) l

/-- Both output ports are ready in every cycle, and memory lets the cache wait at most `D` cycles in a row (`n` of
which have passed). Proof device; not in the source. -/
def PromptW (D : Nat) : Nat → List MType → List (Cyc p) → Prop
  | _, _, [] => True
  | n, O, c :: l =>
    let n' := if O ≠ [] ∧ c.inp.memrespEn = false then n + 1 else 0
    c.inp.cacherespRdy = true ∧ c.inp.memreqRdy = true ∧ n' ≤ D ∧ PromptW D n' (owesW O c) l

/-- Number of cycles in which memory answers, or owes nothing while both output ports are ready. Proof device; not in the source. -/
def helpedW : List MType → List (Cyc p) → Nat
  | _, [] => 0
  | O, c :: l =>
    (if c.inp.memrespEn = true ∨ (O = [] ∧ c.inp.cacherespRdy = true ∧ c.inp.memreqRdy = true) then 1 else 0) +
      helpedW (owesW O c) l

/-- Number of requests. Proof device; not in the source. -/
def requestsW (l : List (Cyc p)) : Nat := l.countP (·.inp.cachereqEn)

/-- Number of responses. Proof device; not in the source. -/
def responsesW (l : List (Cyc p)) : Nat := l.countP (·.out.cacherespEn)

/-- Type, opaque and length of the requests, in order. Proof device; not in the source. -/
def requestTags (l : List (Cyc p)) : List (MType × Opq p × BitVec p.lenBits) :=
  (l.filter (·.inp.cachereqEn)).map fun c => (c.inp.cachereqMsg.ty, c.inp.cachereqMsg.opq, c.inp.cachereqMsg.len)

/-- Type, opaque and length of the responses, in order. Proof device; not in the source. -/
def responseTags (l : List (Cyc p)) : List (MType × Opq p × BitVec p.lenBits) :=
  (l.filter (·.out.cacherespEn)).map fun c => (c.out.cacherespMsg.ty, c.out.cacherespMsg.opq, c.out.cacherespMsg.len)

/-! ## From waveforms to the cycle model -/

/-- The inputs of a waveform, for the cycle model. Proof device; not in the source. -/
def ins (l : List (Cyc p)) : List (In p) := l.map fun c => decIn c.inp

/-- A waveform is one of the cycle model. Proof device; not in the source. -/
inductive Follows : St p → List (Cyc p) → Prop
  | nil (s : St p) : Follows s []
  | cons {s : St p} {c : Cyc p} {l : List (Cyc p)} (h : c.out = encOut (s.out (decIn c.inp)))
      (h' : Follows (s.step (decIn c.inp)) l) : Follows s (c :: l)

theorem Waves.follows (wf : p.WF) {r r' : Regs p} {l : List (Cyc p)} (h : Waves r l r') :
    ∀ {s : St p}, Enc r s → Follows s l ∧ Enc r' (s.after (ins l)) := by
  induction h with
  | nil r => intro s he; exact ⟨.nil s, he⟩
  | cons i w₀ L hL h ih =>
    intro s he
    have hs := sim wf he (runBlks_settled _ i hL w₀)
    have h1 := ih hs.2
    exact ⟨.cons hs.1 h1.1, h1.2⟩

theorem AfterReset.refine {r : Regs p} (h : AfterReset r) :
    ∃ (s : St p) (j : In p), j.reset = true ∧ Enc r (s.step j) := by
  obtain ⟨r₀, i, w, hi, rfl⟩ := h
  exact reset_start r₀ i w hi

theorem Follows.owes {s : St p} {c : Cyc p} (h : c.out = encOut (s.out (decIn c.inp))) (O : List MType) :
    owesW O c = owes O (decIn c.inp) (s.out (decIn c.inp)) := by
  simp only [owesW, Verif.owes, h]
  rfl

theorem Follows.plays {s : St p} {l : List (Cyc p)} (h : Follows s l) :
    ∀ {O : List MType}, Fair O l → Plays s O (ins l) := by
  induction h with
  | nil s => intro O _; exact trivial
  | cons h h' ih =>
    intro O hf
    obtain ⟨h1, h2, h3, h4⟩ := hf
    refine ⟨h1, ?_, h3, ?_⟩
    · intro he
      have := h2 he
      rw [h] at this
      exact this
    · rw [Follows.owes h] at h4
      exact ih h4

theorem Follows.owesAfter {s : St p} {l : List (Cyc p)} (h : Follows s l) :
    ∀ O : List MType, Verif.owesAfter s O (ins l) = owesW' O l := by
  induction h with
  | nil s => intro O; rfl
  | @cons s c l h h' ih =>
    intro O
    have e := ih (owesW O c)
    rw [Follows.owes h] at e
    refine e.trans ?_
    rw [← Follows.owes h]
    rfl

theorem Follows.prompt {D : Nat} {s : St p} {l : List (Cyc p)} (h : Follows s l) :
    ∀ {n : Nat} {O : List MType}, PromptW D n O l → Prompt D n s O (ins l) := by
  induction h with
  | nil s => intro n O _; exact trivial
  | cons h h' ih =>
    intro n O hf
    obtain ⟨h1, h2, h3, h4⟩ := hf
    refine ⟨h1, h2, h3, ?_⟩
    rw [Follows.owes h] at h4
    exact ih h4

theorem Follows.helped {s : St p} {l : List (Cyc p)} (h : Follows s l) :
    ∀ O : List MType, Verif.helped s O (ins l) = helpedW O l := by
  induction h with
  | nil s => intro O; rfl
  | @cons s c l h h' ih =>
    intro O
    have e := ih (owesW O c)
    rw [Follows.owes h] at e
    refine (congrArg (_ + ·) e).trans ?_
    rw [← Follows.owes h]
    rfl

theorem Follows.answered {s : St p} {l : List (Cyc p)} (h : Follows s l) : nAnswered s (ins l) = responsesW l := by
  induction h with
  | nil s => rfl
  | cons h h' ih =>
    simp only [nAnswered, responsesW, ins, List.map_cons, St.outs, List.countP_cons] at ih ⊢
    rw [ih, h]
    rfl

theorem nAccepted_ins (l : List (Cyc p)) : nAccepted (ins l) = requestsW l := by
  simp only [nAccepted, requestsW, ins, List.countP_map]
  rfl

theorem Follows.split {s : St p} {a b : List (Cyc p)} (h : Follows s (a ++ b)) :
    Follows s a ∧ Follows (s.after (ins a)) b := by
  induction a generalizing s with
  | nil => exact ⟨.nil s, h⟩
  | cons c a ih =>
    cases h with
    | cons h h' =>
      have := ih h'
      exact ⟨.cons h this.1, this.2⟩

theorem ins_append (a b : List (Cyc p)) : ins (a ++ b) = ins a ++ ins b := List.map_append

/-! ## The order of the responses -/

/-- The tags of the responses in a list of messages. Proof device; not in the source. -/
def tagsOf : List (Msg p) → List (MType × Opq p × BitVec p.lenBits)
  | [] => []
  | .mem _ :: l => tagsOf l
  | .resp r :: l => (r.ty, r.opq, r.len) :: tagsOf l

theorem tagsOf_append (a b : List (Msg p)) : tagsOf (a ++ b) = tagsOf a ++ tagsOf b := by
  induction a with
  | nil => rfl
  | cons m a ih => cases m <;> simp [tagsOf, ih]

theorem tagsOf_flush (L : L1 p) (n : Nat) : tagsOf (L.flushMsgs n) = [] := by
  induction n with
  | zero => rfl
  | succ n ih =>
    simp only [L1.flushMsgs, tagsOf_append, ih, L1.wb]
    split <;> simp [tagsOf]

/-- The tag of the request that waits for memory. Proof device; not in the source. -/
def curTags : Cur p → List (MType × Opq p × BitVec p.lenBits)
  | .idle => []
  | .fill q _ _ => [(q.ty, q.opq, q.len)]
  | .amo q _ _ => [(q.ty, q.opq, q.len)]

theorem accept_tags (L : L1 p) (q : CReq p) (hc : L.cur = .idle) (hq : q.ty ≠ MT.INIT) :
    tagsOf (L.accept q).2 ++ curTags (L.accept q).1.cur = [(q.ty, q.opq, q.len)] := by
  simp only [L1.accept]
  split
  · simp only [L1.rw]
    split
    · split <;> simp [tagsOf, mkResp, hc, curTags]
    · split
      · simp [tagsOf, curTags]
      · simp only [tagsOf_append]
        split <;> simp [tagsOf, L1.wb, curTags]
  · rename_i h1
    split
    · simp only [L1.amo, tagsOf_append]
      split <;> simp [tagsOf, L1.wb, curTags]
    · rename_i h2
      split
      · simp [tagsOf, mkResp, hc, curTags]
      · rename_i h3
        split
        · simp [tagsOf_append, tagsOf_flush, tagsOf, mkResp, hc, curTags]
        · rename_i h4
          exfalso
          revert h1 h2 h3 h4 hq
          generalize q.ty = t
          revert t; decide

theorem answer_tags (L : L1 p) (d : Line p) :
    tagsOf (L.answer d).2 ++ curTags (L.answer d).1.cur = curTags L.cur := by
  simp only [L1.answer]
  split
  · rename_i h; simp [tagsOf, h, curTags]
  · rename_i h
    split <;> simp [tagsOf, mkResp, h, curTags]
  · rename_i h; simp [tagsOf, mkResp, h, curTags]

theorem cyc_tags (s : St p) (i : In p) (L : L1 p) (hc : i.reqEn = true → L.cur = .idle) :
    tagsOf (s.cyc L i).2 ++ curTags (s.cyc L i).1.cur =
      curTags L.cur ++ (if i.reqEn then [(i.req.ty, i.req.opq, i.req.len)] else []) := by
  cases he : i.reqEn
  · rw [cyc_noReq he, L1.cycle, he]
    simp only [Bool.false_eq_true, if_false, List.append_nil]
    split
    · rw [answer_tags]
    · simp [tagsOf]
  · have h0 := hc he
    simp only [St.cyc, he, true_and]
    split
    · simp [L1.initOp, h0, curTags, tagsOf, mkResp]
    · rename_i hq
      simp only [L1.cycle, he, if_true]
      rw [accept_tags L i.req h0 hq, h0]; rfl

theorem tagsOf_out (s : St p) (i : In p) : tagsOf (s.out i).msgs =
    if (s.out i).respEn then [((s.out i).resp.ty, (s.out i).resp.opq, (s.out i).resp.len)] else [] := by
  simp only [Out.msgs, tagsOf_append]
  cases (s.out i).mreqEn <;> cases (s.out i).respEn <;> rfl

theorem glue {α : Type} {e a o e' b c q m n R : List α} (h1 : e ++ a = o ++ e') (h2 : a ++ b = c ++ q)
    (h3 : e' ++ b ++ m = n ++ R) : e ++ c ++ (q ++ m) = o ++ n ++ R := by
  have : e ++ c ++ (q ++ m) = e ++ (c ++ q) ++ m := by simp
  rw [this, ← h2, ← List.append_assoc e, h1, List.append_assoc o n, ← h3]
  simp

/-- Over a waveform, the requests that are waiting in the cache are answered first, and what is not answered yet waits. -/
theorem Follows.order (wf : p.WF) {l : List (Cyc p)} : ∀ {s : St p} {L : L1 p} {E : List (Msg p)} {O : List MType},
    Follows s l → RIU False s L E O → Plays s O (ins l) →
    ∃ (R : List (MType × Opq p × BitVec p.lenBits)), tagsOf E ++ curTags L.cur ++ requestTags l = responseTags l ++ R := by
  induction l with
  | nil => intro s L E O _ _ _; exact ⟨_, rfl⟩
  | cons c l ih =>
    intro s L E O hF h hp
    cases hF with
    | cons hout hF' =>
    have hl := Plays.legal hp
    obtain ⟨E', h1, h2⟩ := simI wf hl h
    replace h1 : E ++ (s.cyc L (decIn c.inp)).2 = (s.out (decIn c.inp)).msgs ++ E' := h1
    have hstep : s.step (decIn c.inp) = s.next (decIn c.inp) := by simp [St.step, hl.noReset]
    have h3 : RIU False (s.step (decIn c.inp)) (s.cyc L (decIn c.inp)).1 E'
        (Verif.owes O (decIn c.inp) (s.out (decIn c.inp))) := by
      rw [hstep, owes_eq]; exact h2
    obtain ⟨R, hR⟩ := ih hF' h3 hp.2.2.2
    refine ⟨R, ?_⟩
    have hc := cyc_tags s (decIn c.inp) L fun he => (h.ready (hl.req he).1).1
    have hE := congrArg tagsOf h1
    rw [tagsOf_append, tagsOf_append, tagsOf_out] at hE
    have e1 : requestTags (c :: l) = (if (decIn c.inp).reqEn then
        [((decIn c.inp).req.ty, (decIn c.inp).req.opq, (decIn c.inp).req.len)] else []) ++ requestTags l := by
      have e : (decIn c.inp).reqEn = c.inp.cachereqEn := rfl
      rw [e, requestTags, List.filter_cons]
      by_cases hx : c.inp.cachereqEn = true
      · rw [if_pos hx, if_pos hx]; rfl
      · rw [if_neg hx, if_neg hx]; rfl
    have e2 : responseTags (c :: l) = (if (s.out (decIn c.inp)).respEn then
        [((s.out (decIn c.inp)).resp.ty, (s.out (decIn c.inp)).resp.opq, (s.out (decIn c.inp)).resp.len)] else []) ++
        responseTags l := by
      rw [responseTags, List.filter_cons, hout]
      by_cases hx : (s.out (decIn c.inp)).respEn = true
      · rw [if_pos hx, if_pos (show (encOut (s.out (decIn c.inp))).cacherespEn = true from hx), List.map_cons, hout]; rfl
      · rw [if_neg hx, if_neg (show ¬ (encOut (s.out (decIn c.inp))).cacherespEn = true from hx)]; rfl
    rw [e1, e2]
    exact glue hE hc hR

/-! ## Theorems -/

/-- **C76, response time.**  After a reset, in a waveform in which the environment obeys the rules: a request in cycle
`c` is answered at the latest `respBound` cycles later, if from then on the output ports are ready and memory lets the
cache wait at most `D` cycles in a row. -/
theorem C76_response_time (wf : p.WF) (D : Nat) {r r' : Regs p} (h0 : AfterReset r) {l l' : List (Cyc p)} {c : Cyc p}
    (h : Waves r (l ++ c :: l') r') (hf : Fair [] (l ++ c :: l')) (he : c.inp.cachereqEn = true)
    (hq : PromptW D 0 (owesW' [] (l ++ [c])) l') (hb : respBound p D c.inp.cachereqMsg.ty ≤ l'.length) :
    requestsW l + 1 ≤ responsesW (l ++ c :: l') := by
  obtain ⟨s, j, hj, hE⟩ := h0.refine
  have hF := (h.follows wf hE).1
  have hc : l ++ c :: l' = (l ++ [c]) ++ l' := by simp
  have hF2 : Follows (s.step j) ((l ++ [c]) ++ l') := by rw [← hc]; exact hF
  have h2 := hF2.split
  have hp := hF.plays hf
  rw [ins_append] at hp
  have := C71_response_time wf D s j hj (ins l) (ins l') (decIn c.inp) hp he
    (by
      have := h2.2.prompt hq
      rw [← h2.1.owesAfter, ins_append] at this
      exact this)
    (by rw [ins, List.length_map]; exact hb)
  rw [nAccepted_ins] at this
  have e := hF.answered
  rw [ins_append] at e
  rw [← e]
  exact this

/-- **C76, every request is answered**, however slow the environment is: as soon as it has done its part in
`3 + 5 * nLines` cycles. -/
theorem C76_every_request_answered (wf : p.WF) {r r' : Regs p} (h0 : AfterReset r) {l l' : List (Cyc p)}
    (h : Waves r (l ++ l') r') (hf : Fair [] (l ++ l')) (hh : 3 + 5 * p.nLines ≤ helpedW (owesW' [] l) l') :
    requestsW l ≤ responsesW (l ++ l') := by
  obtain ⟨s, j, hj, hE⟩ := h0.refine
  have hF := (h.follows wf hE).1
  have h2 := hF.split
  have hp := hF.plays hf
  rw [ins_append] at hp
  have := C71_every_request_answered wf s j hj (ins l) (ins l') hp (by
    rw [h2.1.owesAfter, h2.2.helped]; exact hh)
  rw [nAccepted_ins, ← ins_append, hF.answered] at this
  exact this

/-- **C76, the cache becomes ready.**  If no further requests come, then every request has been answered exactly once,
memory owes nothing, and the cache is ready in the next cycle, if its output ports are. -/
theorem C76_ready_again (wf : p.WF) {r r' : Regs p} (h0 : AfterReset r) {l l' : List (Cyc p)} {c : Cyc p}
    (h : Waves r (l ++ l' ++ [c]) r') (hf : Fair [] (l ++ l')) (hn : ∀ c ∈ l', c.inp.cachereqEn = false)
    (hh : 3 + 5 * p.nLines ≤ helpedW (owesW' [] l) l') (hc : c.inp.cacherespRdy = true ∧ c.inp.memreqRdy = true) :
    responsesW (l ++ l') = requestsW l ∧ owesW' [] (l ++ l') = [] ∧ c.out.cachereqRdy = true := by
  obtain ⟨s, j, hj, hE⟩ := h0.refine
  have hF0 := (h.follows wf hE).1.split
  have hF := hF0.1
  have h2 := hF.split
  have hp := hF.plays hf
  rw [ins_append] at hp
  have := C71_ready_again wf s j hj (ins l) (ins l') hp (by
    intro i hi
    simp only [ins, List.mem_map] at hi
    obtain ⟨c, hc, rfl⟩ := hi
    exact hn c hc) (by
    rw [h2.1.owesAfter, h2.2.helped]; exact hh)
  rw [nAccepted_ins, ← ins_append, hF.answered, hF.owesAfter] at this
  refine ⟨this.1, this.2.1, ?_⟩
  have h3 := this.2.2 (decIn c.inp) hc.1 hc.2
  cases hF0.2 with
  | cons h h' => rw [h]; exact h3

/-- **C76, never more responses than requests.** -/
theorem C76_no_response_without_request (wf : p.WF) {r r' : Regs p} (h0 : AfterReset r) {l : List (Cyc p)}
    (h : Waves r l r') (hf : Fair [] l) : responsesW l ≤ requestsW l := by
  obtain ⟨s, j, hj, hE⟩ := h0.refine
  have hF := (h.follows wf hE).1
  have := C71_no_response_without_request wf s j hj (ins l) (hF.plays hf)
  rw [nAccepted_ins, hF.answered] at this
  exact this

/-- **C76, responses come in the order of the requests** and carry their type, opaque and length, whatever data memory
returns. -/
theorem C76_responses_in_order (wf : p.WF) {r r' : Regs p} (h0 : AfterReset r) {l : List (Cyc p)}
    (h : Waves r l r') (hf : Fair [] l) : ∃ R, requestTags l = responseTags l ++ R := by
  obtain ⟨s, j, hj, hE⟩ := h0.refine
  have hF := (h.follows wf hE).1
  obtain ⟨R, hR⟩ := hF.order wf (RIU.start (U := False) s j hj) (hF.plays hf)
  exact ⟨R, hR⟩

end Verif.Net
