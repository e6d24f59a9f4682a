import Verif.PropsWave

/-!
# Waveforms for C76

Every run of the cycle model is a waveform of the design, so the executions of C71 give waveforms that meet the hypotheses
of C76, and the bounds of C76 are sharp.
-/

namespace Verif.Net
variable {p : Params}

/-- The waveform of the cycle model. Example; not in the source. -/
def waveOf : St p → List (In p) → List (Cyc p)
  | _, [] => []
  | s, i :: l => ⟨encIn i (encMResp i.mresp), encOut (s.out i)⟩ :: waveOf (s.step i) l

theorem waveOf_append (a b : List (In p)) (s : St p) : waveOf s (a ++ b) = waveOf s a ++ waveOf (s.after a) b := by
  induction a generalizing s with
  | nil => rfl
  | cons i a ih => simp only [List.cons_append, waveOf, ih]; rfl

theorem ins_waveOf (l : List (In p)) (s : St p) : ins (waveOf s l) = l := by
  induction l generalizing s with
  | nil => rfl
  | cons i l ih =>
    simp only [ins, waveOf, List.map_cons] at ih ⊢
    rw [ih, dec_encIn i _ rfl]

/-- The design has that waveform, with its blocks in reverse source order. -/
theorem waves_waveOf (wf : p.WF) (l : List (In p)) {r : Regs p} {s : St p} (h : Enc r s) :
    ∃ r', Waves r (waveOf s l) r' := by
  induction l generalizing r s with
  | nil => exact ⟨r, .nil r⟩
  | cons i l ih =>
    have hL := rounds_rep (fun B => List.mem_reverse.2 (mem_blks B)) levels
    have hs := sim wf h (runBlks_settled r (encIn i (encMResp i.mresp)) hL zeroW)
    rw [dec_encIn i _ rfl] at hs
    obtain ⟨r', hr⟩ := ih hs.2
    refine ⟨r', ?_⟩
    have := Waves.cons (encIn i (encMResp i.mresp)) zeroW _ hL hr
    rw [hs.1] at this
    exact this

theorem follows_waveOf (l : List (In p)) (s : St p) : Follows s (waveOf s l) := by
  induction l generalizing s with
  | nil => exact .nil s
  | cons i l ih =>
    refine .cons ?_ ?_
    · rw [dec_encIn i _ rfl]
    · rw [dec_encIn i _ rfl]; exact ih _

theorem fair_waveOf (l : List (In p)) {s : St p} {O : List MType} (h : Plays s O l) : Fair O (waveOf s l) := by
  induction l generalizing s O with
  | nil => exact trivial
  | cons i l ih =>
    obtain ⟨h1, h2, h3, h4⟩ := h
    refine ⟨h1, h2, h3, ?_⟩
    have e : owesW O ⟨encIn i (encMResp i.mresp), encOut (s.out i)⟩ = Verif.owes O i (s.out i) := by
      rw [Follows.owes (s := s) (by rw [dec_encIn i _ rfl]), dec_encIn i _ rfl]
    rw [e]
    exact ih h4

theorem prompt_waveOf (D : Nat) (l : List (In p)) {n : Nat} {s : St p} {O : List MType} (h : Prompt D n s O l) :
    PromptW D n O (waveOf s l) := by
  induction l generalizing n s O with
  | nil => exact trivial
  | cons i l ih =>
    obtain ⟨h1, h2, h3, h4⟩ := h
    refine ⟨h1, h2, h3, ?_⟩
    have e : owesW O ⟨encIn i (encMResp i.mresp), encOut (s.out i)⟩ = Verif.owes O i (s.out i) := by
      rw [Follows.owes (s := s) (by rw [dec_encIn i _ rfl]), dec_encIn i _ rfl]
    rw [e]
    exact ih h4

/-- Registers after reset that represent the freshly reset cycle model. -/
theorem fresh_regs (wf : p.WF) : ∃ r : Regs p, AfterReset r ∧ Enc r (fresh p) := by
  have hw := runBlks_settled (encSt (garbage p)) (encIn ⟨true, false, default, true, true, false, default⟩
    (encMResp default)) (rounds_rep mem_blks levels) zeroW
  have he := (sim wf (enc_encSt (garbage p)) hw).2
  rw [dec_encIn _ _ rfl] at he
  exact ⟨_, ⟨_, _, _, rfl, rfl⟩, he⟩

theorem after_snoc' (l : List (In p)) (i : In p) (s : St p) : s.after (l ++ [i]) = (s.after l).step i := by
  induction l generalizing s with
  | nil => rfl
  | cons j l ih => exact ih _

/-- A run of the cycle model as a waveform. -/
theorem waves_exist (wf : p.WF) {D b x y : Nat} {t : MType} (a m : List (In p)) (i j : In p)
    (k1 : Plays (fresh p) [] (a ++ i :: (m ++ [j]))) (k2 : i.reqEn = true) (k3 : i.req.ty = t)
    (k4 : Prompt D 0 ((fresh p).after (a ++ [i])) (owesAfter (fresh p) [] (a ++ [i])) (m ++ [j]))
    (k5 : (m ++ [j]).length = b) (k6 : nAccepted a = x) (k7 : nAnswered (fresh p) (a ++ i :: m) = x)
    (k8 : nAnswered (fresh p) (a ++ i :: (m ++ [j])) = y) :
    ∃ (r r' : Regs p) (l l' : List (Cyc p)) (c d : Cyc p), AfterReset r ∧
    Waves r (l ++ c :: (l' ++ [d])) r' ∧ Fair [] (l ++ c :: (l' ++ [d])) ∧ c.inp.cachereqEn = true ∧
    c.inp.cachereqMsg.ty = t ∧ PromptW D 0 (owesW' [] (l ++ [c])) (l' ++ [d]) ∧
    (l' ++ [d]).length = b ∧ requestsW l = x ∧ responsesW (l ++ c :: l') = x ∧
    responsesW (l ++ c :: (l' ++ [d])) = y := by
  obtain ⟨r, hr, hE⟩ := fresh_regs wf
  obtain ⟨r', hw⟩ := waves_waveOf wf (a ++ i :: (m ++ [j])) hE
  have e1 : waveOf (fresh p) (a ++ i :: (m ++ [j])) = waveOf (fresh p) a ++
      ⟨encIn i (encMResp i.mresp), encOut (((fresh p).after a).out i)⟩ ::
      (waveOf (((fresh p).after a).step i) m ++ waveOf ((((fresh p).after a).step i).after m) [j]) := by
    rw [waveOf_append]
    simp only [waveOf]
    rw [waveOf_append]
    rfl
  have e2 : waveOf (fresh p) (a ++ i :: m) = waveOf (fresh p) a ++
      ⟨encIn i (encMResp i.mresp), encOut (((fresh p).after a).out i)⟩ ::
      waveOf (((fresh p).after a).step i) m := by
    rw [waveOf_append]; rfl
  have e3 : waveOf (fresh p) (a ++ [i]) = waveOf (fresh p) a ++
      [⟨encIn i (encMResp i.mresp), encOut (((fresh p).after a).out i)⟩] := by
    rw [waveOf_append]; rfl
  have hF := follows_waveOf (p := p)
  refine ⟨r, r', waveOf (fresh p) a, waveOf (((fresh p).after a).step i) m,
    ⟨encIn i (encMResp i.mresp), encOut (((fresh p).after a).out i)⟩,
    ⟨encIn j (encMResp j.mresp), encOut (((((fresh p).after a).step i).after m).out j)⟩, hr, ?_, ?_, k2, k3, ?_, ?_, ?_,
    ?_, ?_⟩
  · rw [e1] at hw; exact hw
  · have := fair_waveOf _ k1
    rw [e1] at this
    exact this
  · rw [← e3, ← (hF (a ++ [i]) (fresh p)).owesAfter, ins_waveOf]
    have := prompt_waveOf D _ k4
    rw [waveOf_append] at this
    rw [after_snoc'] at this
    exact this
  · rw [← k5]
    have : ∀ (l : List (In p)) (s : St p), (waveOf s l).length = l.length := fun l s => by
      rw [← congrArg List.length (ins_waveOf l s), ins, List.length_map]
    simp only [List.length_append, this]
    rfl
  · rw [← nAccepted_ins, ins_waveOf]; exact k6
  · rw [← e2, ← (hF _ _).answered, ins_waveOf]; exact k7
  · have h := (hF (a ++ i :: (m ++ [j])) (fresh p)).answered
    rw [e1, ← e1, ins_waveOf, k8, e1] at h
    exact h.symm

/-- The part of the run before the READ, the READ, the cycles up to the bound, and the cycle of the bound. Example; not in the source. -/
def exA : List (In p1) := (timeIns 2).take 18
/-- Example; not in the source. -/
def exI : In p1 := ((timeIns 2).drop 18).headD ⟨false, false, default, true, true, false, default⟩
/-- Example; not in the source. -/
def exM : List (In p1) := ((timeIns 2).drop 19).take (respBound p1 2 MT.READ - 1)
/-- Example; not in the source. -/
def exJ : In p1 := ((timeIns 2).drop (18 + respBound p1 2 MT.READ)).headD ⟨false, false, default, true, true, false, default⟩

theorem ex_key : Plays (fresh p1) [] (exA ++ exI :: (exM ++ [exJ])) ∧ exI.reqEn = true ∧ exI.req.ty = MT.READ ∧
    Prompt 2 0 ((fresh p1).after (exA ++ [exI])) (owesAfter (fresh p1) [] (exA ++ [exI])) (exM ++ [exJ]) ∧
    (exM ++ [exJ]).length = respBound p1 2 MT.READ ∧ nAccepted exA = 2 ∧ nAnswered (fresh p1) (exA ++ exI :: exM) = 2 ∧
    nAnswered (fresh p1) (exA ++ exI :: (exM ++ [exJ])) = 3 := by decide +kernel

attribute [irreducible] exA exI exM exJ

/-- **C76: the hypotheses of `C76_response_time` are met and its bound is sharp.**  A waveform of the small cache
in which a READ that evicts a dirty line is the third request: with a memory late by two cycles it is not answered one
cycle before the bound, and answered at the bound. -/
theorem C76_bound_is_sharp : ∃ (r r' : Regs p1) (l l' : List (Cyc p1)) (c d : Cyc p1), AfterReset r ∧
    Waves r (l ++ c :: (l' ++ [d])) r' ∧ Fair [] (l ++ c :: (l' ++ [d])) ∧ c.inp.cachereqEn = true ∧
    c.inp.cachereqMsg.ty = MT.READ ∧ PromptW 2 0 (owesW' [] (l ++ [c])) (l' ++ [d]) ∧
    (l' ++ [d]).length = respBound p1 2 MT.READ ∧ requestsW l = 2 ∧ responsesW (l ++ c :: l') = 2 ∧
    responsesW (l ++ c :: (l' ++ [d])) = 3 := by
  obtain ⟨k1, k2, k3, k4, k5, k6, k7, k8⟩ := ex_key
  exact waves_exist p1_wf exA exM exI exJ k1 k2 k3 k4 k5 k6 k7 k8

end Verif.Net
