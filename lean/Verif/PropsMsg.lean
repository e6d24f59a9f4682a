import Verif.MsgStep
import Verif.Boot

/-!
# C69: messages are ignored while `en` is low, and so is the state before reset
-/

namespace Verif
variable {p : Params} {s : St p} {v : Alt p}

theorem resp_live {i : In p} (h : (s.cs2 i).respEn = true) : s.t2.dead = false ∧ s.t2 ≠ .cacheInit := by
  unfold St.cs2 Verif.cs2 at h
  cases ht : s.t2 <;> rw [ht] at h <;> first | exact ⟨rfl, by decide⟩ | skip
  all_goals (simp only at h; try split at h)
  all_goals exact absurd h (by simp)

theorem mreq_live {i : In p} (h : (s.cs2 i).mreqEn = true) :
    (s.t2.dead = false ∧ s.t2 ≠ .cacheInit) ∨
      (s.t2 = .flushRead ∧ s.flushSent2 = true ∧ (s.cs2 i).mty = MT.WRITE ∧ (s.cs2 i).rdSel = false) := by
  by_cases hf : s.t2 = .flushRead
  · right
    unfold St.cs2 Verif.cs2 at h ⊢
    rw [hf] at h ⊢
    simp only at h ⊢
    split at h
    · exact absurd h (by simp)
    · next hn =>
      rw [if_neg hn]
      have hs : s.flushSent2 = true := h
      exact ⟨trivial, hs, rfl, by simp [hs]⟩
  · left
    unfold St.cs2 Verif.cs2 at h
    cases ht : s.t2 <;> rw [ht] at h hf <;> first | exact ⟨rfl, by decide⟩ | exact absurd rfl hf | skip
    all_goals (simp only at h; try split at h)
    all_goals exact absurd h (by simp)

/-- The outputs mean the same. -/
theorem Mute.out (M : Mute s v) {i i' : In p} (h : i.Same i') : Out.Same (s.out i) ((s.alt v).out i') where
  reqRdy := (M.reqRdy h).symm
  respEn := by show (s.cs2 i).respEn = ((s.alt v).cs2 i').respEn; rw [cs2_same h]
  mreqEn := by show (s.cs2 i).mreqEn = ((s.alt v).cs2 i').mreqEn; rw [cs2_same h]
  resp he := by
    obtain ⟨h1, h2⟩ := resp_live he
    show s.cacheresp (s.cs2 i) = (s.alt v).cacheresp ((s.alt v).cs2 i')
    have hr : (s.alt v).req2 = s.req2 := M.r2 h1 h2
    rw [cs2_same h]
    unfold St.cacheresp St.rdData2
    rw [hr]
    rfl
  mreq he := by
    show s.memreq (s.cs2 i) = { (s.alt v).memreq ((s.alt v).cs2 i') with opq := s.req2.opq }
    rw [cs2_same h]
    rcases mreq_live he with ⟨h1, h2⟩ | ⟨h1, h2, h3, h4⟩
    · have hr : (s.alt v).req2 = s.req2 := M.r2 h1 h2
      unfold St.memreq St.rdData2
      rw [hr]
      rfl
    · have hr : (s.alt v).req2.addr = s.req2.addr := M.r2f h1 h2
      have ha : s.isAmo2 = false := by simp [St.isAmo2, h1]
      have ha' : (s.alt v).isAmo2 = false := ha
      unfold St.memreq St.rdData2
      rw [hr, ha, ha', h4, h3]
      rfl
  opq he hw := by
    rcases mreq_live he with ⟨h1, h2⟩ | ⟨h1, h2, h3, h4⟩
    · have hr : (s.alt v).req2 = s.req2 := M.r2 h1 h2
      show s.memreq (s.cs2 i) = (s.alt v).memreq ((s.alt v).cs2 i')
      rw [cs2_same h]
      unfold St.memreq St.rdData2
      rw [hr]
      rfl
    · exact absurd (show memreqType (s.cs2 i).mty s.req2.ty = MT.WRITE by rw [h3]; rfl) hw

theorem Twin.refl_tidy {s : St p} (T : Tidy s) : Twin s s :=
  ⟨T, s.tagDout, s.tagStall, s.hitStall, s.data.dout, s.dataStall, rfl, fun _ _ => rfl, fun _ => rfl, .inr (.inr rfl)⟩

theorem Mute.refl (s : St p) : Mute s (Alt.of s) where
  m _ := ⟨Iff.rfl, fun _ => rfl⟩
  r1 _ := rfl
  r2 _ _ := rfl
  r2f _ _ := rfl
  c _ _ := .inr rfl
  ram _ _ _ := ESim.rfl'
  a _ _ := ESim.rfl'
  b _ _ := ESim.rfl'

theorem Akin.refl (C : Calm s) : Akin s s := ⟨C, Alt.of s, Mute.refl s, Twin.refl_tidy C.tidy⟩

theorem Akin.out {s₁ : St p} (A : Akin s s₁) {i i' : In p} (h : i.Same i') : Out.Same (s.out i) (s₁.out i') := by
  obtain ⟨_, v, M, T⟩ := A
  rw [T.out]
  exact M.out h

theorem Akin.next {s₁ : St p} (A : Akin s s₁) {i i' : In p} (h : i.Same i') (hr : i.reset = false) (hp : Polite s i) :
    Akin (s.next i) (s₁.next i') := by
  obtain ⟨C, v, M, T⟩ := A
  refine ⟨C.next hp, _, M.next C hp h, ?_⟩
  rw [← M.next_eq h]
  have := T.step i' (s.alt v).held s₁.held
  rw [stepJ_held, stepJ_held] at this
  unfold St.step at this
  rwa [show i'.reset = false from h.reset ▸ hr] at this

/-- The same inputs on two caches, one after another reset. Proof device; not in the source. -/
inductive Both : St p → St p → Prop
  | boot {s s₁ : St p} (B : Boot s s₁) (C : Calm s) (C₁ : Calm s₁) : Both s s₁
  | run {s s₁ : St p} (A : Akin s s₁) (C₁ : Calm s₁) : Both s s₁

theorem In.Same.refl (i : In p) : i.Same i := ⟨rfl, rfl, rfl, rfl, rfl, fun _ => rfl, fun _ => ⟨Iff.rfl, fun _ => rfl⟩⟩

theorem Both.out {s s₁ : St p} (h : Both s s₁) (i : In p) : Out.Same (s.out i) (s₁.out i) := by
  cases h with
  | boot B => exact B.out i
  | run A => exact A.out (In.Same.refl i)

theorem Both.right {s s₁ : St p} (h : Both s s₁) : Calm s₁ := by
  cases h with
  | boot _ _ C => exact C
  | run _ C => exact C

theorem Both.next {s s₁ : St p} (h : Both s s₁) {i : In p} (hr : i.reset = false) (hp : Polite s i) :
    Both (s.next i) (s₁.next i) := by
  have hp₁ : Polite s₁ i := fun he => ⟨by rw [← (h.out i).reqRdy]; exact (hp he).1, (hp he).2⟩
  cases h with
  | boot B C C₁ =>
    rcases B.l.fsm with hf | hf
    · exact .boot (B.next hf i) (C.next hp) (C₁.next hp₁)
    · exact .run (B.last C hf.1 hr hp) (C₁.next hp₁)
  | run A C₁ => exact .run (A.next (In.Same.refl i) hr hp) (C₁.next hp₁)

theorem Out.Same.trans {o o₁ o' : Out p} (h : o.Same o₁) (h' : o₁.Same o') : o.Same o' where
  reqRdy := h.reqRdy.trans h'.reqRdy
  respEn := h.respEn.trans h'.respEn
  mreqEn := h.mreqEn.trans h'.mreqEn
  resp he := (h.resp he).trans (h'.resp (h.respEn ▸ he))
  mreq he := by
    have h1 := h.mreq he
    have h2 := h'.mreq (h.mreqEn ▸ he)
    rw [h1, h2]
  opq he hw := by
    have h1 := h.opq he hw
    rw [h1]
    exact h'.opq (h.mreqEn ▸ he) (h1 ▸ hw)

theorem same_outs : ∀ (l l' : List (In p)) (s s₁ s' : St p), Both s s₁ → Akin s₁ s' → SameIns l l' → Obeys l (s.outs l) →
    SameOuts (s.outs l) (s'.outs l')
  | [], [], _, _, _, _, _, _, _ => trivial
  | [], _ :: _, _, _, _, _, _, h, _ => h.elim
  | _ :: _, [], _, _, _, _, _, h, _ => h.elim
  | i :: l, i' :: l', s, s₁, s', B, A, h, hp => by
    obtain ⟨hi, hl⟩ := h
    obtain ⟨hp0, hp⟩ := hp
    refine ⟨(B.out i).trans (A.out hi), ?_⟩
    cases hr : i.reset
    · have hpol : Polite s i := hp0 hr
      have hp₁ : Polite s₁ i := fun he => ⟨by rw [← (B.out i).reqRdy]; exact (hpol he).1, (hpol he).2⟩
      have e : s.step i = s.next i := by unfold St.step; rw [hr]; rfl
      have e' : s'.step i' = s'.next i' := by unfold St.step; rw [← hi.reset, hr]; rfl
      rw [e] at hp
      rw [e, e']
      exact same_outs l l' _ _ _ (B.next hr hpol) (A.next hi hr hp₁) hl hp
    · have e : s.step i = (s.next i).rst := by unfold St.step; rw [hr]; rfl
      have e' : s'.step i' = (s'.next i').rst := by unfold St.step; rw [← hi.reset, hr]; rfl
      rw [e] at hp
      rw [e, e']
      exact same_outs l l' _ _ _ (.boot (Boot.rst _ _) (Calm.rst _) (Calm.rst _)) (Akin.refl (Calm.rst _)) hl hp

/-- **C69** After a reset the outputs of a cache, cycle by cycle, depend only on the control inputs
and on the messages in the cycles in which their `en` is high.  The messages in other cycles,
the opaque field of memory responses, the state before the reset (in particular the contents of
the SRAMs) and the inputs in the cycle of the reset do not matter.  Further resets may follow.
The processor obeys `rdy` and does not send WRITE_INIT. -/
theorem C69_same_outputs (t t' : St p) {i i' : In p} (hi : i.reset = true) (hi' : i'.reset = true) {l l' : List (In p)}
    (h : SameIns l l') (hp : Obeys l ((t.step i).outs l)) :
    SameOuts ((t.step i).outs l) ((t'.step i').outs l') := by
  have e : t.step i = (t.next i).rst := by unfold St.step; rw [hi]; rfl
  have e' : t'.step i' = (t'.next i').rst := by unfold St.step; rw [hi']; rfl
  rw [e] at hp
  rw [e, e']
  exact same_outs l l' _ _ _ (.boot (Boot.rst _ _) (Calm.rst _) (Calm.rst _)) (Akin.refl (Calm.rst _)) h hp

/-- The same with SRAMs whose output is arbitrary in every cycle after one without a read. -/
theorem C69_same_outputs_any_sram (t t' : St p) {i i' : In p} (hi : i.reset = true) (hi' : i'.reset = true) (g g' : Junk p)
    {l l' : List (In p × Junk p)} (h : SameIns (l.map (·.1)) (l'.map (·.1)))
    (hp : Obeys (l.map (·.1)) ((t.stepJ i g).outsJ l)) :
    SameOuts ((t.stepJ i g).outsJ l) ((t'.stepJ i' g').outsJ l') := by
  rw [C68_same_outputs t hi] at hp ⊢
  rw [C68_same_outputs t' hi']
  exact C69_same_outputs t t' hi hi' h hp

end Verif
