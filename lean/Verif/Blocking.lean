import Verif.Trace

/-!
# Lemmas for the properties about single cycles and blocking
-/

namespace Verif
variable {p : Params} {ι : Type} [DecidableEq ι]

/-- Refinement from any pair of related states. -/
theorem refine_from (wf : p.WF) {S S' : Sys ι p} {T : ESys ι p} {tr : List (Ev ι p)} (hr : Rel S T)
    (h : Run S tr S') : ∃ T', ERun T (tr.map Ev.canon) T' ∧ Rel S' T' := by
  induction h with
  | refl => exact ⟨T, .refl _, hr⟩
  | snoc h hs ih =>
    obtain ⟨T1, h1, h2⟩ := ih
    cases hs with
    | clock k i hc =>
      obtain ⟨T', h3, h4⟩ := refine_clock wf h2 hc
      exact ⟨T', by rw [List.map_append]; exact h1.trans h3, h4⟩
    | exec k m ms hm =>
      obtain ⟨T', h3, h4⟩ := refine_exec h2 hm
      exact ⟨T', by rw [List.map_append]; exact h1.trans h3, h4⟩

/-- Without new requests an idle cache sends nothing to memory. -/
theorem idle_silent {T T' : ESys ι p} {tr : List (Ev ι p)} {k : ι} (h : ERun T tr T')
    (hc : (T.L k).cur = .idle) (hE : memTypes (T.E k) = []) (ha : accepted k tr = []) :
    sent k tr = [] ∧ (T'.L k).cur = .idle ∧ memTypes (T'.E k) = [] := by
  induction h with
  | refl => exact ⟨rfl, hc, hE⟩
  | @snoc T1 T2 tr1 ev h hs ih =>
    rw [accepted_append, List.append_eq_nil_iff] at ha
    obtain ⟨h1, h2, h3⟩ := ih ha.1
    rw [sent_append, h1, List.nil_append]
    cases hs with
    | acc k' q _ _ _ _ _ =>
      by_cases hk : k = k'
      · subst hk
        have := ha.2
        simp [accepted] at this
      · exact ⟨rfl, by simpa [upd_other _ hk] using h2, by simpa [upd_other _ hk] using h3⟩
    | deliver k' r l hl =>
      by_cases hk : k = k'
      · subst hk
        have hd : (T1.L k).deliver r = (T1.L k, []) := by
          simp only [L1.deliver]; split
          · exact answer_of_idle h2 _
          · rfl
        exact ⟨rfl, by simpa [hd] using h2, by simpa [hd] using h3⟩
      · exact ⟨rfl, by simpa [upd_other _ hk] using h2, by simpa [upd_other _ hk] using h3⟩
    | emitMem k' m E' hE' =>
      by_cases hk : k = k'
      · subst hk
        rw [hE'] at h3; simp at h3
      · refine ⟨?_, h2, by simpa [upd_other _ hk] using h3⟩
        have : ¬ k' = k := fun h => hk h.symm
        simp [sent, this]
    | emitResp k' r E' hE' =>
      by_cases hk : k = k'
      · subst hk
        rw [hE'] at h3
        exact ⟨rfl, h2, by simpa using h3⟩
      · exact ⟨rfl, h2, by simpa [upd_other _ hk] using h3⟩
    | exec k' m ms hm => exact ⟨rfl, h2, h3⟩

/-- Every accepted request is answered, about to be answered, or waiting for memory. -/
theorem owed {M : ByteMem} {T : ESys ι p} {tr : List (Ev ι p)} (h : ERun (ESys.init ι p M) tr T) (k : ι) :
    (accepted k tr).length = (responses k tr).length + (nResp (T.E k) + (T.L k).cur.pend) := by
  generalize hT : ESys.init ι p M = T0 at h
  induction h with
  | refl => subst hT; rfl
  | @snoc T1 T2 tr1 ev h hs ih =>
    subst hT

    rw [accepted_append, responses_append, List.length_append, List.length_append, ih]
    cases hs with
    | acc k' q hc _ _ _ hq =>
      by_cases hk : k = k'
      · subst hk
        have := accept_nResp (T1.L k) q hc hq
        have h2 : (Cur.idle : Cur p).pend = 0 := rfl
        simp only [accepted, responses, upd_same, List.filterMap_cons, List.filterMap_nil, if_true,
          List.length_cons, List.length_nil, nResp_append, hc, h2]
        omega
      · have : ¬ k' = k := fun h => hk h.symm
        simp [accepted, responses, this, upd_other _ hk]
    | deliver k' r l hl =>
      by_cases hk : k = k'
      · subst hk
        have : nResp ((T1.L k).deliver r).2 + ((T1.L k).deliver r).1.cur.pend = (T1.L k).cur.pend := by
          simp only [L1.deliver]; split
          · exact answer_nResp _ _
          · simp
        simp only [accepted, responses, upd_same, List.filterMap_nil, List.length_nil, nResp_append]
        omega
      · simp [accepted, responses, upd_other _ hk]
    | emitMem k' m E' hE' =>
      by_cases hk : k = k'
      · subst hk
        simp [accepted, responses, hE']
      · simp [accepted, responses, upd_other _ hk]
    | emitResp k' r E' hE' =>
      by_cases hk : k = k'
      · subst hk
        simp [accepted, responses, hE']; omega
      · have : ¬ k' = k := fun h => hk h.symm
        simp [accepted, responses, this, upd_other _ hk]
    | exec k' m ms hm => simp [accepted, responses]

/-- The pending miss or AMO belongs to the last accepted request. -/
theorem cur_last {M : ByteMem} {T : ESys ι p} {tr : List (Ev ι p)} (h : ERun (ESys.init ι p M) tr T) (k : ι)
    (hc : (T.L k).cur ≠ .idle) :
    ∃ q, (accepted k tr).getLast? = some q ∧
      ((∃ w d, (T.L k).cur = .fill q w d) ∨ ∃ a w, (T.L k).cur = .amo q a w) := by
  generalize hT : ESys.init ι p M = T0 at h
  induction h with
  | refl => subst hT; exact absurd rfl hc
  | @snoc T1 T2 tr1 ev h hs ih =>
    subst hT
    rw [accepted_append]
    cases hs with
    | acc k' q hci _ _ _ hq =>
      by_cases hk : k = k'
      · subst hk
        refine ⟨q, by simp [accepted], ?_⟩
        simp only [upd_same, L1.accept] at hc ⊢
        split
        · rename_i hrw
          rw [if_pos hrw] at hc
          cases hh : ((T1.L k).lookup q.addr).hit
          · cases hi : ((T1.L k).lookup q.addr).inval
            · rw [rw_miss hh hi]; exact .inl ⟨_, _, rfl⟩
            · rw [rw_inval hh hi]; exact .inl ⟨_, _, rfl⟩
          · rw [rw_hit hh] at hc; exact absurd hci hc
        rename_i hrw; rw [if_neg hrw] at hc
        split
        · exact .inr ⟨_, _, rfl⟩
        rename_i ha; rw [if_neg ha] at hc
        exfalso
        split at hc
        · exact hc hci
        split at hc
        · exact hc hci
        · exact hc hci
      · have h' : ¬ k' = k := fun h => hk h.symm
        simp only [upd_other _ hk] at hc ⊢
        have e : accepted k [(.acc k' q : Ev ι p)] = [] := by simp [accepted, h']
        rw [e, List.append_nil]
        exact ih hc
    | deliver k' r l hl =>
      have e : accepted k ([] : List (Ev ι p)) = [] := rfl
      rw [e, List.append_nil]
      by_cases hk : k = k'
      · subst hk
        simp only [upd_same] at hc ⊢
        by_cases hr : r.ty = MT.WRITE
        · have hd : (T1.L k).deliver r = (T1.L k, []) := by simp [L1.deliver, hr]
          rw [hd] at hc ⊢
          exact ih hc
        · have hd : (T1.L k).deliver r = (T1.L k).answer r.data := by simp [L1.deliver, hr]
          rw [hd, answer_idle] at hc
          exact absurd rfl hc
      · simp only [upd_other _ hk] at hc ⊢
        exact ih hc
    | emitMem k' m E' hE' => simpa [accepted] using ih hc
    | emitResp k' r E' hE' => simpa [accepted] using ih hc
    | exec k' m ms hm => simpa [accepted] using ih hc

/-! ## Outstanding memory requests -/

/-- Nothing, one request, or an eviction followed by one request. Proof device; not in the source. -/
def AtMostOne (O : List MType) : Prop := O = [] ∨ (∃ t, O = [t]) ∨ ∃ t, O = [MT.WRITE, t]

theorem PhU.outstanding {s : St p} {L : L1 p} {rest : List (Msg p)} {O : List MType}
    {U : Prop} (h : PhU U s L rest O) : AtMostOne O := by
  cases h with
  | flow h => exact .inl h.quiet.out
  | req L0 q h => exact .inl h.quiet.out
  | pass2 q h => exact .inl h.out
  | wait h =>
    rcases h.out with ⟨_, h1 | h1⟩ | ⟨_, h1 | h1⟩
    · exact .inr (.inl ⟨_, h1⟩)
    · exact .inr (.inr ⟨_, h1⟩)
    · exact .inl h1
    · exact .inr (.inl ⟨_, h1⟩)
  | ans L0 h => exact .inl h.out
  | refill L0 q w d h => exact .inl h.out
  | inv0 q h => exact .inl h.quiet.out
  | inv1 q h => exact .inl h.quiet.out
  | inv2 q h => exact .inl h.quiet.out
  | fl0 L0 q h => exact .inl h.quiet.out
  | fl1 L0 q c h => exact .inl h.quiet.out
  | fl2 L0 q c h =>
    rcases h.out with ⟨_, _, h1⟩ | ⟨_, _, h1⟩ | ⟨_, _, _, h1⟩
    · exact .inl h1
    · exact .inr (.inl ⟨_, h1⟩)
    · exact .inl h1
  | fl3 L0 q c h => exact .inl h.quiet.out
  | ini _ h => exact .inl h.quiet.out

theorem RIU.outstanding {U : Prop} {s : St p} {L : L1 p} {E : List (Msg p)} {O : List MType} (h : RIU U s L E O) :
    AtMostOne O := by
  cases h with
  | init h hL hE hO => exact .inl hO
  | run L' he h => obtain ⟨hok, rest, hE, hph⟩ := h; exact hph.outstanding

/-! ## Responses of a ready cache -/

theorem PReq.adv_ready {U : Prop} {s : St p} {i : In p} {L : L1 p} {rest O L0 q} (h : PReq U s L rest O L0 q)
    (hr : s.reqRdy i = true) : s.adv.msgs = rest := by
  obtain ⟨_, _, _, _, hal⟩ := ready_imp hr
  have hacc := h.acc
  rcases rw_or_amo h.ty with hq | hq
  · have hal2 := hal
    rw [h.cs1_rw hq] at hal2
    have hst := h.status_rw hq
    have hhit : (L0.lookup q.addr).hit = true := by
      split at hal2
      · simp at hal2
      · split at hal2
        · simp at hal2
        · rename_i h2
          rw [hst] at h2; simpa using h2
    rw [accept_rw hq, rw_hit hhit] at hacc
    rw [snd_eq hacc]
    apply h.toReqCore.adv_hit hq hhit
    intro hrd
    have hwr : s.cs1.wr = false := by
      have hev : s.status1.evict = false := by simp [hst, hhit]
      have hh : s.status1.hit = true := by simp [hst, hhit]
      rw [h.cs1_rw hq]; simp [hev, hh, hrd]
    have := h.dat
    rw [dataNext_ram_of_not_wr s hwr] at this
    have hL := fst_eq hacc
    have : L.dat = L0.dat := by rw [hL]; simp [hrd]
    rw [← this]; assumption
  · rw [h.cs1_amo hq] at hal
    split at hal <;> simp at hal

theorem RIU.ready_adv {U : Prop} {s : St p} {i : In p} {L : L1 p} {E : List (Msg p)} {O : List MType}
    (h : RIU U s L E O) (hr : s.reqRdy i = true) : E = s.slot.msgs ++ s.adv.msgs := by
  cases h with
  | init h hL hE hO => exact absurd h.fsm (ready_imp hr).1
  | run L' he h =>
    obtain ⟨hok, rest, hE, hph⟩ := h
    obtain ⟨hf, hc, hst, hn, hal⟩ := ready_imp hr
    rw [hE]; congr 1
    cases hph with
    | flow h => exact h.restEq
    | req L0 q h => exact (h.adv_ready hr).symm
    | pass2 q h =>
      obtain ⟨_, _, _, hcs⟩ := pass2_status s q.ty h.t1 h.evict2
      rw [hcs] at hal; simp at hal
    | wait h => rw [h.num] at hn; cases hn
    | ans L0 h => rw [h.num] at hn; cases hn
    | refill L0 q w d h => rw [h.num] at hn; cases hn
    | inv0 q h => simp [St.cs1, h.t1, Verif.cs1, St.status1] at hal
    | inv1 q h => rw [h.num] at hn; cases hn
    | inv2 q h => rw [h.num] at hn; cases hn
    | fl0 L0 q h => simp [St.cs1, h.t1, Verif.cs1, St.status1] at hal
    | fl1 L0 q c h => rw [h.num] at hn; cases hn
    | fl2 L0 q c h => rw [h.num] at hn; cases hn
    | fl3 L0 q c h => rw [h.num] at hn; cases hn
    | ini _ h => exact h.restEq

/-- M2 does not stall when both ports are ready. -/
theorem ostall_ready (s : St p) (i : In p) (h1 : i.mreqRdy = true) (h2 : i.respRdy = true) :
    (s.cs2 i).ostall = false := by
  simp only [St.cs2, h1, h2]
  cases s.t2 <;> cases s.evict2 <;> cases s.hit2 <;> cases s.flushSent2 <;> decide

end Verif
