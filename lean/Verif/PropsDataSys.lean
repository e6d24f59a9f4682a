import Verif.PropsData
import Verif.PropsMsg

/-!
# C70 for caches that start in different states, and for systems
-/

namespace Verif
variable {p : Params}

/-! ## Messages that count -/

/-- The history with the messages of `l` that count and the data of `l'`. Proof device; not in the source. -/
def mixIns : List (In p) → List (In p) → List (In p)
  | i :: l, i' :: l' =>
    { i' with
      req := if i.reqEn then i.req else i'.req
      mresp := if i.mrespEn then { i'.mresp with data := i.mresp.data } else i'.mresp } :: mixIns l l'
  | _, _ => []

theorem mixIns_same : ∀ {l l' : List (In p)}, AlikeIns l l' → SameIns l (mixIns l l')
  | [], [], _ => trivial
  | [], _ :: _, h => h.elim
  | _ :: _, [], h => h.elim
  | i :: l, i' :: l', ⟨h, hl⟩ => by
    refine ⟨⟨h.reset, h.reqEn, h.respRdy, h.mreqRdy, h.mrespEn, fun he => ?_, fun he => ?_⟩, mixIns_same hl⟩
    · simp [he]
    · simp only [he, if_true]
      exact ⟨h.mresp he, fun _ => rfl⟩

theorem mixIns_blank : ∀ {l l' : List (In p)}, AlikeIns l l' → (mixIns l l').map In.blank = l'.map In.blank
  | [], [], _ => rfl
  | [], _ :: _, h => h.elim
  | _ :: _, [], h => h.elim
  | i :: l, i' :: l', ⟨h, hl⟩ => by
    show _ :: (mixIns l l').map In.blank = _ :: _
    rw [mixIns_blank hl]
    congr 1
    unfold In.blank
    congr 1
    · show CReq.blank (if i.reqEn then i.req else i'.req) = i'.req.blank
      split
      · next he => exact h.req he
      · rfl
    · show MResp.blank (if i.mrespEn then { i'.mresp with data := i.mresp.data } else i'.mresp) = i'.mresp.blank
      split <;> rfl

theorem SameOuts.blank : ∀ {o o₁ o' : List (Out p)}, SameOuts o o₁ → o₁.map Out.blank = o'.map Out.blank → AlikeOuts o o'
  | [], [], [], _, _ => trivial
  | [], [], _ :: _, _, h => by simp at h
  | [], _ :: _, _, h, _ => h.elim
  | _ :: _, [], _, h, _ => h.elim
  | _ :: _, _ :: _, [], _, h => by simp at h
  | o :: l, o₁ :: l₁, o' :: l', ⟨h, hl⟩, hb => by
    rw [List.map_cons, List.map_cons, List.cons.injEq] at hb
    have e1 : o₁.reqRdy = o'.reqRdy := by have e := congrArg (fun o : Out p => o.reqRdy) hb.1; exact e
    have e2 : o₁.respEn = o'.respEn := by have e := congrArg (fun o : Out p => o.respEn) hb.1; exact e
    have e3 : o₁.mreqEn = o'.mreqEn := by have e := congrArg (fun o : Out p => o.mreqEn) hb.1; exact e
    have e4 : o₁.resp.blank = o'.resp.blank := by have e := congrArg (fun o : Out p => o.resp) hb.1; exact e
    have e5 : o₁.mreq.blank = o'.mreq.blank := by have e := congrArg (fun o : Out p => o.mreq) hb.1; exact e
    refine ⟨⟨h.reqRdy.trans e1, h.respEn.trans e2, h.mreqEn.trans e3, fun he => ?_, fun he => ?_, fun he hw => ?_⟩, SameOuts.blank hl hb.2⟩
    · rw [h.resp he, e4]
    · rw [h.mreq he, ← e5]
      rfl
    · rw [h.opq he hw, e5]

/-- **C70** After a reset the timing of a cache, its hits and misses and the types, addresses and
write masks of its memory requests depend only on the control inputs and, in the cycles in which
`en` is high, on the type, opaque field, address and length of the requests and on whether memory
responses are write acknowledgements. -/
theorem C70_timing (t t' : St p) {i i' : In p} (hi : i.reset = true) (hi' : i'.reset = true) {l l' : List (In p)}
    (h : AlikeIns l l') (hp : Obeys l ((t.step i).outs l)) :
    AlikeOuts ((t.step i).outs l) ((t'.step i').outs l') :=
  (C69_same_outputs t t' hi hi' (mixIns_same h) hp).blank (C70_same_timing _ (mixIns_blank h))

/-! ## Systems -/

section
set_option linter.unusedSectionVars false
variable {ι : Type} [DecidableEq ι]

/-- The systems differ in data only. Proof device; not in the source. -/
structure SBlank (S T : Sys ι p) : Prop where
  cache : ∀ k, (S.cache k).blank = (T.cache k).blank
  reqQ : ∀ k, (S.reqQ k).map MReq.blank = (T.reqQ k).map MReq.blank
  respQ : ∀ k, (S.respQ k).map MResp.blank = (T.respQ k).map MResp.blank

theorem memExec_blank (M M' : ByteMem) {m m' : MReq p} (h : m.blank = m'.blank) : (memExec M m).2.blank = (memExec M' m').2.blank := by
  have h1 : m.ty = m'.ty := by have e := congrArg (fun m : MReq p => m.ty) h; exact e
  have h2 : m.opq = m'.opq := by have e := congrArg (fun m : MReq p => m.opq) h; exact e
  unfold memExec
  rw [h1, h2]
  split
  · rfl
  · split <;> rfl

theorem acc_clock (S : Sys ι p) (k k' : ι) (i : In p) :
    accepted k' (S.clockEvs k i) = if i.reqEn ∧ k = k' then [i.req] else [] := by
  unfold Sys.clockEvs accepted
  simp only [List.filterMap_append]
  cases i.reqEn <;> cases ((S.cache k).out i).mreqEn <;> cases ((S.cache k).out i).respEn <;>
    by_cases hk : k = k' <;> simp [hk]

theorem SBlank.clock {S T : Sys ι p} (h : SBlank S T) {k : ι} {i : In p} (hc : S.CanClock k i) (d : Data p) :
    ∃ i', T.CanClock k i' ∧ SBlank (S.clock k i) (T.clock k i') ∧
      (T.clockEvs k i').map Ev.blank = (S.clockEvs k i).map Ev.blank ∧ i'.reqEn = i.reqEn ∧ i'.req.data = d := by
  have hm : i.mrespEn = true → ∃ r l, T.respQ k = r :: l ∧ r.blank = i.mresp.blank := by
    intro he
    obtain ⟨l, hl⟩ := hc.mem he
    have := h.respQ k
    rw [hl, List.map_cons] at this
    cases ht : T.respQ k with
    | nil => rw [ht] at this; simp at this
    | cons r l' =>
      rw [ht, List.map_cons, List.cons.injEq] at this
      exact ⟨r, l', rfl, this.1.symm⟩
  obtain ⟨i', hb, h1, h2⟩ : ∃ i' : In p, i'.blank = i.blank ∧ i'.req.data = d ∧ (i.mrespEn = true → ∃ l, T.respQ k = i'.mresp :: l) := by
    by_cases he : i.mrespEn = true
    · obtain ⟨r, l, hr, hrb⟩ := hm he
      refine ⟨{ i with req := { i.req with data := d }, mresp := r }, ?_, rfl, fun _ => ⟨l, hr⟩⟩
      unfold In.blank
      simp only [hrb]
      rfl
    · exact ⟨{ i with req := { i.req with data := d } }, rfl, rfl, fun h => absurd h he⟩
  have ho : ((S.cache k).out i).blank = ((T.cache k).out i').blank := by
    rw [out_blank (S.cache k) i, out_blank (T.cache k) i', h.cache k, hb]
  have o1 : ((S.cache k).out i).reqRdy = ((T.cache k).out i').reqRdy := by have e := congrArg (fun o : Out p => o.reqRdy) ho; exact e
  have o2 : ((S.cache k).out i).respEn = ((T.cache k).out i').respEn := by have e := congrArg (fun o : Out p => o.respEn) ho; exact e
  have o3 : ((S.cache k).out i).mreqEn = ((T.cache k).out i').mreqEn := by have e := congrArg (fun o : Out p => o.mreqEn) ho; exact e
  have o4 : ((S.cache k).out i).resp.blank = ((T.cache k).out i').resp.blank := by have e := congrArg (fun o : Out p => o.resp) ho; exact e
  have o5 : ((S.cache k).out i).mreq.blank = ((T.cache k).out i').mreq.blank := by have e := congrArg (fun o : Out p => o.mreq) ho; exact e
  have b1 : i'.reset = i.reset := by have e := congrArg (fun i : In p => i.reset) hb; exact e
  have b2 : i'.reqEn = i.reqEn := by have e := congrArg (fun i : In p => i.reqEn) hb; exact e
  have b3 : i'.mrespEn = i.mrespEn := by have e := congrArg (fun i : In p => i.mrespEn) hb; exact e
  have b4 : i'.req.blank = i.req.blank := by have e := congrArg (fun i : In p => i.req) hb; exact e
  have b5 : i'.req.ty = i.req.ty := by have e := congrArg (fun q : CReq p => q.ty) b4; exact e
  refine ⟨i', ⟨b1.trans hc.noReset, fun he => ?_, fun he => h2 (b3 ▸ he)⟩, ⟨fun k' => ?_, fun k' => ?_, fun k' => ?_⟩, ?_, b2, h1⟩
  · have := hc.req (b2 ▸ he)
    exact ⟨o1 ▸ this.1, b5 ▸ this.2⟩
  · show (upd S.cache k ((S.cache k).step i) k').blank = (upd T.cache k ((T.cache k).step i') k').blank
    by_cases hk : k' = k
    · subst hk
      rw [upd_same, upd_same, ← step_blank, ← step_blank (T.cache k'), h.cache, hb]
    · rw [upd_other _ hk, upd_other _ hk]; exact h.cache k'
  · show (upd S.reqQ k _ k').map MReq.blank = (upd T.reqQ k _ k').map MReq.blank
    by_cases hk : k' = k
    · subst hk
      rw [upd_same, upd_same, List.map_append, List.map_append, h.reqQ, o3]
      congr 1
      split
      · simp [o5]
      · rfl
    · rw [upd_other _ hk, upd_other _ hk]; exact h.reqQ k'
  · show (upd S.respQ k _ k').map MResp.blank = (upd T.respQ k _ k').map MResp.blank
    by_cases hk : k' = k
    · subst hk
      rw [upd_same, upd_same, b3]
      split
      · rw [List.map_tail, List.map_tail, h.respQ]
      · exact h.respQ k'
    · rw [upd_other _ hk, upd_other _ hk]; exact h.respQ k'
  · unfold Sys.clockEvs
    simp only [List.map_append]
    rw [b2, ← o2, ← o3]
    congr 1
    · congr 1
      · split
        · simp [Ev.blank, b4]
        · rfl
      · split
        · simp [Ev.blank, o5]
        · rfl
    · split
      · simp [Ev.blank, o4]
      · rfl

theorem SBlank.exec {S T : Sys ι p} (h : SBlank S T) {k : ι} {m : MReq p} {ms : List (MReq p)} (hm : S.reqQ k = m :: ms) :
    ∃ m' ms', T.reqQ k = m' :: ms' ∧ m'.blank = m.blank ∧ SBlank (S.exec k m) (T.exec k m') := by
  have hq := h.reqQ k
  rw [hm, List.map_cons] at hq
  cases ht : T.reqQ k with
  | nil => rw [ht] at hq; simp at hq
  | cons m' ms' =>
    rw [ht, List.map_cons, List.cons.injEq] at hq
    refine ⟨m', ms', rfl, hq.1.symm, ⟨h.cache, fun k' => ?_, fun k' => ?_⟩⟩
    · show (upd S.reqQ k _ k').map MReq.blank = (upd T.reqQ k _ k').map MReq.blank
      by_cases hk : k' = k
      · subst hk
        rw [upd_same, upd_same, List.map_tail, List.map_tail, h.reqQ]
      · rw [upd_other _ hk, upd_other _ hk]; exact h.reqQ k'
    · show (upd S.respQ k _ k').map MResp.blank = (upd T.respQ k _ k').map MResp.blank
      by_cases hk : k' = k
      · subst hk
        rw [upd_same, upd_same, List.map_append, List.map_append, h.respQ]
        simp [memExec_blank S.mem T.mem hq.1]
      · rw [upd_other _ hk, upd_other _ hk]; exact h.respQ k'

/-- **C70** (systems) Replace the contents of memory and the data of all requests: the execution
stays the same except for data.  `d k n` is the new data of request number `n` of processor `k`. -/
theorem C70_same_executions {S S' T : Sys ι p} {tr : List (Ev ι p)} (h : Run S tr S') (hc : T.cache = S.cache)
    (hq : T.reqQ = S.reqQ) (hr : T.respQ = S.respQ) (d : ι → Nat → Data p) :
    ∃ tr' T', Run T tr' T' ∧ tr'.map Ev.blank = tr.map Ev.blank ∧
      ∀ k n q, (accepted k tr')[n]? = some q → q.data = d k n := by
  suffices ∃ tr' T', Run T tr' T' ∧ tr'.map Ev.blank = tr.map Ev.blank ∧ SBlank S' T' ∧
      ∀ k n q, (accepted k tr')[n]? = some q → q.data = d k n by
    obtain ⟨tr', T', h1, h2, _, h3⟩ := this
    exact ⟨tr', T', h1, h2, h3⟩
  induction h with
  | refl => exact ⟨[], T, .refl T, rfl, ⟨fun k => by rw [hc], fun k => by rw [hq], fun k => by rw [hr]⟩, fun k n q h => by simp [accepted] at h⟩
  | snoc _ hs ih =>
    obtain ⟨tr', T', h1, h2, hb, h3⟩ := ih
    cases hs with
    | clock k i hcl =>
      obtain ⟨i', g1, g2, g3, g4, g5⟩ := hb.clock hcl (d k (accepted k tr').length)
      refine ⟨_, _, .snoc h1 (.clock T' k i' g1), ?_, g2, ?_⟩
      · rw [List.map_append, List.map_append, h2, g3]
      · intro k' n q hn
        have e : accepted k' (tr' ++ T'.clockEvs k i') = accepted k' tr' ++ accepted k' (T'.clockEvs k i') := by
          unfold accepted; rw [List.filterMap_append]
        rw [e, acc_clock] at hn
        by_cases hlt : n < (accepted k' tr').length
        · rw [List.getElem?_append_left hlt] at hn
          exact h3 k' n q hn
        · rw [List.getElem?_append_right (by omega)] at hn
          split at hn
          · next hk =>
            obtain ⟨_, rfl⟩ := hk
            have : n - (accepted k tr').length = 0 := by
              cases hx : n - (accepted k tr').length with
              | zero => rfl
              | succ x => rw [hx] at hn; simp at hn
            rw [this] at hn
            simp at hn
            rw [← hn, g5, show n = (accepted k tr').length by omega]
          · simp at hn
    | exec k m ms hm =>
      obtain ⟨m', ms', g1, g2, g3⟩ := hb.exec hm
      refine ⟨_, _, .snoc h1 (.exec T' k m' ms' g1), ?_, g3, ?_⟩
      · rw [List.map_append, List.map_append, h2]
        rw [List.map_singleton, List.map_singleton]
        show _ ++ [Ev.exec k m'.blank (memExec T'.mem m').2.blank] = _ ++ [Ev.exec k m.blank (memExec _ m).2.blank]
        rw [memExec_blank T'.mem _ g2, g2]
      · intro k' n q hn
        have e : ∀ r, accepted k' (tr' ++ [Ev.exec k m' r]) = accepted k' tr' := by
          intro r; unfold accepted; rw [List.filterMap_append]; simp
        rw [e] at hn
        exact h3 k' n q hn

end

end Verif
