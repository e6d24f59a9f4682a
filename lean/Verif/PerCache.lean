import Verif.Trace

/-!
# Induction principle for one cache of the event-level system
-/

namespace Verif
variable {p : Params} {ι : Type} [DecidableEq ι]

/-- A property of (accepted requests, messages produced, state) of one cache that
holds initially and is preserved by acceptance and by answers of memory holds in
every execution, however many caches there are. -/
theorem cache_induct {P : List (CReq p) → List (Msg p) → L1 p → Prop} (h0 : P [] [] (L1.init p))
    (hacc : ∀ as ms L q, L.cur = .idle → L.Ok → q.ty ≠ MT.INIT → P as ms L →
      P (as ++ [q]) (ms ++ (L.accept q).2) (L.accept q).1)
    (hans : ∀ as ms L d, L.cur ≠ .idle → L.Ok → P as ms L → P as (ms ++ (L.answer d).2) (L.answer d).1)
    {M : ByteMem} {T : ESys ι p} {tr : List (Ev ι p)} (h : ERun (ESys.init ι p M) tr T) (k : ι) :
    P (accepted k tr) (emitted k tr ++ T.E k) (T.L k) := by
  generalize hT : ESys.init ι p M = T0 at h
  induction h with
  | refl => subst hT; exact h0
  | @snoc T1 T2 tr1 ev h hs ih =>
    subst hT
    have hok := (EInv.run h k).ok
    rw [accepted_append, emitted_append]
    cases hs with
    | acc k' q hc _ _ _ hq =>
      by_cases hk : k = k'
      · subst hk
        have := hacc _ _ _ q hc hok hq ih
        simpa [accepted, emitted, List.append_assoc] using this
      · have : ¬ k' = k := fun h => hk h.symm
        simpa [accepted, emitted, this, upd_other _ hk] using ih
    | deliver k' r l hl =>
      by_cases hk : k = k'
      · subst hk
        simp only [L1.deliver, upd_same]
        split
        · by_cases hc : (T1.L k).cur = .idle
          · rw [answer_of_idle hc]; simpa [accepted, emitted] using ih
          · have := hans _ _ _ r.data hc hok ih
            simpa [accepted, emitted, List.append_assoc] using this
        · simpa [accepted, emitted] using ih
      · simpa [accepted, emitted, upd_other _ hk] using ih
    | emitMem k' m E' hE' =>
      by_cases hk : k = k'
      · subst hk
        rw [hE'] at ih
        simpa [accepted, emitted, List.append_assoc] using ih
      · have : ¬ k' = k := fun h => hk h.symm
        simpa [accepted, emitted, this, upd_other _ hk] using ih
    | emitResp k' r E' hE' =>
      by_cases hk : k = k'
      · subst hk
        rw [hE'] at ih
        simpa [accepted, emitted, List.append_assoc] using ih
      · have : ¬ k' = k := fun h => hk h.symm
        simpa [accepted, emitted, this, upd_other _ hk] using ih
    | exec k' m ms hm => simpa [accepted, emitted] using ih

end Verif
