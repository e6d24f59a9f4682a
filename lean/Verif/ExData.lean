import Verif.PropsDataSys
import Verif.ExMsg

/-!
# Executions with other data
-/

namespace Verif

/-- The same cycle with other data. Example; not in the source. -/
def recolour (i : In p0) : In p0 :=
  { i with req := { i.req with data := 0xABCD }, mresp := { i.mresp with data := 0x1122334455667788 } }

theorem recolour_blank (l : List (In p0)) : (l.map recolour).map In.blank = l.map In.blank := by
  rw [List.map_map]
  rfl

/-- The data of responses and memory requests differ in the run of `exMsg`, the rest is the same. -/
example : (exCache.outs exMsg).map Out.blank = (exCache.outs (exMsg.map recolour)).map Out.blank ∧
    ((exCache.outs exMsg).filter (·.respEn)).map (·.resp.data) = [0, 0x28272625, 0x403f3e3d, 0] ∧
    ((exCache.outs (exMsg.map recolour)).filter (·.respEn)).map (·.resp.data) = [0, 0x11223344, 0x11223344, 0] ∧
    ((exCache.outs exMsg).filter (·.mreqEn)).map (·.mreq.data) ≠ ((exCache.outs (exMsg.map recolour)).filter (·.mreqEn)).map (·.mreq.data) :=
  ⟨C70_same_timing _ (recolour_blank _).symm, by decide +kernel⟩

/-- Other data, other messages while `en` is low, another power-up state. -/
example : AlikeOuts (exCache.outs exMsg) (exCache'.outs ((exMsg.map (garble junkReq junkResp)).map recolour)) := by
  refine C70_timing _ _ rfl rfl ?_ exMsg_runs.1
  have key : ∀ l : List (In p0), AlikeIns l ((l.map (garble junkReq junkResp)).map recolour) := by
    intro l
    induction l with
    | nil => trivial
    | cons i l ih =>
      have h := garble_same junkReq junkResp i
      refine ⟨⟨h.reset, h.reqEn, h.respRdy, h.mreqRdy, h.mrespEn, fun he => ?_, fun he => (h.mresp he).1⟩, ih⟩
      rw [h.req he]
      rfl
  exact key _

/-- A system with another memory: every execution of the first has a counterpart in the second in which
all requests carry the data 7. -/
example {tr : List (Ev Unit p0)} {S : Sys Unit p0} (h : Run (start0 p0) tr S) :
    ∃ (tr' : List (Ev Unit p0)) (T : Sys Unit p0), Run { start0 p0 with mem := fun _ => 0 } tr' T ∧ tr'.map Ev.blank = tr.map Ev.blank ∧
      ∀ (k : Unit) (n : Nat) (q : CReq p0), (accepted k tr')[n]? = some q → q.data = 7 :=
  C70_same_executions (T := { start0 p0 with mem := fun _ => 0 }) h rfl rfl rfl fun _ _ => 7

end Verif
