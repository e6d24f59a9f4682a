import Verif.PropsMsg
import Verif.Exec

/-!
# Executions with arbitrary messages while `en` is low
-/

namespace Verif
variable {p : Params}

/-- The inputs of `n` cycles with the requests `qs` offered as early as possible and a memory that
answers in the next cycle. Example; not in the source. -/
def insE : Nat → Sys Unit p → List (CReq p) → List (In p)
  | 0, _, _ => []
  | n + 1, S, qs =>
    let i0 : In p := ⟨false, false, default, true, true, (S.respQ ()).length != 0, (S.respQ ()).headD default⟩
    let i : In p := match qs with
      | q :: _ => if ((S.cache ()).out i0).reqRdy then { i0 with reqEn := true, req := q } else i0
      | [] => i0
    i :: insE n (driveMem (S.clock () i)).1 (if i.reqEn then qs.tail else qs)

/-- The same cycle with other messages where they do not count. Example; not in the source. -/
def garble (q : CReq p) (r : MResp p) (i : In p) : In p :=
  { i with
    req := if i.reqEn then i.req else q
    mresp := if i.mrespEn then ⟨i.mresp.ty, r.opq, if i.mresp.ty = MT.WRITE then r.data else i.mresp.data⟩ else r }

theorem garble_same (q : CReq p) (r : MResp p) (i : In p) : i.Same (garble q r i) where
  reset := rfl
  reqEn := rfl
  respRdy := rfl
  mreqRdy := rfl
  mrespEn := rfl
  req h := by simp [garble, h]
  mresp h := by
    simp only [garble, h, if_true]
    exact ⟨Iff.rfl, fun h => by simp [h]⟩

theorem garble_sames (q : CReq p) (r : MResp p) : ∀ l : List (In p), SameIns l (l.map (garble q r))
  | [] => trivial
  | i :: l => ⟨garble_same q r i, garble_sames q r l⟩

instance {r r' : MResp p} : Decidable (r.Same r') := by unfold MResp.Same; infer_instance

instance decObeys : ∀ (l : List (In p)) (o : List (Out p)), Decidable (Obeys l o)
  | [], _ => isTrue (by simp [Obeys])
  | _ :: _, [] => isTrue (by simp [Obeys])
  | i :: l, o :: l' => by
    have := decObeys l l'
    unfold Obeys
    infer_instance

/-- A request port without request, but not idle. Example; not in the source. -/
def junkReq : CReq p0 := ⟨MT.READ, 1, ⟨3, 1, 4⟩, 1, 77⟩

/-- The same for the response port. Example; not in the source. -/
def junkResp : MResp p0 := ⟨MT.READ, 1, 99⟩

/-- A write miss, two read misses and FLUSH. Example; not in the source. -/
def exMsg : List (In p0) := insE 36 (start0 p0)
  [⟨MT.WRITE, 1, ⟨1, 0, 0⟩, 0, 5⟩, ⟨MT.READ, 0, ⟨2, 0, 4⟩, 0, 0⟩, ⟨MT.READ, 0, ⟨3, 1, 4⟩, 0, 0⟩, ⟨MT.FLUSH, 0, ⟨0, 0, 0⟩, 0, 0⟩]

/-- The cache after the reset. Example; not in the source. -/
def exCache : St p0 := (garbage p0).step ⟨true, false, default, true, true, false, default⟩

/-- Another reset from another state. Example; not in the source. -/
def exCache' : St p0 :=
  ({ garbage p0 with tagRam := fun _ _ => ⟨false, 1, 2⟩, t1 := .writeReq } : St p0).step ⟨true, true, junkReq, false, true, true, junkResp⟩

/-- The hypotheses of C69 hold in a run with four responses, three fetches and a write-back, and the
other inputs differ in most cycles. -/
theorem exMsg_runs : Obeys exMsg (exCache.outs exMsg) ∧
    ((exCache.outs exMsg).filter (·.respEn)).length = 4 ∧ ((exCache.outs exMsg).filter (·.mreqEn)).length = 4 ∧
    ((exMsg.zip (exMsg.map (garble junkReq junkResp))).filter fun x => x.1.req ≠ x.2.req ∧ x.1.mresp ≠ x.2.mresp).length = 31 := by
  decide +kernel

example : SameOuts (exCache.outs exMsg) (exCache'.outs (exMsg.map (garble junkReq junkResp))) :=
  C69_same_outputs _ _ rfl rfl (garble_sames _ _ _) exMsg_runs.1

/-- The opaque field of a write-back by FLUSH is taken from the request port while `en` is low: in
two runs that agree in everything that counts the write-backs have different opaque fields. -/
theorem C69_flush_opaque_is_arbitrary :
    ((exCache.outs exMsg).filter (·.mreqEn)).map (fun o => (o.mreq.ty, o.mreq.opq)) =
      [(MT.READ, 1), (MT.READ, 0), (MT.READ, 0), (MT.WRITE, 0)] ∧
    ((exCache.outs (exMsg.map (garble junkReq junkResp))).filter (·.mreqEn)).map (fun o => (o.mreq.ty, o.mreq.opq)) =
      [(MT.READ, 1), (MT.READ, 0), (MT.READ, 0), (MT.WRITE, 1)] := by
  decide +kernel

/-- A cycle without messages. Example; not in the source. -/
def exIdle : In p0 := ⟨false, false, default, true, true, false, default⟩

/-- A cycle with a request. Example; not in the source. -/
def exReq (q : CReq p0) : In p0 := { exIdle with reqEn := true, req := q }

/-- A read miss, and later a WRITE_INIT of 9 and a read of the same word. Example; not in the source. -/
def exInit : List (In p0) := insE 12 (start0 p0) [⟨MT.READ, 0, ⟨2, 0, 4⟩, 0, 0⟩] ++
  [exIdle, exIdle, exReq ⟨MT.INIT, 0, ⟨3, 1, 4⟩, 0, 9⟩, exIdle, exIdle, exReq ⟨MT.READ, 0, ⟨3, 1, 4⟩, 0, 0⟩, exIdle, exIdle]

/-- With WRITE_INIT the data a later read returns depends on the request port while `en` is low:
0 in one run, 9 in the other. -/
theorem C69_write_init_leaks :
    SameIns exInit (exInit.map (garble junkReq junkResp)) ∧
    ((exCache.outs exInit).filter (·.respEn)).map (fun o => (o.resp.ty, o.resp.data)) =
      [(MT.READ, 0x28272625), (MT.INIT, 0), (MT.READ, 0)] ∧
    ((exCache.outs (exInit.map (garble junkReq junkResp))).filter (·.respEn)).map (fun o => (o.resp.ty, o.resp.data)) =
      [(MT.READ, 0x28272625), (MT.INIT, 0), (MT.READ, 9)] :=
  ⟨garble_sames _ _ _, by decide +kernel⟩

end Verif
