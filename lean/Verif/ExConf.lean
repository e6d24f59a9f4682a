import Verif.PropsConf
import Verif.ExTraffic

/-!
# The hypotheses of C74 are met

The run of `ExTraffic.lean`: stores to two lines, a read that evicts one of them, an atomic operation, INV, FLUSH.
-/

namespace Verif
namespace Ex63

/-- The tenth event of the run is the write-back of a line, the twentieth an atomic operation. -/
def wb : MReq p0 := ⟨MT.WRITE, 1, ⟨1, 0, 0⟩, 0, 2, 0x0000000514131211#64⟩
/-- Example; not in the source. -/
def amo : MReq p0 := ⟨3, 0, ⟨2, 0, 0⟩, 4, 0, 1⟩
theorem shape9 : tr = tr.take 9 ++ .mreq () wb :: tr.drop 10 := by decide +kernel
theorem shape19 : tr = tr.take 19 ++ .mreq () amo :: tr.drop 20 := by decide +kernel

example : wb.AskedFor (accepted () (tr.take 9)) :=
  C74_traffic_has_cause p0_wf (start0_start _) (b := tr.drop 10) (by rw [← shape9]; exact isRun)

example : amo.ty = MT.READ ∨ amo.ty = MT.WRITE ∨ (3 ≤ amo.ty.toNat ∧ amo.ty.toNat ≤ 11 ∧ amo.bytes = 4) :=
  C74_memory_never_raises p0_wf (start0_start _) (a := tr.take 19) (b := tr.drop 20) (k := ())
    (by rw [← shape19]; exact isRun) (valid_take 19)

/-- Byte 24 belongs to the line with tag 1 in set 1, which nobody stores to; byte 20 is stored to by `wA`. -/
example : run.1.mem 24 = (start0 p0).mem 24 := by
  refine C74_rest_of_memory_unchanged p0_wf (start0_start _) isRun 24 ?_
  rintro ⟨⟩ q hq h
  rw [acc] at hq
  simp only [qs, List.mem_cons, List.not_mem_nil, or_false] at hq
  rcases h with ⟨h1, h2⟩ | ⟨h1, h2⟩ <;> revert h1 h2 <;>
    rcases hq with rfl | rfl | rfl | rfl | rfl | rfl | rfl | rfl | rfl | rfl <;> decide

example : CReq.MayChange wA 20 ∧ run.1.mem 20 ≠ (start0 p0).mem 20 := ⟨.inl ⟨rfl, by decide⟩, by decide +kernel⟩

theorem acc9 : accepted () (tr.take 9) = [wA, wB, rC] := by decide +kernel

/-- All accesses so far are below 56 (the address space has 64 bytes); so is the write-back. -/
example : wb.addr.flat + wb.bytes ≤ 56 := by
  refine C74_in_range p0_wf (start0_start _) (a := tr.take 9) (b := tr.drop 10) (k := ())
    (by rw [← shape9]; exact isRun) (valid_take 9) 56 (by decide) ?_
  rw [acc9]; decide

end Ex63
end Verif
