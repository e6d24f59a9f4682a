import Verif.Net

/-!
# The order of the update blocks does not matter

Property C51.  The netlist of `Net.lean` has cycles between *blocks*
(`status_logic_M1` → `pointer_logic` → `update_register_bits` →
`status_logic_M1`, and `cs_table_M1` ↔ the block driving `stall_M1`), so a
simulator has to run some blocks more than once.  It has no cycles between
*wires*; this is what `net_local` says.
-/

namespace Verif.Net
variable {p : Params}

theorem lvl_lt (x : Wire) : lvl x < levels := by cases x <;> decide

set_option maxHeartbeats 2000000 in
/-- Every equation reads only wires of lower levels. -/
theorem net_local (r : Regs p) (i : PIn p) : Sched.Local (net r i) lvl := by
  intro x w w' h
  cases x
  all_goals
    simp (discharger := decide) only [net, h]

end Verif.Net
