import Verif.PropsHetNet
import Verif.PropsBarrier

/-!
# C90 on the wires

The theorems of `PropsBarrier` for caches of any shapes connected to the test memory by its
wire format (`HetNet`), as C82 does for the lock.
-/

set_option linter.unusedSectionVars false

namespace Verif.Net
open Verif
variable {ι : Type} [DecidableEq ι] {p : ι → Params}

/-- **C90 on the wires, the barrier.** -/
theorem C90_everybody_came_wires (wf : ∀ k, (p k).WF) {N N' : HNSys ι p} {tr : List (HWEv ι p)} (h0 : HNStart N)
    (h : HNRun N tr N') (hv : HWValid tr) {ps : List ι} {B : Nat} {D : Nat → Prop} (hfree : memWord N.mem B = 0)
    (hp : WM.BarrierProtocol ps B D (wvisible tr)) {a b : List (WM.Ev ι)} (hab : wvisible tr = a ++ b) {k k' : ι}
    {m : Nat} (hk : WM.Passed ps.length k B m a) (hk' : k' ∈ ps) : m ≤ WM.arrivals k' B a := by
  obtain ⟨H, H', h1, h2, h3, h4⟩ := C82_refines wf h0 h
  rw [← visible_dec] at hp hab
  exact C90_everybody_came wf h1 h2 hv.dec (by rw [h3]; exact hfree) hp hab hk hk'

/-- **C90 on the wires, shared words.** -/
theorem C90_reads_wires (wf : ∀ k, (p k).WF) {N N' : HNSys ι p} {tr : List (HWEv ι p)} (h0 : HNStart N)
    (h : HNRun N tr N') (hv : HWValid tr) {ps : List ι} {B : Nat} {D : Nat → Prop} (hfree : memWord N.mem B = 0)
    (hp : WM.BarrierProtocol ps B D (wvisible tr)) {k : ι} {a b : List (WM.Ev ι)} {q : WM.Req}
    (hq : wvisible tr = a ++ .acc k q :: b) (hD : ∀ W, q.reads W → D W) {r : WM.Resp}
    (hresp : (WM.responses k (wvisible tr))[(WM.accepted k a).length]? = some r) :
    r = ⟨q.ty, q.opq, q.len, (WM.flat (WM.latest N.mem a) q).2⟩ := by
  obtain ⟨H, H', h1, h2, h3, h4⟩ := C82_refines wf h0 h
  rw [← visible_dec] at hp hq hresp
  rw [← h3]
  exact C90_reads wf h1 h2 hv.dec (by rw [h3]; exact hfree) hp hq hD hresp

/-- **C90 on the wires, memory.** -/
theorem C90_memory_wires (wf : ∀ k, (p k).WF) {N N' : HNSys ι p} {tr : List (HWEv ι p)} (h0 : HNStart N)
    (h : HNRun N tr N') (hv : HWValid tr) {ps : List ι} {B : Nat} {D : Nat → Prop} (hfree : memWord N.mem B = 0)
    (hp : WM.BarrierProtocol ps B D (wvisible tr)) {k : ι} {m : Nat} (hk : WM.Passed ps.length k B m (wvisible tr))
    {W : Nat} (hD : D W)
    (hst : ∀ k' a q b, wvisible tr = a ++ .acc k' q :: b → q.stores W → WM.arrivals k' B a < m)
    {x : Nat} (hx : x / 4 = W) : N'.mem x = WM.latest N.mem (wvisible tr) x := by
  obtain ⟨H, H', h1, h2, h3, h4⟩ := C82_refines wf h0 h
  rw [← visible_dec] at hp hk hst ⊢
  rw [← h3, ← h4]
  exact C90_memory wf h1 h2 hv.dec (by rw [h3]; exact hfree) hp hk hD hst hx

end Verif.Net
