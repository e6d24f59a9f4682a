import Verif.HetNet
import Verif.PropsPass
import Verif.PropsLock
import Verif.ExPass

/-!
# C82: the programmer's guarantees at the level of wires

The memory model (C64) and what software may rely on (C65-C67, C78-C81), stated for caches of different shapes whose
cycles run the update blocks of the source, in any order, on registers with codes and packed words.
-/

set_option linter.unusedSectionVars false

namespace Verif.Net
variable {ι : Type} [DecidableEq ι] {p : ι → Params}

/-- **C82.**  Every execution of the wires of several caches of different shapes is, event by event, an execution of
the cycle models of these caches: everything proved about `HetRun` holds for the wires. -/
theorem C82_refines (wf : ∀ k, (p k).WF) {N N' : HNSys ι p} {tr : List (HWEv ι p)} (h0 : HNStart N) (h : HNRun N tr N') :
    ∃ H H' : HSys ι p, HStart H ∧ HetRun H (tr.map decHEv) H' ∧ H.mem = N.mem ∧ H'.mem = N'.mem := by
  obtain ⟨H, hs, he⟩ := h0.refine
  obtain ⟨H', hr, he'⟩ := h.refine wf he
  exact ⟨H, H', hs, hr, he.mem, he'.mem⟩

/-- **C82.**  Conversely, the wires have every execution of the cycle models, with every complete order of the blocks. -/
theorem C82_complete (wf : ∀ k, (p k).WF) {H H' : HSys ι p} {tr : List (HEv ι p)} (h0 : HStart H) (h : HetRun H tr H')
    {L : List Blk} (hL : Sched.Rounds Blk levels L) :
    ∃ (N N' : HNSys ι p) (tr' : List (HWEv ι p)), HNStart N ∧ HNRun N tr' N' ∧ tr'.map decHEv = tr ∧
      N.mem = H.mem ∧ N'.mem = H'.mem := by
  obtain ⟨N, hn, he⟩ := hstart_lift wf h0
  obtain ⟨N', tr', hr, ht, he'⟩ := HetRun.lift wf he h hL
  exact ⟨N, N', tr', hn, hr, ht, he.mem.symm, he'.mem.symm⟩

/-- **C82** (C64 on the wires).  What the processors see on the ports, and memory, are those of an execution of the
memory model. -/
theorem C82_memory_model (wf : ∀ k, (p k).WF) {N N' : HNSys ι p} {tr : List (HWEv ι p)} (h0 : HNStart N)
    (h : HNRun N tr N') (hv : HWValid tr) : ∃ A, WM.Run (WM.init ι N.mem) (wvisible tr) A ∧ A.mem = N'.mem := by
  obtain ⟨H, H', h1, h2, h3, h4⟩ := C82_refines wf h0 h
  rw [← h3, ← h4, ← visible_dec]
  exact C64_memory_model wf h1 h2 hv.dec

/-- **C82** (C65 on the wires, responses). -/
theorem C82_responses (wf : ∀ k, (p k).WF) {N N' : HNSys ι p} {tr : List (HWEv ι p)} (h0 : HNStart N) (h : HNRun N tr N')
    (hv : HWValid tr) {k : ι} {a b : List (WM.Ev ι)} {q : WM.Req} (hq : wvisible tr = a ++ .acc k q :: b)
    (hd : ∀ W, q.reads W → WM.Disciplined W (wvisible tr))
    (hr : ∀ W, q.reads W → q.ty = MT.READ → WM.UpToDate k W a ∧ WM.NoRace k W a q b)
    {r : WM.Resp} (hresp : (WM.responses k (wvisible tr))[(WM.accepted k a).length]? = some r) :
    r = ⟨q.ty, q.opq, q.len, (WM.flat (WM.latest N.mem a) q).2⟩ := by
  obtain ⟨H, H', h1, h2, h3, h4⟩ := C82_refines wf h0 h
  rw [← visible_dec] at hq hd hresp
  rw [← h3]
  exact C65_responses wf h1 h2 hv.dec hq hd hr hresp

/-- **C82** (C65 on the wires, memory). -/
theorem C82_memory (wf : ∀ k, (p k).WF) {N N' : HNSys ι p} {tr : List (HWEv ι p)} (h0 : HNStart N) (h : HNRun N tr N')
    (hv : HWValid tr) {W : Nat} (hd : WM.Disciplined W (wvisible tr))
    (hrel : ∀ k a q b, wvisible tr = a ++ .acc k q :: b → q.stores W → WM.Released k W a (.acc k q :: b))
    {x : Nat} (hx : x / 4 = W) : N'.mem x = WM.latest N.mem (wvisible tr) x := by
  obtain ⟨H, H', h1, h2, h3, h4⟩ := C82_refines wf h0 h
  rw [← visible_dec] at hd hrel ⊢
  rw [← h3, ← h4]
  exact C65_memory wf h1 h2 hv.dec hd hrel hx

/-- **C82** (C65 on the wires, private words). -/
theorem C82_private (wf : ∀ k, (p k).WF) {N N' : HNSys ι p} {tr : List (HWEv ι p)} (h0 : HNStart N) (h : HNRun N tr N')
    (hv : HWValid tr) {k : ι} {a b : List (WM.Ev ι)} {q : WM.Req} (hq : wvisible tr = a ++ .acc k q :: b)
    (ho : ∀ W, q.reads W → WM.OnlyWriter k W (wvisible tr))
    {r : WM.Resp} (hresp : (WM.responses k (wvisible tr))[(WM.accepted k a).length]? = some r) :
    r = ⟨q.ty, q.opq, q.len, (WM.flat (WM.latest N.mem a) q).2⟩ := by
  obtain ⟨H, H', h1, h2, h3, h4⟩ := C82_refines wf h0 h
  rw [← visible_dec] at hq ho hresp
  rw [← h3]
  exact C65_private wf h1 h2 hv.dec hq ho hresp

/-- **C82** (C65 on the wires, untouched memory). -/
theorem C82_untouched (wf : ∀ k, (p k).WF) {N N' : HNSys ι p} {tr : List (HWEv ι p)} (h0 : HNStart N) (h : HNRun N tr N')
    (hv : HWValid tr) {W : Nat} (hno : ∀ k, ∀ q ∈ WM.accepted k (wvisible tr), ¬ q.stores W)
    {x : Nat} (hx : x / 4 = W) : N'.mem x = N.mem x := by
  obtain ⟨H, H', h1, h2, h3, h4⟩ := C82_refines wf h0 h
  rw [← visible_dec] at hno
  rw [← h3, ← h4]
  exact C65_untouched wf h1 h2 hv.dec hno hx

/-- **C82** (C66 on the wires).  Atomic operations are linearisable. -/
theorem C82_amos_linearised (wf : ∀ k, (p k).WF) {N N' : HNSys ι p} {tr : List (HWEv ι p)} (h0 : HNStart N)
    (h : HNRun N tr N') (hv : HWValid tr) {W : Nat}
    (hno : ∀ k, ∀ q ∈ WM.accepted k (wvisible tr), q.ty = MT.WRITE → ¬ q.covers W) :
    ∃ s : List (ι × AmoOp), AmoSeq (memWord N.mem W) (s.map (·.2)) (memWord N'.mem W) ∧
      WM.Linearised W (wvisible tr) s := by
  obtain ⟨H, H', h1, h2, h3, h4⟩ := C82_refines wf h0 h
  rw [← visible_dec] at hno ⊢
  rw [← h3, ← h4]
  exact C66_amos_linearised wf h1 h2 hv.dec hno

/-- **C82** (C67 on the wires, mutual exclusion). -/
theorem C82_mutual_exclusion (wf : ∀ k, (p k).WF) {N N' : HNSys ι p} {tr : List (HWEv ι p)} (h0 : HNStart N)
    (h : HNRun N tr N') (hv : HWValid tr) {L : Nat} {D : Nat → Prop} (hfree : memWord N.mem L = 0)
    (hp : WM.LockProtocol L D (wvisible tr)) {a b : List (WM.Ev ι)} (hab : wvisible tr = a ++ b) {k k' : ι}
    (hk : WM.Holds k L a) (hk' : WM.Holds k' L a) : k = k' := by
  obtain ⟨H, H', h1, h2, h3, h4⟩ := C82_refines wf h0 h
  rw [← visible_dec] at hp hab
  exact C67_mutual_exclusion wf h1 h2 hv.dec (by rw [h3]; exact hfree) hp hab hk hk'

/-- **C82** (C67 on the wires, protected words). -/
theorem C82_protected_reads (wf : ∀ k, (p k).WF) {N N' : HNSys ι p} {tr : List (HWEv ι p)} (h0 : HNStart N)
    (h : HNRun N tr N') (hv : HWValid tr) {L : Nat} {D : Nat → Prop} (hfree : memWord N.mem L = 0)
    (hp : WM.LockProtocol L D (wvisible tr)) {k : ι} {a b : List (WM.Ev ι)} {q : WM.Req}
    (hq : wvisible tr = a ++ .acc k q :: b) (hD : ∀ W, q.reads W → D W) {r : WM.Resp}
    (hresp : (WM.responses k (wvisible tr))[(WM.accepted k a).length]? = some r) :
    r = ⟨q.ty, q.opq, q.len, (WM.flat (WM.latest N.mem a) q).2⟩ := by
  obtain ⟨H, H', h1, h2, h3, h4⟩ := C82_refines wf h0 h
  rw [← visible_dec] at hp hq hresp
  rw [← h3]
  exact C67_protected_reads wf h1 h2 hv.dec (by rw [h3]; exact hfree) hp hq hD hresp

/-- **C82** (C78 on the wires).  Coherence of racy programs. -/
theorem C82_coherent (wf : ∀ k, (p k).WF) {N N' : HNSys ι p} {tr : List (HWEv ι p)} (h0 : HNStart N)
    (h : HNRun N tr N') (hv : HWValid tr) {W : Nat} (hw : WM.WholeWrites W (wvisible tr)) :
    ∃ s1 s2 : List (ι × WM.Req × WM.Resp), WM.Explains W N.mem (wvisible tr) (s1 ++ s2) ∧
      ∀ x, x / 4 = W → N'.mem x = WM.runs N.mem (s1.map (·.2)) x := by
  obtain ⟨H, H', h1, h2, h3, h4⟩ := C82_refines wf h0 h
  rw [← visible_dec] at hw ⊢
  rw [← h3, ← h4]
  exact C78_coherent wf h1 h2 hv.dec hw

/-- **C82** (C79 on the wires).  No byte out of thin air. -/
theorem C82_no_thin_air (wf : ∀ k, (p k).WF) {N N' : HNSys ι p} {tr : List (HWEv ι p)} (h0 : HNStart N)
    (h : HNRun N tr N') (hv : HWValid tr) :
    (∀ k, ∀ y ∈ (WM.accepted k (wvisible tr)).zip (WM.responses k (wvisible tr)),
      WM.Plausible N.mem (WM.requests (wvisible tr)) y.1 y.2) ∧
    ∀ x, WM.Could N.mem (WM.requests (wvisible tr)) x (N'.mem x) := by
  obtain ⟨H, H', h1, h2, h3, h4⟩ := C82_refines wf h0 h
  rw [← visible_dec, ← h3, ← h4]
  exact C79_no_thin_air wf h1 h2 hv.dec

/-- **C82** (C80 on the wires).  Crash consistency. -/
theorem C82_crash_consistent (wf : ∀ k, (p k).WF) {N N₁ N₂ : HNSys ι p} {tr₁ tr₂ : List (HWEv ι p)} (h0 : HNStart N)
    (h₁ : HNRun N tr₁ N₁) (h₂ : HNRun N₁ tr₂ N₂) (hv : HWValid (tr₁ ++ tr₂)) {W : Nat}
    (hw : WM.WholeWrites W (wvisible (tr₁ ++ tr₂))) :
    ∃ s₁ t₁ s₂ t₂ : List (ι × WM.Req × WM.Resp),
      WM.Explains W N.mem (wvisible tr₁) (s₁ ++ t₁) ∧ (∀ x, x / 4 = W → N₁.mem x = WM.runs N.mem (s₁.map (·.2)) x) ∧
      WM.Durable W (wvisible tr₁) s₁ ∧
      WM.Explains W N.mem (wvisible (tr₁ ++ tr₂)) (s₂ ++ t₂) ∧
      (∀ x, x / 4 = W → N₂.mem x = WM.runs N.mem (s₂.map (·.2)) x) ∧
      WM.Durable W (wvisible (tr₁ ++ tr₂)) s₂ ∧
      WM.storesOf W s₁ <+: WM.storesOf W s₂ := by
  obtain ⟨H, hs, he⟩ := h0.refine
  obtain ⟨H₁, hr₁, he₁⟩ := h₁.refine wf he
  obtain ⟨H₂, hr₂, he₂⟩ := h₂.refine wf he₁
  have hv' := hv.dec
  rw [← visible_dec, List.map_append] at hw
  rw [List.map_append] at hv'
  have := C80_crash_consistent wf hs hr₁ hr₂ hv' hw
  rwa [← List.map_append, visible_dec, visible_dec, he.mem, he₁.mem, he₂.mem] at this

/-- **C82** (C81 on the wires).  Message passing with a polled flag. -/
theorem C82_message_passing (wf : ∀ k, (p k).WF) {N N' : HNSys ι p} {tr : List (HWEv ι p)} (h0 : HNStart N)
    (h : HNRun N tr N') (hv : HWValid tr) {P C : ι} (hPC : C ≠ P) {D : Nat}
    {a b : List (WM.Ev ι)} {f : WM.Req} (hab : wvisible tr = a ++ .acc P f :: b) (hf : f.ty = MT.FLUSH)
    (hD : ∀ k, k ≠ P → ∀ q ∈ WM.accepted k (wvisible tr), ¬ q.stores D)
    (hP : ∀ q ∈ WM.accepted P b, ¬ q.stores D)
    {i j l : Nat} (hij : i < j) (hjl : j < l)
    {qf qi qd : WM.Req} {rf rd : WM.Resp} {x : Nat} {β : BitVec 8}
    (hqf : (WM.accepted C (wvisible tr))[i]? = some qf) (hrf : (WM.responses C (wvisible tr))[i]? = some rf)
    (hshow : WM.Shows qf rf x β)
    (hnew : ¬ WM.Could N.mem (WM.requests a ++ WM.othersRequests P b) x β)
    (hqi : (WM.accepted C (wvisible tr))[j]? = some qi) (hi : qi.ty = MT.INV)
    (hqd : (WM.accepted C (wvisible tr))[l]? = some qd) (hd : qd.ty = MT.READ)
    (hrd : (WM.responses C (wvisible tr))[l]? = some rd) :
    ∀ y, y / 4 = D → qd.addr ≤ y → y < qd.addr + qd.bytes →
      rd.data / 256 ^ (y - qd.addr) % 256 = (WM.perform N.mem (WM.accepted P a) y).toNat := by
  obtain ⟨H, H', h1, h2, h3, h4⟩ := C82_refines wf h0 h
  rw [← visible_dec] at hab hqf hrf hqi hqd hrd hD
  rw [← h3] at hnew ⊢
  exact C81_message_passing wf h1 h2 hv.dec hPC hab hf hD hP hij hjl hqf hrf hshow hnew hqi hi hqd hd hrd

/-! ## Concrete executions -/

theorem valid_of_dec {p : Params} {q : WReq p} (h : (decReq q).Valid) : q.Valid := by
  have e : (decReq q).addr.flat = q.addr.toNat := flat_unpackAddr _
  cases h with
  | read ty k hk al => exact .read ty k hk (e ▸ al)
  | write ty k hk hk2 al => exact .write ty k hk hk2 (e ▸ al)
  | dword ty len hp al => exact .dword ty len hp (e ▸ al)
  | amo ty len al => exact .amo ty len (e ▸ al)
  | inv ty => exact .inv ty
  | flush ty => exact .flush ty

theorem hwvalid_of_dec {tr : List (HWEv ι p)} (h : HValid (tr.map decHEv)) : HWValid tr := by
  intro k u q hq
  exact valid_of_dec (h k u (decReq q) (List.mem_map.2 ⟨_, hq, rfl⟩))

/-- Whatever a program sees on the cycle models it may see on the wires, with the blocks run in reverse source order. -/
theorem wires_example (wf : ∀ k, (p k).WF) {H H' : HSys ι p} {tr : List (HEv ι p)} (h0 : HStart H)
    (h : HetRun H tr H') (hv : HValid tr) : ∃ (N N' : HNSys ι p) (tr' : List (HWEv ι p)), HNStart N ∧ HNRun N tr' N' ∧
      HWValid tr' ∧ wvisible tr' = visible tr ∧ N.mem = H.mem ∧ N'.mem = H'.mem := by
  obtain ⟨N, N', tr', h1, h2, h3, h4, h5⟩ := C82_complete wf h0 h
    (rounds_rep (fun B => List.mem_reverse.2 (mem_blks B)) levels)
  subst h3
  exact ⟨N, N', tr', h1, h2, hwvalid_of_dec hv, (visible_dec tr').symm, h4, h5⟩

/-- The message of `ExPass.lean` is passed on the wires: all hypotheses of `C82_message_passing` are met there. -/
theorem C82_example_passing : ∃ (N N' : HNSys Bool pH) (tr : List (HWEv Bool pH)), HNStart N ∧ HNRun N tr N' ∧
    HWValid tr ∧ wvisible tr = visible trPass ∧ N.mem = startH.mem := by
  obtain ⟨N, N', tr, h1, h2, h3, h4, h5, _⟩ := wires_example pH_wf startH_start trPass_run trPass_valid
  exact ⟨N, N', tr, h1, h2, h3, h4, h5⟩

/-- The FLUSH cannot be left out on the wires either (C81_flush_needed). -/
theorem C82_flush_needed : ∃ (N N' : HNSys Bool pH) (tr : List (HWEv Bool pH)), HNStart N ∧ HNRun N tr N' ∧
    HWValid tr ∧
    WM.accepted false (wvisible tr) = [⟨MT.WRITE, 0, 16, 0, 4, 100⟩, ⟨6, 1, 32, 0, 4, 7⟩] ∧
    (WM.accepted true (wvisible tr)).zip (WM.responses true (wvisible tr)) =
      [(⟨MT.READ, 0, 16, 0, 4, 0⟩, ⟨MT.READ, 0, 0, 0x14131211⟩), (⟨MT.READ, 1, 32, 1, 1, 0⟩, ⟨MT.READ, 1, 1, 7⟩),
       (⟨MT.INV, 0, 0, 0, 4, 0⟩, ⟨MT.INV, 0, 0, 0⟩), (⟨MT.READ, 1, 16, 0, 4, 0⟩, ⟨MT.READ, 1, 0, 0x14131211⟩)] := by
  obtain ⟨tr, H', h0, h, hv, h1, h2⟩ := C81_flush_needed
  obtain ⟨N, N', tr', g1, g2, g3, g4, _, _⟩ := wires_example pH_wf h0 h hv
  exact ⟨N, N', tr', g1, g2, g3, by rw [g4]; exact h1, by rw [g4]; exact h2⟩

end Verif.Net
