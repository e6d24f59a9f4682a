import Verif.NetSys
import Verif.PropsSingle
import Verif.PropsFL2
import Verif.PropsLife

/-!
# C52: correctness at the level of wires

The guarantees of the cache stated directly for the netlist: registers with
codes and packed words, messages with flat addresses, update blocks in any
order.
-/

namespace Verif.Net
open Verif.FL
variable {p : Params} {ι : Type} [DecidableEq ι]

/-! ## Specification on messages -/

/-- Request messages accepted by cache `k`, in order. Proof device; not in the source. -/
def waccepted (k : ι) (tr : List (WEv ι p)) : List (WReq p) :=
  tr.filterMap fun
    | .acc k' q => if k' = k then some q else none
    | _ => none

/-- Response messages delivered by cache `k`, in order. Proof device; not in the source. -/
def wresponses (k : ι) (tr : List (WEv ι p)) : List (CResp p) :=
  tr.filterMap fun
    | .resp k' r => if k' = k then some r else none
    | _ => none

/-- Number of bytes a request message addresses. Proof device; not in the source. -/
def WReq.bytes (q : WReq p) : Nat := if q.len.toNat = 0 then 2 ^ p.lenBits else q.len.toNat

/-- A request message executed on a flat byte memory. Proof device; not in the source. -/
def flatStepW (M : ByteMem) (q : WReq p) : ByteMem × Data p :=
  if q.ty = MT.READ then (M, BitVec.ofNat _ (readLE M q.addr.toNat q.bytes))
  else if q.ty = MT.WRITE then
    (writeLE M q.addr.toNat (if q.len.toNat = 3 then 8 else q.bytes) q.data.toNat, 0)
  else if MT.isAmo q.ty then
    let old := BitVec.ofNat 32 (readLE M q.addr.toNat 4)
    (writeLE M q.addr.toNat 4 (amoFun q.ty old (q.data.setWidth 32)).toNat, old.setWidth _)
  else (M, 0)

/-- Request messages executed one after the other. Proof device; not in the source. -/
def flatRunW (M : ByteMem) : List (WReq p) → ByteMem × List (Data p)
  | [] => (M, [])
  | q :: qs => ((flatRunW (flatStepW M q).1 qs).1, (flatStepW M q).2 :: (flatRunW (flatStepW M q).1 qs).2)

/-- Naturally aligned request messages of supported lengths, as `CReq.Valid`. Proof device; not in the source. -/
inductive WReq.Valid (q : WReq p) : Prop
  | read (ty : q.ty = MT.READ) (k : Nat) (hk : q.bytes = 2 ^ k) (al : 2 ^ k ∣ q.addr.toNat)
  | write (ty : q.ty = MT.WRITE) (k : Nat) (hk : q.bytes = 2 ^ k) (hk2 : k ≤ 2) (al : 2 ^ k ∣ q.addr.toNat)
  | dword (ty : q.ty = MT.WRITE) (len : q.len.toNat = 3) (hp : p.lenBits = 2) (al : 8 ∣ q.addr.toNat)
  | amo (ty : 3 ≤ q.ty.toNat ∧ q.ty.toNat ≤ 11) (len : p.lenBits = 2 ∨ q.len.toNat = 4) (al : 4 ∣ q.addr.toNat)
  | inv (ty : q.ty = MT.INV)
  | flush (ty : q.ty = MT.FLUSH)

/-! ## The specification agrees with that of `Spec.lean` -/

theorem flatStepW_eq (M : ByteMem) (q : WReq p) : flatStepW M q = flatStep M (decReq q) := by
  have e : (decReq q).addr.flat = q.addr.toNat := flat_unpackAddr _
  simp only [flatStepW, flatStep, e]
  rfl

theorem flatRunW_eq (M : ByteMem) (qs : List (WReq p)) : flatRunW M qs = flatRun M (qs.map decReq) := by
  induction qs generalizing M with
  | nil => rfl
  | cons q qs ih => simp only [flatRunW, List.map_cons, flatRun, flatStepW_eq, ih]

theorem WReq.Valid.dec {q : WReq p} (h : q.Valid) : (decReq q).Valid := by
  have e : (decReq q).addr.flat = q.addr.toNat := flat_unpackAddr _
  cases h with
  | read ty k hk al => exact .read ty k hk (e ▸ al)
  | write ty k hk hk2 al => exact .write ty k hk hk2 (e ▸ al)
  | dword ty len hp al => exact .dword ty len hp (e ▸ al)
  | amo ty len al => exact .amo ty len (e ▸ al)
  | inv ty => exact .inv ty
  | flush ty => exact .flush ty

theorem accepted_dec (k : ι) (tr : List (WEv ι p)) :
    accepted k (tr.map decEv) = (waccepted k tr).map decReq := by
  induction tr with
  | nil => rfl
  | cons e tr ih =>
    cases e with
    | acc k' q =>
      simp only [accepted, waccepted, List.map_cons, decEv, List.filterMap_cons] at ih ⊢
      by_cases h : k' = k
      · simp only [h, if_true, List.map_cons, ih]
      · simp only [h, if_false, ih]
    | mreq k' m => simpa [accepted, waccepted, decEv] using ih
    | resp k' r => simpa [accepted, waccepted, decEv] using ih
    | exec k' m r => simpa [accepted, waccepted, decEv] using ih

theorem responses_dec (k : ι) (tr : List (WEv ι p)) : responses k (tr.map decEv) = wresponses k tr := by
  induction tr with
  | nil => rfl
  | cons e tr ih =>
    cases e with
    | resp k' q =>
      simp only [responses, wresponses, List.map_cons, decEv, List.filterMap_cons] at ih ⊢
      by_cases h : k' = k
      · simp only [h, if_true, ih]
      · simp only [h, if_false, ih]
    | mreq k' m => simpa [responses, wresponses, decEv] using ih
    | acc k' r => simpa [responses, wresponses, decEv] using ih
    | exec k' m r => simpa [responses, wresponses, decEv] using ih

/-! ## Theorems -/

/-- **C52.**  Every execution of the netlist from a reset of arbitrary registers,
under any order of the update blocks, is an execution of the cycle model of
`RTL.lean` from a reset, with the same events and the same memory: everything
proved about `Run` holds for the wires. -/
theorem C52_refines (wf : p.WF) {N N' : NSys ι p} {tr : List (WEv ι p)} (h0 : NStart N) (h : NRun N tr N') :
    ∃ S S' : Sys ι p, Start S ∧ Run S (tr.map decEv) S' ∧ S.mem = N.mem ∧ S'.mem = N'.mem := by
  obtain ⟨S, hs, he⟩ := h0.refine
  obtain ⟨S', hr, he'⟩ := h.refine wf he
  exact ⟨S, S', hs, hr, he.mem, he'.mem⟩

/-- **C52.**  Conversely, every execution of the cycle model is an execution of
the netlist under every complete schedule: nothing proved about `Run` is about
behaviour the wires do not have. -/
theorem C52_complete (wf : p.WF) {S S' : Sys ι p} {tr : List (Ev ι p)} (h0 : Start S) (h : Run S tr S')
    {L : List Blk} (hL : Sched.Rounds Blk levels L) :
    ∃ (N N' : NSys ι p) (tr' : List (WEv ι p)), NStart N ∧ NRun N tr' N' ∧ tr'.map decEv = tr ∧
      N.mem = S.mem ∧ N'.mem = S'.mem := by
  obtain ⟨N, hn, he⟩ := start_lift wf h0
  obtain ⟨N', tr', hr, ht, he'⟩ := he.lift_run wf h hL
  exact ⟨N, N', tr', hn, hr, ht, he.mem.symm, he'.mem.symm⟩

/-- **C52** (C01 on the wires).  The data of the response messages are those of a
flat byte memory on the accepted request messages. -/
theorem C52_data (wf : p.WF) {N N' : NSys Unit p} {tr : List (WEv Unit p)} (h0 : NStart N) (h : NRun N tr N')
    (hv : ∀ q ∈ waccepted () tr, q.Valid) :
    (wresponses () tr).map (·.data) <+: (flatRunW N.mem (waccepted () tr)).2 := by
  obtain ⟨S, S', hs, hr, hm, _⟩ := C52_refines wf h0 h
  have := C01_responses_equal_flat_memory wf hs hr (by
    intro q hq
    rw [accepted_dec, List.mem_map] at hq
    obtain ⟨q', hq', rfl⟩ := hq
    exact (hv q' hq').dec)
  rwa [responses_dec, accepted_dec, ← flatRunW_eq, hm] at this

/-- **C52** (C02 on the wires).  In order, one response per request, at most two
requests unanswered, for any number of caches. -/
theorem C52_order (wf : p.WF) {N N' : NSys ι p} {tr : List (WEv ι p)} (h0 : NStart N) (h : NRun N tr N') (k : ι) :
    (wresponses k tr).map (fun r => (r.ty, r.opq, r.len)) <+:
      (waccepted k tr).map (fun q => (q.ty, q.opq, q.len)) ∧
    (waccepted k tr).length ≤ (wresponses k tr).length + 2 := by
  obtain ⟨S, S', hs, hr, _, _⟩ := C52_refines wf h0 h
  have := C02_multi wf hs hr k
  rw [responses_dec, accepted_dec, List.map_map, List.length_map] at this
  exact this

/-- **C52** (C03 on the wires).  The test fields are the predictions of the
`HitMissTracker` of the FL model. -/
theorem C52_test (wf : p.WF) {N N' : NSys ι p} {tr : List (WEv ι p)} (h0 : NStart N) (h : NRun N tr N') (k : ι) :
    (wresponses k tr).map (·.test) <+:
      ((Tracker.init (Cfg.of p)).hits (Cfg.of p) ((waccepted k tr).map decReq)).map testBit := by
  obtain ⟨S, S', hs, hr, _, _⟩ := C52_refines wf h0 h
  have := C03_test_equals_FL_tracker wf hs hr k
  rwa [responses_dec, accepted_dec] at this

/-! ## A concrete execution -/

/-- Write, read, flush on the wires, with the blocks in reverse source order. -/
theorem example_run : ∃ (N N' : NSys Unit p0) (tr : List (WEv Unit p0)), NStart N ∧ NRun N tr N' ∧
    (∀ q ∈ waccepted () tr, q.Valid) ∧
    (waccepted () tr).map decReq = Ex.reqs ∧
    (wresponses () tr).map (·.data) = [0, 0x080706ab, 0] := by
  obtain ⟨N, N', tr, hn, hr, ht, _, _⟩ := C52_complete (p := p0) p0_wf (start0_start p0) (Ex.isRun 28)
    (rounds_rep (fun B => List.mem_reverse.2 (mem_blks B)) levels)
  have ha : (waccepted () tr).map decReq = Ex.reqs := by rw [← accepted_dec, ht, Ex.acc]
  refine ⟨N, N', tr, hn, hr, ?_, ha, ?_⟩
  · intro q hq
    have : decReq q ∈ Ex.reqs := by rw [← ha]; exact List.mem_map_of_mem hq
    have hv := Ex.valid _ this
    have e : (decReq q).addr.flat = q.addr.toNat := flat_unpackAddr _
    cases hv with
    | read ty k hk al => exact .read ty k hk (e ▸ al)
    | write ty k hk hk2 al => exact .write ty k hk hk2 (e ▸ al)
    | dword ty len hp al => exact .dword ty len hp (e ▸ al)
    | amo ty len al => exact .amo ty len (e ▸ al)
    | inv ty => exact .inv ty
    | flush ty => exact .flush ty
  · rw [← responses_dec, ht]
    decide +kernel

end Verif.Net
