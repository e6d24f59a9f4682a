import Verif.HetNet
import Verif.ResetModel

/-!
# Caches reset one by one, at the level of wires

The system of `ResetSys.lean` with the netlist of `Net.lean` in place of the cycle model: a cycle with reset asserted
runs the update blocks as every other cycle does, and at its edge the registers that have a reset take their reset
values (`regsNext`; BlockingCacheCtrlRTL.py lines 125, 160, 444 to 678, registers.py line 27, counters.py lines 20 to
50), the others and the SRAMs what the wires say.
-/

set_option linter.unusedSectionVars false

namespace Verif.Net

/-- The system, and for each cache that has been reset and whose port has not been empty since, the number of clock
edges since the last edge with reset asserted (test/sim_utils.py:283-314). -/
structure RNSys (ι : Type) (p : ι → Params) where
  sys : HNSys ι p
  since : ι → Option Nat

/-- Events: messages on the ports, and `again k`: the port of cache `k`, which has been reset, is empty
(not in the source). -/
inductive RWEv (ι : Type) (p : ι → Params)
  | ev (e : HWEv ι p)
  | again (k : ι)

variable {ι : Type} [DecidableEq ι] {p : ι → Params}

/-- Cache `k` with its port and memory (not in the source). -/
def RNSys.one (R : RNSys ι p) (k : ι) : NSys Unit (p k) := (R.sys.node k).on R.sys.mem

/-- The system with cache `k`, its port and memory replaced (not in the source). -/
def RNSys.put (R : RNSys ι p) (k : ι) (N : NSys Unit (p k)) (since : Option Nat) : RNSys ι p :=
  ⟨⟨R.sys.setNode k N.node, N.mem⟩, upd R.since k since⟩

/-- The events of cache `k` (not in the source). -/
def wevsAt (k : ι) (ev : List (WEv Unit (p k))) : List (RWEv ι p) := ev.map fun e => .ev ⟨k, e⟩

/-- One step; test/sim_utils.py:283-314 with the reset of each cache driven on its own. -/
inductive RNStep : RNSys ι p → List (RWEv ι p) → RNSys ι p → Prop
  /-- a clock edge or a memory operation of a cache that is not being reset -/
  | run (R : RNSys ι p) (k : ι) (h : R.since k = none) (ev : List (WEv Unit (p k))) (S : NSys Unit (p k))
      (hs : NStep (R.one k) ev S) : RNStep R (wevsAt k ev) (R.put k S none)
  /-- a clock edge with reset asserted, at any moment; a request offered is lost -/
  | reset (R : RNSys ι p) (k : ι) (i : PIn (p k)) (hr : i.reset = true) (L : List Blk) (hL : Sched.Rounds Blk levels L)
      (hm : i.memrespEn = true → ∃ l, (R.one k).respQ () = i.memrespMsg :: l) :
      RNStep R (wevsAt k (wclockEvs () { i with cachereqEn := false } ((R.one k).run () i L)))
        (R.put k ((R.one k).clock () i ((R.one k).run () i L)) (some 0))
  /-- a clock edge after the reset -/
  | quiet (R : RNSys ι p) (k : ι) (j : Nat) (h : R.since k = some j) (hj : j + 1 < (p k).nLines) (i : PIn (p k))
      (L : List Blk) (hL : Sched.Rounds Blk levels L) (hc : (R.one k).CanClock () i ((R.one k).run () i L)) :
      RNStep R (wevsAt k (wclockEvs () i ((R.one k).run () i L)))
        (R.put k ((R.one k).clock () i ((R.one k).run () i L)) (some (j + 1)))
  /-- memory works on a request left from before the reset -/
  | exec (R : RNSys ι p) (k : ι) (j : Nat) (h : R.since k = some j) (m : WMReq (p k)) (ms : List (WMReq (p k)))
      (hm : (R.one k).reqQ () = m :: ms) :
      RNStep R (wevsAt k [.exec () m (memExecW R.sys.mem m).2]) (R.put k ((R.one k).exec () m) (some j))
  /-- the port is empty -/
  | again (R : RNSys ι p) (k : ι) (j : Nat) (h : R.since k = some j) (hq : (R.one k).reqQ () = [])
      (hp : (R.one k).respQ () = []) : RNStep R [.again k] (R.put k (R.one k) none)

/-- A finite execution with its events (not in the source: iteration). -/
inductive RNRun : RNSys ι p → List (RWEv ι p) → RNSys ι p → Prop
  | refl (R : RNSys ι p) : RNRun R [] R
  | snoc {R R' R'' : RNSys ι p} {tr ev : List (RWEv ι p)} (h : RNRun R tr R') (hs : RNStep R' ev R'') :
      RNRun R (tr ++ ev) R''

/-- Initial states: all caches have been reset, their ports are empty (`sim_reset`, test/sim_utils.py:73). -/
def RNStart (R : RNSys ι p) : Prop := HNStart R.sys ∧ ∀ k, R.since k = none

/-- Every accepted request message is one the caches support (not in the source: condition). -/
def RWValid (tr : List (RWEv ι p)) : Prop :=
  ∀ k u q, RWEv.ev (⟨k, WEv.acc u q⟩ : HWEv ι p) ∈ tr → q.Valid

/-- The messages at the processor ports and the resets (not in the source: projection). -/
def wcvisible (tr : List (RWEv ι p)) : List (WM.CEv ι) :=
  tr.filterMap fun
    | .ev e => e.2.local.map fun l => .ev (l.at e.1)
    | .again k => some (.crash k)

/-- The messages at the processor ports, each with the cache and the number of its resets before
(not in the source: projection). -/
def wrvisible (tr : List (RWEv ι p)) : List (WM.Ev (ι × Nat)) := WM.cByLife (fun _ => 0) (wcvisible tr)

/-! ## Refinement -/

/-- An event of the wires as an event of the cycle model (proof device). -/
def decREv : RWEv ι p → REv ι p
  | .ev e => .ev (decHEv e)
  | .again k => .again k

/-- The whole state (proof device). -/
structure RHEnc (R : RNSys ι p) (T : RSys ι p) : Prop where
  sys : HEnc R.sys T.sys
  since : T.since = R.since

theorem RHEnc.one {R : RNSys ι p} {T : RSys ι p} (h : RHEnc R T) (k : ι) : REnc (R.one k) (T.one k) := by
  have := (h.sys.node k).on R.sys.mem
  rw [← h.sys.mem] at this
  rw [RNSys.one, RSys.one, ← h.sys.mem]; exact this

theorem RHEnc.put {R : RNSys ι p} {T : RSys ι p} (h : RHEnc R T) (k : ι) {N : NSys Unit (p k)} {S : Sys Unit (p k)}
    (hN : REnc N S) (s : Option Nat) : RHEnc (R.put k N s) (T.put k S s) :=
  ⟨h.sys.set k hN, by show upd T.since k s = upd R.since k s; rw [h.since]⟩

theorem decREv_evs (k : ι) (ev : List (WEv Unit (p k))) :
    (wevsAt k ev : List (RWEv ι p)).map decREv = evsAt k (ev.map decEv) := by
  simp [wevsAt, evsAt, decREv, decHEv]

theorem RNStep.refine (wf : ∀ k, (p k).WF) {R R' : RNSys ι p} {T : RSys ι p} (h : RHEnc R T) {ev : List (RWEv ι p)}
    (hs : RNStep R ev R') : ∃ T', RStep T (ev.map decREv) T' ∧ RHEnc R' T' := by
  cases hs with
  | run k hn ev S hs =>
    obtain ⟨S', h1, h2⟩ := hs.refine (wf k) (h.one k)
    rw [decREv_evs]
    exact ⟨_, .run T k (by rw [h.since]; exact hn) _ S' h1, h.put k h2 none⟩
  | reset k i hr L hL hm =>
    have e := h.one k
    have hw : Settled ((R.one k).regs ()) i ((R.one k).run () i L) := runBlks_settled _ i hL _
    obtain ⟨ho, _⟩ := sim (wf k) (e.cache ()) hw
    refine ⟨_, ?_, h.put k (e.clock (wf k) () i hw) (some 0)⟩
    rw [decREv_evs]
    have he : (wclockEvs () { i with cachereqEn := false } ((R.one k).run () i L)).map decEv =
        (T.one k).clockEvs () { decIn i with reqEn := false } :=
      decEv_clock (i := { i with cachereqEn := false }) () (s := (T.one k).cache ()) ho (T.one k) rfl
    rw [he]
    refine .reset T k (decIn i) hr ?_
    intro hq
    obtain ⟨l, hl⟩ := hm hq
    exact ⟨l.map decMResp, by rw [e.respQ, hl]; rfl⟩
  | quiet k j hn hj i L hL hc =>
    have e := h.one k
    have hw : Settled ((R.one k).regs ()) i ((R.one k).run () i L) := runBlks_settled _ i hL _
    obtain ⟨ho, _⟩ := sim (wf k) (e.cache ()) hw
    refine ⟨_, ?_, h.put k (e.clock (wf k) () i hw) (some (j + 1))⟩
    rw [decREv_evs, decEv_clock () ho (T.one k) rfl]
    refine .quiet T k j (by rw [h.since]; exact hn) hj (decIn i) ⟨hc.noReset, ?_, ?_⟩
    · intro hq
      obtain ⟨a, b⟩ := hc.req hq
      rw [ho] at a
      exact ⟨a, b⟩
    · intro hm
      obtain ⟨_, l, hl⟩ := hc.mem hm
      exact ⟨l.map decMResp, by rw [e.respQ, hl]; rfl⟩
  | exec k j hn m ms hq =>
    have e := h.one k
    refine ⟨_, ?_, h.put k (e.exec () m) (some j)⟩
    rw [decREv_evs]
    have : (List.map decEv [WEv.exec () m (memExecW R.sys.mem m).2]) =
        [Ev.exec () (decMReq m) (memExec T.sys.mem (decMReq m)).2] := by
      simp only [List.map_cons, List.map_nil, decEv, (memExecW_eq R.sys.mem m).2, h.sys.mem]
    rw [this]
    exact .exec T k j (by rw [h.since]; exact hn) (decMReq m) (ms.map decMReq) (by rw [e.reqQ, hq]; rfl)
  | again k j hn hq hp =>
    have e := h.one k
    exact ⟨_, .again T k j (by rw [h.since]; exact hn) (by rw [e.reqQ, hq]; rfl) (by rw [e.respQ, hp]; rfl),
      h.put k e none⟩

theorem RNRun.refine (wf : ∀ k, (p k).WF) {R R' : RNSys ι p} {T : RSys ι p} (h : RHEnc R T) {tr : List (RWEv ι p)}
    (hr : RNRun R tr R') : ∃ T', RRun T (tr.map decREv) T' ∧ RHEnc R' T' := by
  induction hr with
  | refl => exact ⟨T, .refl T, h⟩
  | snoc _ hs ih =>
    obtain ⟨S1, h1, e1⟩ := ih
    obtain ⟨S2, h2, e2⟩ := hs.refine wf e1
    exact ⟨S2, by rw [List.map_append]; exact .snoc h1 h2, e2⟩

theorem RNStart.refine {R : RNSys ι p} (h : RNStart R) : ∃ T : RSys ι p, RStart T ∧ RHEnc R T := by
  obtain ⟨H, h1, h2⟩ := h.1.refine
  exact ⟨⟨H, R.since⟩, ⟨h1, h.2⟩, h2, rfl⟩

/-! ## The converse -/

/-- Inputs of the wires for inputs of the cycle model, with the response message that waits. -/
theorem REnc.inputs {p : Params} {N : NSys Unit p} {S : Sys Unit p} (h : REnc N S) (i : In p)
    (hc : i.mrespEn = true → ∃ l, S.respQ () = i.mresp :: l) :
    ∃ m : WMResp p, decIn (encIn i m) = i ∧ (i.mrespEn = true → ∃ l, N.respQ () = m :: l) := by
  have : ∃ m, decMResp m = i.mresp ∧ (i.mrespEn = true → ∃ l, N.respQ () = m :: l) := by
    cases hm : i.mrespEn
    · exact ⟨encMResp i.mresp, rfl, fun h => by cases h⟩
    · obtain ⟨l, hl⟩ := hc hm
      rw [h.respQ] at hl
      cases hq : N.respQ () with
      | nil => rw [hq] at hl; cases hl
      | cons m l' =>
        rw [hq] at hl
        simp only [List.map_cons, List.cons.injEq] at hl
        exact ⟨m, hl.1, fun _ => ⟨l', rfl⟩⟩
  obtain ⟨m, hm, hl⟩ := this
  exact ⟨m, dec_encIn i m hm, hl⟩

theorem RStep.lift (wf : ∀ k, (p k).WF) {R : RNSys ι p} {T T' : RSys ι p} (h : RHEnc R T) {ev : List (REv ι p)}
    (hs : RStep T ev T') {L : List Blk} (hL : Sched.Rounds Blk levels L) :
    ∃ R' ev', RNStep R ev' R' ∧ ev'.map decREv = ev ∧ RHEnc R' T' := by
  cases hs with
  | run k hn ev S hs =>
    obtain ⟨N', ev', h1, h2, h3⟩ := (h.one k).lift (wf k) hs hL
    exact ⟨_, _, .run R k (by rw [← h.since]; exact hn) ev' N' h1, by rw [decREv_evs, h2], h.put k h3 none⟩
  | reset k i hr hm =>
    have e := h.one k
    obtain ⟨m, hd, hl⟩ := e.inputs i hm
    have hw : Settled ((R.one k).regs ()) (encIn i m) ((R.one k).run () (encIn i m) L) := runBlks_settled _ _ hL _
    obtain ⟨ho, _⟩ := sim (wf k) (e.cache ()) hw
    refine ⟨_, _, .reset R k (encIn i m) hr L hL hl, ?_, ?_⟩
    · rw [decREv_evs]
      have he : (wclockEvs () { encIn i m with cachereqEn := false } ((R.one k).run () (encIn i m) L)).map decEv =
          (T.one k).clockEvs () { decIn (encIn i m) with reqEn := false } :=
        decEv_clock (i := { encIn i m with cachereqEn := false }) () (s := (T.one k).cache ()) ho (T.one k) rfl
      rw [he, hd]
    · have := h.put k (e.clock (wf k) () (encIn i m) hw) (some 0)
      rwa [hd] at this
  | quiet k j hn hj i hc =>
    have e := h.one k
    obtain ⟨m, hd, hl⟩ := e.inputs i hc.mem
    have hw : Settled ((R.one k).regs ()) (encIn i m) ((R.one k).run () (encIn i m) L) := runBlks_settled _ _ hL _
    obtain ⟨ho, _⟩ := sim (wf k) (e.cache ()) hw
    refine ⟨_, _, .quiet R k j (by rw [← h.since]; exact hn) hj (encIn i m) L hL ⟨hc.noReset, ?_, ?_⟩, ?_, ?_⟩
    · intro hq
      obtain ⟨a, b⟩ := hc.req hq
      rw [ho, hd]
      exact ⟨a, b⟩
    · intro hq
      rw [ho]
      exact ⟨rfl, hl hq⟩
    · rw [decREv_evs, decEv_clock () ho (T.one k) rfl, hd]
    · have := h.put k (e.clock (wf k) () (encIn i m) hw) (some (j + 1))
      rwa [hd] at this
  | exec k j hn m ms hq =>
    have e := h.one k
    rw [e.reqQ] at hq
    cases hQ : (R.one k).reqQ () with
    | nil => rw [hQ] at hq; cases hq
    | cons m' ms' =>
      rw [hQ] at hq
      simp only [List.map_cons, List.cons.injEq] at hq
      obtain ⟨rfl, _⟩ := hq
      refine ⟨_, _, .exec R k j (by rw [← h.since]; exact hn) m' ms' hQ, ?_, h.put k (e.exec () m') (some j)⟩
      rw [decREv_evs]
      simp only [List.map_cons, List.map_nil, decEv, (memExecW_eq R.sys.mem m').2, h.sys.mem]
  | again k j hn hq hp =>
    have e := h.one k
    rw [e.reqQ] at hq
    rw [e.respQ] at hp
    exact ⟨_, _, .again R k j (by rw [← h.since]; exact hn) (List.map_eq_nil_iff.1 hq) (List.map_eq_nil_iff.1 hp), rfl,
      h.put k e none⟩

theorem RRun.lift (wf : ∀ k, (p k).WF) {R : RNSys ι p} {T T' : RSys ι p} (h : RHEnc R T) {tr : List (REv ι p)}
    (hr : RRun T tr T') {L : List Blk} (hL : Sched.Rounds Blk levels L) :
    ∃ R' tr', RNRun R tr' R' ∧ tr'.map decREv = tr ∧ RHEnc R' T' := by
  induction hr with
  | refl => exact ⟨R, [], .refl R, rfl, h⟩
  | snoc _ hs ih =>
    obtain ⟨N1, t1, r1, e1, h1⟩ := ih
    obtain ⟨N2, t2, r2, e2, h2⟩ := RStep.lift wf h1 hs hL
    exact ⟨N2, _, .snoc r1 r2, by rw [List.map_append, e1, e2], h2⟩

theorem rstart_lift (wf : ∀ k, (p k).WF) {T : RSys ι p} (h : RStart T) : ∃ R : RNSys ι p, RNStart R ∧ RHEnc R T := by
  obtain ⟨N, h1, h2⟩ := hstart_lift wf h.1
  exact ⟨⟨N, T.since⟩, ⟨h1, h.2⟩, h2, rfl⟩

/-! ## What is visible -/

theorem cvisible_dec (tr : List (RWEv ι p)) : cvisible (tr.map decREv) = wcvisible tr := by
  rw [cvisible, wcvisible, List.filterMap_map]
  congr 1
  funext e
  cases e with
  | again k => rfl
  | ev e =>
    obtain ⟨k, e⟩ := e
    cases e with
    | acc u q => simp [decREv, decHEv, decEv, Ev.local, WEv.local, req_dec]
    | mreq u m => rfl
    | resp u r => rfl
    | exec u m r => rfl

theorem rvisible_dec (tr : List (RWEv ι p)) : rvisible (tr.map decREv) = wrvisible tr := by
  rw [rvisible, byLife_cvisible, cvisible_dec, wrvisible]

theorem RWValid.dec {tr : List (RWEv ι p)} (h : RWValid tr) : RValid (tr.map decREv) := by
  intro k u q hq
  rw [List.mem_map] at hq
  obtain ⟨e, he, hq⟩ := hq
  cases e with
  | again k => cases hq
  | ev e =>
    obtain ⟨k', e⟩ := e
    injection hq with hq
    cases e with
    | acc u' q' =>
      simp only [decHEv, decEv, Sigma.mk.injEq] at hq
      obtain ⟨rfl, hq⟩ := hq
      obtain ⟨_, rfl⟩ := Ev.acc.inj (eq_of_heq hq)
      exact (h _ _ _ he).dec
    | mreq u' m => simp only [decHEv, decEv, Sigma.mk.injEq] at hq; obtain ⟨rfl, hq⟩ := hq; cases hq
    | resp u' m => simp only [decHEv, decEv, Sigma.mk.injEq] at hq; obtain ⟨rfl, hq⟩ := hq; cases hq
    | exec u' m r => simp only [decHEv, decEv, Sigma.mk.injEq] at hq; obtain ⟨rfl, hq⟩ := hq; cases hq


end Verif.Net
