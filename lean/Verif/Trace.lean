import Verif.Op
import Verif.Exec

/-!
# From the message log to traces of the RTL system (one cache)
-/

namespace Verif
variable {p : Params} {ι : Type} [DecidableEq ι]

/-- Messages of one request: memory requests, then its response. -/
theorem op_shape {A : L1 p} (hc : A.cur = .idle) (M : ByteMem) {q : CReq p} (hq : q.ty ≠ MT.INIT) :
    ∃ (ms : List (MReq p)) (h : Bool) (d : Data p), (A.op M q).2.2 = ms.map Msg.mem ++ [.resp (mkResp q h d)] := by
  have fl : ∀ n, ∃ ms : List (MReq p), A.flushMsgs n = ms.map Msg.mem := by
    intro n
    induction n with
    | zero => exact ⟨[], rfl⟩
    | succ n ih =>
      obtain ⟨ms, hms⟩ := ih
      simp only [L1.flushMsgs, hms, L1.wb]
      split
      · exact ⟨_ :: ms, rfl⟩
      · exact ⟨ms, rfl⟩
  simp only [L1.op, L1.accept]
  split
  · cases hh : (A.lookup q.addr).hit
    · cases hi : (A.lookup q.addr).inval
      · rw [rw_miss hh hi]
        simp only [L1.answer]
        split <;> split <;> first
          | exact ⟨[_, _], _, _, rfl⟩
          | exact ⟨[_], _, _, rfl⟩
      · rw [rw_inval hh hi]
        simp only [L1.answer]
        split
        · exact ⟨[_], _, _, rfl⟩
        · exact ⟨[_], _, _, rfl⟩
    · rw [rw_hit hh]
      rw [answer_of_idle (by exact hc)]
      exact ⟨[], _, _, rfl⟩
  split
  · simp only [L1.amo, L1.answer]
    split
    · exact ⟨[_, _], _, _, rfl⟩
    · exact ⟨[_], _, _, rfl⟩
  split
  · rw [answer_of_idle (by exact hc)]
    exact ⟨[], _, _, rfl⟩
  split
  · rw [answer_of_idle (by exact hc)]
    obtain ⟨ms, hms⟩ := fl (2 ^ p.cntBits)
    exact ⟨ms, false, 0, by simp only [hms, List.append_nil]⟩
  · rename_i h1 h2 h3 h4
    exfalso
    simp only [MT.isAmo, Bool.and_eq_true, decide_eq_true_eq] at h2
    have hlt := q.ty.isLt
    have : q.ty.toNat = 2 := by
      have e0 : q.ty.toNat ≠ 0 := fun h => h1 (.inl (BitVec.eq_of_toNat_eq h))
      have e1 : q.ty.toNat ≠ 1 := fun h => h1 (.inr (BitVec.eq_of_toNat_eq h))
      have e2 : q.ty.toNat ≠ 14 := fun h => h3 (BitVec.eq_of_toNat_eq h)
      have e3 : q.ty.toNat ≠ 15 := fun h => h4 (BitVec.eq_of_toNat_eq h)
      omega
    exact hq (BitVec.eq_of_toNat_eq this)

/-- Messages of a request sequence. -/
theorem ops_shape {A : L1 p} (hc : A.cur = .idle) (M : ByteMem) {qs : List (CReq p)}
    (hq : ∀ q ∈ qs, q.ty ≠ MT.INIT) :
    ∃ segs : List (List (MReq p) × CResp p),
      (A.ops M qs).2.2 = (segs.map fun s => s.1.map Msg.mem ++ [.resp s.2]).flatten ∧
      segs.map (fun s => (s.2.ty, s.2.opq, s.2.len)) = qs.map fun q => (q.ty, q.opq, q.len) := by
  induction qs generalizing A M with
  | nil => exact ⟨[], rfl, rfl⟩
  | cons q qs ih =>
    obtain ⟨ms, h, d, hm⟩ := op_shape hc M (hq q (by simp))
    obtain ⟨segs, h1, h2⟩ := ih (op_cur A M q) (A.op M q).2.1 (fun q hq' => hq q (by simp [hq']))
    refine ⟨(ms, mkResp q h d) :: segs, ?_, ?_⟩
    · simp only [L1.ops, hm, h1, List.map_cons, List.flatten_cons]
    · simp [h2, mkResp]

theorem respMsgs_map_mem (ms : List (MReq p)) : respMsgs (ms.map Msg.mem) = [] := by
  induction ms with
  | nil => rfl
  | cons m ms ih => simp [ih]

theorem memMsgs_map_mem (ms : List (MReq p)) : memMsgs (ms.map Msg.mem) = ms := by
  induction ms with
  | nil => rfl
  | cons m ms ih => simp [ih]

theorem respMsgs_segs (segs : List (List (MReq p) × CResp p)) :
    respMsgs (segs.map fun s => s.1.map Msg.mem ++ [.resp s.2]).flatten = segs.map (·.2) := by
  induction segs with
  | nil => rfl
  | cons s segs ih => simp [ih, respMsgs_map_mem]

/-- Requests accepted in a run are not WRITE_INIT. -/
theorem acc_ne_init {T T' : ESys ι p} {tr : List (Ev ι p)} (h : ERun T tr T') (k : ι) :
    ∀ q ∈ accepted k tr, q.ty ≠ MT.INIT := by
  induction h with
  | refl => simp [accepted]
  | snoc _ hs ih =>
    intro q hq
    rw [accepted_append, List.mem_append] at hq
    rcases hq with hq | hq
    · exact ih q hq
    · cases hs with
      | acc k' q' hc hE hr hs hq' =>
        simp only [accepted, List.filterMap_cons, List.filterMap_nil] at hq
        split at hq
        · cases hq
        · rename_i heq
          split at heq
          · simp only [Option.some.injEq] at heq; subst heq
            simp only [List.mem_singleton] at hq; subst hq; exact hq'
          · cases heq
      | deliver => simp [accepted] at hq
      | emitMem => simp [accepted] at hq
      | emitResp => simp [accepted] at hq
      | exec => simp [accepted] at hq

/-- Everything a run of the RTL system says about the log of performed
requests. Proof device; not in the source. -/
structure Logged (S S' : Sys Unit p) (tr : List (Ev Unit p)) : Prop where
  notInit : ∀ q ∈ accepted () tr, q.ty ≠ MT.INIT
  /-- the messages emitted so far are a prefix of the log; the rest contains at
  most two responses -/
  log : ∃ rest, ((L1.init p).ops S.mem (accepted () tr)).2.2 = emitted () (tr.map Ev.canon) ++ rest ∧
    (respMsgs rest).length ≤ 2
  /-- memory after the requests in flight is memory after the emitted messages -/
  mem : (memRun S.mem (memMsgs (emitted () (tr.map Ev.canon)))).1 =
    (memRun S'.mem ((S'.reqQ ()).map MReq.canon)).1

theorem nResp_eq (l : List (Msg p)) : nResp l = (respMsgs l).length := by
  induction l with
  | nil => rfl
  | cons m l ih => cases m <;> simp_all [nResp, respMsgs]

theorem logged (wf : p.WF) {S S' : Sys Unit p} {tr : List (Ev Unit p)} (h0 : Start S)
    (h : Run S tr S') : Logged S S' tr := by
  obtain ⟨T, h1, h2⟩ := refine wf h0 h
  have hl := LogInv.run h1
  have hi := acc_ne_init h1 ()
  rw [accepted_canon] at hi
  refine ⟨hi, ?_, ?_⟩
  · have := hl.ops
    rw [accepted_canon] at this
    refine ⟨T.E () ++ ((T.L ()).answer (lastData (T.pend ()))).2, ?_, ?_⟩
    · rw [this, List.append_assoc]
    · have h3 := (h2.cache ()).two
      have h4 := answer_nResp (T.L ()) (lastData (T.pend ()))
      rw [answer_idle] at h4
      rw [respMsgs_append, List.length_append, ← nResp_eq, ← nResp_eq]
      have h5 : (Cur.idle : Cur p).pend = 0 := rfl
      omega
  · rw [hl.mem, h2.mem, h2.reqQ]

/-- Responses delivered so far are a prefix of the responses of the log. -/
theorem Logged.resp {S S' : Sys Unit p} {tr : List (Ev Unit p)} (h : Logged S S' tr) :
    ∃ rest, respMsgs ((L1.init p).ops S.mem (accepted () tr)).2.2 = responses () tr ++ rest ∧
      rest.length ≤ 2 := by
  obtain ⟨rest, h1, h2⟩ := h.log
  refine ⟨respMsgs rest, ?_, h2⟩
  rw [h1, respMsgs_append, respMsgs_emitted, responses_canon]

end Verif
