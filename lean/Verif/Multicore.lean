import Verif.ProcModel
import Verif.PropsLife
import Verif.DriveK

set_option linter.unusedSectionVars false

/-!
# The multicore driver (C37)

`MulticoreModel` (test/MulticoreModel.py) feeds one request source per cache and uses two
32-bit counters to keep requests of a later order out of the caches until all requests
of earlier orders have been answered.
-/

namespace Verif
variable {p : Params} {n : Nat}

/-- A test program: cache number, order, request (`srcs`, test/MulticoreModel.py:37-43). -/
abbrev Prog (n : Nat) (p : Params) := List (Fin n × BitVec 32 × CReq p)

/-- The source of cache `k`: its requests in program order (`src_transactions`,
test/MulticoreModel.py:41-44). -/
def Prog.of (g : Prog n p) (k : Fin n) : List (BitVec 32 × CReq p) :=
  g.filterMap fun e => if e.1 = k then some e.2 else none

/-- `orders.count(o)`, test/MulticoreModel.py:39, 68-69. -/
def Prog.count (g : Prog n p) (o : BitVec 32) : Nat := g.countP (fun e => e.2.1 == o)

/-- One clock edge of all caches: each cache sees its own inputs; they share no
combinational path (test/sim_utils.py:302-314). -/
def Sys.clockAll (S : Sys (Fin n) p) (i : Fin n → In p) : Sys (Fin n) p :=
  { cache := fun k => (S.cache k).step (i k)
    reqQ := fun k => S.reqQ k ++ if ((S.cache k).out (i k)).mreqEn then [((S.cache k).out (i k)).mreq] else []
    respQ := fun k => if (i k).mrespEn then (S.respQ k).tail else S.respQ k
    mem := S.mem }

/-- Events of a clock edge of all caches (the messages on the ports, test/sim_utils.py:302-314). -/
def Sys.clockAllEvs (S : Sys (Fin n) p) (i : Fin n → In p) : List (Ev (Fin n) p) :=
  (List.finRange n).flatMap fun k => S.clockEvs k (i k)

/-- Caches, memory and the driver: what is left of the sources, `curr_order` and
`curr_order_in_flight`, test/MulticoreModel.py:46-74. -/
structure MSys (n : Nat) (p : Params) where
  sys : Sys (Fin n) p
  src : Fin n → List (BitVec 32 × CReq p)
  curr : BitVec 32
  inFlight : BitVec 32

/-- Number of responses in a cycle (`trans_done`), test/MulticoreModel.py:86-94. -/
def respCount (S : Sys (Fin n) p) (i : Fin n → In p) : Nat :=
  (List.finRange n).countP fun k => ((S.cache k).out (i k)).respEn

/-- A step: one clock edge of the driver and all caches, or an execution step of
memory.  A source sends only if its request has an order of at most `curr_order`
(`src_send_recv`, test/MulticoreModel.py:76-83) and the cache is ready (`CanClock`); source
and sink delays are arbitrary, and so is the response-ready signal of each processor
model.  Both counters: test/MulticoreModel.py:58-74, 86-94. -/
inductive MStep (g : Prog n p) : MSys n p → List (Ev (Fin n) p) → MSys n p → Prop
  | cycle (X : MSys n p) (i : Fin n → In p) (hc : ∀ k, X.sys.CanClock k (i k))
      (hs : ∀ k, (i k).reqEn = true → ∃ o rest, X.src k = (o, (i k).req) :: rest ∧ o ≤ X.curr) :
      MStep g X (X.sys.clockAllEvs i)
        { sys := X.sys.clockAll i
          src := fun k => if (i k).reqEn then (X.src k).tail else X.src k
          curr := upDownNext false (X.inFlight == 0) false 0 1 1 X.curr
          inFlight := upDownNext (X.inFlight == 0) false (decide (0 < respCount X.sys i))
            (BitVec.ofNat 32 (g.count (X.curr + 1))) 0 (BitVec.ofNat 32 (respCount X.sys i)) X.inFlight }
  | exec (X : MSys n p) (k : Fin n) (m : MReq p) (ms : List (MReq p)) (h : X.sys.reqQ k = m :: ms) :
      MStep g X [.exec k m (memExec X.sys.mem m).2] { X with sys := X.sys.exec k m }

/-- A finite execution (not in the source: iteration). -/
inductive MRun (g : Prog n p) : MSys n p → List (Ev (Fin n) p) → MSys n p → Prop
  | refl (X : MSys n p) : MRun g X [] X
  | snoc {X X' X'' : MSys n p} {tr ev : List (Ev (Fin n) p)} (h : MRun g X tr X') (hs : MStep g X' ev X'') :
      MRun g X (tr ++ ev) X''

/-- Reset: the sources hold the program, the order counter is 0, the in-flight counter is
the number of requests of order 0 (test/MulticoreModel.py:35-67). -/
structure MStart (g : Prog n p) (X : MSys n p) : Prop where
  sys : Start X.sys
  src : ∀ k, X.src k = g.of k
  curr : X.curr = 0
  inFlight : X.inFlight = BitVec.ofNat 32 (g.count 0)

/-! ## A clock edge of all caches is a sequence of clock edges of single caches -/

/-- The caches in `ks` clocked (proof device). -/
def Sys.clockSet (S : Sys (Fin n) p) (i : Fin n → In p) (ks : List (Fin n)) : Sys (Fin n) p :=
  { cache := fun k => if k ∈ ks then (S.cache k).step (i k) else S.cache k
    reqQ := fun k => if k ∈ ks then
      S.reqQ k ++ (if ((S.cache k).out (i k)).mreqEn then [((S.cache k).out (i k)).mreq] else [])
      else S.reqQ k
    respQ := fun k => if k ∈ ks then (if (i k).mrespEn then (S.respQ k).tail else S.respQ k) else S.respQ k
    mem := S.mem }

theorem clockSet_run (S : Sys (Fin n) p) (i : Fin n → In p) (hc : ∀ k, S.CanClock k (i k)) (ks : List (Fin n))
    (hn : ks.Nodup) : Run S (ks.flatMap fun k => S.clockEvs k (i k)) (S.clockSet i ks) := by
  induction ks using snoc_induct with
  | h0 =>
    have : S.clockSet i [] = S := by simp [Sys.clockSet]
    rw [this]; exact .refl S
  | h1 ks k ih =>
    have hk : k ∉ ks := by
      intro hk
      rw [List.nodup_append] at hn
      exact hn.2.2 k hk k (by simp) rfl
    have ih := ih (List.nodup_append.1 hn).1
    have hcache : (S.clockSet i ks).cache k = S.cache k := by simp [Sys.clockSet, hk]
    have hresp : (S.clockSet i ks).respQ k = S.respQ k := by simp [Sys.clockSet, hk]
    have hreq : (S.clockSet i ks).reqQ k = S.reqQ k := by simp [Sys.clockSet, hk]
    have hcan : (S.clockSet i ks).CanClock k (i k) :=
      ⟨(hc k).noReset, by rw [hcache]; exact (hc k).req, by rw [hresp]; exact (hc k).mem⟩
    have hev : (S.clockSet i ks).clockEvs k (i k) = S.clockEvs k (i k) := by
      simp only [Sys.clockEvs, hcache]
    have hst : (S.clockSet i ks).clock k (i k) = S.clockSet i (ks ++ [k]) := by
      simp only [Sys.clock, hcache, hresp, hreq]
      simp only [Sys.clockSet, Sys.mk.injEq, and_true]
      refine ⟨?_, ?_, ?_⟩ <;> funext j <;> by_cases hj : j = k
      all_goals first
        | (subst hj; simp [upd_same])
        | (rw [upd_other _ hj]; simp [hj])
    have := ih.snoc (.clock _ k (i k) hcan)
    rw [hev, hst] at this
    simpa using this

theorem clockAll_run (S : Sys (Fin n) p) (i : Fin n → In p) (hc : ∀ k, S.CanClock k (i k)) :
    Run S (S.clockAllEvs i) (S.clockAll i) := by
  have := clockSet_run S i hc (List.finRange n) (List.nodup_finRange n)
  have e : S.clockSet i (List.finRange n) = S.clockAll i := by simp [Sys.clockSet, Sys.clockAll]
  rw [e] at this
  exact this

/-- The caches and memory behind the driver behave as in the open system. -/
theorem MRun.open {g : Prog n p} {X X' : MSys n p} {tr : List (Ev (Fin n) p)} (h : MRun g X tr X') :
    Run X.sys tr X'.sys := by
  induction h with
  | refl => exact .refl _
  | snoc h hs ih =>
    cases hs with
    | cycle i hc hs => exact ih.trans (clockAll_run _ i hc)
    | exec k m ms h => exact ih.snoc (.exec _ k m ms h)

theorem flatMap_one {S : Sys (Fin n) p} {i : Fin n → In p} {k : Fin n} (ks : List (Fin n)) (hn : ks.Nodup) :
    accepted k (ks.flatMap fun j => S.clockEvs j (i j)) =
      (if k ∈ ks ∧ (i k).reqEn = true then [(i k).req] else []) ∧
    (responses k (ks.flatMap fun j => S.clockEvs j (i j))).length =
      (if k ∈ ks ∧ ((S.cache k).out (i k)).respEn = true then 1 else 0) := by
  induction ks with
  | nil => simp [accepted, responses]
  | cons j ks ih =>
    rw [List.nodup_cons] at hn
    obtain ⟨ih1, ih2⟩ := ih hn.2
    rw [List.flatMap_cons, accepted_append, responses_append, List.length_append, ih1, ih2]
    by_cases hj : k = j
    · subst hj
      rw [responses_clock_len]
      simp only [hn.1, false_and, if_false, List.append_nil, List.mem_cons, true_or, true_and, Nat.add_zero]
      refine ⟨?_, by cases ((S.cache k).out (i k)).respEn <;> rfl⟩
      simp only [Sys.clockEvs]
      cases (i k).reqEn <;> cases ((S.cache k).out (i k)).mreqEn <;>
        cases ((S.cache k).out (i k)).respEn <;> simp [accepted]
    · obtain ⟨h1, h2⟩ := clockEvs_other S hj (i j)
      rw [h1, h2]
      simp [hj]

theorem accepted_all (S : Sys (Fin n) p) (i : Fin n → In p) (k : Fin n) :
    accepted k (S.clockAllEvs i) = if (i k).reqEn = true then [(i k).req] else [] := by
  have := (flatMap_one (S := S) (i := i) (k := k) _ (List.nodup_finRange n)).1
  simpa [Sys.clockAllEvs] using this

theorem responses_all (S : Sys (Fin n) p) (i : Fin n → In p) (k : Fin n) :
    (responses k (S.clockAllEvs i)).length = if ((S.cache k).out (i k)).respEn = true then 1 else 0 := by
  have := (flatMap_one (S := S) (i := i) (k := k) _ (List.nodup_finRange n)).2
  simpa [Sys.clockAllEvs] using this

/-! ## Sums over the caches -/

theorem sum_le {f g : Fin n → Nat} (ks : List (Fin n)) (h : ∀ k, f k ≤ g k) :
    (ks.map f).sum ≤ (ks.map g).sum := by
  induction ks with
  | nil => simp
  | cons k ks ih => have := h k; simp only [List.map_cons, List.sum_cons]; omega

theorem sum_eq_of_le {f g : Fin n → Nat} (ks : List (Fin n)) (h : ∀ k, f k ≤ g k)
    (he : (ks.map g).sum ≤ (ks.map f).sum) : ∀ k ∈ ks, f k = g k := by
  induction ks with
  | nil => simp
  | cons k ks ih =>
    have h1 := h k
    have h2 := sum_le ks h
    simp only [List.map_cons, List.sum_cons] at he
    intro j hj
    rcases List.mem_cons.1 hj with rfl | hj
    · omega
    · exact ih (by omega) j hj

theorem sum_add (f g : Fin n → Nat) (ks : List (Fin n)) :
    (ks.map fun k => f k + g k).sum = (ks.map f).sum + (ks.map g).sum := by
  induction ks with
  | nil => rfl
  | cons k ks ih => simp only [List.map_cons, List.sum_cons, ih]; omega

theorem sum_ind (ks : List (Fin n)) (hn : ks.Nodup) (j : Fin n) (x : Nat) :
    (ks.map fun k => if j = k then x else 0).sum = if j ∈ ks then x else 0 := by
  induction ks with
  | nil => rfl
  | cons k ks ih =>
    rw [List.nodup_cons] at hn
    simp only [List.map_cons, List.sum_cons, ih hn.2, List.mem_cons]
    by_cases hj : j = k
    · subst hj; simp [hn.1]
    · simp [hj]

theorem sum_count (P : BitVec 32 → Bool) (g : Prog n p) :
    ((List.finRange n).map fun k => (g.of k).countP (fun e => P e.1)).sum = g.countP (fun e => P e.2.1) := by
  induction g with
  | nil =>
    have : ∀ ks : List (Fin n), (ks.map fun k => (Prog.of ([] : Prog n p) k).countP (fun e => P e.1)).sum = 0 := by
      intro ks; induction ks with
      | nil => rfl
      | cons k ks ih => simp only [List.map_cons, List.sum_cons, ih]; rfl
    exact this _
  | cons e g ih =>
    have : (fun k => (Prog.of (e :: g) k).countP (fun x => P x.1)) =
        fun k => (Prog.of g k).countP (fun x => P x.1) + (if e.1 = k then (if P e.2.1 then 1 else 0) else 0) := by
      funext k
      by_cases hk : e.1 = k
      · simp [Prog.of, hk, List.countP_cons]
      · simp [Prog.of, hk]
    rw [this, sum_add, ih, sum_ind _ (List.nodup_finRange n), List.countP_cons]
    simp

theorem sum_resp (S : Sys (Fin n) p) (i : Fin n → In p) (ks : List (Fin n)) :
    (ks.map fun k => if ((S.cache k).out (i k)).respEn = true then 1 else 0).sum =
      ks.countP fun k => ((S.cache k).out (i k)).respEn := by
  induction ks with
  | nil => rfl
  | cons k ks ih => simp only [List.map_cons, List.sum_cons, ih, List.countP_cons]; omega

/-! ## The invariant -/

/-- All responses so far (not in the source: projection of a history). -/
def totalResp (n : Nat) (tr : List (Ev (Fin n) p)) : Nat :=
  ((List.finRange n).map fun k => (responses k tr).length).sum

/-- Requests of order at most `c` (not in the source: counts requests by test/MulticoreModel.py:39). -/
def Prog.upTo (g : Prog n p) (c : BitVec 32) : Nat := g.countP (fun e => decide (e.2.1 ≤ c))

/-- Every request has been answered (test/MulticoreModel.py:93-100). -/
def AllDone (g : Prog n p) (tr : List (Ev (Fin n) p)) : Prop :=
  ∀ k, (g.of k).length ≤ (responses k tr).length

/-- Proof device: invariant. -/
structure MInv (g : Prog n p) (X : MSys n p) (tr : List (Ev (Fin n) p)) : Prop where
  taken : ∀ k, ∃ t, g.of k = t ++ X.src k ∧ t.map (·.2) = accepted k tr ∧
    (AllDone g tr ∨ ∀ e ∈ t, e.1 ≤ X.curr)
  count : AllDone g tr ∨ (totalResp n tr + X.inFlight.toNat = g.upTo X.curr ∧
      ∀ k m e, (g.of k)[m]? = some e → e.1 < X.curr → m < (responses k tr).length)

theorem AllDone.mono {g : Prog n p} {tr ev : List (Ev (Fin n) p)} (h : AllDone g tr) : AllDone g (tr ++ ev) := by
  intro k
  have := h k
  rw [responses_append, List.length_append]; omega

/-- If all requests admitted so far have order at most `c` and as many responses have been
delivered as there are such requests, all of these have been answered. -/
theorem all_answered {g : Prog n p} {X : MSys n p} {tr : List (Ev (Fin n) p)} {c : BitVec 32}
    (ht : ∀ k, ∃ t, g.of k = t ++ X.src k ∧ t.map (·.2) = accepted k tr ∧ ∀ e ∈ t, e.1 ≤ c)
    (hr : ∀ k, (responses k tr).length ≤ (accepted k tr).length) :
    totalResp n tr ≤ g.upTo c ∧ (totalResp n tr = g.upTo c → ∀ k,
      (responses k tr).length = (accepted k tr).length ∧ (∀ e ∈ X.src k, ¬ e.1 ≤ c) ∧
      ∀ m e, (g.of k)[m]? = some e → e.1 ≤ c → m < (responses k tr).length) := by
  have hle : ∀ k, (responses k tr).length ≤ (g.of k).countP (fun e => decide (e.1 ≤ c)) := by
    intro k
    obtain ⟨t, h1, h2, h3⟩ := ht k
    have h4 : t.countP (fun e => decide (e.1 ≤ c)) = t.length := by
      rw [List.countP_eq_length]; intro e he; simpa using h3 e he
    have h5 : t.length = (accepted k tr).length := by rw [← h2, List.length_map]
    rw [h1, List.countP_append, h4]
    have := hr k
    omega
  have hs := sum_count (fun o => decide (o ≤ c)) g
  refine ⟨?_, ?_⟩
  · rw [Prog.upTo, ← hs]; exact sum_le _ hle
  · intro he k
    have := sum_eq_of_le _ hle (by rw [hs]; exact Nat.le_of_eq he.symm) k (List.mem_finRange k)
    obtain ⟨t, h1, h2, h3⟩ := ht k
    have h4 : t.countP (fun e => decide (e.1 ≤ c)) = t.length := by
      rw [List.countP_eq_length]; intro e he; simpa using h3 e he
    have h5 : t.length = (accepted k tr).length := by rw [← h2, List.length_map]
    rw [h1, List.countP_append, h4] at this
    have hk := hr k
    have h6 : (X.src k).countP (fun e => decide (e.1 ≤ c)) = 0 := by omega
    have h7 : ∀ e ∈ X.src k, ¬ e.1 ≤ c := by
      rw [List.countP_eq_zero] at h6
      intro e he; simpa using h6 e he
    refine ⟨by omega, h7, ?_⟩
    intro m e hm hec
    rw [h1] at hm
    by_cases hmt : m < t.length
    · omega
    · exfalso
      rw [List.getElem?_append_right (by omega)] at hm
      exact h7 e (List.mem_of_getElem? hm) hec

theorem upTo_succ (g : Prog n p) (c : BitVec 32) (hc : c.toNat + 1 < 2 ^ 32) :
    g.upTo (c + 1) = g.upTo c + g.count (c + 1) := by
  have e1 : (c + 1).toNat = c.toNat + 1 := by
    rw [BitVec.toNat_add]; show (c.toNat + 1) % 2 ^ 32 = _; omega
  induction g with
  | nil => rfl
  | cons e g ih =>
    simp only [Prog.upTo, Prog.count, List.countP_cons] at ih ⊢
    rw [ih]
    have h1 : (e.2.1 ≤ c + 1) ↔ e.2.1.toNat ≤ c.toNat + 1 := by rw [BitVec.le_def, e1]
    have h2 : (e.2.1 ≤ c) ↔ e.2.1.toNat ≤ c.toNat := BitVec.le_def
    have h3 : (e.2.1 = c + 1) ↔ e.2.1.toNat = c.toNat + 1 := by
      rw [← BitVec.toNat_inj, e1]
    simp only [decide_eq_true_eq, beq_iff_eq, h1, h2, h3]
    by_cases a : e.2.1.toNat ≤ c.toNat
    · rw [if_pos (by omega), if_pos a, if_neg (by omega)]; omega
    · by_cases b : e.2.1.toNat = c.toNat + 1
      · rw [if_pos (by omega), if_neg a, if_pos b]; omega
      · rw [if_neg (by omega), if_neg a, if_neg b]; omega

theorem upTo_zero (g : Prog n p) : g.upTo 0 = g.count 0 := by
  induction g with
  | nil => rfl
  | cons e g ih =>
    simp only [Prog.upTo, Prog.count, List.countP_cons] at ih ⊢
    rw [ih]
    have h2 : (e.2.1 ≤ 0) ↔ e.2.1 = 0 := by
      rw [BitVec.le_def, ← BitVec.toNat_inj]; show _ ≤ 0 ↔ _ = 0; omega
    simp only [decide_eq_true_eq, beq_iff_eq, h2]

theorem count_le (g : Prog n p) (c : BitVec 32) : g.count c ≤ g.length := List.countP_le_length

theorem minv (wf : p.WF) {g : Prog n p} (hg : g.length < 2 ^ 32) {X X' : MSys n p} {tr : List (Ev (Fin n) p)}
    (h0 : MStart g X) (h : MRun g X tr X') : MInv g X' tr := by
  induction h with
  | refl =>
    refine ⟨fun k => ⟨[], by rw [h0.src k]; rfl, rfl, .inr (by simp)⟩, .inr ⟨?_, ?_⟩⟩
    · have e : totalResp n ([] : List (Ev (Fin n) p)) = 0 := by
        have : ∀ ks : List (Fin n), (ks.map fun k => (responses k ([] : List (Ev (Fin n) p))).length).sum = 0 := by
          intro ks; induction ks with
          | nil => rfl
          | cons k ks ih => simp only [List.map_cons, List.sum_cons, ih]; rfl
        exact this _
      have := count_le g 0
      rw [e, h0.curr, upTo_zero, h0.inFlight, BitVec.toNat_ofNat, Nat.mod_eq_of_lt (by omega), Nat.zero_add]
    · intro k m e _ hlt
      rw [h0.curr, BitVec.lt_def] at hlt
      exact absurd hlt (by simp)
  | @snoc X1 X2 tr ev h hs ih =>
    have hr : ∀ k, (responses k tr).length ≤ (accepted k tr).length :=
      fun k => (C06_at_most_two_unanswered wf h0.sys h.open k).1
    have hr' : ∀ k, (responses k (tr ++ ev)).length ≤ (accepted k (tr ++ ev)).length :=
      fun k => (C06_at_most_two_unanswered wf h0.sys (h.snoc hs).open k).1
    cases hs with
    | exec k m ms hm =>
      have e1 : ∀ j, accepted j (tr ++ [Ev.exec k m (memExec X1.sys.mem m).2]) = accepted j tr := by
        intro j; rw [accepted_append]; simp [accepted]
      have e2 : ∀ j, responses j (tr ++ [Ev.exec k m (memExec X1.sys.mem m).2]) = responses j tr := by
        intro j; rw [responses_append]; simp [responses]
      refine ⟨fun j => ?_, ?_⟩
      · obtain ⟨t, h1, h2, h3⟩ := ih.taken j
        refine ⟨t, h1, by rw [e1]; exact h2, ?_⟩
        simpa only [AllDone, e2] using h3
      · have := ih.count
        simpa only [AllDone, totalResp, e2] using this
    | cycle i hc hs =>
      -- the sources
      have hpre : ∀ k, ∃ t, g.of k = t ++ X1.src k ∧ t.map (·.2) = accepted k tr ∧
          (AllDone g tr ∨ ∀ e ∈ t, e.1 ≤ X1.curr) := ih.taken
      have hpre' : ∀ k, ∃ t, g.of k = t ++ (if (i k).reqEn then (X1.src k).tail else X1.src k) ∧
          t.map (·.2) = accepted k (tr ++ X1.sys.clockAllEvs i) ∧
          (AllDone g tr ∨ ∀ e ∈ t, e.1 ≤ X1.curr) := by
        intro k
        obtain ⟨t, h1, h2, h3⟩ := hpre k
        rw [accepted_append, accepted_all]
        cases hq : (i k).reqEn
        · exact ⟨t, by simpa using h1, by simpa using h2, h3⟩
        · obtain ⟨o, rest, g1, g2⟩ := hs k hq
          refine ⟨t ++ [(o, (i k).req)], ?_, ?_, ?_⟩
          · rw [h1, g1]; simp
          · simp [h2]
          · rcases h3 with h3 | h3
            · exact .inl h3
            · refine .inr ?_
              intro e he
              rcases List.mem_append.1 he with he | he
              · exact h3 e he
              · simp only [List.mem_singleton] at he; rw [he]; exact g2
      have htot : totalResp n (tr ++ X1.sys.clockAllEvs i) = totalResp n tr + respCount X1.sys i := by
        simp only [totalResp, responses_append, List.length_append, responses_all, sum_add, sum_resp, respCount]
      rcases ih.count with hd | ⟨hcnt, hdone⟩
      · refine ⟨fun k => ?_, .inl hd.mono⟩
        obtain ⟨t, h1, h2, _⟩ := hpre' k
        exact ⟨t, h1, h2, .inl hd.mono⟩
      · by_cases hAD : AllDone g tr
        · refine ⟨fun k => ?_, .inl hAD.mono⟩
          obtain ⟨t, h1, h2, _⟩ := hpre' k
          exact ⟨t, h1, h2, .inl hAD.mono⟩
        have hpre2 : ∀ k, ∃ t, g.of k = t ++ X1.src k ∧ t.map (·.2) = accepted k tr ∧ ∀ e ∈ t, e.1 ≤ X1.curr := by
          intro k
          obtain ⟨t, h1, h2, h3⟩ := hpre k
          exact ⟨t, h1, h2, h3.resolve_left hAD⟩
        have hpre2' : ∀ k, ∃ t, g.of k = t ++ (if (i k).reqEn then (X1.src k).tail else X1.src k) ∧
            t.map (·.2) = accepted k (tr ++ X1.sys.clockAllEvs i) ∧ ∀ e ∈ t, e.1 ≤ X1.curr := by
          intro k
          obtain ⟨t, h1, h2, h3⟩ := hpre' k
          exact ⟨t, h1, h2, h3.resolve_left hAD⟩
        by_cases hz : X1.inFlight = 0
        · -- the next order
          have hb : (X1.inFlight == 0) = true := by simp [hz]
          have hfull := (all_answered (X := X1) hpre2 hr).2 (by rw [hz] at hcnt; simpa using hcnt)
          have hnoreq : ∀ k, (i k).reqEn = false := by
            intro k
            cases hq : (i k).reqEn
            · rfl
            · obtain ⟨o, rest, g1, g2⟩ := hs k hq
              exact absurd g2 ((hfull k).2.1 (o, (i k).req) (by rw [g1]; simp))
          have hacc : ∀ k, accepted k (tr ++ X1.sys.clockAllEvs i) = accepted k tr := by
            intro k; rw [accepted_append, accepted_all, hnoreq k]; simp
          have hresp : ∀ k, (responses k (tr ++ X1.sys.clockAllEvs i)).length = (responses k tr).length := by
            intro k
            have a := hr' k
            rw [hacc k, ← (hfull k).1] at a
            have : (responses k (tr ++ X1.sys.clockAllEvs i)).length ≥ (responses k tr).length := by
              rw [responses_append, List.length_append]; omega
            omega
          have hcurr : upDownNext false (X1.inFlight == 0) false 0 1 1 X1.curr = X1.curr + 1 := by
            simp only [upDownNext, hb]; rfl
          by_cases hw : X1.curr.toNat + 1 < 2 ^ 32
          · have e1 : (X1.curr + 1).toNat = X1.curr.toNat + 1 := by
              rw [BitVec.toNat_add]; show (X1.curr.toNat + 1) % 2 ^ 32 = _; omega
            refine ⟨fun k => ?_, .inr ⟨?_, ?_⟩⟩
            · obtain ⟨t, h1, h2, h3⟩ := hpre2' k
              refine ⟨t, h1, h2, .inr fun e he => ?_⟩
              have := h3 e he
              show e.1 ≤ upDownNext _ _ _ _ _ _ _
              rw [hcurr, BitVec.le_def, e1]
              rw [BitVec.le_def] at this; omega
            · have hcl := count_le g (X1.curr + 1)
              show totalResp n _ + (upDownNext _ _ _ _ _ _ _).toNat = g.upTo (upDownNext _ _ _ _ _ _ _)
              rw [hcurr, upTo_succ g _ hw]
              have : (upDownNext (X1.inFlight == 0) false (decide (0 < respCount X1.sys i))
                  (BitVec.ofNat 32 (g.count (X1.curr + 1))) 0 (BitVec.ofNat 32 (respCount X1.sys i))
                  X1.inFlight).toNat = g.count (X1.curr + 1) := by
                simp only [upDownNext, hb, if_true, BitVec.toNat_ofNat]
                exact Nat.mod_eq_of_lt (by omega)
              rw [this]
              have ht : totalResp n (tr ++ X1.sys.clockAllEvs i) = totalResp n tr := by
                simp only [totalResp, hresp]
              rw [ht]
              rw [hz] at hcnt
              simp at hcnt
              omega
            · intro k m e hm hlt
              have hlt : e.1 < X1.curr + 1 := by rw [← hcurr]; exact hlt
              rw [hresp k]
              refine (hfull k).2.2 m e hm ?_
              rw [BitVec.lt_def, e1] at hlt
              rw [BitVec.le_def]; omega
          · -- the order counter wraps: everything has been answered
            have hAll : AllDone g (tr ++ X1.sys.clockAllEvs i) := by
              intro k
              rw [hresp k]
              rcases Nat.eq_zero_or_pos (g.of k).length with h0 | h0
              · omega
              · have hlt : (g.of k).length - 1 < (g.of k).length := by omega
                have := (hfull k).2.2 ((g.of k).length - 1) _ (List.getElem?_eq_getElem hlt) (by
                  rw [BitVec.le_def]
                  have := ((g.of k)[(g.of k).length - 1]).1.isLt
                  have := X1.curr.isLt
                  omega)
                omega
            refine ⟨fun k => ?_, .inl hAll⟩
            obtain ⟨t, h1, h2, _⟩ := hpre' k
            exact ⟨t, h1, h2, .inl hAll⟩
        · have hb : (X1.inFlight == 0) = false := by simpa using hz
          have hcurr : upDownNext false (X1.inFlight == 0) false 0 1 1 X1.curr = X1.curr := by
            simp only [upDownNext, hb]; rfl
          have hle := (all_answered (g := g) (X := { X1 with src := fun k => if (i k).reqEn then (X1.src k).tail else X1.src k })
            (tr := tr ++ X1.sys.clockAllEvs i) (c := X1.curr) hpre2' hr').1
          rw [htot] at hle
          refine ⟨fun k => ?_, .inr ⟨?_, ?_⟩⟩
          · obtain ⟨t, h1, h2, h3⟩ := hpre2' k
            refine ⟨t, h1, h2, .inr ?_⟩
            show ∀ e ∈ t, e.1 ≤ upDownNext _ _ _ _ _ _ _
            rw [hcurr]; exact h3
          · show totalResp n _ + (upDownNext _ _ _ _ _ _ _).toNat = g.upTo (upDownNext _ _ _ _ _ _ _)
            rw [hcurr, htot]
            have hlt := X1.inFlight.isLt
            by_cases hp : 0 < respCount X1.sys i
            · have : upDownNext (X1.inFlight == 0) false (decide (0 < respCount X1.sys i))
                  (BitVec.ofNat 32 (g.count (X1.curr + 1))) 0 (BitVec.ofNat 32 (respCount X1.sys i))
                  X1.inFlight = X1.inFlight - BitVec.ofNat 32 (respCount X1.sys i) := by
                simp only [upDownNext, hb, decide_eq_true hp]; rfl
              rw [this, BitVec.toNat_sub, BitVec.toNat_ofNat, Nat.mod_eq_of_lt (by omega : respCount X1.sys i < 2 ^ 32)]
              omega
            · have : upDownNext (X1.inFlight == 0) false (decide (0 < respCount X1.sys i))
                  (BitVec.ofNat 32 (g.count (X1.curr + 1))) 0 (BitVec.ofNat 32 (respCount X1.sys i))
                  X1.inFlight = X1.inFlight := by
                simp only [upDownNext, hb, decide_eq_false hp]; rfl
              rw [this]; omega
          · intro k m e hm hlt
            have hlt : e.1 < X1.curr := by rw [← hcurr]; exact hlt
            have := hdone k m e hm hlt
            rw [responses_append, List.length_append]; omega

/-- **C37.**  Whenever a cache accepts a request, this is the next request of its source, and
every request of a smaller order, of any cache, has already been answered: if it is
request number `m` of cache `k'`, more than `m` responses have been delivered there. -/
theorem C37_orders_respected (wf : p.WF) {g : Prog n p} (hg : g.length < 2 ^ 32) {X X' : MSys n p}
    {tr : List (Ev (Fin n) p)} (h0 : MStart g X) (h : MRun g X tr X')
    {t1 t2 : List (Ev (Fin n) p)} {k : Fin n} {q : CReq p} (ht : tr = t1 ++ .acc k q :: t2) :
    ∃ o, (g.of k)[(accepted k t1).length]? = some (o, q) ∧
      ∀ k' m o' q', (g.of k')[m]? = some (o', q') → o' < o → m < (responses k' t1).length := by
  induction h generalizing t1 t2 with
  | refl => simp at ht
  | @snoc X1 X2 tr ev h hs ih =>
    rcases List.append_eq_append_iff.1 ht with ⟨u, hu1, hu2⟩ | ⟨u, hu1, hu2⟩
    · -- in this step
      subst hu1
      cases hs with
      | exec j m ms hm =>
        exfalso
        have : Ev.acc k q ∈ [Ev.exec j m (memExec X1.sys.mem m).2] := by rw [hu2]; simp
        simp at this
      | cycle i hc hs =>
        have ha := accepted_all X1.sys i k
        rw [hu2, accepted_append] at ha
        have hq : accepted k (Ev.acc k q :: t2) = q :: accepted k t2 := by simp [accepted]
        rw [hq] at ha
        cases hre : (i k).reqEn
        · rw [hre] at ha; simp at ha
        · rw [hre] at ha
          simp only [if_true, List.append_eq_singleton_iff, reduceCtorEq, and_false, or_false,
            List.cons.injEq] at ha
          obtain ⟨hau, hqe, _⟩ := ha
          obtain ⟨o, rest, hsrc, ho⟩ := hs k hre
          have hinv := minv wf hg h0 h
          obtain ⟨t, h1, h2, _⟩ := hinv.taken k
          have hlen : (accepted k (tr ++ u)).length = t.length := by
            rw [accepted_append, hau, List.append_nil, ← h2, List.length_map]
          refine ⟨o, ?_, ?_⟩
          · rw [hlen, h1, hsrc, hqe]; simp
          · intro k' m o' q' hm hlt
            have : m < (responses k' tr).length := by
              rcases hinv.count with hd | ⟨_, hdone⟩
              · have := hd k'
                have := (List.getElem?_eq_some_iff.1 hm).1
                omega
              · refine hdone k' m _ hm ?_
                rw [BitVec.lt_def] at hlt ⊢
                rw [BitVec.le_def] at ho
                show o'.toNat < X1.curr.toNat
                omega
            rw [responses_append, List.length_append]; omega
    · -- earlier
      cases u with
      | nil =>
        simp only [List.append_nil] at hu1
        simp only [List.nil_append] at hu2
        subst hu1
        cases hs with
        | exec j m ms hm => simp at hu2
        | cycle i hc hs =>
          have ha := accepted_all X1.sys i k
          rw [← hu2] at ha
          have hq : accepted k (Ev.acc k q :: t2) = q :: accepted k t2 := by simp [accepted]
          rw [hq] at ha
          cases hre : (i k).reqEn
          · rw [hre] at ha; simp at ha
          · rw [hre] at ha
            simp only [if_true, List.cons.injEq] at ha
            obtain ⟨o, rest, hsrc, ho⟩ := hs k hre
            have hinv := minv wf hg h0 h
            obtain ⟨t, h1, h2, _⟩ := hinv.taken k
            have hlen : (accepted k tr).length = t.length := by rw [← h2, List.length_map]
            refine ⟨o, ?_, ?_⟩
            · rw [hlen, h1, hsrc, ha.1]; simp
            · intro k' m o' q' hm hlt
              rcases hinv.count with hd | ⟨_, hdone⟩
              · have := hd k'
                have := (List.getElem?_eq_some_iff.1 hm).1
                omega
              · refine hdone k' m _ hm ?_
                rw [BitVec.lt_def] at hlt ⊢
                rw [BitVec.le_def] at ho
                show o'.toNat < X1.curr.toNat
                omega
      | cons x u =>
        rw [List.cons_append, List.cons.injEq] at hu2
        exact ih (t2 := u) (by rw [hu1, hu2.1])

/-- The requests a cache accepts are those of its source, in program order. -/
theorem C37_program_order (wf : p.WF) {g : Prog n p} (hg : g.length < 2 ^ 32) {X X' : MSys n p}
    {tr : List (Ev (Fin n) p)} (h0 : MStart g X) (h : MRun g X tr X') (k : Fin n) :
    accepted k tr <+: (g.of k).map (·.2) := by
  obtain ⟨t, h1, h2, _⟩ := (minv wf hg h0 h).taken k
  rw [h1, List.map_append, h2]
  exact List.prefix_append _ _

/-! ## A concrete execution -/

/-- Inputs of cache `k`: ports ready, its source sends when it may, oldest memory response
delivered (not in the source: example driver). -/
def mDriveIn (X : MSys n p) (k : Fin n) : In p :=
  driveInK X.sys k (match X.src k with
    | (o, q) :: _ => if o ≤ X.curr then some q else none
    | [] => none)

/-- A cycle of the driver if it is allowed (not in the source: example driver). -/
def mCycle (g : Prog n p) (X : MSys n p) : Option (MSys n p × List (Ev (Fin n) p)) :=
  let i := mDriveIn X
  if (∀ k, (i k).reset = false ∧
      ((i k).reqEn = true → ((X.sys.cache k).out (i k)).reqRdy = true ∧ (i k).req.ty ≠ MT.INIT) ∧
      ((i k).mrespEn = true → (X.sys.respQ k).head? = some (i k).mresp)) ∧
     (∀ k, (i k).reqEn = true → (X.src k).head?.map (·.2) = some (i k).req ∧
        (X.src k).head?.any (fun e => decide (e.1 ≤ X.curr)) = true) then
    some ({ sys := X.sys.clockAll i
            src := fun k => if (i k).reqEn then (X.src k).tail else X.src k
            curr := upDownNext false (X.inFlight == 0) false 0 1 1 X.curr
            inFlight := upDownNext (X.inFlight == 0) false (decide (0 < respCount X.sys i))
              (BitVec.ofNat 32 (g.count (X.curr + 1))) 0 (BitVec.ofNat 32 (respCount X.sys i)) X.inFlight },
          X.sys.clockAllEvs i)
  else none

theorem mCycle_step {g : Prog n p} {X X' : MSys n p} {ev : List (Ev (Fin n) p)}
    (h : mCycle g X = some (X', ev)) : MStep g X ev X' := by
  simp only [mCycle] at h
  split at h
  · rename_i hc
    cases h
    refine .cycle X _ (fun k => ⟨(hc.1 k).1, (hc.1 k).2.1, fun hm => ?_⟩) (fun k hq => ?_)
    · have := (hc.1 k).2.2 hm
      cases hr : X.sys.respQ k with
      | nil => rw [hr] at this; cases this
      | cons a l => rw [hr] at this; cases this; exact ⟨l, rfl⟩
    · obtain ⟨h1, h2⟩ := hc.2 k hq
      cases hr : X.src k with
      | nil => rw [hr] at h1; cases h1
      | cons a l =>
        rw [hr] at h1 h2
        simp only [List.head?_cons, Option.map_some, Option.some.injEq, Option.any_some,
          decide_eq_true_eq] at h1 h2
        exact ⟨a.1, l, by rw [← h1], h2⟩
  · cases h

/-- Every port of memory executes a request if there is one (not in the source: example driver). -/
def mMem (X : MSys n p) : List (Fin n) → MSys n p × List (Ev (Fin n) p)
  | [] => (X, [])
  | k :: ks =>
    match X.sys.reqQ k with
    | m :: _ =>
      let y := mMem { X with sys := X.sys.exec k m } ks
      (y.1, .exec k m (memExec X.sys.mem m).2 :: y.2)
    | [] => mMem X ks

/-- not in the source: example driver. -/
def mDrive (g : Prog n p) : Nat → MSys n p → Option (MSys n p × List (Ev (Fin n) p))
  | 0, X => some (X, [])
  | c + 1, X =>
    match mCycle g X with
    | none => none
    | some (X1, ev) =>
      let y := mMem X1 (List.finRange n)
      match mDrive g c y.1 with
      | none => none
      | some z => some (z.1, ev ++ (y.2 ++ z.2))

theorem MRun.trans {g : Prog n p} {X X' X'' : MSys n p} {tr tr' : List (Ev (Fin n) p)} (h : MRun g X tr X')
    (h' : MRun g X' tr' X'') : MRun g X (tr ++ tr') X'' := by
  induction h' with
  | refl => simpa using h
  | snoc _ hs ih => rw [← List.append_assoc]; exact ih.snoc hs

theorem MRun.one {g : Prog n p} {X X' : MSys n p} {ev : List (Ev (Fin n) p)} (h : MStep g X ev X') :
    MRun g X ev X' := by
  simpa using (MRun.refl X).snoc h

theorem mMem_run (g : Prog n p) (X : MSys n p) (ks : List (Fin n)) : MRun g X (mMem X ks).2 (mMem X ks).1 := by
  induction ks generalizing X with
  | nil => exact .refl _
  | cons k ks ih =>
    simp only [mMem]
    split
    · rename_i m ms hm
      exact (MRun.one (.exec X k m ms hm)).trans (ih _)
    · exact ih _

theorem mDrive_run {g : Prog n p} {c : Nat} {X X' : MSys n p} {tr : List (Ev (Fin n) p)}
    (h : mDrive g c X = some (X', tr)) : MRun g X tr X' := by
  induction c generalizing X tr with
  | zero => cases h; exact .refl _
  | succ c ih =>
    simp only [mDrive] at h
    split at h
    · cases h
    · rename_i X1 ev hc
      split at h
      · cases h
      · rename_i z hz
        cases h
        exact (MRun.one (mCycle_step hc)).trans ((mMem_run g _ _).trans (ih hz))

/-- Cache 0 writes and flushes in order 0 and 1, cache 1 reads in order 2 (not in the source: example). -/
def prog2 : Prog 2 p0 :=
  [(0, 0, ⟨MT.WRITE, 0, ⟨1, 0, 0⟩, 0, 5⟩), (0, 1, ⟨MT.FLUSH, 1, ⟨0, 0, 0⟩, 0, 0⟩),
   (1, 2, ⟨MT.READ, 1, ⟨1, 0, 0⟩, 0, 0⟩), (0, 3, ⟨MT.READ, 0, ⟨1, 0, 0⟩, 0, 0⟩)]

/-- Not in the source: example start state. -/
def mstart : MSys 2 p0 :=
  ⟨⟨fun _ => (start0 p0).cache (), fun _ => [], fun _ => [], mem0⟩, prog2.of, 0, BitVec.ofNat 32 (prog2.count 0)⟩

theorem mstart_start : MStart prog2 mstart :=
  ⟨⟨fun _ => ⟨garbage p0, ⟨true, false, default, true, true, false, default⟩, rfl, rfl⟩, fun _ => rfl, fun _ => rfl⟩,
    fun _ => rfl, rfl, rfl⟩

/-- The whole program runs; cache 1 reads the value flushed by cache 0. -/
example : ∃ X' tr, MRun prog2 mstart tr X' ∧ (accepted 0 tr).length = 3 ∧
    (responses 0 tr).map (fun r => r.data.toNat) = [0, 0, 5] ∧
    (responses 1 tr).map (fun r => r.data.toNat) = [5] := by
  have hx : (match mDrive prog2 50 mstart with
      | some x => decide ((accepted 0 x.2).length = 3 ∧
          (responses 0 x.2).map (fun r => r.data.toNat) = [0, 0, 5] ∧
          (responses 1 x.2).map (fun r => r.data.toNat) = [5])
      | none => false) = true := by decide +kernel
  split at hx
  · rename_i x hp
    exact ⟨x.1, x.2, mDrive_run hp, of_decide_eq_true hx⟩
  · cases hx

end Verif
