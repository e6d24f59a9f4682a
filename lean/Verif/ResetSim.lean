import Verif.ResetSys
import Verif.PropsReset
import Verif.HetLemmas

/-!
# A reset cache is a new cache

Every execution in which caches are reset is an execution of the system of `Hetero.lean`
without resets that has one cache per life of each cache.
-/

set_option linter.unusedSectionVars false

namespace Verif

section
variable {p : Params}

theorem clockEvs_silent {S : Sys Unit p} {i : In p} (h1 : i.reqEn = false) (h2 : ((S.cache ()).out i).mreqEn = false)
    (h3 : ((S.cache ()).out i).respEn = false) : S.clockEvs () i = [] := by
  simp only [Sys.clockEvs]; rw [h1, h2, h3]; rfl

theorem clock_silent_reqQ {S : Sys Unit p} {i : In p} (h2 : ((S.cache ()).out i).mreqEn = false) :
    (S.clock () i).reqQ () = S.reqQ () := by
  simp only [Sys.clock, upd_same]; rw [h2]; simp

/-- A cache with an empty port that has just been reset. Proof device; not in the source. -/
def FreshNode (n : Node p) : Prop := ∀ M, Start (n.on M)

/-- The cache state `j` clock edges after a reset: but for a memory response in the input
register, a state that a freshly reset cache reaches silently. Proof device; not in the source. -/
structure ResetQuiet (j : Nat) (c : St p) (n : Node p) (T : St p) : Prop where
  fresh : FreshNode n
  run : ∀ M, Run (n.on M) [] ((⟨T, [], []⟩ : Node p).on M)
  init : PInit T
  cnt : T.cnt.toNat + j + 1 = p.nLines
  cache : ∃ b, c = T.withEn b

theorem ResetQuiet.reset (s : St p) (i : In p) (h : i.reset = true) :
    ResetQuiet 0 (s.step i) ⟨s.step i, [], []⟩ (s.step i) := by
  refine ⟨fun M => ⟨fun _ => ⟨s, i, h, rfl⟩, fun _ => rfl, fun _ => rfl⟩, fun M => .refl _, reset_PInit s i h, ?_, false, ?_⟩
  · have : (s.step i).cnt = cntMax p := by simp only [St.step, h]; rfl
    rw [this, cntMax_toNat, nLines_eq]
    have := Nat.two_pow_pos p.cntBits; omega
  · rw [St.withEn_self]; exact (reset_PInit s i h).mem

/-- The outputs are silent. -/
theorem ResetQuiet.silent {j : Nat} {c : St p} {n : Node p} {T : St p} (h : ResetQuiet j c n T) (i : In p) :
    (c.out i).reqRdy = false ∧ (c.out i).respEn = false ∧ (c.out i).mreqEn = false := by
  obtain ⟨b, rfl⟩ := h.cache
  have q := quietEdge h.init b i
  exact ⟨q.noReq, q.noResp, q.noMem⟩

theorem ResetQuiet.next {j : Nat} {c : St p} {n : Node p} {T : St p} (h : ResetQuiet j c n T) (i : In p) (hr : i.reset = false)
    (hj : j + 1 < p.nLines) : ∃ T', ResetQuiet (j + 1) (c.step i) n T' := by
  obtain ⟨b, hb⟩ := h.cache
  have q := quietEdge h.init b i
  let i' := T.shadowIn b i
  have hst : i'.reset = false := hr
  have hre : i'.reqEn = false := rfl
  have hme : i'.mrespEn = false := rfl
  have hnx : T.step i' = T.next i' := by simp [St.step, hst]
  have g := step_init (U := True) T i' rfl h.init
  have hg : PInit (T.next i') ∧ T.cnt ≠ 0 ∧ (T.next i').cnt = T.cnt - 1 := by
    rcases g.next with g | g
    · exact g
    · have := h.cnt
      rw [g.1] at this; simp at this; omega
  refine ⟨T.next i', h.fresh, ?_, hg.1, ?_, i.mrespEn, ?_⟩
  · intro M
    have hcl : ((⟨T, [], []⟩ : Node p).on M).CanClock () i' :=
      ⟨hst, fun hx => by rw [hre] at hx; simp at hx, fun hx => by rw [hme] at hx; simp at hx⟩
    have hev : ((⟨T, [], []⟩ : Node p).on M).clockEvs () i' = [] := clockEvs_silent hre q.noMem' q.noResp'
    have hrq := clock_silent_reqQ (S := (⟨T, [], []⟩ : Node p).on M) (i := i') q.noMem'
    have := (h.run M).snoc (.clock _ () i' hcl)
    rw [hev] at this
    refine cast ?_ this
    congr 1
    have e : ∀ A : Sys Unit p, A.cache () = T.next i' → A.reqQ () = [] → A.respQ () = [] → A.mem = M →
        A = (⟨T.next i', [], []⟩ : Node p).on M := by
      intro A h1 h2 h3 h4
      cases A
      simp only [Node.on, Sys.mk.injEq]
      exact ⟨funext fun _ => h1, funext fun _ => h2, funext fun _ => h3, h4⟩
    refine e _ hnx hrq ?_ rfl
    simp only [Sys.clock, upd_same]; rw [hme]; rfl
  · have h1 := h.cnt
    have h2 : (T.next i').cnt.toNat = T.cnt.toNat - 1 := by rw [hg.2.2]; exact sub_one_toNat _ hg.2.1
    have h3 : T.cnt.toNat ≠ 0 := fun hx => hg.2.1 (BitVec.eq_of_toNat_eq (by simpa using hx))
    omega
  · rw [hb]; simp only [St.step, hr]; exact q.next

/-- `Shadow` for one cache and its port. Proof device; not in the source. -/
def NShadow (n n' : Node p) : Prop := ∀ M, Shadow (n.on M) (n'.on M)

theorem Shadow.node {S T : Sys Unit p} (h : Shadow S T) : NShadow S.node T.node :=
  fun _ => ⟨fun k => h.cache k, by funext k; exact congrFun h.reqQ k, by funext k; exact congrFun h.respQ k, rfl⟩

theorem NShadow.refl (n : Node p) : NShadow n n := fun _ => ⟨fun _ => .inl rfl, rfl, rfl, rfl⟩

/-- The port is empty: the cache is the shadow of a freshly reset one. -/
theorem ResetQuiet.again {j : Nat} {m n : Node p} {T : St p} (h : ResetQuiet j m.cache n T) (hq : m.reqQ = []) (hp : m.respQ = []) :
    NShadow m ⟨T, [], []⟩ :=
  fun _ => ⟨fun _ => .inr ⟨h.init, rfl, rfl, h.cache⟩, by funext _; exact hq, by funext _; exact hp, rfl⟩

end

section
variable {ι : Type} [DecidableEq ι] {p : ι → Params}

theorem RSys.put_same (R : RSys ι p) (k : ι) (S : Sys Unit (p k)) (s : Option Nat) :
    (R.put k S s).sys.node k = S.node := setNode_same ..

theorem RSys.put_other (R : RSys ι p) {k k' : ι} (h : k' ≠ k) (S : Sys Unit (p k)) (s : Option Nat) :
    (R.put k S s).sys.node k' = R.sys.node k' := setNode_other _ _ h

theorem byLife_append (g : ι → Nat) (a b : List (REv ι p)) :
    byLife g (a ++ b) = byLife g a ++ byLife (lives g a) b := by
  induction a generalizing g with
  | nil => rfl
  | cons e a ih => cases e <;> simp only [List.cons_append, byLife, lives, ih]

theorem lives_append (g : ι → Nat) (a b : List (REv ι p)) : lives g (a ++ b) = lives (lives g a) b := by
  induction a generalizing g with
  | nil => rfl
  | cons e a ih => cases e <;> simp only [List.cons_append, lives, ih]

theorem byLife_evsAt (g : ι → Nat) (k : ι) (ev : List (Ev Unit (p k))) :
    byLife g (evsAt k ev) = ev.map (fun e => (⟨(k, g k), e⟩ : HEv (ι × Nat) (fun x => p x.1))) := by
  induction ev with
  | nil => rfl
  | cons e ev ih => exact congrArg (_ :: ·) ih

theorem lives_evsAt (g : ι → Nat) (k : ι) (ev : List (Ev Unit (p k))) : lives g (evsAt k ev) = g := by
  induction ev with
  | nil => rfl
  | cons e ev ih => exact ih

/-- The caches that have been reset are in the state C59 describes. Proof device; not in the source. -/
def RQuiet (R : RSys ι p) : Prop := ∀ k j, R.since k = some j → ∃ n T, ResetQuiet j (R.sys.node k).cache n T

/-- The system `H` with one cache per life follows `R`, the caches being in their lives `g`. Proof device; not in the source. -/
structure RSim (R : RSys ι p) (g : ι → Nat) (H : HSys (ι × Nat) (fun x => p x.1)) : Prop where
  mem : H.mem = R.sys.mem
  run : ∀ k, R.since k = none → NShadow (R.sys.node k) (H.node (k, g k))
  port : ∀ k, R.since k ≠ none → (H.node (k, g k)).reqQ = (R.sys.node k).reqQ

theorem RQuiet.put {R : RSys ι p} (h : RQuiet R) (k : ι) (S : Sys Unit (p k)) (s : Option Nat)
    (hs : ∀ j, s = some j → ∃ n T, ResetQuiet j S.node.cache n T) : RQuiet (R.put k S s) := by
  intro k' j hj
  by_cases hk : k' = k
  · subst hk
    rw [RSys.put_same]
    exact hs j (by simpa [RSys.put] using hj)
  · rw [RSys.put_other _ hk]
    exact h k' j (by simpa [RSys.put, upd_other _ hk] using hj)

theorem RQuiet.step {R R' : RSys ι p} {ev : List (REv ι p)} (h : RQuiet R) (hs : RStep R ev R') : RQuiet R' := by
  cases hs with
  | run k hn ev S hs => exact h.put k S _ (fun j hj => by simp at hj)
  | reset k i hr hm =>
    refine h.put k _ _ fun j hj => ?_
    simp only [Option.some.injEq] at hj; subst hj
    exact ⟨_, _, .reset (R.sys.node k).cache i hr⟩
  | quiet k j hn hj i hc =>
    obtain ⟨n, T, q⟩ := h k j hn
    refine h.put k _ _ fun j' hj' => ?_
    simp only [Option.some.injEq] at hj'; subst hj'
    obtain ⟨T', q'⟩ := q.next i hc.noReset hj
    exact ⟨n, T', q'⟩
  | exec k j hn m ms hm =>
    obtain ⟨n, T, q⟩ := h k j hn
    refine h.put k _ _ fun j' hj' => ?_
    simp only [Option.some.injEq] at hj'; subst hj'
    exact ⟨n, T, q⟩
  | again k j hn hq hp => exact h.put k _ _ (fun j hj => by simp at hj)

/-- The cache `k` of `R`, in life `g k`, is replaced; the shadow system follows. -/
theorem RSim.put {R : RSys ι p} {g : ι → Nat} {H : HSys (ι × Nat) (fun x => p x.1)} (h : RSim R g H) (k : ι)
    (S S' : Sys Unit (p k)) (s : Option Nat) (hm : S'.mem = S.mem) (h1 : s = none → NShadow S.node S'.node)
    (h2 : s ≠ none → S'.node.reqQ = S.node.reqQ) :
    RSim (R.put k S s) g ⟨H.setNode (k, g k) S'.node, S'.mem⟩ := by
  refine ⟨hm, ?_, ?_⟩
  · intro k' hk'
    by_cases hk : k' = k
    · subst hk
      dsimp only
      rw [setNode_same, RSys.put_same]
      exact h1 (by simpa [RSys.put] using hk')
    · dsimp only
      rw [setNode_other _ _ (by simp [hk]), RSys.put_other _ hk]
      exact h.run k' (by simpa [RSys.put, upd_other _ hk] using hk')
  · intro k' hk'
    by_cases hk : k' = k
    · subst hk
      dsimp only
      rw [setNode_same, RSys.put_same]
      exact h2 (by simpa [RSys.put] using hk')
    · dsimp only
      rw [setNode_other _ _ (by simp [hk]), RSys.put_other _ hk]
      exact h.port k' (by simpa [RSys.put, upd_other _ hk] using hk')

/-- All that is known of the shadow system after the events `tr`: it has one cache per life,
and the caches of later lives are the fresh ones `F`, not yet used. Proof device; not in the source. -/
structure Lives (M : ByteMem) (R : RSys ι p) (tr : List (REv ι p)) (F : ∀ x : ι × Nat, Node (p x.1)) : Prop where
  ex : ∃ H H' : HSys (ι × Nat) (fun x => p x.1), HStart H ∧ H.mem = M ∧ HetRun H (byLife (fun _ => 0) tr) H' ∧
    RSim R (lives (fun _ => 0) tr) H' ∧ ∀ k n, lives (fun _ => 0) tr k < n → H'.node (k, n) = F (k, n)

/-- One step of the current life of cache `k`. -/
theorem Lives.next {M : ByteMem} {R : RSys ι p} {tr : List (REv ι p)} {F : ∀ x : ι × Nat, Node (p x.1)}
    (h : Lives M R tr F) (k : ι) (ev : List (Ev Unit (p k))) (S : Sys Unit (p k)) (s : Option Nat)
    (hs : ∀ n : Node (p k), (R.since k = none → NShadow (R.sys.node k) n) →
      (R.since k ≠ none → n.reqQ = (R.sys.node k).reqQ) →
      ∃ S' : Sys Unit (p k), Run (n.on R.sys.mem) ev S' ∧ S'.mem = S.mem ∧ (s = none → NShadow S.node S'.node) ∧
        (s ≠ none → S'.node.reqQ = S.node.reqQ)) :
    Lives M (R.put k S s) (tr ++ evsAt k ev) F := by
  obtain ⟨H, H', h0, hM, hr, hsim, hF⟩ := h
  obtain ⟨S', r, e1, e2, e3⟩ := hs (H'.node (k, lives (fun _ => 0) tr k)) (hsim.run k) (hsim.port k)
  rw [← hsim.mem] at r
  refine ⟨H, ⟨H'.setNode (k, lives (fun _ => 0) tr k) S'.node, S'.mem⟩, h0, hM, ?_, ?_, ?_⟩
  · rw [byLife_append, byLife_evsAt]
    exact hr.trans (node_run r)
  · rw [lives_append, lives_evsAt]
    exact hsim.put k S S' s e1 e2 e3
  · intro k' n hn
    rw [lives_append, lives_evsAt] at hn
    dsimp only
    rw [setNode_other]
    · exact hF k' n hn
    · intro he
      simp only [Prod.mk.injEq] at he
      rw [he.1, he.2] at hn
      exact Nat.lt_irrefl _ hn

theorem NShadow.step {q : Params} {n n' : Node q} (h : NShadow n n') {M : ByteMem} {ev : List (Ev Unit q)} {S : Sys Unit q}
    (hs : Step (n.on M) ev S) : ∃ S', Run (n'.on M) ev S' ∧ S'.mem = S.mem ∧ NShadow S.node S'.node := by
  obtain ⟨T, t, u⟩ := (h M).step hs
  exact ⟨T, .one t, u.mem.symm, u.node⟩

/-- What a step that is no `again` does, seen from the cache `n` that follows cache `k`. Proof device; not in the source. -/
def Follow (R : RSys ι p) (k : ι) (ev : List (Ev Unit (p k))) (S : Sys Unit (p k)) (s : Option Nat) : Prop :=
  ∀ n : Node (p k), (R.since k = none → NShadow (R.sys.node k) n) →
    (R.since k ≠ none → n.reqQ = (R.sys.node k).reqQ) →
    ∃ S' : Sys Unit (p k), Run (n.on R.sys.mem) ev S' ∧ S'.mem = S.mem ∧ (s = none → NShadow S.node S'.node) ∧
      (s ≠ none → S'.node.reqQ = S.node.reqQ)

theorem rstep_cases {R R' : RSys ι p} {ev : List (REv ι p)} (hq : RQuiet R) (hs : RStep R ev R') :
    (∃ k ev' S s, ev = evsAt k ev' ∧ R' = R.put k S s ∧ Follow R k ev' S s) ∨
    ∃ k j, ev = [.again k] ∧ R.since k = some j ∧ (R.sys.node k).reqQ = [] ∧ (R.sys.node k).respQ = [] ∧
      R' = R.put k (R.one k) none := by
  cases hs with
  | run k hn ev S hs =>
    refine .inl ⟨k, ev, S, none, rfl, rfl, fun n h1 _ => ?_⟩
    obtain ⟨S', a, b, c⟩ := (h1 hn).step hs
    exact ⟨S', a, b, fun _ => c, fun hx => absurd rfl hx⟩
  | reset k i hr hm =>
    refine .inl ⟨k, _, _, _, rfl, rfl, fun n h1 h2 => ?_⟩
    cases hsn : R.since k with
    | none =>
      let i' : In (p k) := { i with reset := false, reqEn := false, mrespEn := false }
      have hcl : Step ((R.sys.node k).on R.sys.mem) _ _ := .clock ((R.sys.node k).on R.sys.mem) () i'
        ⟨rfl, fun h => by simp [i'] at h, fun h => by simp [i'] at h⟩
      obtain ⟨S', a, b, c⟩ := (h1 hsn).step hcl
      refine ⟨S', a, b, fun hx => by simp at hx, fun _ => ?_⟩
      exact ((congrFun (c R.sys.mem).reqQ ()).symm)
    | some j =>
      obtain ⟨m, T, q⟩ := hq k j hsn
      have hz := q.silent i
      have hz' := q.silent { i with reqEn := false }
      refine ⟨n.on R.sys.mem, ?_, rfl, fun hx => by simp at hx, fun _ => ?_⟩
      · have : (R.one k).clockEvs () { i with reqEn := false } = [] := clockEvs_silent rfl hz'.2.2 hz'.2.1
        rw [this]; exact .refl _
      · exact (h2 (by rw [hsn]; simp)).trans (clock_silent_reqQ (S := R.one k) hz.2.2).symm
  | quiet k j hn hj i hc =>
    obtain ⟨m, T, q⟩ := hq k j hn
    have hz := q.silent i
    have hre : i.reqEn = false := by
      cases hx : i.reqEn
      · rfl
      · have := (hc.req hx).1
        simp only [RSys.one, Node.on] at this
        rw [hz.1] at this; simp at this
    refine .inl ⟨k, _, _, _, rfl, rfl, fun n _ h2 => ?_⟩
    refine ⟨n.on R.sys.mem, ?_, rfl, fun hx => by simp at hx, fun _ => ?_⟩
    · have : (R.one k).clockEvs () i = [] := clockEvs_silent hre hz.2.2 hz.2.1
      rw [this]; exact .refl _
    · exact (h2 (by rw [hn]; simp)).trans (clock_silent_reqQ (S := R.one k) hz.2.2).symm
  | exec k j hn m ms hm =>
    refine .inl ⟨k, _, _, _, rfl, rfl, fun n _ h2 => ?_⟩
    have e := h2 (by rw [hn]; simp)
    refine ⟨(n.on R.sys.mem).exec () m, .one (.exec (n.on R.sys.mem) () m ms ?_), rfl, fun hx => by simp at hx, fun _ => ?_⟩
    · simp only [Node.on]; rw [e]; exact hm
    · simp only [Sys.node, Sys.exec, RSys.one, Node.on, upd]; rw [e]
  | again k j hn hqe hpe => exact .inr ⟨k, j, rfl, hn, hqe, hpe, rfl⟩

theorem lives_step {M : ByteMem} {R R' : RSys ι p} {tr ev : List (REv ι p)} (hq : RQuiet R)
    (h : ∀ F : ∀ x : ι × Nat, Node (p x.1), (∀ x, FreshNode (F x)) → Lives M R tr F) (hs : RStep R ev R')
    (F : ∀ x : ι × Nat, Node (p x.1)) (hF : ∀ x, FreshNode (F x)) : Lives M R' (tr ++ ev) F := by
  rcases rstep_cases hq hs with ⟨k, ev, S, s, rfl, rfl, hf⟩ | ⟨k, j, rfl, hn, hqe, hpe, rfl⟩
  · exact (h F hF).next k ev S s hf
  · -- the next life begins
    obtain ⟨m, T, q⟩ := hq k j hn
    let g := lives (fun _ => 0) tr
    let F' : ∀ x : ι × Nat, Node (p x.1) := (⟨F, M⟩ : HSys (ι × Nat) (fun x => p x.1)).setNode (k, g k + 1) m
    have hF' : ∀ x, FreshNode (F' x) := by
      intro x
      by_cases hx : x = (k, g k + 1)
      · subst hx
        show FreshNode (HSys.setNode _ _ _ _)
        rw [setNode_same]; exact q.fresh
      · show FreshNode (HSys.setNode _ _ _ _)
        rw [setNode_other _ _ hx]; exact hF x
    obtain ⟨H, H', h0, hM, hr, hsim, hFx⟩ := h F' hF'
    have hnode : H'.node (k, g k + 1) = m := by
      rw [hFx k (g k + 1) (Nat.lt_succ_self _)]
      exact setNode_same ..
    have hl : lives (fun _ => 0) (tr ++ [REv.again k]) = upd g k (g k + 1) := by rw [lives_append]; rfl
    have hb : byLife (fun _ => 0) (tr ++ [REv.again k]) = byLife (fun _ => 0) tr := by
      rw [byLife_append]; simp [byLife]
    refine ⟨H, ⟨H'.setNode (k, g k + 1) ⟨T, [], []⟩, H'.mem⟩, h0, hM, ?_, ?_, ?_⟩
    · rw [hb]
      have := node_run (H := H') (k := (k, g k + 1)) (tr := []) (S := (⟨T, [], []⟩ : Node (p k)).on H'.mem)
        (by rw [hnode]; exact q.run _)
      have := hr.trans this
      rw [List.map_nil, List.append_nil] at this
      exact this
    · rw [hl]
      refine ⟨hsim.mem, ?_, ?_⟩
      · intro k' hk'
        by_cases hk : k' = k
        · subst hk
          dsimp only
          rw [upd_same, setNode_same, RSys.put_same]
          exact q.again hqe hpe
        · dsimp only
          rw [upd_other _ hk, setNode_other _ _ (by simp [hk]), RSys.put_other _ hk]
          exact hsim.run k' (by simpa [RSys.put, upd_other _ hk] using hk')
      · intro k' hk'
        by_cases hk : k' = k
        · subst hk
          simp [RSys.put] at hk'
        · dsimp only
          rw [upd_other _ hk, setNode_other _ _ (by simp [hk]), RSys.put_other _ hk]
          exact hsim.port k' (by simpa [RSys.put, upd_other _ hk] using hk')
    · intro k' n hn
      rw [hl] at hn
      dsimp only
      by_cases hk : k' = k
      · subst hk
        rw [upd_same] at hn
        rw [setNode_other _ _ (by simp; omega), hFx k' n (by show g k' < n; omega)]
        exact setNode_other _ _ (by simp; omega)
      · rw [upd_other _ hk] at hn
        rw [setNode_other _ _ (by simp [hk]), hFx k' n hn]
        exact setNode_other _ _ (by simp [hk])

theorem lives_run {R R' : RSys ι p} {tr : List (REv ι p)} (h0 : RStart R) (h : RRun R tr R') :
    RQuiet R' ∧ ∀ F : ∀ x : ι × Nat, Node (p x.1), (∀ x, FreshNode (F x)) → Lives R.sys.mem R' tr F := by
  induction h with
  | refl =>
    refine ⟨fun k j hj => by rw [h0.2 k] at hj; simp at hj, fun F hF => ?_⟩
    let N : ∀ x : ι × Nat, Node (p x.1) := fun x => if x.2 = 0 then R.sys.node x.1 else F x
    refine ⟨⟨N, R.sys.mem⟩, ⟨N, R.sys.mem⟩, ?_, rfl, .refl _, ⟨rfl, ?_, ?_⟩, ?_⟩
    · intro x
      show Start ((N x).on R.sys.mem)
      by_cases hx : x.2 = 0
      · simp only [N, hx, if_true]; exact h0.1 x.1
      · simp only [N, hx, if_false]; exact hF x _
    · intro k _
      show NShadow _ (N (k, 0))
      simp only [N, if_true]; exact .refl _
    · intro k hk; exact absurd (h0.2 k) hk
    · intro k n hn
      have hn' : n ≠ 0 := by intro hx; subst hx; exact Nat.lt_irrefl _ hn
      simp only [N, hn', if_false]
  | snoc _ hs ih =>
    obtain ⟨a, b⟩ := ih
    exact ⟨a.step hs, lives_step a b hs⟩

end

end Verif
