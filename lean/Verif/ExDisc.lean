import Verif.PropsDisc
import Verif.ExModel

/-!
# C65 on the concrete execution of `ExModel.lean`

The predicates of `SpecDisc.lean` are decided by checking all positions of a history.
-/

namespace Verif.WM
variable {ι : Type} [DecidableEq ι]

instance (q : Req) (W : Nat) : Decidable (q.releases W) := inferInstanceAs (Decidable (_ ∨ _))
instance (q : Req) (W : Nat) : Decidable (q.acquires W) := inferInstanceAs (Decidable (_ ∨ _))

theorem split_iff {α : Type} {tr a b : List α} {x : α} : tr = a ++ x :: b ↔
    ∃ n ∈ List.range tr.length, tr[n]? = some x ∧ a = tr.take n ∧ b = tr.drop (n + 1) := by
  constructor
  · rintro rfl
    refine ⟨a.length, by simp, by simp, by simp, ?_⟩
    rw [List.drop_append]; simp
  · rintro ⟨n, _, h2, rfl, rfl⟩
    exact split_at h2

/-- `Released`, decided. Example; not in the source. -/
def releasedB (k : ι) (W : Nat) (a b : List (Ev ι)) : Bool :=
  (List.range b.length).any fun n => match b[n]? with
    | some (.acc k' f) => decide (k' = k ∧ f.releases W ∧
        (accepted k (a ++ b.take n)).length < (responses k (a ++ b)).length)
    | _ => false

theorem releasedB_iff (k : ι) (W : Nat) (a b : List (Ev ι)) : releasedB k W a b = true ↔ Released k W a b := by
  simp only [releasedB, List.any_eq_true]
  constructor
  · rintro ⟨n, h1, h2⟩
    split at h2
    · rename_i k' f he
      simp only [decide_eq_true_eq] at h2
      obtain ⟨rfl, h3, h4⟩ := h2
      exact ⟨_, f, _, split_at he, h3, h4⟩
    · cases h2
  · rintro ⟨c, f, d, h1, h2, h3⟩
    obtain ⟨n, h4, h5, rfl, rfl⟩ := split_iff.1 h1
    exact ⟨n, h4, by rw [h5]; simp [h2]; simpa using h3⟩

instance (k : ι) (W : Nat) (a b : List (Ev ι)) : Decidable (Released k W a b) :=
  decidable_of_iff _ (releasedB_iff k W a b)

/-- `OthersReleased`, decided. Example; not in the source. -/
def othersB (k : ι) (W : Nat) (tr : List (Ev ι)) : Bool :=
  (List.range tr.length).all fun n => match tr[n]? with
    | some (.acc k' q) => decide (k' ≠ k → q.stores W → Released k' W (tr.take n) (.acc k' q :: tr.drop (n + 1)))
    | _ => true

theorem othersB_iff (k : ι) (W : Nat) (tr : List (Ev ι)) : othersB k W tr = true ↔ OthersReleased k W tr := by
  simp only [othersB, List.all_eq_true]
  constructor
  · intro h k' hk a q b he hs
    obtain ⟨n, h1, h2, rfl, rfl⟩ := split_iff.1 he
    have := h n h1
    rw [h2] at this
    exact of_decide_eq_true this hk hs
  · intro h n hn
    split
    · rename_i k' q he
      exact decide_eq_true fun hk hs => h k' hk _ q _ (split_at he) hs
    · rfl

instance (k : ι) (W : Nat) (tr : List (Ev ι)) : Decidable (OthersReleased k W tr) :=
  decidable_of_iff _ (othersB_iff k W tr)

/-- `UpToDate`, decided. Example; not in the source. -/
def upB (k : ι) (W : Nat) (tr : List (Ev ι)) : Bool :=
  (List.range tr.length).all fun n => match tr[n]? with
    | some (.acc k' q) => decide (k' ≠ k → q.stores W → ((List.range (tr.drop (n + 1)).length).any fun m =>
        match (tr.drop (n + 1))[m]? with
        | some (.acc k2 i) => decide (k2 = k ∧ i.acquires W ∧
            Released k' W (tr.take n) (.acc k' q :: (tr.drop (n + 1)).take m))
        | _ => false) = true)
    | _ => true

theorem upB_iff (k : ι) (W : Nat) (tr : List (Ev ι)) : upB k W tr = true ↔ UpToDate k W tr := by
  simp only [upB, List.all_eq_true]
  constructor
  · intro h k' hk a q b he hs
    obtain ⟨n, h1, h2, rfl, rfl⟩ := split_iff.1 he
    have := h n h1
    rw [h2] at this
    have := of_decide_eq_true this hk hs
    rw [List.any_eq_true] at this
    obtain ⟨m, h3, h4⟩ := this
    split at h4
    · rename_i k2 i he2
      obtain ⟨rfl, h5, h6⟩ := of_decide_eq_true h4
      exact ⟨_, i, _, split_at he2, h5, h6⟩
    · cases h4
  · intro h n hn
    split
    · rename_i k' q he
      refine decide_eq_true fun hk hs => ?_
      obtain ⟨c, i, d, h1, h2, h3⟩ := h k' hk _ q _ (split_at he) hs
      rw [List.any_eq_true]
      obtain ⟨m, h4, h5, rfl, rfl⟩ := split_iff.1 h1
      refine ⟨m, h4, ?_⟩
      rw [h5]
      exact decide_eq_true ⟨rfl, h2, h3⟩
    · rfl

instance (k : ι) (W : Nat) (tr : List (Ev ι)) : Decidable (UpToDate k W tr) := decidable_of_iff _ (upB_iff k W tr)

/-- `Disciplined`, decided. -/
def discB (W : Nat) (tr : List (Ev ι)) : Bool :=
  (List.range tr.length).all fun n => match tr[n]? with
    | some (.acc k q) => decide ((q.ty = MT.WRITE ∧ q.covers W → UpToDate k W (tr.take n)) ∧
        (MT.isAmo q.ty = true ∧ q.addr / 4 = W → OthersReleased k W (tr.take n)))
    | _ => true

theorem discB_iff (W : Nat) (tr : List (Ev ι)) : discB W tr = true ↔ Disciplined W tr := by
  simp only [discB, List.all_eq_true]
  constructor
  · intro h k a q b he
    obtain ⟨n, h1, h2, rfl, rfl⟩ := split_iff.1 he
    have := h n h1
    rw [h2] at this
    exact of_decide_eq_true this
  · intro h n hn
    split
    · rename_i k q he
      exact decide_eq_true (h k _ q _ (split_at he))
    · rfl

instance (W : Nat) (tr : List (Ev ι)) : Decidable (Disciplined W tr) := decidable_of_iff _ (discB_iff W tr)

end Verif.WM

namespace Verif


/-- The events of `ExModel.lean` before the last READ of cache `false`. Example; not in the source. -/
def visA : List (WM.Ev Bool) :=
  [.acc false ⟨MT.WRITE, 0, 16, 0, 4, 100⟩, .acc false ⟨MT.READ, 1, 16, 0, 4, 0⟩,
   .acc false ⟨MT.FLUSH, 0, 0, 0, 4, 0⟩, .resp false ⟨MT.WRITE, 0, 0, 0⟩,
   .resp false ⟨MT.READ, 1, 0, 100⟩, .resp false ⟨MT.FLUSH, 0, 0, 0⟩,
   .acc true ⟨MT.READ, 0, 16, 0, 4, 0⟩, .acc true ⟨3, 1, 16, 0, 4, 5⟩,
   .resp true ⟨MT.READ, 0, 0, 100⟩, .resp true ⟨3, 1, 0, 100⟩,
   .acc false ⟨MT.READ, 0, 16, 0, 4, 0⟩, .acc false ⟨MT.INV, 1, 0, 0, 4, 0⟩,
   .resp false ⟨MT.READ, 0, 0, 100⟩]

/-- Those after it. Example; not in the source. -/
def visB : List (WM.Ev Bool) := [.resp false ⟨MT.INV, 1, 0, 0⟩, .resp false ⟨MT.READ, 0, 0, 105⟩]

theorem visible_split : visible trH = visA ++ .acc false ⟨MT.READ, 0, 16, 0, 4, 0⟩ :: visB := trH_visible

theorem word4 {W : Nat} (h : (⟨MT.READ, 0, 16, 0, 4, 0⟩ : WM.Req).reads W) : W = 4 := by
  rcases h with ⟨_, h1, h2⟩ | ⟨h, _⟩
  · simp only at h1 h2; omega
  · exact absurd h (by decide)

theorem visDisc : WM.Disciplined 4 (visible trH) := by rw [trH_visible]; decide +kernel

theorem visUp : WM.UpToDate false 4 visA := by decide +kernel

/-- The last READ: 105, because 100 was flushed before the AMO of the other cache added 5
and INV came before the READ. -/
example : (⟨MT.READ, 0, 0, 105⟩ : WM.Resp) =
    ⟨MT.READ, 0, 0, (WM.flat (WM.latest mem0 visA) ⟨MT.READ, 0, 16, 0, 4, 0⟩).2⟩ := by
  refine C65_responses pH_wf startH_start trH_run trH_valid visible_split ?_ ?_ ?_
  · intro W hW; rw [word4 hW]; exact visDisc
  · intro W hW _
    rw [word4 hW]
    refine ⟨visUp, ?_⟩
    intro k' _ c q' d hc
    exfalso
    have : WM.Ev.acc k' q' ∈ visB := by rw [hc]; simp
    simp [visB] at this
  · rw [trH_visible]; decide +kernel

/-- The response is what one flat memory would have given. -/
example : (WM.flat (WM.latest mem0 visA) ⟨MT.READ, 0, 16, 0, 4, 0⟩).2 = 105 := by decide +kernel

/-- All stores to word 4 are released, so memory has the latest contents. -/
example : hetC.1.mem 16 = 105 := by
  have h := C65_memory pH_wf startH_start trH_run trH_valid (W := 4) visDisc ?_ (x := 16) rfl
  · rw [h, trH_visible]; decide +kernel
  · rw [trH_visible]
    intro k a q b he hs
    cases k
    · exact (by decide +kernel : WM.OthersReleased true 4 _) false (by decide) a q b he hs
    · exact (by decide +kernel : WM.OthersReleased false 4 _) true (by decide) a q b he hs

/-- The discipline is needed: the READ before INV was given to a cache that was not up to
date, and it returned stale data. -/
example : ∃ a b, visible trH = a ++ .acc false ⟨MT.READ, 0, 16, 0, 4, 0⟩ :: b ∧ ¬ WM.UpToDate false 4 a ∧
    (WM.responses false (visible trH))[(WM.accepted false a).length]? = some ⟨MT.READ, 0, 0, 100⟩ ∧
    (WM.flat (WM.latest mem0 a) ⟨MT.READ, 0, 16, 0, 4, 0⟩).2 = 105 := by
  refine ⟨visA.take 10, .acc false ⟨MT.INV, 1, 0, 0, 4, 0⟩ :: .resp false ⟨MT.READ, 0, 0, 100⟩ ::
    .acc false ⟨MT.READ, 0, 16, 0, 4, 0⟩ :: visB, trH_visible, by decide +kernel, ?_, by decide +kernel⟩
  rw [trH_visible]; decide +kernel

/-- Word 5, in the same line, is private to cache `false`: untouched. -/
example : hetC.1.mem 20 = 21 := by
  have h := C65_untouched pH_wf startH_start trH_run trH_valid (W := 5) ?_ (x := 20) rfl
  · rw [h]; decide +kernel
  · rw [trH_visible]; intro k; cases k <;> decide +kernel

/-! ## False sharing: the caches write different words of one line and never synchronise -/

/-- Example; not in the source. -/
def fs1 := driveH false 30 startH [⟨MT.WRITE, 0, ⟨1, 0, 0⟩, 0, 100⟩]
/-- Example; not in the source. -/
def fs2 := driveH true 30 fs1.1 [⟨MT.WRITE, 0, ⟨0, 1, 4⟩, 0, 7⟩, ⟨MT.FLUSH, 1, ⟨0, 0, 0⟩, 0, 0⟩]
/-- Example; not in the source. -/
def fs3 := driveH false 30 fs2.1 [⟨MT.READ, 0, ⟨1, 0, 0⟩, 0, 0⟩]

/-- Example; not in the source. -/
def trF : List (HEv Bool pH) :=
  fs1.2.map (fun e => ⟨false, e⟩) ++ fs2.2.map (fun e => ⟨true, e⟩) ++ fs3.2.map (fun e => ⟨false, e⟩)

theorem trF_run : HetRun startH trF fs3.1 :=
  ((driveH_run false 30 startH _).trans (driveH_run true 30 fs1.1 _)).trans (driveH_run false 30 fs2.1 _)

theorem trF_valid : HValid trF := by
  refine hvalid_append (hvalid_append (hvalid_one _ ?_) (hvalid_one _ ?_)) (hvalid_one _ ?_)
  · rw [show accepted () fs1.2 = [⟨MT.WRITE, 0, ⟨1, 0, 0⟩, 0, 100⟩] by decide +kernel]
    intro q hq
    simp only [List.mem_cons, List.not_mem_nil, or_false] at hq
    subst hq
    exact .write rfl 2 (by decide) (by decide) (by decide)
  · rw [show accepted () fs2.2 = [⟨MT.WRITE, 0, ⟨0, 1, 4⟩, 0, 7⟩, ⟨MT.FLUSH, 1, ⟨0, 0, 0⟩, 0, 0⟩] by decide +kernel]
    intro q hq
    simp only [List.mem_cons, List.not_mem_nil, or_false] at hq
    rcases hq with rfl | rfl
    · exact .write rfl 2 (by decide) (by decide) (by decide)
    · exact .flush rfl
  · rw [show accepted () fs3.2 = [⟨MT.READ, 0, ⟨1, 0, 0⟩, 0, 0⟩] by decide +kernel]
    intro q hq
    simp only [List.mem_cons, List.not_mem_nil, or_false] at hq
    subst hq
    exact .read rfl 2 (by decide) (by decide)

/-- Example; not in the source. -/
def fsA : List (WM.Ev Bool) :=
  [.acc false ⟨MT.WRITE, 0, 16, 0, 4, 100⟩, .resp false ⟨MT.WRITE, 0, 0, 0⟩,
   .acc true ⟨MT.WRITE, 0, 20, 0, 4, 7⟩, .acc true ⟨MT.FLUSH, 1, 0, 0, 4, 0⟩,
   .resp true ⟨MT.WRITE, 0, 0, 0⟩, .resp true ⟨MT.FLUSH, 1, 0, 0⟩]

theorem trF_visible : visible trF =
    fsA ++ .acc false ⟨MT.READ, 0, 16, 0, 4, 0⟩ :: [.resp false ⟨MT.READ, 0, 0, 100⟩] := by decide +kernel

attribute [irreducible] fs1 fs2 fs3

example : (⟨MT.READ, 0, 0, 100⟩ : WM.Resp) =
    ⟨MT.READ, 0, 0, (WM.flat (WM.latest mem0 fsA) ⟨MT.READ, 0, 16, 0, 4, 0⟩).2⟩ := by
  refine C65_private pH_wf startH_start trF_run trF_valid trF_visible ?_ ?_
  · intro W hW
    rw [word4 hW, trF_visible]
    intro k' hk
    cases k'
    · exact absurd rfl hk
    · decide +kernel
  · rw [trF_visible]; decide +kernel

end Verif
