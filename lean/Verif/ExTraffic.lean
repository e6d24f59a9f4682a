import Verif.PropsTraffic
import Verif.Exec

/-!
# The hypotheses of C63 are met
-/

namespace Verif
namespace Ex63

/-- Example; not in the source. -/
def wA : CReq p0 := ⟨MT.WRITE, 1, ⟨1, 0, 4⟩, 0, 5⟩
/-- Example; not in the source. -/
def wB : CReq p0 := ⟨MT.WRITE, 0, ⟨2, 0, 0⟩, 0, 6⟩
/-- Example; not in the source. -/
def rC : CReq p0 := ⟨MT.READ, 1, ⟨3, 0, 0⟩, 0, 0⟩
/-- Example; not in the source. -/
def am : CReq p0 := ⟨3, 0, ⟨2, 0, 0⟩, 0, 1⟩
/-- Example; not in the source. -/
def wD : CReq p0 := ⟨MT.WRITE, 0, ⟨0, 1, 0⟩, 0, 7⟩
/-- Example; not in the source. -/
def iv : CReq p0 := ⟨MT.INV, 1, ⟨0, 0, 0⟩, 0, 0⟩
/-- Example; not in the source. -/
def fl : CReq p0 := ⟨MT.FLUSH, 1, ⟨0, 0, 0⟩, 0, 0⟩
/-- Example; not in the source. -/
def rA : CReq p0 := ⟨MT.READ, 1, ⟨1, 0, 4⟩, 0, 0⟩
/-- Example; not in the source. -/
def qs : List (CReq p0) := [wA, wB, rC, rC, am, wA, wD, iv, rA, fl]
/-- Example; not in the source. -/
def run : Sys Unit p0 × List (Ev Unit p0) := drive 160 (start0 p0) qs
/-- Example; not in the source. -/
def tr : List (Ev Unit p0) := run.2
theorem isRun : Run (start0 p0) tr run.1 := drive_run _ _ _

theorem acc : accepted () tr = qs := by decide +kernel

theorem valid : ∀ x ∈ qs, CReq.Valid x := by
  intro x hx
  simp only [qs, List.mem_cons, List.not_mem_nil, or_false] at hx
  rcases hx with rfl | rfl | rfl | rfl | rfl | rfl | rfl | rfl | rfl | rfl
  · exact .write rfl 2 (by decide) (by decide) (by decide)
  · exact .write rfl 2 (by decide) (by decide) (by decide)
  · exact .read rfl 2 (by decide) (by decide)
  · exact .read rfl 2 (by decide) (by decide)
  · exact .amo (by decide) (by decide) (by decide)
  · exact .write rfl 2 (by decide) (by decide) (by decide)
  · exact .write rfl 2 (by decide) (by decide) (by decide)
  · exact .inv rfl
  · exact .read rfl 2 (by decide) (by decide)
  · exact .flush rfl

theorem valid_take (n : Nat) : ∀ x ∈ accepted () (tr.take n), x.Valid := by
  intro x hx
  apply valid
  rw [← acc]
  have : accepted () tr = accepted () (tr.take n) ++ accepted () (tr.drop n) := by
    rw [← accepted_append, List.take_append_drop]
  rw [this]; exact List.mem_append_left _ hx

/-- A word stored at event `n` with only reads sent since. -/
theorem unsaved {n m : Nat} {q : CReq p0} {t : Tag p0} {j : Idx p0} {b : Nat} (hb : b < p0.nWords)
    (h1 : tr.take m = tr.take n ++ .acc () q :: (tr.drop (n + 1)).take (m - n - 1)) (h2 : q.ty = MT.WRITE)
    (h3 : q.writesWord ((⟨t, j, 0⟩ : Addr p0).flat / 4 + b))
    (h4 : ∀ x ∈ sent () ((tr.drop (n + 1)).take (m - n - 1)), x.ty = MT.READ) : LineUnsaved () (tr.take m) t j := by
  refine ⟨b, hb, _, q, _, h1, h2, h3, ?_⟩
  intro x hx hc
  have := hc.1
  rw [h4 x hx] at this
  exact absurd this (by decide)

theorem shape1 : tr = tr.take 7 ++ .acc () rC :: ((tr.drop 8).take 5 ++ tr.drop 13) := by decide +kernel
theorem shape2 : tr = tr.take 13 ++ .acc () rC :: ([] ++ tr.drop 14) := by decide +kernel
theorem shape3 : tr = tr.take 14 ++ .acc () am :: ((tr.drop 15).take 6 ++ tr.drop 21) := by decide +kernel
theorem shape4 : tr = tr.take 31 ++ .acc () rA :: ((tr.drop 32).take 3 ++ tr.drop 35) := by decide +kernel
theorem shape5 : tr = tr.take 35 ++ .acc () fl :: (tr.drop 36 ++ []) := by decide +kernel
theorem shape6 : tr = tr.take 29 ++ .acc () iv :: ((tr.drop 30).take 1 ++ tr.drop 31) := by decide +kernel
theorem win1 : Window () ((tr.drop 8).take 5) (tr.drop 13) := ⟨by decide +kernel, .inr ⟨rC, tr.drop 14, by decide +kernel⟩⟩
theorem win2 : Window () [] (tr.drop 14) := ⟨rfl, .inr ⟨am, tr.drop 15, by decide +kernel⟩⟩
theorem win3 : Window () ((tr.drop 15).take 6) (tr.drop 21) := ⟨by decide +kernel, .inr ⟨wA, tr.drop 22, by decide +kernel⟩⟩
theorem win4 : Window () ((tr.drop 32).take 3) (tr.drop 35) := ⟨by decide +kernel, .inr ⟨fl, tr.drop 36, by decide +kernel⟩⟩
theorem win5 : Window () (tr.drop 36) [] := ⟨by decide +kernel, .inl rfl⟩
theorem win6 : Window () ((tr.drop 30).take 1) (tr.drop 31) := ⟨by decide +kernel, .inr ⟨rA, tr.drop 32, by decide +kernel⟩⟩
theorem len (n : Nat) (hn : (accepted () (tr.take n)).length < 10) :
    (accepted () (tr.take n)).length < (responses () tr).length := by
  rw [show (responses () tr).length = 10 by decide +kernel]; exact hn

theorem uA : LineUnsaved () (tr.take 7) 1 0 :=
  unsaved (n := 0) (b := 1) (q := wA) (by decide) (by decide +kernel) rfl ⟨20, rfl, .inl (by decide)⟩ (by decide +kernel)
theorem uB : LineUnsaved () (tr.take 14) 2 0 := by
  refine ⟨0, by decide, tr.take 3, wB, (tr.drop 4).take 10, by decide +kernel, rfl, ⟨32, rfl, .inl (by decide)⟩, ?_⟩
  intro x hx hc
  have : ∀ x ∈ sent () ((tr.drop 4).take 10), x.ty = MT.READ ∨ x.addr = ⟨1, 0, 0⟩ := by decide +kernel
  rcases this x hx with h | h
  · have h1 := hc.1
    rw [h] at h1; exact absurd h1 (by decide)
  · obtain ⟨_, b, hb, _, h2⟩ := hc
    rw [h] at h2
    have e1 : (⟨2, 0, 0⟩ : Addr p0).flat / 4 = 8 := by decide
    have e2 : (⟨1, 0, 0⟩ : Addr p0).flat / 4 = 4 := by decide
    rw [e1, e2] at h2
    have : p0.nWords = 2 := by decide
    omega
theorem uA' : LineUnsaved () (tr.take 31) 1 0 :=
  unsaved (n := 21) (b := 1) (q := wA) (by decide) (by decide +kernel) rfl ⟨20, rfl, .inl (by decide)⟩ (by decide +kernel)
theorem uA'' : LineUnsaved () (tr.take 35) 1 0 :=
  unsaved (n := 21) (b := 1) (q := wA) (by decide) (by decide +kernel) rfl ⟨20, rfl, .inl (by decide)⟩ (by decide +kernel)
theorem uD : LineUnsaved () (tr.take 35) 0 1 :=
  unsaved (n := 25) (b := 0) (q := wD) (by decide) (by decide +kernel) rfl ⟨8, rfl, .inl (by decide)⟩ (by decide +kernel)
theorem vic : lruVictim () (tr.take 7) 0 = some 1 := by decide +kernel
theorem notCached : ¬ Cached () (tr.take 7) rC.addr ∧ Cached () (tr.take 13) rC.addr ∧ ¬ Cached () (tr.take 31) rA.addr := by
  unfold Cached; decide +kernel

attribute [irreducible] run

/-- The read of a third line of the set evicts the least recently used one. -/
example : ∃ w ∈ sent () ((tr.drop 8).take 5), w.WritesBack 1 0 := by
  obtain ⟨m, ws, h1, _, _, _, h2, _⟩ := C63_miss p0_wf (start0_start p0) (shape1 ▸ isRun) win1 (valid_take 7)
    (shape1 ▸ len 7 (by decide +kernel)) (.inl rfl) notCached.1
  obtain ⟨w, hw, h3⟩ := h2 1 vic uA
  exact ⟨w, by rw [h1]; exact List.mem_append_left _ hw, h3⟩

example : sent () ([] : List (Ev Unit p0)) = [] ∧ sent () ((tr.drop 30).take 1) = [] :=
  ⟨C63_silent p0_wf (start0_start p0) (shape2 ▸ isRun) win2 (valid_take 13) (shape2 ▸ len 13 (by decide +kernel))
      (.inl ⟨.inl rfl, notCached.2.1⟩),
    C63_silent p0_wf (start0_start p0) (shape6 ▸ isRun) win6 (valid_take 29) (shape6 ▸ len 29 (by decide +kernel)) (.inr rfl)⟩

/-- The AMO of a dirty line. -/
example : ∃ w m, w.WritesBack 2 0 ∧ sent () ((tr.drop 15).take 6) = [w, m] := by
  obtain ⟨m, _, _, h⟩ := C63_amo p0_wf (start0_start p0) (shape3 ▸ isRun) win3 (valid_take 14)
    (shape3 ▸ len 14 (by decide +kernel)) rfl
  obtain ⟨w, h1, h2⟩ := h uB
  exact ⟨w, m, h1, h2⟩

/-- The read of a dirty line behind an INV. -/
example : (sent () ((tr.drop 32).take 3)).length = 1 := by
  obtain ⟨m, ws, h1, _, _, _, _, h2⟩ := C63_miss p0_wf (start0_start p0) (shape4 ▸ isRun) win4 (valid_take 31)
    (shape4 ▸ len 31 (by decide +kernel)) (.inl rfl) notCached.2.2
  rw [h1, h2 uA']; rfl

/-- The FLUSH with two dirty lines. -/
example : (∃ m ∈ sent () (tr.drop 36), m.WritesBack 1 0) ∧ ∃ m ∈ sent () (tr.drop 36), m.WritesBack 0 1 := by
  have h := C63_flush p0_wf (start0_start p0) (shape5 ▸ isRun) win5 (valid_take 35) (shape5 ▸ len 35 (by decide +kernel)) rfl
  exact ⟨h.2.1 _ _ uA'', h.2.1 _ _ uD⟩

example : [(1 : Tag p0)].length ≤ p0.ways.length :=
  C63_bounded p0_wf (start0_start p0) (shape1 ▸ isRun) (valid_take 7) 0 [1] (by simp) (by simpa using uA)

/-! A direct-mapped cache. -/

/-- Example; not in the source. -/
def xA : CReq p1 := ⟨MT.WRITE, 1, ⟨1, 0, 4⟩, 0, 5⟩
/-- Example; not in the source. -/
def xI : CReq p1 := ⟨MT.INV, 1, ⟨0, 0, 0⟩, 0, 0⟩
/-- Example; not in the source. -/
def xR : CReq p1 := ⟨MT.READ, 1, ⟨2, 0, 0⟩, 0, 0⟩
/-- Example; not in the source. -/
def xrun : Sys Unit p1 × List (Ev Unit p1) := drive 50 (start0 p1) [xA, xI, xR]
/-- Example; not in the source. -/
def xtr : List (Ev Unit p1) := xrun.2
theorem xisRun : Run (start0 p1) xtr xrun.1 := drive_run _ _ _
theorem xshape : xtr = xtr.take 5 ++ .acc () xR :: (xtr.drop 6 ++ []) := by decide +kernel
theorem xwin : Window () (xtr.drop 6) ([] : List (Ev Unit p1)) := ⟨by decide +kernel, .inl rfl⟩
theorem xlen : (accepted () (xtr.take 5)).length < (responses () xtr).length := by decide +kernel
theorem xacc : accepted () (xtr.take 5) = [xA, xI] := by decide +kernel
theorem xu : LineUnsaved () (xtr.take 5) (1 : Tag p1) 0 := by
  refine ⟨1, by decide, [], xA, (xtr.drop 1).take 4, by decide +kernel, rfl, ⟨20, rfl, .inl (by decide)⟩, ?_⟩
  intro x hx hc
  have : ∀ x ∈ sent () ((xtr.drop 1).take 4), x.ty = MT.READ := by decide +kernel
  have h1 := hc.1
  rw [this x hx] at h1; exact absurd h1 (by decide)
theorem xn : ¬ Cached () (xtr.take 5) xR.addr := by unfold Cached; decide +kernel

attribute [irreducible] xrun

/-- The line an INV left behind is written back. -/
example : ∃ m w, sent () (xtr.drop 6) = [w, m] ∧ m.ReadsLine xR.addr ∧ w.WritesBack 1 0 :=
  C63_direct p1_wf rfl (start0_start p1) (xshape ▸ xisRun) xwin
    (by
      rw [xacc]
      intro x hx
      rw [List.mem_cons, List.mem_singleton] at hx
      rcases hx with rfl | rfl
      · exact .write rfl 2 (by decide) (by decide) (by decide)
      · exact .inv rfl)
    (xshape ▸ xlen) (.inl rfl) xn (t := 1) (by decide) xu

end Ex63
end Verif
