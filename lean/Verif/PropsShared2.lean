import Verif.Drf4
import Verif.PropsShared

/-!
# Several caches on one memory: the liberal discipline

The statements use the RTL system (`Start`, `Run`), the flat memory of
`Verif/Spec.lean` and the predicates of `Verif/SpecShared2.lean`.
-/

set_option linter.unusedSectionVars false

namespace Verif
variable {p : Params} {ι : Type} [DecidableEq ι]

/-! ## Traces with canonical memory messages -/

theorem PubDone.canon {k : ι} {W : Nat} {a b : List (Ev ι p)} (h : PubDone k W a b) :
    PubDone k W (a.map Ev.canon) (b.map Ev.canon) := by
  obtain ⟨b1, f, b2, rfl, h1, h2⟩ := h
  refine ⟨b1.map Ev.canon, f, b2.map Ev.canon, by simp [Ev.canon], h1, ?_⟩
  rw [← List.map_append, ← List.map_append, accepted_canon, responses_canon]; exact h2

theorem Published2.canon {k : ι} {W : Nat} {tr : List (Ev ι p)} (h : Published2 k W tr) :
    Published2 k W (tr.map Ev.canon) := by
  intro a q b hs hw
  obtain ⟨a', b', rfl, rfl, rfl⟩ := canon_split hs
  have := (h a' q b' rfl hw).canon
  simpa [Ev.canon] using this

theorem NoCopy.canon {k : ι} {W : Nat} {tr : List (Ev ι p)} (h : NoCopy k W tr) : NoCopy k W (tr.map Ev.canon) := by
  obtain ⟨t1, t2, rfl, h1, h2⟩ := h
  refine ⟨t1.map Ev.canon, t2.map Ev.canon, by simp, ?_, by rw [accepted_canon]; exact h2⟩
  rcases h1 with rfl | ⟨t0, i, rfl, hi⟩
  · exact .inl rfl
  · exact .inr ⟨t0.map Ev.canon, i, by simp [Ev.canon], hi⟩

theorem UpToDate2.canon {k : ι} {W : Nat} {tr : List (Ev ι p)} (h : UpToDate2 k W tr) :
    UpToDate2 k W (tr.map Ev.canon) := by
  intro k' hk a q b hs hw
  obtain ⟨a', b', rfl, rfl, rfl⟩ := canon_split hs
  obtain ⟨c, d, rfl, h2, h3⟩ := h k' hk a' q b' rfl hw
  refine ⟨c.map Ev.canon, d.map Ev.canon, by simp, ?_, ?_⟩
  · simpa [Ev.canon] using h2.canon
  · simpa [Ev.canon] using h3.canon

theorem Ready2.canon {k : ι} {W : Nat} {tr : List (Ev ι p)} {q : CReq p} (h : Ready2 k W tr q) :
    Ready2 k W (tr.map Ev.canon) q := by
  rcases h with h | ⟨h1, h2⟩
  · exact .inl h.canon
  · exact .inr ⟨h1, fun k' hk => (h2 k' hk).canon⟩

theorem WritesSynced2.canon {W : Nat} {tr : List (Ev ι p)} (h : WritesSynced2 W tr) :
    WritesSynced2 W (tr.map Ev.canon) := by
  intro k a q b hs hw
  obtain ⟨a', b', rfl, rfl, rfl⟩ := canon_split hs
  exact (h k a' q b' rfl hw).canon

/-! ## The general theorem -/

/-- **C42, responses.**  A response whose words are synchronised, in the liberal
sense, equals that of one flat memory on which the requests of all caches are
executed in the order of acceptance. -/
theorem C42_synchronised_response (wf : p.WF) {S S' : Sys ι p} {tr : List (Ev ι p)} (h0 : Start S)
    (h : Run S tr S') (hv : ∀ k, ∀ q ∈ accepted k tr, q.Valid)
    {k : ι} {a b : List (Ev ι p)} {q : CReq p} (hsp : tr = a ++ .acc k q :: b)
    (hW : ∀ W, q.readsWord W → WritesSynced2 W tr ∧ Ready2 k W a q ∧ NoRace k W a q b)
    {r : CResp p} (hr : (responses k tr)[(accepted k a).length]? = some r) :
    r.data = (flatStep (latest S.mem a) q).2 := by
  have hqv := hv k q (by rw [hsp, accepted_append]; simp [accepted])
  by_cases hrd : q.ty = MT.READ ∨ MT.isAmo q.ty = true
  · obtain ⟨T, h1, h2⟩ := refine wf h0 h
    have hv' : ∀ k, ∀ q ∈ accepted k (tr.map Ev.canon), q.Valid := by
      intro k q hq; rw [accepted_canon] at hq; exact hv k q hq
    have key : ∀ W, q.readsWord W → Agree (wordBits p W) q r.data (flatStep (latest S.mem a) q).2 := by
      intro W hq
      obtain ⟨w1, w2, w3⟩ := hW W hq
      have hon : MT.isAmo q.ty = true → q.onLine W := by
        intro ha
        refine writes_onLine wf hqv ?_
        obtain ⟨x, hx, h | h⟩ := hq
        · rw [h.1] at ha; cases ha
        · exact ⟨x, hx, .inr h⟩
      obtain ⟨r', g1, g2⟩ := shared_resp2 wf h1 hv' W w1.canon k (a.map Ev.canon) q (b.map Ev.canon)
        (by rw [hsp]; simp [Ev.canon]) w2.canon hon w3.canon
      rw [fin_resps, accepted_canon, responses_canon, List.append_assoc] at g1
      have hlt := (List.getElem?_eq_some_iff.1 hr).1
      rw [List.getElem?_append_left hlt, hr] at g1
      cases g1
      rw [latest_canon] at g2; exact g2
    have hb0 : 0 < q.bytes := by
      simp only [CReq.bytes]; split
      · exact Nat.pow_pos (by decide)
      · omega
    rcases hrd with ty | ha
    · apply BitVec.eq_of_getLsbD_eq
      intro i hi
      by_cases hib : i < 8 * q.bytes
      · have hx : q.readsWord ((q.addr.flat + i / 8) / 4) := ⟨_, rfl, .inl ⟨ty, by omega, by omega⟩⟩
        exact (key _ hx).1 ty i hi (fun _ => word_of_bit)
      · have hx : q.readsWord (q.addr.flat / 4) := ⟨_, rfl, .inl ⟨ty, by omega, by omega⟩⟩
        exact (key _ hx).1 ty i hi (fun hlt => absurd hlt hib)
    · have hx : q.readsWord (q.addr.flat / 4) := ⟨_, rfl, .inr ⟨ha, by omega, by omega⟩⟩
      refine (key _ hx).2.1 ha ?_
      have := word_of_bit (q := q) (i := 0)
      simpa using this
  · -- requests without data need no synchronisation
    refine C18_synchronised_response wf h0 h hv hsp (fun W hq => ?_) hr
    exfalso
    obtain ⟨x, _, h | h⟩ := hq
    · exact hrd (.inl h.1)
    · exact hrd (.inr h.1)

/-- **C42, memory.**  When every store to word `W` is published, memory holds the
latest value of the word, whatever the caches did since. -/
theorem C42_published_memory (wf : p.WF) {S S' : Sys ι p} {tr : List (Ev ι p)} (h0 : Start S)
    (h : Run S tr S') (hv : ∀ k, ∀ q ∈ accepted k tr, q.Valid) {W : Nat}
    (hs : WritesSynced2 W tr) (hp : ∀ k, Published2 k W tr)
    {x : Nat} (hx : x / 4 = W) (hr : x < 2 ^ p.addrBits) : S'.mem x = latest S.mem tr x := by
  obtain ⟨T, h1, h2⟩ := refine wf h0 h
  have hv' : ∀ k, ∀ q ∈ accepted k (tr.map Ev.canon), q.Valid := by
    intro k q hq; rw [accepted_canon] at hq; exact hv k q hq
  have := (shared2 wf h1 hv' W hs.canon).mem (fun k => (hp k).canon)
  rw [h2.mem, latest_canon] at this
  exact AgreeW.of_view this x hr hx

/-! ## The discipline of C18 is a special case -/

theorem FlushDone.pubDone {k : ι} {W : Nat} {a b : List (Ev ι p)} {q : CReq p}
    (h : FlushDone k (a ++ [.acc k q]) b) : PubDone k W a (.acc k q :: b) := by
  obtain ⟨b1, f, b2, rfl, h2, h3⟩ := h
  exact ⟨.acc k q :: b1, f, b2, by simp, .inl h2, by simpa using h3⟩

theorem Published.two {k : ι} {W : Nat} {tr : List (Ev ι p)} (h : Published k W tr) : Published2 k W tr :=
  fun a q b he hw => (h a q b he hw).pubDone

theorem UpToDate.two {k : ι} {W : Nat} {tr : List (Ev ι p)} (h : UpToDate k W tr) : UpToDate2 k W tr := by
  intro k' hk a q b he hw
  obtain ⟨c, i, d, rfl, hi, hf⟩ := h k' hk a q b he hw
  refine ⟨c ++ [.acc k i], d, by simp, ?_, ?_⟩
  · have := (hf.pubDone (W := W)).mono [.acc k i]
    simpa using this
  · exact ⟨a ++ .acc k' q :: (c ++ [.acc k i]), [], by simp,
      .inr ⟨a ++ .acc k' q :: c, i, by simp, .inl hi⟩, by simp [accepted]⟩

theorem WritesSynced.two {W : Nat} {tr : List (Ev ι p)} (h : WritesSynced W tr) : WritesSynced2 W tr :=
  fun k a q b he hw => .inl (h k a q b he hw).two


/-! ## Concrete executions that meet the hypotheses -/

namespace ExS2
/-- As `rd_wr_2c` (blocking_cache/test/MultiCacheTestCases.py:49-61), scaled down: cache
`true` reads word 1 and keeps a copy; cache `false` stores to the word and then reads a
conflicting line; cache `true` performs an AMO_ADD on the word; after that cache `false`,
which holds no copy any more, reads it. No cache executes a FLUSH or an INV. -/
def o : CReq p1 := ⟨MT.READ, 0, ⟨0, 0, 4⟩, 0, 0⟩
/-- Proof device; not in the source. -/
def w : CReq p1 := ⟨MT.WRITE, 1, ⟨0, 0, 4⟩, 0, 0xabcdef12⟩
/-- Proof device; not in the source. -/
def c : CReq p1 := ⟨MT.READ, 0, ⟨1, 0, 0⟩, 0, 0⟩
/-- Proof device; not in the source. -/
def m : CReq p1 := ⟨MT.AMO, 1, ⟨0, 0, 4⟩, 0, 1⟩
/-- Proof device; not in the source. -/
def q : CReq p1 := ⟨MT.READ, 1, ⟨0, 0, 4⟩, 0, 0⟩

/-- Proof device; not in the source. -/
def run0 : Sys Bool p1 × List (Ev Bool p1) := driveK true 25 (start2 p1) [o]
/-- Proof device; not in the source. -/
def runA : Sys Bool p1 × List (Ev Bool p1) := driveK false 25 run0.1 [w, c]
/-- Proof device; not in the source. -/
def runB : Sys Bool p1 × List (Ev Bool p1) := driveK true 25 runA.1 [m]
/-- Proof device; not in the source. -/
def runC : Sys Bool p1 × List (Ev Bool p1) := driveK false 25 runB.1 [q]
/-- Proof device; not in the source. -/
def tr : List (Ev Bool p1) := run0.2 ++ runA.2 ++ runB.2 ++ runC.2

theorem isRun : Run (start2 p1) tr runC.1 :=
  (((driveK_run _ _ _ _).trans (driveK_run _ _ _ _)).trans (driveK_run _ _ _ _)).trans (driveK_run _ _ _ _)

/-- Proof device; not in the source. -/
def rM : CResp p1 := ⟨MT.AMO, 1, 0, 0, 0xabcdef12⟩
/-- Proof device; not in the source. -/
def rQ : CResp p1 := ⟨MT.READ, 1, 0, 0, 0xabcdef13⟩

/-- The parts of the run around the store, the AMO and the last read. Proof device; not in the source. -/
def t0 : List (Ev Bool p1) := run0.2
/-- Proof device; not in the source. -/
def t1 : List (Ev Bool p1) := runA.2.drop 1
/-- Proof device; not in the source. -/
def t2 : List (Ev Bool p1) := runB.2.drop 1
/-- Proof device; not in the source. -/
def t3 : List (Ev Bool p1) := runC.2.drop 1

theorem shape : tr = t0 ++ .acc false w :: (t1 ++ .acc true m :: (t2 ++ .acc false q :: t3)) := by decide +kernel
theorem acc0 : acceptedAll t0 = [o] := by decide +kernel
theorem acc1 : acceptedAll t1 = [c] := by decide +kernel
theorem acc2 : acceptedAll t2 = [] := by decide +kernel
theorem acc3 : acceptedAll t3 = [] := by decide +kernel
theorem accA : accepted false tr = [w, c, q] := by decide +kernel
theorem accB : accepted true tr = [o, m] := by decide +kernel

theorem valid : ∀ k, ∀ q ∈ accepted k tr, q.Valid := by
  intro k q hq
  cases k
  · rw [accA] at hq
    simp only [List.mem_cons, List.not_mem_nil, or_false] at hq
    rcases hq with rfl | rfl | rfl
    · exact .write rfl 2 (by decide) (by decide) (by decide)
    · exact .read rfl 2 (by decide) (by decide)
    · exact .read rfl 2 (by decide) (by decide)
  · rw [accB] at hq
    simp only [List.mem_cons, List.not_mem_nil, or_false] at hq
    rcases hq with rfl | rfl
    · exact .read rfl 2 (by decide) (by decide)
    · exact .amo (by decide) (by decide) (by decide)

theorem mem_all {k : Bool} {x : CReq p1} {a b : List (Ev Bool p1)} : x ∈ acceptedAll (a ++ .acc k x :: b) := by
  rw [acceptedAll_append]; simp [acceptedAll]

/-- The stores: `w` and `m`. -/
theorem stores {k : Bool} {x : CReq p1} {a b : List (Ev Bool p1)} (h : tr = a ++ .acc k x :: b) {W : Nat}
    (hw : x.writesWord W) :
    (a = t0 ∧ k = false ∧ x = w ∧ b = t1 ++ .acc true m :: (t2 ++ .acc false q :: t3)) ∨
    (a = t0 ++ .acc false w :: t1 ∧ k = true ∧ x = m ∧ b = t2 ++ .acc false q :: t3) := by
  have no : ∀ {x : CReq p1}, x.ty = MT.READ → ¬ x.writesWord W := by
    rintro x hx ⟨y, _, g | g⟩
    · rw [hx] at g; exact absurd g.1 (by decide)
    · rw [hx] at g; exact absurd g.1 (by decide)
  have h' := h
  rw [shape] at h
  rcases split_split h with ⟨e, h1, h2⟩ | ⟨e, h1, h2⟩ | ⟨h1, h2, h3⟩
  · rcases split_split h2 with ⟨f, g1, g2⟩ | ⟨f, g1, g2⟩ | ⟨g1, g2, g3⟩
    · rcases split_split g2 with ⟨f', k1, k2⟩ | ⟨f', k1, k2⟩ | ⟨k1, k2, k3⟩
      · have : x ∈ acceptedAll t3 := by rw [k2]; exact mem_all
        rw [acc3] at this; simp at this
      · have : x ∈ acceptedAll t2 := by rw [k1]; exact mem_all
        rw [acc2] at this; simp at this
      · simp only [Ev.acc.injEq] at k2
        exact absurd hw (no (by rw [← k2.2]; rfl))
    · have : x ∈ acceptedAll t1 := by rw [g1]; exact mem_all
      rw [acc1, List.mem_singleton] at this
      exact absurd hw (no (by rw [this]; rfl))
    · simp only [Ev.acc.injEq] at g2
      exact .inr ⟨by rw [h1, g1], g2.1.symm, g2.2.symm, g3.symm⟩
  · have : x ∈ acceptedAll t0 := by rw [h1]; exact mem_all
    rw [acc0, List.mem_singleton] at this
    exact absurd hw (no (by rw [this]; rfl))
  · simp only [Ev.acc.injEq] at h2
    exact .inl ⟨h1.symm, h2.1.symm, h2.2.symm, h3.symm⟩

theorem publW : PubDone false 1 t0 (.acc false w :: t1) := by
  refine ⟨.acc false w :: t1.take (t1.findIdx (fun e => e == .acc false c)), c,
    t1.drop (t1.findIdx (fun e => e == .acc false c) + 1), by decide +kernel,
    .inr (.inr ⟨rfl, .inl rfl, by unfold CReq.onLine; decide, by decide⟩), by decide +kernel⟩

theorem publM : PubDone true 1 (t0 ++ .acc false w :: t1) (.acc true m :: t2) :=
  ⟨[], m, t2, rfl, .inr (.inl ⟨by decide, by unfold CReq.onLine; decide⟩), by decide +kernel⟩

theorem reads1 {x : CReq p1} (ha : x.addr = ⟨0, 0, 4⟩) (hl : x.len = 0) {W : Nat} (h : x.readsWord W) : W = 1 := by
  have e1 : x.addr.flat = 4 := by rw [ha]; decide
  have e2 : x.bytes = 4 := by simp only [CReq.bytes, hl]; decide
  obtain ⟨y, h1, h | h⟩ := h <;> omega

/-- The AMO of cache `true`, which holds a stale copy: the stores of `false` are published. -/
theorem readyM : Ready2 true 1 (t0 ++ .acc false w :: t1) m := by
  refine .inr ⟨by decide, ?_⟩
  intro k' hk a x b he hw
  have hk' : k' = false := by cases k' <;> simp_all
  subst hk'
  rcases stores (a := a) (k := false) (x := x) (b := b ++ .acc true m :: (t2 ++ .acc false q :: t3))
    (by rw [shape, ← List.cons_append, ← List.append_assoc, he]; simp) hw with ⟨rfl, _, rfl, h3⟩ | ⟨_, h, _⟩
  · rw [List.append_cancel_right h3]; exact publW
  · cases h

/-- The first store: nobody has stored before. -/
theorem readyW : Ready2 false 1 t0 w := by
  refine .inl ?_
  intro k' _ a x b he hw
  rcases stores (a := a) (k := k') (x := x) (b := b ++ .acc false w :: (t1 ++ .acc true m :: (t2 ++ .acc false q :: t3)))
    (by rw [shape, he]; simp) hw with ⟨rfl, _, rfl, h3⟩ | ⟨rfl, _, rfl, h3⟩
  · have := congrArg List.length h3; simp at this; omega
  · have := congrArg List.length h3; simp at this; omega

/-- The last read: cache `false` gave up the line before the AMO and has not touched it since. -/
theorem readyQ : Ready2 false 1 (t0 ++ .acc false w :: (t1 ++ .acc true m :: t2)) q := by
  refine .inl ?_
  intro k' hk a x b he hw
  rcases stores (a := a) (k := k') (x := x) (b := b ++ .acc false q :: t3)
    (by rw [← List.cons_append, ← List.append_assoc, ← he, shape]; simp) hw with
    ⟨_, rfl, _, _⟩ | ⟨rfl, rfl, rfl, h3⟩
  · exact absurd rfl hk
  · rw [show b = t2 from List.append_cancel_right h3]
    refine ⟨t2, [], by simp, publM, ?_⟩
    refine ⟨t0 ++ .acc false w :: t1.take (t1.findIdx (fun e => e == .acc false c) + 1),
      t1.drop (t1.findIdx (fun e => e == .acc false c) + 1) ++ .acc true m :: t2, by decide +kernel,
      .inr ⟨t0 ++ .acc false w :: t1.take (t1.findIdx (fun e => e == .acc false c)), c, by decide +kernel,
        .inr (.inr ⟨rfl, .inl rfl, by unfold CReq.onLine; decide, by decide⟩)⟩, ?_⟩
    have e : accepted false (t1.drop (t1.findIdx (fun e => e == .acc false c) + 1) ++ .acc true m :: t2) = [] := by
      decide +kernel
    rw [e]; simp

theorem synced : WritesSynced2 1 tr := by
  intro k a x b he hw
  rcases stores he hw with ⟨rfl, rfl, rfl, _⟩ | ⟨rfl, rfl, rfl, _⟩
  · exact readyW
  · exact readyM

/-- Every hypothesis of `C42_synchronised_response` holds of the AMO, and of the last read:
both return the latest value. -/
example : rM.data = (flatStep (latest mem0 (t0 ++ .acc false w :: t1)) m).2 := by
  refine C42_synchronised_response p1_wf (start2_start p1) isRun valid (a := t0 ++ .acc false w :: t1)
    (b := t2 ++ .acc false q :: t3) (k := true) (by rw [shape]; simp) (fun W hq => ?_) (by decide +kernel)
  cases reads1 (by rfl) (by rfl) hq
  refine ⟨synced, readyM, ?_⟩
  intro k' hk b1 x b2 he hw
  rcases stores (a := (t0 ++ .acc false w :: t1) ++ .acc true m :: b1) (k := k') (x := x) (b := b2)
    (by rw [shape, List.append_assoc, List.cons_append, ← he]; simp) hw with ⟨_, _, _, h3⟩ | ⟨_, rfl, _, _⟩
  · have := congrArg List.length h3
    have := congrArg List.length he
    simp at *
    try omega
  · exact absurd rfl hk

example : rQ.data = (flatStep (latest mem0 (t0 ++ .acc false w :: (t1 ++ .acc true m :: t2))) q).2 := by
  refine C42_synchronised_response p1_wf (start2_start p1) isRun valid
    (a := t0 ++ .acc false w :: (t1 ++ .acc true m :: t2))
    (b := t3) (k := false) (by rw [shape]; simp) (fun W hq => ?_) (by decide +kernel)
  cases reads1 (by rfl) (by rfl) hq
  refine ⟨synced, readyQ, ?_⟩
  intro k' hk b1 x b2 he hw
  have : x ∈ acceptedAll t3 := by rw [he]; exact mem_all
  rw [acc3] at this; simp at this

/-- Every hypothesis of `C42_published_memory` holds at the end of the run. -/
example : runC.1.mem 4 = latest mem0 tr 4 ∧ runC.1.mem 4 = 0x13 := by
  refine ⟨C42_published_memory p1_wf (start2_start p1) isRun valid (W := 1) synced (fun k => ?_) (by decide) (by decide),
    by decide +kernel⟩
  intro a x b he hw
  rcases stores he hw with ⟨rfl, rfl, rfl, rfl⟩ | ⟨rfl, rfl, rfl, rfl⟩
  · have := publW.mono (.acc true m :: (t2 ++ .acc false q :: t3)); simpa using this
  · have := publM.mono (.acc false q :: t3); simpa using this

end ExS2

end Verif
