import Verif.Drf2
import Verif.Addr
import Verif.DriveK

/-!
# Several caches on one memory: software coherence

The statements use the RTL system (`Start`, `Run`), the flat memory of
`Verif/Spec.lean` and the synchronisation predicates of `Verif/SpecShared.lean`.
-/

set_option linter.unusedSectionVars false

namespace Verif
variable {p : Params} {ι : Type} [DecidableEq ι]

/-! ## Traces with canonical memory messages -/

theorem canon_acc {e : Ev ι p} {k : ι} {q : CReq p} (h : e.canon = .acc k q) : e = .acc k q := by
  cases e <;> simp_all [Ev.canon]

theorem canon_split {tr : List (Ev ι p)} {a b : List (Ev ι p)} {k : ι} {q : CReq p}
    (h : tr.map Ev.canon = a ++ .acc k q :: b) :
    ∃ a' b', tr = a' ++ .acc k q :: b' ∧ a'.map Ev.canon = a ∧ b'.map Ev.canon = b := by
  obtain ⟨a', l, rfl, h1, h2⟩ := List.map_eq_append_iff.1 h
  obtain ⟨e, b', rfl, h3, h4⟩ := List.map_eq_cons_iff.1 h2
  rw [canon_acc h3]
  exact ⟨a', b', rfl, h1, h4⟩

theorem acceptedAll_canon (tr : List (Ev ι p)) : acceptedAll (tr.map Ev.canon) = acceptedAll tr := by
  simp only [acceptedAll, List.filterMap_map]
  congr 1; funext e; cases e <;> rfl

theorem latest_canon (M : ByteMem) (tr : List (Ev ι p)) : latest M (tr.map Ev.canon) = latest M tr := by
  simp only [latest, acceptedAll_canon]

theorem FlushDone.canon {k : ι} {a b : List (Ev ι p)} (h : FlushDone k a b) :
    FlushDone k (a.map Ev.canon) (b.map Ev.canon) := by
  obtain ⟨b1, f, b2, rfl, h1, h2⟩ := h
  refine ⟨b1.map Ev.canon, f, b2.map Ev.canon, by simp [Ev.canon], h1, ?_⟩
  rw [← List.map_append, ← List.map_append, accepted_canon, responses_canon]; exact h2

theorem Published.canon {k : ι} {W : Nat} {tr : List (Ev ι p)} (h : Published k W tr) :
    Published k W (tr.map Ev.canon) := by
  intro a q b hs hw
  obtain ⟨a', b', rfl, rfl, rfl⟩ := canon_split hs
  have := (h a' q b' rfl hw).canon
  simpa [Ev.canon] using this

theorem UpToDate.canon {k : ι} {W : Nat} {tr : List (Ev ι p)} (h : UpToDate k W tr) :
    UpToDate k W (tr.map Ev.canon) := by
  intro k' hk a q b hs hw
  obtain ⟨a', b', rfl, rfl, rfl⟩ := canon_split hs
  obtain ⟨c, i, d, rfl, h2, h3⟩ := h k' hk a' q b' rfl hw
  refine ⟨c.map Ev.canon, i, d.map Ev.canon, by simp [Ev.canon], h2, ?_⟩
  simpa [Ev.canon] using h3.canon

theorem WritesSynced.canon {W : Nat} {tr : List (Ev ι p)} (h : WritesSynced W tr) :
    WritesSynced W (tr.map Ev.canon) := by
  intro k a q b hs hw
  obtain ⟨a', b', rfl, rfl, rfl⟩ := canon_split hs
  exact (h k a' q b' rfl hw).canon

theorem NoRace.canon {k : ι} {W : Nat} {a b : List (Ev ι p)} {q : CReq p} (h : NoRace k W a q b) :
    NoRace k W (a.map Ev.canon) q (b.map Ev.canon) := by
  intro k' hk b1 q' b2 hs hw
  obtain ⟨a', b', rfl, rfl, rfl⟩ := canon_split hs
  have := h k' hk a' q' b' rfl hw
  rw [accepted_canon]
  have e : a.map Ev.canon ++ .acc k q :: a'.map Ev.canon = (a ++ .acc k q :: a').map Ev.canon := by
    simp [Ev.canon]
  rw [e, responses_canon]; exact this

/-! ## The general theorem -/

theorem word_of_bit {q : CReq p} {i : Nat} : wordBits p ((q.addr.flat + i / 8) / 4) q.addr.la
    (8 * q.addr.off.toNat + i) := by
  have h : q.addr.la.num * 2 ^ p.offBits + (8 * q.addr.off.toNat + i) / 8 = q.addr.flat + i / 8 := by
    rw [flat_eq]; omega
  simp only [wordBits, h]

/-- **C18, general form.**  A response whose words are synchronised equals that
of one flat memory on which the requests of all caches are executed in the order
of acceptance. -/
theorem C18_synchronised_response (wf : p.WF) {S S' : Sys ι p} {tr : List (Ev ι p)} (h0 : Start S)
    (h : Run S tr S') (hv : ∀ k, ∀ q ∈ accepted k tr, q.Valid)
    {k : ι} {a b : List (Ev ι p)} {q : CReq p} (hsp : tr = a ++ .acc k q :: b)
    (hW : ∀ W, q.readsWord W → WritesSynced W tr ∧ UpToDate k W a ∧ NoRace k W a q b)
    {r : CResp p} (hr : (responses k tr)[(accepted k a).length]? = some r) :
    r.data = (flatStep (latest S.mem a) q).2 := by
  obtain ⟨T, h1, h2⟩ := refine wf h0 h
  have hv' : ∀ k, ∀ q ∈ accepted k (tr.map Ev.canon), q.Valid := by
    intro k q hq; rw [accepted_canon] at hq; exact hv k q hq
  have key' : ∀ W, WritesSynced W tr → UpToDate k W a → NoRace k W a q b →
      Agree (wordBits p W) q r.data (flatStep (latest S.mem a) q).2 := by
    intro W w1 w2 w3
    obtain ⟨r', g1, g2⟩ := shared_resp wf h1 hv' W w1.canon k (a.map Ev.canon) q (b.map Ev.canon)
      (by rw [hsp]; simp [Ev.canon]) w2.canon w3.canon
    rw [fin_resps, accepted_canon, responses_canon, List.append_assoc] at g1
    have hlt := (List.getElem?_eq_some_iff.1 hr).1
    rw [List.getElem?_append_left hlt, hr] at g1
    cases g1
    rw [latest_canon] at g2; exact g2
  have key : ∀ W, q.readsWord W → Agree (wordBits p W) q r.data (flatStep (latest S.mem a) q).2 := by
    intro W hq
    obtain ⟨w1, w2, w3⟩ := hW W hq
    exact key' W w1 w2 w3
  have hqv := hv k q (by rw [hsp, accepted_append]; simp [accepted])
  have hb0 : 0 < q.bytes := by
    simp only [CReq.bytes]; split
    · exact Nat.pow_pos (by decide)
    · omega
  by_cases ty : q.ty = MT.READ
  · apply BitVec.eq_of_getLsbD_eq
    intro i hi
    by_cases hib : i < 8 * q.bytes
    · have hx : q.readsWord ((q.addr.flat + i / 8) / 4) := ⟨_, rfl, .inl ⟨ty, by omega, by omega⟩⟩
      exact (key _ hx).1 ty i hi (fun _ => word_of_bit)
    · have hx : q.readsWord (q.addr.flat / 4) := ⟨_, rfl, .inl ⟨ty, by omega, by omega⟩⟩
      exact (key _ hx).1 ty i hi (fun hlt => absurd hlt hib)
  · by_cases ha : MT.isAmo q.ty = true
    · have hx : q.readsWord (q.addr.flat / 4) := ⟨_, rfl, .inr ⟨ha, by omega, by omega⟩⟩
      refine (key _ hx).2.1 ha ?_
      have := word_of_bit (q := q) (i := 0)
      simpa using this
    · have ha : MT.isAmo q.ty = false := by simpa using ha
      -- requests without data
      -- any word nobody writes will do
      have hnw : ∀ q' : CReq p, ¬ q'.writesWord (2 ^ p.addrBits + 8 + 2 ^ p.lenBits) := by
        rintro q' ⟨x, hx, hw⟩
        have hf := q'.addr.flat_lt
        have hb : q'.bytes ≤ 2 ^ p.lenBits := by
          simp only [CReq.bytes]; split
          · exact Nat.le_refl _
          · exact Nat.le_of_lt q'.len.isLt
        rcases hw with ⟨_, _, hw⟩ | ⟨_, _, hw⟩
        · split at hw <;> omega
        · omega
      rw [key' (2 ^ p.addrBits + 8 + 2 ^ p.lenBits) (fun _ _ q' _ _ hw => absurd hw (hnw q'))
        (fun _ _ _ q' _ _ hw => absurd hw (hnw q')) (fun _ _ _ q' _ _ hw => absurd hw (hnw q')) |>.2.2 ty ha]

/-- No other cache writes: nothing to synchronise. -/
theorem OnlyWriter.upToDate {k : ι} {W : Nat} {tr : List (Ev ι p)} (h : OnlyWriter k W tr) : UpToDate k W tr := by
  intro k' hk a q b he hw
  exact absurd hw (h k' hk q (by rw [he, accepted_append]; simp [accepted]))

theorem OnlyWriter.prefix {k : ι} {W : Nat} {a b : List (Ev ι p)} (h : OnlyWriter k W (a ++ b)) : OnlyWriter k W a :=
  fun k' hk q hq => h k' hk q (by rw [accepted_append]; simp [hq])

theorem OnlyWriter.synced {k : ι} {W : Nat} {tr : List (Ev ι p)} (h : OnlyWriter k W tr) : WritesSynced W tr := by
  intro k' a q b he hw
  by_cases hk : k' = k
  · subst hk; rw [he] at h; exact h.prefix.upToDate
  · exact absurd hw (h k' hk q (by rw [he, accepted_append]; simp [accepted]))

theorem OnlyWriter.noRace {k : ι} {W : Nat} {a b : List (Ev ι p)} {q : CReq p}
    (h : OnlyWriter k W (a ++ .acc k q :: b)) : NoRace k W a q b := by
  intro k' hk b1 q' b2 he hw
  refine absurd hw (h k' hk q' ?_)
  rw [he, accepted_append, ← List.cons_append, accepted_append]
  simp [accepted]

/-- **C19, reads.**  The words a request returns are only stored to through the
same cache (other words of the same lines may be stored to by other caches, at
any time): the response is that of a flat memory. -/
theorem C19_private_response (wf : p.WF) {S S' : Sys ι p} {tr : List (Ev ι p)} (h0 : Start S)
    (h : Run S tr S') (hv : ∀ k, ∀ q ∈ accepted k tr, q.Valid)
    {k : ι} {a b : List (Ev ι p)} {q : CReq p} (hsp : tr = a ++ .acc k q :: b)
    (hW : ∀ W, q.readsWord W → OnlyWriter k W tr)
    {r : CResp p} (hr : (responses k tr)[(accepted k a).length]? = some r) :
    r.data = (flatStep (latest S.mem a) q).2 := by
  refine C18_synchronised_response wf h0 h hv hsp (fun W hq => ?_) hr
  have := hW W hq
  refine ⟨this.synced, ?_, ?_⟩
  · rw [hsp] at this; exact this.prefix.upToDate
  · rw [hsp] at this; exact this.noRace

/-- **C19, memory.**  Memory executes requests of cache `k` only on words that
were stored to through `k`. -/
theorem C19_memory_changes_only_written_words (wf : p.WF) {S S₁ S₂ : Sys ι p} {tr : List (Ev ι p)} (h0 : Start S)
    (h : Run S tr S₁) {k : ι} (hv : ∀ q ∈ accepted k tr, q.Valid) {m : MReq p} {r : MResp p}
    (hs : Step S₁ [.exec k m r] S₂) {x : Nat} (hx : S₂.mem x ≠ S₁.mem x) :
    ∃ q ∈ accepted k tr, q.writesWord (x / 4) := by
  apply Classical.byContradiction
  intro hn
  have hno : NoW k (x / 4) tr := fun q hq hw => hn ⟨q, hq, hw⟩
  obtain ⟨T, h1, h2⟩ := refine wf h0 h
  have hq := quiet_inv wf h1 k (by rw [accepted_canon]; exact hv) (x / 4) 0
    (.inl ⟨rfl, by simp only [NoW, accepted_canon]; exact hno⟩)
  rw [Nat.zero_sub] at hq
  generalize hev : [Ev.exec k m r] = ev at hs
  cases hs with
  | clock k' i hc => exact hx rfl
  | exec k' m' ms hm =>
    simp only [List.cons.injEq, Ev.exec.injEq, and_true] at hev
    obtain ⟨rfl, rfl, rfl⟩ := hev
    apply hx
    show (memExec S₁.mem m).1 x = S₁.mem x
    rw [← (memExec_canon S₁.mem m).1]
    exact memExec_byte (hq.all _ (by rw [h2.reqQ, hm]; simp)) rfl

/-- **C08/C18, memory.**  When every store to word `W` has been flushed, memory
holds the latest value of the word, whatever the caches did since. -/
theorem C18_published_memory (wf : p.WF) {S S' : Sys ι p} {tr : List (Ev ι p)} (h0 : Start S)
    (h : Run S tr S') (hv : ∀ k, ∀ q ∈ accepted k tr, q.Valid) {W : Nat}
    (hs : WritesSynced W tr) (hp : ∀ k, Published k W tr)
    {x : Nat} (hx : x / 4 = W) (hr : x < 2 ^ p.addrBits) : S'.mem x = latest S.mem tr x := by
  obtain ⟨T, h1, h2⟩ := refine wf h0 h
  have hv' : ∀ k, ∀ q ∈ accepted k (tr.map Ev.canon), q.Valid := by
    intro k q hq; rw [accepted_canon] at hq; exact hv k q hq
  have := (shared wf h1 hv' W hs.canon).mem (fun k => (hp k).canon)
  rw [h2.mem, latest_canon] at this
  exact AgreeW.of_view this x hr hx

/-! ## Store and FLUSH on one cache, INV and READ on another -/

theorem readLE_byte (M : ByteMem) (a n j : Nat) (h : j < n) : readLE M a n / 256 ^ j % 256 = (M (a + j)).toNat := by
  induction n generalizing a j with
  | zero => omega
  | succ n ih =>
    simp only [readLE]
    have hm := (M a).isLt
    cases j with
    | zero => simp only [Nat.pow_zero, Nat.div_one, Nat.add_zero]; omega
    | succ j =>
      rw [Nat.pow_succ, Nat.mul_comm (256 ^ j), ← Nat.div_div_eq_div_mul]
      rw [show ((M a).toNat + 256 * readLE M (a + 1) n) / 256 = readLE M (a + 1) n by omega]
      rw [ih _ _ (by omega), show a + 1 + j = a + (j + 1) by omega]

/-- Bytes of a word, read from a flat memory. -/
theorem flatStep_read_byte {M : ByteMem} {q : CReq p} (ty : q.ty = MT.READ) {x : Nat}
    (h1 : q.addr.flat ≤ x) (h2 : x < q.addr.flat + q.bytes) :
    (flatStep M q).2.toNat / 256 ^ (x - q.addr.flat) % 256 = (M x).toNat := by
  have hl : readLE M q.addr.flat q.bytes < 2 ^ p.dataBits := by
    refine Nat.lt_of_lt_of_le (readLE_lt _ _ _) (Nat.pow_le_pow_right (by decide) ?_)
    simp only [Params.dataBits]; have := bytes_le q; omega
  have : (flatStep M q).2.toNat = readLE M q.addr.flat q.bytes := by
    simp only [flatStep, ty, if_true, BitVec.toNat_ofNat]; exact Nat.mod_eq_of_lt hl
  rw [this, readLE_byte _ _ _ _ (by omega)]
  congr 2; omega

theorem latest_noW (M : ByteMem) {W : Nat} {tr : List (Ev ι p)} (h : ∀ q ∈ acceptedAll tr, ¬ q.writesWord W) :
    AgreeW W (latest M tr) M := by
  induction tr generalizing M with
  | nil => exact .refl _ _
  | cons e tr ih =>
    rw [← List.singleton_append] at h ⊢
    rw [latest_append]
    refine (ih _ (fun q hq => h q (by rw [acceptedAll_append, List.mem_append]; exact .inr hq))).trans (latest_quiet _ ?_)
    rintro k q rfl
    exact h q (by simp [acceptedAll])

/-- **C18.**  A word is stored to only by cache `A`; `A` stores `w`, then `A`
accepts a FLUSH and answers it; then cache `B` accepts an INV and, later, a READ
`q` of the word; `w` is the last store to the word.  Then the response to `q`
contains the bytes stored by `w`. -/
theorem C18_write_flush_inv_read (wf : p.WF) {S S' : Sys ι p} {tr t₀ t₁ t₂ t₃ : List (Ev ι p)} (h0 : Start S)
    (h : Run S tr S') (hv : ∀ k, ∀ q ∈ accepted k tr, q.Valid) {A B : ι} {w i q : CReq p}
    (hsp : tr = t₀ ++ .acc A w :: (t₁ ++ .acc B i :: (t₂ ++ .acc B q :: t₃)))
    (hw : w.ty = MT.WRITE) (hi : i.ty = MT.INV) (hq : q.ty = MT.READ)
    (hf : FlushDone A (t₀ ++ [.acc A w]) t₁)
    (hA : ∀ W, q.readsWord W → OnlyWriter A W tr)
    (hl : ∀ W, q.readsWord W → ∀ q' ∈ accepted A (t₁ ++ t₂ ++ t₃), ¬ q'.writesWord W)
    {r : CResp p}
    (hr : (responses B tr)[(accepted B (t₀ ++ .acc A w :: (t₁ ++ .acc B i :: t₂))).length]? = some r)
    {x : Nat} (hx : w.writesByte x) (hx1 : q.addr.flat ≤ x) (hx2 : x < q.addr.flat + q.bytes) :
    r.data.toNat / 256 ^ (x - q.addr.flat) % 256 = w.data.toNat / 256 ^ (x - w.addr.flat) % 256 := by
  have hsp' : tr = (t₀ ++ .acc A w :: (t₁ ++ .acc B i :: t₂)) ++ .acc B q :: t₃ := by rw [hsp]; simp
  have hno : ∀ W, q.readsWord W → ∀ k, ∀ q' ∈ accepted k (t₁ ++ t₂ ++ t₃), ¬ q'.writesWord W := by
    intro W hW k q' hq' hw'
    by_cases hk : k = A
    · subst hk; exact hl W hW q' hq' hw'
    · refine hA W hW k hk q' ?_ hw'
      rw [hsp]
      simp only [accepted_append, List.mem_append] at hq' ⊢
      rw [← List.singleton_append (x := Ev.acc A w), ← List.singleton_append (x := Ev.acc B i),
        ← List.singleton_append (x := Ev.acc B q)]
      simp only [accepted_append, List.mem_append]
      rcases hq' with (hq' | hq') | hq'
      · exact .inr (.inr (.inl hq'))
      · exact .inr (.inr (.inr (.inr (.inl hq'))))
      · exact .inr (.inr (.inr (.inr (.inr (.inr hq')))))
  have hiw : ∀ W, ¬ i.writesWord W := by
    rintro W ⟨x, _, h | h⟩
    · rw [hi] at h; exact absurd h.1 (by decide)
    · rw [hi] at h; exact absurd h.1 (by decide)
  have hqw : ∀ W, ¬ q.writesWord W := by
    rintro W ⟨x, _, h | h⟩
    · rw [hq] at h; exact absurd h.1 (by decide)
    · rw [hq] at h; exact absurd h.1 (by decide)
  have mem_acc : ∀ {k : ι} {q' : CReq p} {a b : List (Ev ι p)}, q' ∈ accepted k (a ++ .acc k q' :: b) := by
    intro k q' a b; rw [accepted_append]; simp [accepted]
  have key := C18_synchronised_response wf h0 h hv hsp' (fun W hW => by
    refine ⟨(hA W hW).synced, ?_, ?_⟩
    · -- up to date: the INV comes after the FLUSH of all stores
      intro k' hk a q' b he hw'
      have hkA : k' = A := by
        apply Classical.byContradiction
        intro hk'
        refine hA W hW k' hk' q' ?_ hw'
        rw [hsp', he]; rw [accepted_append, accepted_append]; simp [accepted]
      subst hkA
      rcases split_split he with ⟨e, h1, h2⟩ | ⟨e, h1, h2⟩ | ⟨h1, h2, h3⟩
      · -- a store after `w`
        exfalso
        rcases split_split h2 with ⟨f, g1, g2⟩ | ⟨f, g1, g2⟩ | ⟨g1, g2, g3⟩
        · refine hno W hW k' q' ?_ hw'
          rw [g2, accepted_append, accepted_append, accepted_append]; simp [accepted]
        · refine hno W hW k' q' ?_ hw'
          rw [g1, accepted_append, accepted_append, accepted_append]; simp [accepted]
        · simp only [Ev.acc.injEq] at g2
          exact hiw W (g2.2 ▸ hw')
      · obtain ⟨f1, f, f2, k1, k2, k3⟩ := hf
        refine ⟨e ++ .acc k' w :: t₁, i, t₂, by rw [h2]; simp, hi,
          e ++ .acc k' w :: f1, f, f2, by rw [k1]; simp, k2, ?_⟩
        have e1 : a ++ [Ev.acc k' q'] ++ (e ++ .acc k' w :: f1) = t₀ ++ [.acc k' w] ++ f1 := by rw [h1]; simp
        have e2 : a ++ [Ev.acc k' q'] ++ (e ++ .acc k' w :: t₁) = t₀ ++ [.acc k' w] ++ t₁ := by rw [h1]; simp
        rw [e1, e2]; exact k3
      · subst h1 h3
        simp only [Ev.acc.injEq, true_and] at h2
        subst h2
        exact ⟨t₁, i, t₂, rfl, hi, hf⟩
    · intro k' _ b1 q' b2 he hw'
      refine absurd hw' (hno W hW k' q' ?_)
      rw [he, accepted_append, accepted_append]; simp [accepted]) hr
  rw [key, flatStep_read_byte hq hx1 hx2]
  -- the latest value is the one stored by `w`
  have hW : q.readsWord (x / 4) := ⟨x, rfl, .inl ⟨hq, hx1, hx2⟩⟩
  have hacc : ∀ q' ∈ acceptedAll (t₁ ++ .acc B i :: t₂), ¬ q'.writesWord (x / 4) := by
    intro q' hq'
    simp only [acceptedAll, List.mem_filterMap, List.mem_append, List.mem_cons] at hq'
    obtain ⟨e, he, he2⟩ := hq'
    cases e with
    | acc k q'' =>
      simp only [Option.some.injEq] at he2
      subst he2
      rcases he with he | he | he
      · refine hno _ hW k q'' ?_
        simp only [accepted, List.filterMap_append, List.mem_append, List.mem_filterMap]
        exact .inl (.inl ⟨_, he, by simp⟩)
      · simp only [Ev.acc.injEq] at he
        rw [he.2]; exact hiw _
      · refine hno _ hW k q'' ?_
        simp only [accepted, List.filterMap_append, List.mem_append, List.mem_filterMap]
        exact .inl (.inr ⟨_, he, by simp⟩)
    | mreq => cases he2
    | resp => cases he2
    | exec => cases he2
  have e : latest S.mem (t₀ ++ .acc A w :: (t₁ ++ .acc B i :: t₂)) =
      latest (latest (latest S.mem t₀) [.acc A w]) (t₁ ++ .acc B i :: t₂) := by
    rw [← latest_append, ← latest_append]; simp
  rw [e, latest_noW _ hacc x rfl, latest_acc]
  rcases hx with ⟨_, g1, g2⟩ | ⟨g, _⟩
  · simp only [flatStep, hw, MT.WRITE_ne_READ, if_false, if_true, writeLE]
    rw [if_pos ⟨g1, g2⟩]
    simp
  · rw [hw] at g; exact absurd g (by decide)

/-! ## Concrete executions that meet the hypotheses -/

namespace ExS
/-- Cache `false` stores to word 1 and flushes; then cache `true` invalidates and reads. Proof device; not in the source. -/
def w : CReq p1 := ⟨MT.WRITE, 1, ⟨0, 0, 4⟩, 0, 0xabcdef12⟩
/-- Proof device; not in the source. -/
def f : CReq p1 := ⟨MT.FLUSH, 1, ⟨0, 0, 0⟩, 0, 0⟩
/-- Proof device; not in the source. -/
def i : CReq p1 := ⟨MT.INV, 1, ⟨0, 0, 0⟩, 0, 0⟩
/-- Proof device; not in the source. -/
def q : CReq p1 := ⟨MT.READ, 1, ⟨0, 0, 4⟩, 0, 0⟩

/-- Proof device; not in the source. -/
def runA : Sys Bool p1 × List (Ev Bool p1) := driveK false 25 (start2 p1) [w, f]
/-- Proof device; not in the source. -/
def runB : Sys Bool p1 × List (Ev Bool p1) := driveK true 25 runA.1 [i, q]
/-- Proof device; not in the source. -/
def tr : List (Ev Bool p1) := runA.2 ++ runB.2

theorem isRun : Run (start2 p1) tr runB.1 := (driveK_run _ _ _ _).trans (driveK_run _ _ _ _)

/-- Proof device; not in the source. -/
def rB : CResp p1 := ⟨MT.READ, 1, 0, 0, 0xabcdef12⟩

theorem accA : accepted false tr = [w, f] := by decide +kernel
theorem accB : accepted true tr = [i, q] := by decide +kernel

theorem valid : ∀ k, ∀ q ∈ accepted k tr, q.Valid := by
  intro k q hq
  cases k
  · rw [accA] at hq
    simp only [List.mem_cons, List.not_mem_nil, or_false] at hq
    rcases hq with rfl | rfl
    · exact .write rfl 2 (by decide) (by decide) (by decide)
    · exact .flush rfl
  · rw [accB] at hq
    simp only [List.mem_cons, List.not_mem_nil, or_false] at hq
    rcases hq with rfl | rfl
    · exact .inv rfl
    · exact .read rfl 2 (by decide) (by decide)

theorem reads {W : Nat} (h : q.readsWord W) : W = 1 := by
  obtain ⟨x, h1, h | h⟩ := h
  · have e1 : q.addr.flat = 4 := by decide
    have e2 : q.bytes = 4 := by decide
    omega
  · exact absurd h.1 (by decide)

theorem noStore {q' : CReq p1} (h : q'.ty ≠ MT.WRITE) (h' : MT.isAmo q'.ty = false) (W : Nat) : ¬ q'.writesWord W := by
  rintro ⟨x, _, g | g⟩
  · exact h g.1
  · rw [h'] at g; exact absurd g.1 (by decide)

theorem only (W : Nat) : OnlyWriter false W tr := by
  intro k hk q hq
  cases k
  · exact absurd rfl hk
  · rw [accB] at hq
    simp only [List.mem_cons, List.not_mem_nil, or_false] at hq
    rcases hq with rfl | rfl <;> exact noStore (by decide) (by decide) W

/-- Proof device; not in the source. -/
def t₁ : List (Ev Bool p1) := (tr.drop 1).take 7
/-- Proof device; not in the source. -/
def t₃ : List (Ev Bool p1) := tr.drop 10

theorem shape : tr = [] ++ .acc false w :: (t₁ ++ .acc true i :: ([] ++ .acc true q :: t₃)) := by decide +kernel

theorem flushed : FlushDone false ([] ++ [.acc false w]) t₁ :=
  ⟨t₁.take 2, f, t₁.drop 3, by decide +kernel, rfl, by decide +kernel⟩

theorem resp : (responses true tr)[(accepted true ([] ++ .acc false w :: (t₁ ++ .acc true i :: []))).length]? = some rB := by
  decide +kernel

theorem quiet : accepted false (t₁ ++ [] ++ t₃) = [f] := by decide +kernel

/-- Every hypothesis of `C18_write_flush_inv_read` holds of this run. -/
example : rB.data.toNat / 256 ^ (5 - q.addr.flat) % 256 = w.data.toNat / 256 ^ (5 - w.addr.flat) % 256 :=
  C18_write_flush_inv_read p1_wf (start2_start p1) isRun valid shape rfl rfl rfl flushed (fun W _ => only W)
    (fun W _ q' hq' => by
      rw [quiet, List.mem_singleton] at hq'
      subst hq'; exact noStore (by decide) (by decide) W)
    resp (x := 5) (.inl ⟨rfl, by decide, by decide⟩) (by decide) (by decide)

/-- Every hypothesis of `C19_private_response` holds of the store `w` (no other
cache stores anywhere). -/
example : ∃ r, (responses false tr)[0]? = some r ∧ r.data = (flatStep mem0 w).2 :=
  ⟨⟨MT.WRITE, 1, 0, 0, 0⟩, by decide +kernel,
    C19_private_response p1_wf (start2_start p1) isRun valid (a := []) shape (fun W _ => only W) (by decide +kernel)⟩

/-- Every hypothesis of `C18_published_memory` holds at the end of this run, and
the byte of memory is the stored one. -/
example : runB.1.mem 5 = latest mem0 tr 5 ∧ runB.1.mem 5 = 0xef :=
  ⟨C18_published_memory p1_wf (start2_start p1) isRun valid (W := 1) (only 1).synced (fun k => by
      intro a q' b he hw
      have hk : k = false := by
        cases k
        · rfl
        · refine absurd hw (only 1 true (by decide) q' ?_)
          rw [he, accepted_append]; simp [accepted]
      subst hk
      have hq : q' ∈ accepted false tr := by rw [he, accepted_append]; simp [accepted]
      rw [shape] at he
      rcases split_split he with ⟨e, _, h2⟩ | ⟨e, h1, _⟩ | ⟨h1, h2, h3⟩
      · exfalso
        have : q' ∈ accepted false (t₁ ++ .acc true i :: ([] ++ .acc true q :: t₃)) := by
          rw [h2, accepted_append]; simp [accepted]
        have e3 : accepted false (t₁ ++ .acc true i :: ([] ++ .acc true q :: t₃)) = [f] := by decide +kernel
        rw [e3, List.mem_singleton] at this
        subst this
        exact noStore (by decide) (by decide) 1 hw
      · simp at h1
      · subst h1 h3
        simp only [Ev.acc.injEq, true_and] at h2
        subst h2
        exact flushed.mono _) (by decide) (by decide), by decide +kernel⟩

/-- The state before the cycle in which the write-back is sent, and after it. Proof device; not in the source. -/
def before : Sys Bool p1 × List (Ev Bool p1) := driveK false 12 (start2 p1) [w, f]
/-- Proof device; not in the source. -/
def sentWb : Sys Bool p1 := before.1.clock false (driveInK before.1 false none)
/-- Proof device; not in the source. -/
def wb : MReq p1 := ((sentWb.reqQ false).head?).getD (.rd ⟨0, 0⟩)

theorem wbHead : sentWb.reqQ false = [wb] := by decide +kernel

/-- The hypotheses of `C19_memory_changes_only_written_words` are met: memory
executes the write-back of cache `false` and byte 5 changes. -/
example : ∃ (S₁ S₂ : Sys Bool p1) (tr' : List (Ev Bool p1)) (m : MReq p1) (r : MResp p1),
    Run (start2 p1) tr' S₁ ∧ Step S₁ [.exec false m r] S₂ ∧ S₂.mem 5 ≠ S₁.mem 5 := by
  refine ⟨sentWb, sentWb.exec false wb, _, wb, _,
    (driveK_run false 12 (start2 p1) [w, f]).trans (Run.one (.clock _ false (driveInK before.1 false none) ?_)),
    .exec _ false wb [] wbHead, by decide +kernel⟩
  refine ⟨by decide +kernel, ?_, ?_⟩
  · intro h
    exact absurd h (by decide +kernel)
  · intro h
    exact absurd h (by decide +kernel)
end ExS

end Verif
