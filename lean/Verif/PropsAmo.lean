import Verif.SpecAmo
import Verif.PropsLife

/-!
# C20: atomic operations of several caches
-/

set_option linter.unusedSectionVars false

namespace Verif
variable {p : Params} {ι : Type} [DecidableEq ι]

theorem AmoSeq.snoc {v v' : BitVec 32} {l : List AmoOp} (h : AmoSeq v l v') (o : AmoOp) (ho : o.old = v') :
    AmoSeq v (l ++ [o]) (amoFun o.ty o.old o.arg) := by
  induction h with
  | nil v => subst ho; exact .cons o (.nil _)
  | cons o' h ih => exact .cons o' (ih ho)

theorem execAmos_append (W : Nat) (a b : List (Ev ι p)) : execAmos W (a ++ b) = execAmos W a ++ execAmos W b :=
  List.filterMap_append ..

theorem memWord_agree {W : Nat} {M M' : ByteMem} (h : AgreeW W M M') : memWord M W = memWord M' W := by
  simp only [memWord]
  rw [readLE_word h (by omega) ⟨W, rfl⟩]

theorem memWord_write (M : ByteMem) (W : Nat) (v : BitVec 32) : memWord (writeLE M (4 * W) 4 v.toNat) W = v := by
  apply BitVec.eq_of_getLsbD_eq
  intro i hi
  simp only [memWord, BitVec.getLsbD_ofNat, readLE_testBit, writeLE_getLsbD]
  rw [if_pos ⟨by omega, by omega⟩]
  have e : 8 * (4 * W + i / 8 - 4 * W) + i % 8 = i := by omega
  rw [e]
  have : decide (i < 8 * 4) = true := by simpa using hi
  have h8 : decide (i % 8 < 8) = true := by simp; omega
  simp [hi, h8, BitVec.getLsbD]

theorem lineBits_ge (p : Params) : 32 ≤ p.lineBits := by
  have := Nat.two_pow_pos p.nwBits
  simp only [Params.lineBits, Params.nWords]; omega

theorem setWidth_line (x : BitVec 32) : (x.setWidth p.lineBits).setWidth 32 = x := by
  have := lineBits_ge p
  apply BitVec.eq_of_getLsbD_eq
  intro i hi
  have : i < p.lineBits := by omega
  simp [hi, this]

/-! ## The chain at memory -/

/-- What is on its way to memory cannot overwrite word `W`, except atomic operations. Proof device; not in the source. -/
structure AmoInv (W : Nat) (T : ESys ι p) (k : ι) : Prop where
  clean : NotDirty W (T.L k).post
  msgs : ∀ m ∈ T.reqQ k ++ memMsgs (T.E k), (m.ty = MT.WRITE → ¬ m.touches W) ∧ m.Wal ∧
    (m.ty ≠ MT.READ → m.ty ≠ MT.WRITE → MT.isAmo m.ty = true)

theorem accept_kinds {L : L1 p} (hok : L.Ok) (hc : L.cur = .idle) {q : CReq p} (hq : q.ty ≠ MT.INIT) :
    ∀ m ∈ memMsgs (L.accept q).2, m.ty ≠ MT.READ → m.ty ≠ MT.WRITE → MT.isAmo m.ty = true := by
  intro m hm h1 h2
  have hmiss : ∀ {ms : List (MReq p)}, MissTraffic q ms → m ∈ ms → MT.isAmo m.ty = true := by
    rintro ms ⟨m', g1, g2 | ⟨w, t, g2, g3⟩⟩ hm
    · subst g2; rw [List.mem_singleton] at hm; subst hm; exact absurd g1.1 h1
    · subst g3
      rcases List.mem_cons.1 hm with rfl | hm
      · exact absurd g2.1 h2
      · rw [List.mem_singleton] at hm; subst hm; exact absurd g1.1 h1
  have hamo : ∀ {ms : List (MReq p)}, MT.isAmo q.ty = true → AmoTraffic q ms → m ∈ ms → MT.isAmo m.ty = true := by
    rintro ms ha ⟨m', g1, g2 | ⟨w, g2, g3⟩⟩ hm
    · subst g2; rw [List.mem_singleton] at hm; subst hm; rw [g1.1]; exact ha
    · subst g3
      rcases List.mem_cons.1 hm with rfl | hm
      · exact absurd g2.1 h2
      · rw [List.mem_singleton] at hm; subst hm; rw [g1.1]; exact ha
  cases accept_cases hok hc hq with
  | fill w d hc ht hr hmt hd => exact hmiss hmt hm
  | amo h w hc ht hr hmt => exact hamo ht hmt hm
  | done r hc hr hs ht ha =>
    by_cases t1 : q.ty = MT.READ ∨ q.ty = MT.WRITE
    · rcases hs.rw t1 with ⟨_, g⟩ | ⟨_, g⟩
      · rw [g] at hm; cases hm
      · exact hmiss g hm
    by_cases t3 : q.ty = MT.INV
    · rw [(hs.inv t3).2] at hm; cases hm
    by_cases t4 : q.ty = MT.FLUSH
    · obtain ⟨_, _, g⟩ := (hs.flush t4).2 m hm; exact absurd g.1 h2
    · exfalso
      have hacc : L.accept q = (L, []) := by
        simp only [L1.accept]; rw [if_neg t1, if_neg (by rw [ha]; decide), if_neg t3, if_neg t4]
      rw [hacc] at hm; cases hm

theorem deliver_mem (L : L1 p) (r : MResp p) : memMsgs (L.deliver r).2 = [] := by
  simp only [L1.deliver]
  split
  · simp only [L1.answer]
    split
    · rfl
    · split <;> rfl
    · rfl
  · rfl

theorem deliver_post (L : L1 p) (r : MResp p) : (L.deliver r).1.post = L.post := by
  simp only [L1.deliver]
  split
  · rw [post_idle (answer_idle _ _), answer_ent]
  · rfl

theorem amo_inv (wf : p.WF) {M : ByteMem} {T : ESys ι p} {tr : List (Ev ι p)} (h : ERun (ESys.init ι p M) tr T)
    (hv : ∀ k, ∀ q ∈ accepted k tr, q.Valid) {W : Nat}
    (hno : ∀ k, ∀ q ∈ accepted k tr, q.ty = MT.WRITE → ¬ q.writesWord W) :
    (∀ k, AmoInv W T k) ∧ AmoSeq (memWord M W) ((execAmos W tr).map (·.2)) (memWord T.mem W) := by
  generalize hT : ESys.init ι p M = T0 at h
  induction h with
  | refl =>
    subst hT
    refine ⟨fun k => ⟨?_, by intro m hm; cases hm⟩, .nil _⟩
    intro w hw j b hb hn
    simp [L1.post, ESys.init, L1.init, L1.answer, Entry.zero]
  | @snoc T1 T2 tr1 ev h hs ih =>
    subst hT
    have ih := ih (fun k q hq => hv k q (by rw [accepted_append]; exact List.mem_append_left _ hq))
      (fun k q hq => hno k q (by rw [accepted_append]; exact List.mem_append_left _ hq))
    obtain ⟨hi, hseq⟩ := ih
    rw [execAmos_append, List.map_append]
    cases hs with
    | acc k' q hc hE hr hs hq =>
      refine ⟨?_, by simpa [execAmos] using hseq⟩
      intro k
      by_cases hk : k = k'
      · subst hk
        have hin : q ∈ accepted k (tr1 ++ [.acc k q]) := by rw [accepted_append]; simp [accepted]
        have hok := (EInv.run h k).ok
        have hcl := (hi k).clean
        rw [post_idle hc] at hcl
        have ha := NotDirty.accept' wf hok hc hcl (hv k q hin) (hno k q hin)
        refine ⟨by simp only [upd_same]; exact ha.1, ?_⟩
        intro m hm
        have hE' : memMsgs (T1.E k) = [] := by rw [memTypes_eq] at hE; simpa using hE
        simp only [upd_same, memMsgs_append, hr, hE', List.nil_append] at hm
        exact ⟨fun ht => ha.2 m hm (.inl ht), (accept_pendLast hc (hv k q hin)).2 m hm, accept_kinds hok hc hq m hm⟩
      · exact ⟨by simp only [upd_other _ hk]; exact (hi k).clean, by simp only [upd_other _ hk]; exact (hi k).msgs⟩
    | deliver k' r l hl =>
      refine ⟨?_, by simpa [execAmos] using hseq⟩
      intro k
      by_cases hk : k = k'
      · subst hk
        refine ⟨by simp only [upd_same, deliver_post]; exact (hi k).clean, ?_⟩
        simp only [upd_same, memMsgs_append, deliver_mem, List.append_nil]; exact (hi k).msgs
      · exact ⟨by simp only [upd_other _ hk]; exact (hi k).clean, by simp only [upd_other _ hk]; exact (hi k).msgs⟩
    | emitMem k' m E' hE =>
      refine ⟨?_, by simpa [execAmos] using hseq⟩
      intro k
      refine ⟨(hi k).clean, ?_⟩
      by_cases hk : k = k'
      · subst hk
        have := (hi k).msgs
        rw [hE] at this
        simpa only [upd_same, List.append_assoc, memMsgs_mem, List.singleton_append] using this
      · simp only [upd_other _ hk]; exact (hi k).msgs
    | emitResp k' r E' hE hr hs =>
      refine ⟨?_, by simpa [execAmos] using hseq⟩
      intro k
      refine ⟨(hi k).clean, ?_⟩
      by_cases hk : k = k'
      · subst hk
        have := (hi k).msgs
        rw [hE] at this
        simpa only [upd_same, memMsgs_resp] using this
      · simp only [upd_other _ hk]; exact (hi k).msgs
    | exec k' m ms hm =>
      refine ⟨?_, ?_⟩
      · intro k
        refine ⟨(hi k).clean, ?_⟩
        by_cases hk : k = k'
        · subst hk
          intro x hx
          refine (hi k).msgs x ?_
          rw [hm]; simp only [upd_same] at hx
          exact List.mem_cons_of_mem _ hx
        · simp only [upd_other _ hk]; exact (hi k).msgs
      · obtain ⟨g1, g2, g3⟩ := (hi k').msgs m (by rw [hm]; simp)
        have huntouched : ¬ m.touches W → ¬ (MT.isAmo m.ty = true ∧ m.addr.flat / 4 = W) →
            AmoSeq (memWord M W) ((execAmos W tr1).map (·.2) ++
              (execAmos W [.exec k' m (memExec T1.mem m).2.strip]).map (·.2)) (memWord (memExec T1.mem m).1 W) := by
          intro ht hn
          rw [memWord_agree (memExec_untouched T1.mem ht)]
          have : execAmos W [(.exec k' m (memExec T1.mem m).2.strip : Ev ι p)] = [] := by simp [execAmos, hn]
          rw [this]; simpa using hseq
        by_cases t1 : m.ty = MT.READ
        · apply huntouched
          · rintro ⟨x, _, ⟨h, _⟩ | ⟨h, _⟩⟩
            · rw [t1] at h; exact absurd h (by decide)
            · exact h t1
          · rw [t1]; intro h; exact absurd h.1 (by decide)
        by_cases t2 : m.ty = MT.WRITE
        · apply huntouched (g1 t2)
          rw [t2]; intro h; exact absurd h.1 (by decide)
        have ha := g3 t1 t2
        obtain ⟨c, hc4⟩ := g2 t1 t2
        by_cases hW : m.addr.flat / 4 = W
        · have hcW : c = W := by omega
          subst hcW
          have he : execAmos c [(.exec k' m (memExec T1.mem m).2.strip : Ev ι p)] =
              [(k', ⟨m.ty, m.data.setWidth 32, memWord T1.mem c⟩)] := by
            simp only [execAmos, List.filterMap_cons, List.filterMap_nil, ha, hW, and_self, if_true]
            simp only [memExec, if_neg t1, if_neg t2, MResp.strip, setWidth_line, hc4]
            rfl
          rw [he]
          have hmem : memWord (memExec T1.mem m).1 c = amoFun m.ty (memWord T1.mem c) (m.data.setWidth 32) := by
            simp only [memExec, if_neg t1, if_neg t2, hc4]
            rw [memWord_write]; rfl
          dsimp only
          rw [hmem]
          exact hseq.snoc ⟨m.ty, m.data.setWidth 32, memWord T1.mem c⟩ rfl
        · apply huntouched
          · rintro ⟨x, hx, ⟨h, _⟩ | ⟨_, _, h, h'⟩⟩
            · exact t2 h
            · omega
          · exact fun h => hW h.2

/-! ## Which operations are executed -/

/-- Type and operand of the atomic operations on word `W` among memory requests. Proof device; not in the source. -/
def mAmos (W : Nat) (ms : List (MReq p)) : List (MType × BitVec 32) :=
  ms.filterMap fun m => if MT.isAmo m.ty = true ∧ m.addr.flat / 4 = W then some (m.ty, m.data.setWidth 32) else none

theorem mAmos_append (W : Nat) (a b : List (MReq p)) : mAmos W (a ++ b) = mAmos W a ++ mAmos W b :=
  List.filterMap_append ..

theorem mAmos_miss (W : Nat) {q : CReq p} {ms : List (MReq p)} (h : MissTraffic q ms) : mAmos W ms = [] := by
  obtain ⟨m', g1, rfl | ⟨w, t, g2, rfl⟩⟩ := h
  · simp [mAmos, g1.1]
  · simp [mAmos, g1.1, g2.1]

theorem mAmos_amo (W : Nat) {q : CReq p} {ms : List (MReq p)} (h : AmoTraffic q ms) :
    mAmos W ms = if MT.isAmo q.ty = true ∧ q.addr.flat / 4 = W then [(q.ty, q.data.setWidth 32)] else [] := by
  have key : ∀ m : MReq p, m.Performs q →
      mAmos W [m] = if MT.isAmo q.ty = true ∧ q.addr.flat / 4 = W then [(q.ty, q.data.setWidth 32)] else [] := by
    rintro m ⟨g1, g2, g3, _⟩
    have e : (q.data.setWidth p.lineBits).setWidth 32 = q.data.setWidth 32 := by
      have := lineBits_ge p
      apply BitVec.eq_of_getLsbD_eq
      intro i hi
      have : i < p.lineBits := by omega
      simp [hi, this]
    simp only [mAmos, List.filterMap_cons, List.filterMap_nil, g1, g2, g3, e]
    split <;> simp_all
  obtain ⟨m', g1, rfl | ⟨w, g2, rfl⟩⟩ := h
  · exact key _ g1
  · rw [← key m' g1]
    simp [mAmos, g2.1]

theorem accept_mAmos (W : Nat) {L : L1 p} (hok : L.Ok) (hc : L.cur = .idle) {q : CReq p} (hq : q.ty ≠ MT.INIT) :
    mAmos W (memMsgs (L.accept q).2) =
      if MT.isAmo q.ty = true ∧ q.addr.flat / 4 = W then [(q.ty, q.data.setWidth 32)] else [] := by
  have hno : MT.isAmo q.ty = false → (if MT.isAmo q.ty = true ∧ q.addr.flat / 4 = W then
      [(q.ty, (q.data.setWidth 32 : BitVec 32))] else []) = [] := by
    intro h; rw [if_neg]; rw [h]; rintro ⟨h, _⟩; cases h
  cases accept_cases hok hc hq with
  | fill w d hc ht hr hmt hd =>
    rw [mAmos_miss W hmt, hno]; rcases ht with h | h <;> rw [h] <;> rfl
  | amo h w hc ht hr hmt => exact mAmos_amo W hmt
  | done r hc hr hs ht ha =>
    rw [hno ha]
    simp only [mAmos, List.filterMap_eq_nil_iff]
    intro m hm
    rw [if_neg]
    rintro ⟨h, _⟩
    by_cases t1 : q.ty = MT.READ ∨ q.ty = MT.WRITE
    · rcases hs.rw t1 with ⟨_, g⟩ | ⟨_, g⟩
      · rw [g] at hm; cases hm
      · have := mAmos_miss (m.addr.flat / 4) g
        simp only [mAmos, List.filterMap_eq_nil_iff] at this
        have := this m hm
        rw [if_pos ⟨h, rfl⟩] at this; cases this
    by_cases t3 : q.ty = MT.INV
    · rw [(hs.inv t3).2] at hm; cases hm
    by_cases t4 : q.ty = MT.FLUSH
    · obtain ⟨_, _, g⟩ := (hs.flush t4).2 m hm; rw [g.1] at h; cases h
    · have hacc : L.accept q = (L, []) := by
        simp only [L1.accept]; rw [if_neg t1, if_neg (by rw [ha]; decide), if_neg t3, if_neg t4]
      rw [hacc] at hm; cases hm

theorem asked_append (k : ι) (W : Nat) (a b : List (Ev ι p)) : askedAmos k W (a ++ b) = askedAmos k W a ++ askedAmos k W b := by
  simp only [askedAmos, accepted_append, List.filterMap_append]

theorem exec_mAmos (k : ι) (W : Nat) (tr : List (Ev ι p)) :
    (ofCache k (execAmos W tr)).map (fun o => (o.ty, o.arg)) = mAmos W ((execd k tr).map (·.1)) := by
  simp only [ofCache, execAmos, mAmos, execd, List.filterMap_filterMap, List.map_filterMap]
  congr 1
  funext e
  cases e with
  | acc => rfl
  | mreq => rfl
  | resp => rfl
  | exec k' m r =>
    by_cases hk : k' = k
    · by_cases hm : MT.isAmo m.ty = true ∧ m.addr.flat / 4 = W
      · simp [hk, hm]
      · simp only [hk, if_true]; rw [if_neg hm]; simp [hm]
    · by_cases hm : MT.isAmo m.ty = true ∧ m.addr.flat / 4 = W
      · simp [hk, hm]
      · simp only [hk, if_false]; rw [if_neg hm]; simp

theorem asked_inv {M : ByteMem} {T : ESys ι p} {tr : List (Ev ι p)} (h : ERun (ESys.init ι p M) tr T) (k : ι) (W : Nat) :
    mAmos W ((execd k tr).map (·.1) ++ T.reqQ k ++ memMsgs (T.E k)) = askedAmos k W tr := by
  generalize hT : ESys.init ι p M = T0 at h
  induction h with
  | refl => subst hT; rfl
  | @snoc T1 T2 tr1 ev h hs ih =>
    subst hT
    rw [asked_append, execd_append, List.map_append, ← ih]
    cases hs with
    | acc k' q hc hE hr hs hq =>
      by_cases hk : k = k'
      · subst hk
        simp only [upd_same, memMsgs_append, mAmos_append, accept_mAmos W (EInv.run h k).ok hc hq]
        simp [execd, askedAmos, accepted, mAmos]
        split <;> simp_all
      · have : ¬ k' = k := fun h => hk h.symm
        simp [upd_other _ hk, execd, askedAmos, accepted, this]
    | deliver k' r l hl =>
      by_cases hk : k = k'
      · subst hk
        simp [execd, askedAmos, accepted, deliver_mem]
      · simp [upd_other _ hk, execd, askedAmos, accepted]
    | emitMem k' m E' hE =>
      by_cases hk : k = k'
      · subst hk
        simp [execd, askedAmos, accepted, hE]
      · simp [upd_other _ hk, execd, askedAmos, accepted]
    | emitResp k' r E' hE hr hs =>
      by_cases hk : k = k'
      · subst hk
        simp [execd, askedAmos, accepted, hE]
      · simp [upd_other _ hk, execd, askedAmos, accepted]
    | exec k' m ms hm =>
      by_cases hk : k = k'
      · subst hk
        simp [execd, askedAmos, accepted, hm]
      · have : ¬ k' = k := fun h => hk h.symm
        simp [upd_other _ hk, execd, askedAmos, accepted, this]

/-! ## From the canonical system to the RTL -/

theorem execAmos_canon (W : Nat) (tr : List (Ev ι p)) : execAmos W (tr.map Ev.canon) = execAmos W tr := by
  simp only [execAmos, List.filterMap_map]
  congr 1; funext e
  cases e with
  | exec k m r =>
    simp only [Ev.canon, Function.comp_apply, MReq.canon_ty, canon_addr]
    by_cases h : MT.isAmo m.ty = true ∧ m.addr.flat / 4 = W
    · rw [if_pos h, if_pos h]
      have t1 : ¬ m.ty = MT.READ := by intro h'; rw [h'] at h; cases h.1
      have t2 : ¬ m.ty = MT.WRITE := by intro h'; rw [h'] at h; cases h.1
      simp only [MReq.canon, if_neg t1, if_neg t2, MResp.strip]
    · rw [if_neg h, if_neg h]
  | _ => rfl

theorem askedAmos_canon (k : ι) (W : Nat) (tr : List (Ev ι p)) : askedAmos k W (tr.map Ev.canon) = askedAmos k W tr := by
  simp only [askedAmos, accepted_canon]

/-- Memory executes only operations that were asked for, in the order of acceptance. -/
theorem executed_asked (wf : p.WF) {S S' : Sys ι p} {tr : List (Ev ι p)} (h0 : Start S) (h : Run S tr S') (k : ι) (W : Nat) :
    (ofCache k (execAmos W tr)).map (fun o => (o.ty, o.arg)) <+: askedAmos k W tr := by
  obtain ⟨T, he, _⟩ := refine wf h0 h
  have := asked_inv he k W
  rw [askedAmos_canon, List.append_assoc, mAmos_append, ← exec_mAmos, execAmos_canon] at this
  rw [← this]
  exact List.prefix_append _ _

theorem ofCache_append (k : ι) (a b : List (ι × AmoOp)) : ofCache k (a ++ b) = ofCache k a ++ ofCache k b :=
  List.filterMap_append ..

/-- One window: the operation executed is the one answered. -/
theorem window_amos (wf : p.WF) (W : Nat) {b : List (Ev ι p)} {k : ι} {q : CReq p} {r : CResp p}
    (hq : q.ty ≠ MT.INIT) {C : Nat → Prop}
    (hs : Serves q ((execd k b).map (·.1)) r) (hd : DataOf C q (execd k b) r) :
    ofCache k (execAmos W b) = if MT.isAmo q.ty = true ∧ q.addr.flat / 4 = W
      then [⟨q.ty, q.data.setWidth 32, r.data.setWidth 32⟩] else [] := by
  have hex : ofCache k (execAmos W b) = (execd k b).filterMap fun e =>
      if MT.isAmo e.1.ty = true ∧ e.1.addr.flat / 4 = W
        then some ⟨e.1.ty, e.1.data.setWidth 32, e.2.data.setWidth 32⟩ else none := by
    simp only [ofCache, execAmos, execd, List.filterMap_filterMap]
    congr 1
    funext e
    cases e with
    | acc => rfl
    | mreq => rfl
    | resp => rfl
    | exec k' m r =>
      by_cases hk : k' = k
      · by_cases hm : MT.isAmo m.ty = true ∧ m.addr.flat / 4 = W
        · simp [hk, hm]
        · simp only [hk, if_true]; rw [if_neg hm]; simp [hm]
      · by_cases hm : MT.isAmo m.ty = true ∧ m.addr.flat / 4 = W
        · simp [hk, hm]
        · simp only [hk, if_false]; rw [if_neg hm]; simp
  by_cases ha : MT.isAmo q.ty = true
  · obtain ⟨e, he, hdat⟩ := hd.amo ha
    have hw : r.data.setWidth 32 = e.2.data.setWidth 32 := by
      rw [hdat]
      have h32 : 32 ≤ p.dataBits := by
        have := Nat.pow_le_pow_right (n := 2) (by decide) wf.len.1
        simp only [Params.dataBits]; omega
      apply BitVec.eq_of_getLsbD_eq
      intro i hi
      have : i < p.dataBits := by omega
      simp [hi, this]
    have hone : ∀ m x, m.Performs q → x.data.setWidth 32 = r.data.setWidth 32 →
        ([((m, x) : MReq p × MResp p)].filterMap fun e =>
          if MT.isAmo e.1.ty = true ∧ e.1.addr.flat / 4 = W
            then some (⟨e.1.ty, e.1.data.setWidth 32, e.2.data.setWidth 32⟩ : AmoOp) else none) =
        if MT.isAmo q.ty = true ∧ q.addr.flat / 4 = W
          then [⟨q.ty, q.data.setWidth 32, r.data.setWidth 32⟩] else [] := by
      rintro m x ⟨g1, g2, g3, _⟩ hx
      have e : (q.data.setWidth p.lineBits).setWidth 32 = q.data.setWidth 32 := by
        have := lineBits_ge p
        apply BitVec.eq_of_getLsbD_eq
        intro i hi
        have : i < p.lineBits := by omega
        simp [hi, this]
      simp only [List.filterMap_cons, List.filterMap_nil, g1, g2, g3, e, hx]
      split <;> simp_all
    rw [hex]
    obtain ⟨m, g1, g2 | ⟨w, g2, g3⟩⟩ := (hs.amo ha).2
    · obtain ⟨e1, l, h1, h2, h3⟩ := List.map_eq_cons_iff.1 g2
      rw [List.map_eq_nil_iff] at h3
      subst h3
      rw [h1] at he ⊢
      cases he
      obtain ⟨m', x⟩ := e1
      subst h2
      exact hone _ _ g1 hw.symm
    · obtain ⟨e1, l, h1, h2, h3⟩ := List.map_eq_cons_iff.1 g3
      obtain ⟨e2, l', h4, h5, h6⟩ := List.map_eq_cons_iff.1 h3
      rw [List.map_eq_nil_iff] at h6
      subst h6 h4
      rw [h1] at he ⊢
      have he : e = e2 := by simpa using he.symm
      subst he
      obtain ⟨m', x⟩ := e
      subst h5
      rw [← hone _ _ g1 hw.symm, List.filterMap_cons]
      rw [h2, g2.1]
      simp
  · rw [if_neg (fun h => ha h.1)]
    have hma := exec_mAmos k W b
    have hnil : mAmos W ((execd k b).map (·.1)) = [] := by
      by_cases t1 : q.ty = MT.READ ∨ q.ty = MT.WRITE
      · rcases hs.rw t1 with ⟨_, g⟩ | ⟨_, g⟩
        · rw [g]; rfl
        · exact mAmos_miss W g
      by_cases t3 : q.ty = MT.INV
      · rw [(hs.inv t3).2]; rfl
      by_cases t4 : q.ty = MT.FLUSH
      · simp only [mAmos, List.filterMap_eq_nil_iff]
        intro m hm
        obtain ⟨_, _, g⟩ := (hs.flush t4).2 m hm
        rw [g.1]; simp
      · exfalso
        have e0 : ∀ t : MType, t ≠ MT.READ → t ≠ MT.WRITE → t ≠ MT.INIT → MT.isAmo t ≠ true → t ≠ MT.INV → t ≠ MT.FLUSH → False := by
          intro t h0 h1 h2 ha h3 h4
          have hb := t.isLt
          have k0 : t.toNat ≠ 0 := fun h => h0 (BitVec.eq_of_toNat_eq h)
          have k1 : t.toNat ≠ 1 := fun h => h1 (BitVec.eq_of_toNat_eq h)
          have k2 : t.toNat ≠ 2 := fun h => h2 (BitVec.eq_of_toNat_eq h)
          have k3 : t.toNat ≠ 14 := fun h => h3 (BitVec.eq_of_toNat_eq h)
          have k4 : t.toNat ≠ 15 := fun h => h4 (BitVec.eq_of_toNat_eq h)
          apply ha
          simp only [MT.isAmo, Bool.and_eq_true, decide_eq_true_eq]
          omega
        exact e0 q.ty (fun h => t1 (.inl h)) (fun h => t1 (.inr h)) hq ha t3 t4
    rw [hnil, List.map_eq_nil_iff] at hma
    exact hma


theorem answered_prefix (wf : p.WF) {S S' : Sys ι p} {tr : List (Ev ι p)} (h0 : Start S) (h : Run S tr S') (k : ι) (W : Nat)
    (hini : ∀ q ∈ accepted k tr, q.ty ≠ MT.INIT) :
    ∀ (n : Nat) (a rest : List (Ev ι p)), rest.length ≤ n → tr = a ++ rest → (rest = [] ∨ ∃ q c, rest = .acc k q :: c) →
    (((accepted k rest).zip ((responses k tr).drop (accepted k a).length)).filterMap fun x =>
      if MT.isAmo x.1.ty = true ∧ x.1.addr.flat / 4 = W
        then some (⟨x.1.ty, x.1.data.setWidth 32, x.2.data.setWidth 32⟩ : AmoOp) else none) <+: ofCache k (execAmos W rest) := by
  intro n
  induction n with
  | zero =>
    intro a rest hl _ _
    have : rest = [] := List.length_eq_zero_iff.1 (by omega)
    subst this
    exact List.nil_prefix
  | succ n ih =>
    intro a rest hl htr hsh
    rcases hsh with rfl | ⟨q, l, rfl⟩
    · exact List.nil_prefix
    obtain ⟨b, c, rfl, hw⟩ := Window.exists k l
    have hacc : accepted k (.acc k q :: (b ++ c)) = q :: accepted k c := by
      have : accepted k (.acc k q :: (b ++ c)) = q :: (accepted k b ++ accepted k c) := by simp [accepted]
      rw [this, hw.none]; rfl
    rw [hacc]
    cases hr : (responses k tr)[(accepted k a).length]? with
    | none =>
      rw [List.getElem?_eq_none_iff] at hr
      rw [List.drop_eq_nil_of_le hr]
      exact List.nil_prefix
    | some r =>
      have hs := request_served wf h0 (htr ▸ h) hw (htr ▸ hr)
      have hqi : q.ty ≠ MT.INIT := by
        apply hini; rw [htr, accepted_append, hacc]; simp
      have hwin := window_amos wf W hqi hs.2.1 hs.2.2
      obtain ⟨hlt, hre⟩ := List.getElem?_eq_some_iff.1 hr
      rw [List.drop_eq_getElem_cons hlt, hre, List.zip_cons_cons, List.filterMap_cons]
      have he : ofCache k (execAmos W (.acc k q :: (b ++ c))) = ofCache k (execAmos W b) ++ ofCache k (execAmos W c) := by
        rw [← ofCache_append, ← execAmos_append]; rfl
      have ih := ih (a ++ .acc k q :: b) c (by simp only [List.length_cons, List.length_append] at hl; omega)
        (by rw [htr]; simp) hw.next
      have hlen : (accepted k (a ++ .acc k q :: b)).length = (accepted k a).length + 1 := by
        have : accepted k (a ++ .acc k q :: b) = accepted k a ++ (q :: accepted k b) := by simp [accepted]
        rw [this, hw.none, List.length_append]; rfl
      rw [hlen] at ih
      rw [he, hwin]
      dsimp only
      by_cases hc : MT.isAmo q.ty = true ∧ q.addr.flat / 4 = W
      · rw [if_pos hc, if_pos hc]
        simp only [List.singleton_append, List.cons_prefix_cons, true_and]
        exact ih
      · rw [if_neg hc, if_neg hc]
        exact ih

/-- **C20.**  Let no WRITE request store to word `W` (atomic operations may).  All
atomic operations on `W`, of all caches, are performed one after the other, in the
order in which memory executes them (`execAmos`): each returns the word left by the
previous one, and memory ends up with the word left by the last one.  For every cache,
the operations it answered, with the words it returned to its processor, are an
initial part of its operations in this order; and only operations it accepted are
performed, each once and in the order of acceptance. -/
theorem C20_amos_atomic (wf : p.WF) {S S' : Sys ι p} {tr : List (Ev ι p)} (h0 : Start S) (h : Run S tr S')
    (hv : ∀ k, ∀ q ∈ accepted k tr, q.Valid) {W : Nat}
    (hno : ∀ k, ∀ q ∈ accepted k tr, q.ty = MT.WRITE → ¬ q.writesWord W) :
    AmoSeq (memWord S.mem W) ((execAmos W tr).map (·.2)) (memWord S'.mem W) ∧
    ∀ k, answeredAmos k W tr <+: ofCache k (execAmos W tr) ∧
      (ofCache k (execAmos W tr)).map (fun o => (o.ty, o.arg)) <+: askedAmos k W tr := by
  obtain ⟨T, he, hrel⟩ := refine wf h0 h
  refine ⟨?_, fun k => ⟨?_, executed_asked wf h0 h k W⟩⟩
  · have := (amo_inv wf he (by intro k q hq; rw [accepted_canon] at hq; exact hv k q hq) (W := W)
      (by intro k q hq; rw [accepted_canon] at hq; exact hno k q hq)).2
    rw [execAmos_canon, hrel.mem] at this
    exact this
  · have hini : ∀ q ∈ accepted k tr, q.ty ≠ MT.INIT := by
      have := acc_ne_init he k
      rw [accepted_canon] at this
      exact this
    obtain ⟨b, c, rfl, hw⟩ := Window.exists k tr
    have := answered_prefix wf h0 h k W hini c.length b c (Nat.le_refl _) rfl hw.next
    rw [hw.none] at this
    have hb : ofCache k (execAmos W b) = [] := by
      have hin := asked_inv (he.split (b.map Ev.canon) (c.map Ev.canon) (by simp)).choose_spec.1 k W
      rw [askedAmos_canon, List.append_assoc, mAmos_append, ← exec_mAmos, execAmos_canon] at hin
      have h1 : askedAmos k W b = [] := by simp [askedAmos, hw.none]
      rw [h1, List.append_eq_nil_iff, List.map_eq_nil_iff] at hin
      exact hin.1
    rw [execAmos_append, ofCache_append, hb, List.nil_append]
    rw [answeredAmos, accepted_append, hw.none, List.nil_append]
    exact this

/-! ## Consequence: a shared counter -/

theorem AmoSeq.add {v v' : BitVec 32} {l : List AmoOp} (h : AmoSeq v l v') (hl : ∀ o ∈ l, o.ty = 3) :
    v' = v + (l.map (·.arg)).foldr (· + ·) 0 := by
  induction h with
  | nil v => simp
  | cons o h ih =>
    rw [ih (fun o' ho' => hl o' (by simp [ho']))]
    have : amoFun o.ty o.old o.arg = o.old + o.arg := by rw [hl o (by simp)]; rfl
    rw [this, List.map_cons, List.foldr_cons, BitVec.add_assoc]

/-- **C20, shared counter.**  If every atomic operation asked for on word `W` is an
addition and no WRITE stores to it, memory always holds the initial word plus the
operands of the additions executed so far: no update is lost. -/
theorem C20_counter (wf : p.WF) {S S' : Sys ι p} {tr : List (Ev ι p)} (h0 : Start S) (h : Run S tr S')
    (hv : ∀ k, ∀ q ∈ accepted k tr, q.Valid) {W : Nat}
    (hno : ∀ k, ∀ q ∈ accepted k tr, q.ty = MT.WRITE → ¬ q.writesWord W)
    (hadd : ∀ k, ∀ q ∈ accepted k tr, MT.isAmo q.ty = true → q.addr.flat / 4 = W → q.ty = 3) :
    memWord S'.mem W = memWord S.mem W + (((execAmos W tr).map (·.2.arg)).foldr (· + ·) 0) := by
  obtain ⟨h1, h2⟩ := C20_amos_atomic wf h0 h hv hno
  have := h1.add (by
    intro o ho
    obtain ⟨⟨k, o'⟩, hx, rfl⟩ := List.mem_map.1 ho
    have hk : o' ∈ ofCache k (execAmos W tr) := by
      simp only [ofCache, List.mem_filterMap]
      exact ⟨_, hx, by simp⟩
    have : (o'.ty, o'.arg) ∈ askedAmos k W tr := (h2 k).2.subset (List.mem_map_of_mem hk)
    simp only [askedAmos, List.mem_filterMap] at this
    obtain ⟨q, hq, hx⟩ := this
    split at hx
    · rename_i hc
      simp only [Option.some.injEq, Prod.mk.injEq] at hx
      rw [← hx.1]
      exact hadd k q hq hc.1 hc.2
    · cases hx)
  rw [this, List.map_map]; rfl

/-! ## A concrete execution -/

namespace ExA
/-- Two caches add to word 5, which both have cached.  Cache `false` accepts its first
addition before cache `true`, but memory executes it later; the last one is not yet
answered. Proof device; not in the source. -/
def rd : CReq p1 := ⟨MT.READ, 1, ⟨1, 0, 4⟩, 0, 0⟩
/-- Proof device; not in the source. -/
def add7 : CReq p1 := ⟨3, 1, ⟨1, 0, 4⟩, 0, 7⟩
/-- Proof device; not in the source. -/
def add9 : CReq p1 := ⟨3, 0, ⟨1, 0, 4⟩, 0, 9⟩
/-- Proof device; not in the source. -/
def r1 : Sys Bool p1 × List (Ev Bool p1) := driveK false 9 (start2 p1) [rd, add7]
/-- Proof device; not in the source. -/
def r2 : Sys Bool p1 × List (Ev Bool p1) := driveK true 20 r1.1 [rd, add9]
/-- Proof device; not in the source. -/
def r3 : Sys Bool p1 × List (Ev Bool p1) := driveK false 12 r2.1 [add7, add7]
/-- Proof device; not in the source. -/
def tr : List (Ev Bool p1) := r1.2 ++ (r2.2 ++ r3.2)
theorem isRun : Run (start2 p1) tr r3.1 := (driveK_run _ _ _ _).trans ((driveK_run _ _ _ _).trans (driveK_run _ _ _ _))

theorem ops : execAmos 5 tr = [(true, ⟨3, 9, 0x18171615⟩), (false, ⟨3, 7, 0x1817161e⟩), (false, ⟨3, 7, 0x18171625⟩),
    (false, ⟨3, 7, 0x1817162c⟩)] := by decide +kernel
theorem accA : accepted false tr = [rd, add7, add7, add7] := by decide +kernel
theorem accB : accepted true tr = [rd, add9] := by decide +kernel

theorem mem_acc {k : Bool} {q : CReq p1} (h : q ∈ accepted k tr) : q = rd ∨ q = add7 ∨ q = add9 := by
  cases k
  · rw [accA] at h; simp only [List.mem_cons, List.not_mem_nil, or_false] at h; rcases h with h | h | h | h <;> simp [h]
  · rw [accB] at h; simp only [List.mem_cons, List.not_mem_nil, or_false] at h; rcases h with h | h <;> simp [h]

theorem valid : ∀ k, ∀ q ∈ accepted k tr, q.Valid := by
  intro k q hq
  rcases mem_acc hq with rfl | rfl | rfl
  · exact .read rfl 2 (by decide) (by decide)
  · exact .amo (by decide) (.inl rfl) (by decide)
  · exact .amo (by decide) (.inl rfl) (by decide)

theorem noWrite : ∀ k, ∀ q ∈ accepted k tr, q.ty = MT.WRITE → ¬ q.writesWord 5 := by
  intro k q hq ht
  rcases mem_acc hq with rfl | rfl | rfl <;> exact absurd ht (by decide)

example : AmoSeq 0x18171615 [⟨3, 9, 0x18171615⟩, ⟨3, 7, 0x1817161e⟩, ⟨3, 7, 0x18171625⟩, ⟨3, 7, 0x1817162c⟩] 0x18171633 ∧
    answeredAmos false 5 tr = [⟨3, 7, 0x1817161e⟩, ⟨3, 7, 0x18171625⟩] ∧ answeredAmos true 5 tr = [⟨3, 9, 0x18171615⟩] := by
  have h := (C20_amos_atomic p1_wf (start2_start p1) isRun valid noWrite).1
  rw [ops, show memWord (start2 p1).mem 5 = 0x18171615 by decide +kernel,
    show memWord r3.1.mem 5 = 0x18171633 by decide +kernel] at h
  exact ⟨h, by decide +kernel, by decide +kernel⟩

example : memWord r3.1.mem 5 = 0x18171615 + (9 + (7 + (7 + (7 + 0)))) := by
  have h := C20_counter p1_wf (start2_start p1) isRun valid noWrite (by
    intro k q hq ha _
    rcases mem_acc hq with rfl | rfl | rfl
    · exact absurd ha (by decide)
    · rfl
    · rfl)
  rw [ops, show memWord (start2 p1).mem 5 = 0x18171615 by decide +kernel] at h
  exact h
end ExA

end Verif
