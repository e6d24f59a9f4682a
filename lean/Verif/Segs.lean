import Verif.Trace

/-!
# Segments of the message log

The log of a request sequence is the concatenation of one segment per request:
its memory requests followed by its response.
-/

namespace Verif
variable {p : Params}

/-- A segment: no response except at the end. Proof device; not in the source. -/
def IsSeg (l : List (Msg p)) : Prop := ∃ (ms : List (MReq p)) (r : CResp p), l = ms.map Msg.mem ++ [.resp r]

/-- The segments of a request sequence. Proof device; not in the source. -/
def L1.segs (A : L1 p) (M : ByteMem) : List (CReq p) → List (List (Msg p))
  | [] => []
  | q :: qs => (A.op M q).2.2 :: (A.op M q).1.segs (A.op M q).2.1 qs

theorem segs_flatten (A : L1 p) (M : ByteMem) (qs : List (CReq p)) :
    (A.ops M qs).2.2 = (A.segs M qs).flatten := by
  induction qs generalizing A M with
  | nil => rfl
  | cons q qs ih => simp [L1.ops, L1.segs, ih]

theorem segs_length (A : L1 p) (M : ByteMem) (qs : List (CReq p)) : (A.segs M qs).length = qs.length := by
  induction qs generalizing A M with
  | nil => rfl
  | cons q qs ih => simp [L1.segs, ih]

theorem segs_take (A : L1 p) (M : ByteMem) (qs : List (CReq p)) (n : Nat) :
    (A.segs M qs).take n = A.segs M (qs.take n) := by
  induction qs generalizing A M n with
  | nil => simp [L1.segs]
  | cons q qs ih => cases n <;> simp [L1.segs, ih]

theorem segs_isSeg {A : L1 p} (hc : A.cur = .idle) (M : ByteMem) {qs : List (CReq p)}
    (hq : ∀ q ∈ qs, q.ty ≠ MT.INIT) : ∀ l ∈ A.segs M qs, IsSeg l := by
  induction qs generalizing A M with
  | nil => simp [L1.segs]
  | cons q qs ih =>
    intro l hl
    simp only [L1.segs, List.mem_cons] at hl
    rcases hl with rfl | hl
    · obtain ⟨ms, h, d, hm⟩ := op_shape hc M (hq q (by simp))
      exact ⟨ms, _, hm⟩
    · exact ih (op_cur A M q) _ (fun q hq' => hq q (by simp [hq'])) l hl

theorem IsSeg.resp {l : List (Msg p)} (h : IsSeg l) : ∃ r, respMsgs l = [r] := by
  obtain ⟨ms, r, rfl⟩ := h
  exact ⟨r, by simp [respMsgs_map_mem]⟩

/-- If at least `n` responses were emitted, the first `n` segments were. -/
theorem seg_prefix {segs : List (List (Msg p))} {e rest : List (Msg p)} (hs : ∀ l ∈ segs, IsSeg l)
    (h : segs.flatten = e ++ rest) {n : Nat} (hn : n ≤ (respMsgs e).length) :
    n ≤ segs.length ∧ ∃ e', e = (segs.take n).flatten ++ e' := by
  induction n generalizing segs e with
  | zero => exact ⟨Nat.zero_le _, e, by simp⟩
  | succ n ih =>
    cases segs with
    | nil =>
      simp only [List.flatten_nil] at h
      have := (List.append_eq_nil_iff.1 h.symm).1
      subst this; simp at hn
    | cons l segs =>
      simp only [List.flatten_cons] at h
      have hl := hs l (by simp)
      obtain ⟨r, hr⟩ := hl.resp
      rcases List.append_eq_append_iff.1 h with ⟨x, h1, h2⟩ | ⟨x, h1, h2⟩
      · -- e = l ++ x
        subst h1
        rw [respMsgs_append, hr, List.length_append] at hn
        obtain ⟨g1, e', g2⟩ := ih (fun l hl => hs l (by simp [hl])) h2 (by simp at hn; omega)
        exact ⟨by simp; omega, e', by simp [g2]⟩
      · -- l = e ++ x
        obtain ⟨ms, r', hms⟩ := hl
        by_cases hx : x = []
        · subst hx
          simp only [List.append_nil] at h1
          subst h1
          rw [hr] at hn
          simp only [List.length_cons, List.length_nil, Nat.zero_add] at hn
          have hn0 : n = 0 := by omega
          subst hn0
          exact ⟨by simp, [], by simp⟩
        · exfalso
          -- e is inside the memory requests
          have : respMsgs e = [] := by
            rw [h1] at hms
            have hx2 := List.dropLast_concat_getLast hx
            rw [← hx2, ← List.append_assoc] at hms
            have := (List.append_inj' hms rfl).1
            have h3 : respMsgs (e ++ x.dropLast) = [] := by rw [this, respMsgs_map_mem]
            rw [respMsgs_append] at h3
            exact (List.append_eq_nil_iff.1 h3).1
          rw [this] at hn; simp at hn

/-- If the last emitted message is the `n`-th response, exactly the first `n`
segments were emitted. -/
theorem seg_exact {segs : List (List (Msg p))} {e rest : List (Msg p)} {r : CResp p} (hs : ∀ l ∈ segs, IsSeg l)
    (h : segs.flatten = (e ++ [.resp r]) ++ rest) {n : Nat} (hn : n = (respMsgs e).length + 1) :
    n ≤ segs.length ∧ e ++ [.resp r] = (segs.take n).flatten := by
  have hlen : (respMsgs (e ++ [Msg.resp r])).length = n := by simp [hn]
  obtain ⟨h1, e', h2⟩ := seg_prefix hs h (Nat.le_of_eq hlen.symm)
  refine ⟨h1, ?_⟩
  have hr : ∀ s : List (List (Msg p)), (∀ l ∈ s, IsSeg l) → (respMsgs s.flatten).length = s.length := by
    intro s hs
    induction s with
    | nil => rfl
    | cons l s ih =>
      obtain ⟨r, hr⟩ := (hs l (by simp)).resp
      simp [hr, ih (fun l hl => hs l (by simp [hl]))]
  have h3 : respMsgs e' = [] := by
    have h4 := congrArg (fun l => (respMsgs l).length) h2
    simp only [respMsgs_append, List.length_append] at h4
    rw [hr _ (fun l hl => hs l (List.mem_of_mem_take hl)), List.length_take, Nat.min_eq_left h1] at h4
    simp only [respMsgs_resp, respMsgs_nil, List.length_cons, List.length_nil] at h4
    have : (respMsgs e').length = 0 := by omega
    exact List.length_eq_zero_iff.1 this
  by_cases he : e' = []
  · subst he; simpa using h2
  · exfalso
    have h5 := List.dropLast_concat_getLast he
    rw [← h5, ← List.append_assoc] at h2
    have h6 := (List.append_inj' h2 rfl).2
    simp only [List.cons.injEq, and_true] at h6
    rw [← h5, ← h6] at h3
    simp at h3

/-- Memory after a request sequence is memory after its memory requests. -/
theorem ops_mem (A : L1 p) (M : ByteMem) (hc : A.cur = .idle) (qs : List (CReq p)) :
    (A.ops M qs).2.1 = (memRun M (memMsgs (A.ops M qs).2.2)).1 := by
  induction qs generalizing A M with
  | nil => rfl
  | cons q qs ih =>
    simp only [L1.ops, memMsgs_append, memRun_append]
    rw [ih _ _ (op_cur A M q)]
    have : (A.op M q).2.1 = (memRun M (memMsgs (A.op M q).2.2)).1 := by
      simp only [L1.op, memMsgs_append, answer_noMem, List.append_nil]
    rw [this]

/-! ## Bytes of the address space -/

theorem view_bytes {M M' : ByteMem} (h : ∀ la : LAddr p, view M la = view M' la) (x : Nat)
    (hx : x < 2 ^ p.addrBits) : M x = M' x := by
  have h1 : x / 2 ^ p.offBits < 2 ^ (p.tagBits + p.idxBits) := by
    apply Nat.div_lt_of_lt_mul
    rw [← Nat.pow_add]
    have : p.offBits + (p.tagBits + p.idxBits) = p.addrBits := by simp only [Params.addrBits]; omega
    rw [this]; exact hx
  have h2 : x / 2 ^ p.offBits / 2 ^ p.idxBits < 2 ^ p.tagBits := by
    apply Nat.div_lt_of_lt_mul
    rw [← Nat.pow_add, Nat.add_comm]; exact h1
  let la : LAddr p := ⟨BitVec.ofNat _ (x / 2 ^ p.offBits / 2 ^ p.idxBits), BitVec.ofNat _ (x / 2 ^ p.offBits)⟩
  have hn : la.num = x / 2 ^ p.offBits := by
    simp only [la, LAddr.num, BitVec.toNat_ofNat, Nat.mod_eq_of_lt h2]
    rw [Nat.mul_comm]; exact Nat.div_add_mod _ _
  have hm : x % 2 ^ p.offBits < 2 ^ p.offBits := Nat.mod_lt _ (Nat.two_pow_pos _)
  have hla := h la
  apply BitVec.eq_of_getLsbD_eq
  intro b hb
  have := congrArg (fun l => l.getLsbD (8 * (x % 2 ^ p.offBits) + b)) hla
  have hi : 8 * (x % 2 ^ p.offBits) + b < p.lineBits := by rw [lineBits_eq]; omega
  rw [getLsbD_view _ _ _ hi, getLsbD_view _ _ _ hi, hn] at this
  have h3 : (8 * (x % 2 ^ p.offBits) + b) / 8 = x % 2 ^ p.offBits := by omega
  have h4 : (8 * (x % 2 ^ p.offBits) + b) % 8 = b := by omega
  rw [h3, h4, Nat.mul_comm, Nat.div_add_mod] at this
  exact this

end Verif
