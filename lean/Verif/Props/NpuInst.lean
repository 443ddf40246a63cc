import Verif.Lemmas.NpuInst

/-!
# C131: the macro-ops of the NPU and their bit vectors

The dispatcher of the example design `npu` turns each macro-op into a bit vector, which the adapters send over the NoC, and the
block it is meant for turns it back. -/

namespace RadSim.Npu

/-- A macro-op for the matrix-vector unit survives the way through a bit vector of 81 bits. -/
theorem C131_mvu_roundtrip (m : MvuMop) (h : m.Wf) : MvuMop.ofBv m.toBv = m ∧ m.toBv < 2 ^ 81 := by
  obtain ⟨⟨vb, vs, mb, ms, wp, t, o⟩, rfl⟩ : ∃ x, m = x := ⟨m, rfl⟩
  obtain ⟨h1, h2, h3, h4, h5, h6, h7⟩ := h
  obtain ⟨a, b, c, rfl⟩ := three h1
  simp only at *
  have hu := unpack_pack [(9, a), (9, b), (9, c), (11, vs), (10, mb), (11, ms), (11, wp), (10, t), (1, o.toNat)]
    [9, 9, 9, 11, 10, 11, 11, 10, 1] rfl (by
      have := bit_lt o
      simp only [List.mem_cons, List.not_mem_nil, or_false, forall_eq_or_imp, forall_eq] at h2 ⊢
      omega)
  refine ⟨?_, ?_⟩
  · show (match unpack [9, 9, 9, 11, 10, 11, 11, 10, 1] 0 (pack [(9, a), (9, b), (9, c), (11, vs), (10, mb), (11, ms), (11, wp),
      (10, t), (1, o.toNat)] 0 0) with
      | [a, b, c, vs, mb, ms, wp, t, o] => MvuMop.mk [a, b, c] vs mb ms wp t (o != 0)
      | _ => MvuMop.default) = _
    rw [hu]
    show MvuMop.mk [a, b, c] vs mb ms wp t (o.toNat != 0) = _
    rw [bit_ne]
  · show pack [(9, a), (9, b), (9, c), (11, vs), (10, mb), (11, ms), (11, wp), (10, t), (1, o.toNat)] 0 0 < _
    rw [pack_zero]
    exact enc_lt _

/-- No bit is lost the other way, either. -/
theorem C131_mvu_bits (x : Nat) (h : x < 2 ^ 81) : (MvuMop.ofBv x).toBv = x ∧ (MvuMop.ofBv x).Wf := by
  have hp := pack_unpack [9, 9, 9, 11, 10, 11, 11, 10, 1] x h
  have hm : ∀ i w, getRange x i w < 2 ^ w := fun i w => Nat.mod_lt _ (Nat.two_pow_pos w)
  refine ⟨?_, rfl, ?_, hm _ 11, hm _ 10, hm _ 11, hm _ 11, hm _ 10⟩
  · refine Eq.trans ?_ hp
    show pack [(9, _), (9, _), (9, _), (11, _), (10, _), (11, _), (11, _), (10, _), (1, (getRange x 80 1 != 0).toNat)] 0 0 = _
    rw [bit_toNat (hm 80 1)]
    rfl
  · intro b hb
    have hb : b ∈ [getRange x 0 9, getRange x 9 9, getRange x 18 9] := hb
    simp only [List.mem_cons, List.not_mem_nil, or_false] at hb
    rcases hb with rfl | rfl | rfl <;> exact hm _ 9

/-- A macro-op for the external register file. -/
theorem C131_evrf_roundtrip (m : EvrfMop) (h : m.Wf) : EvrfMop.ofBv m.toBv = m ∧ m.toBv < 2 ^ 52 := by
  obtain ⟨⟨vb, vs, ss, t, o, ba⟩, rfl⟩ : ∃ x, m = x := ⟨m, rfl⟩
  obtain ⟨h1, h2, h3, h4, h5⟩ := h
  obtain ⟨a, b, c, rfl⟩ := three h1
  simp only at *
  have hu := unpack_pack [(9, a), (9, b), (9, c), (11, vs), (1, ss.toNat), (10, t), (1, o.toNat), (2, ba)]
    [9, 9, 9, 11, 1, 10, 1, 2] rfl (by
      have := bit_lt o
      have := bit_lt ss
      simp only [List.mem_cons, List.not_mem_nil, or_false, forall_eq_or_imp, forall_eq] at h2 ⊢
      omega)
  refine ⟨?_, ?_⟩
  · show (match unpack [9, 9, 9, 11, 1, 10, 1, 2] 0 (pack [(9, a), (9, b), (9, c), (11, vs), (1, ss.toNat), (10, t), (1, o.toNat),
      (2, ba)] 0 0) with
      | [a, b, c, vs, ss, t, o, ba] => EvrfMop.mk [a, b, c] vs (ss != 0) t (o != 0) ba
      | _ => EvrfMop.default) = _
    rw [hu]
    show EvrfMop.mk [a, b, c] vs (ss.toNat != 0) t (o.toNat != 0) ba = _
    rw [bit_ne, bit_ne]
  · show pack [(9, a), (9, b), (9, c), (11, vs), (1, ss.toNat), (10, t), (1, o.toNat), (2, ba)] 0 0 < _
    rw [pack_zero]
    exact enc_lt _

/-- No bit is lost the other way, either. -/
theorem C131_evrf_bits (x : Nat) (h : x < 2 ^ 52) : (EvrfMop.ofBv x).toBv = x ∧ (EvrfMop.ofBv x).Wf := by
  have hp := pack_unpack [9, 9, 9, 11, 1, 10, 1, 2] x h
  have hm : ∀ i w, getRange x i w < 2 ^ w := fun i w => Nat.mod_lt _ (Nat.two_pow_pos w)
  refine ⟨?_, rfl, ?_, hm _ 11, hm _ 10, hm _ 2⟩
  · refine Eq.trans ?_ hp
    show pack [(9, _), (9, _), (9, _), (11, _), (1, (getRange x 38 1 != 0).toNat), (10, _), (1, (getRange x 49 1 != 0).toNat),
      (2, _)] 0 0 = _
    rw [bit_toNat (hm 38 1), bit_toNat (hm 49 1)]
    rfl
  · intro b hb
    have hb : b ∈ [getRange x 0 9, getRange x 9 9, getRange x 18 9] := hb
    simp only [List.mem_cons, List.not_mem_nil, or_false] at hb
    rcases hb with rfl | rfl | rfl <;> exact hm _ 9

/-- A macro-op for a multi-function unit. -/
theorem C131_mfu_roundtrip (m : MfuMop) (h : m.Wf) : MfuMop.ofBv m.toBv = m ∧ m.toBv < 2 ^ 84 := by
  obtain ⟨⟨va, vm, vs, t, o, ba⟩, rfl⟩ : ∃ x, m = x := ⟨m, rfl⟩
  obtain ⟨h1, h2, h3, h4, h5, h6, h7, h8⟩ := h
  obtain ⟨a, b, c, rfl⟩ := three h1
  obtain ⟨d, e, f, rfl⟩ := three h3
  simp only at *
  have hu := unpack_pack [(9, a), (9, b), (9, c), (9, d), (9, e), (9, f), (11, vs), (10, t), (7, o), (2, ba)]
    [9, 9, 9, 9, 9, 9, 11, 10, 7, 2] rfl (by
      simp only [List.mem_cons, List.not_mem_nil, or_false, forall_eq_or_imp, forall_eq] at h2 h4 ⊢
      omega)
  refine ⟨?_, ?_⟩
  · show (match unpack [9, 9, 9, 9, 9, 9, 11, 10, 7, 2] 0 (pack [(9, a), (9, b), (9, c), (9, d), (9, e), (9, f), (11, vs), (10, t),
      (7, o), (2, ba)] 0 0) with
      | [a, b, c, d, e, f, vs, t, o, ba] => MfuMop.mk [a, b, c] [d, e, f] vs t o ba
      | _ => MfuMop.default) = _
    rw [hu]
    rfl
  · show pack [(9, a), (9, b), (9, c), (9, d), (9, e), (9, f), (11, vs), (10, t), (7, o), (2, ba)] 0 0 < _
    rw [pack_zero]
    exact enc_lt _

/-- No bit is lost the other way, either. -/
theorem C131_mfu_bits (x : Nat) (h : x < 2 ^ 84) : (MfuMop.ofBv x).toBv = x ∧ (MfuMop.ofBv x).Wf := by
  have hp := pack_unpack [9, 9, 9, 9, 9, 9, 11, 10, 7, 2] x h
  have hm : ∀ i w, getRange x i w < 2 ^ w := fun i w => Nat.mod_lt _ (Nat.two_pow_pos w)
  refine ⟨hp, rfl, ?_, rfl, ?_, hm _ 11, hm _ 10, hm _ 7, hm _ 2⟩
  · intro b hb
    have hb : b ∈ [getRange x 0 9, getRange x 9 9, getRange x 18 9] := hb
    simp only [List.mem_cons, List.not_mem_nil, or_false] at hb
    rcases hb with rfl | rfl | rfl <;> exact hm _ 9
  · intro b hb
    have hb : b ∈ [getRange x 27 9, getRange x 36 9, getRange x 45 9] := hb
    simp only [List.mem_cons, List.not_mem_nil, or_false] at hb
    rcases hb with rfl | rfl | rfl <;> exact hm _ 9

/-- A macro-op for the loader. -/
theorem C131_ld_roundtrip (m : LdMop) (h : m.Wf) : LdMop.ofBv m.toBv = m ∧ m.toBv < 2 ^ 88 := by
  obtain ⟨⟨v0, b1, v1, va, vm, vs, ss, o, ba, i, r⟩, rfl⟩ : ∃ x, m = x := ⟨m, rfl⟩
  obtain ⟨h1, h2, h3, h4, h5, h6, h7, h8, h9, h10⟩ := h
  obtain ⟨a, b, c, rfl⟩ := three h4
  obtain ⟨d, e, f, rfl⟩ := three h6
  simp only at *
  have hu := unpack_pack [(4, v0), (8, b1), (4, v1), (9, a), (9, b), (9, c), (9, d), (9, e), (9, f), (11, vs), (2, ss),
      (1, o.toNat), (2, ba), (1, i.toNat), (1, r.toNat)]
    [4, 8, 4, 9, 9, 9, 9, 9, 9, 11, 2, 1, 2, 1, 1] rfl (by
      have := bit_lt o
      have := bit_lt i
      have := bit_lt r
      simp only [List.mem_cons, List.not_mem_nil, or_false, forall_eq_or_imp, forall_eq] at h5 h7 ⊢
      omega)
  refine ⟨?_, ?_⟩
  · show (match unpack [4, 8, 4, 9, 9, 9, 9, 9, 9, 11, 2, 1, 2, 1, 1] 0 (pack [(4, v0), (8, b1), (4, v1), (9, a), (9, b), (9, c),
      (9, d), (9, e), (9, f), (11, vs), (2, ss), (1, o.toNat), (2, ba), (1, i.toNat), (1, r.toNat)] 0 0) with
      | [v0, b1, v1, a, b, c, d, e, f, vs, ss, o, ba, i, r] =>
        LdMop.mk v0 b1 v1 [a, b, c] [d, e, f] vs ss (o != 0) ba (i != 0) (r != 0)
      | _ => LdMop.default) = _
    rw [hu]
    show LdMop.mk v0 b1 v1 [a, b, c] [d, e, f] vs ss (o.toNat != 0) ba (i.toNat != 0) (r.toNat != 0) = _
    rw [bit_ne, bit_ne, bit_ne]
  · show pack [(4, v0), (8, b1), (4, v1), (9, a), (9, b), (9, c), (9, d), (9, e), (9, f), (11, vs), (2, ss), (1, o.toNat), (2, ba),
      (1, i.toNat), (1, r.toNat)] 0 0 < _
    rw [pack_zero]
    exact enc_lt _

/-- No bit is lost the other way, either. -/
theorem C131_ld_bits (x : Nat) (h : x < 2 ^ 88) : (LdMop.ofBv x).toBv = x ∧ (LdMop.ofBv x).Wf := by
  have hp := pack_unpack [4, 8, 4, 9, 9, 9, 9, 9, 9, 11, 2, 1, 2, 1, 1] x h
  have hm : ∀ i w, getRange x i w < 2 ^ w := fun i w => Nat.mod_lt _ (Nat.two_pow_pos w)
  refine ⟨?_, hm _ 4, hm _ 8, hm _ 4, rfl, ?_, rfl, ?_, hm _ 11, hm _ 2, hm _ 2⟩
  · refine Eq.trans ?_ hp
    show pack [(4, _), (8, _), (4, _), (9, _), (9, _), (9, _), (9, _), (9, _), (9, _), (11, _), (2, _),
      (1, (getRange x 83 1 != 0).toNat), (2, _), (1, (getRange x 86 1 != 0).toNat), (1, (getRange x 87 1 != 0).toNat)] 0 0 = _
    rw [bit_toNat (hm 83 1), bit_toNat (hm 86 1), bit_toNat (hm 87 1)]
    rfl
  · intro b hb
    have hb : b ∈ [getRange x 16 9, getRange x 25 9, getRange x 34 9] := hb
    simp only [List.mem_cons, List.not_mem_nil, or_false] at hb
    rcases hb with rfl | rfl | rfl <;> exact hm _ 9
  · intro b hb
    have hb : b ∈ [getRange x 43 9, getRange x 52 9, getRange x 61 9] := hb
    simp only [List.mem_cons, List.not_mem_nil, or_false] at hb
    rcases hb with rfl | rfl | rfl <;> exact hm _ 9

/-- A matrix of 25 rows of 2 words: 12 rows, then 13. -/
def mvuSample : MvuMop := ⟨[4, 100, 511], 2, 800, 50, 25, 7, true⟩

example : mvuSample.Wf := ⟨rfl, by decide, by decide, by decide, by decide, by decide, by decide⟩

example : mvuSample.toBv = 1217204386772110202947588 := by decide +kernel

example : (EvrfMop.mk [1, 2, 3] 5 true 9 true 2).Wf := ⟨rfl, by decide, by decide, by decide, by decide⟩

example : (MfuMop.mk [1, 2, 3] [4, 5, 6] 5 9 0b1010011 2).Wf := ⟨rfl, by decide, rfl, by decide, by decide, by decide, by decide, by decide⟩

example : (LdMop.mk 1 2 3 [4, 5, 6] [7, 8, 9] 5 1 true 3 true false).Wf :=
  ⟨by decide, by decide, by decide, rfl, by decide, rfl, by decide, by decide, by decide, by decide⟩

end RadSim.Npu
