import Verif.Lemmas.NpuSector
import Mathlib.Data.List.Perm.Subperm

/-!
# More about the decoders: which words of the matrix the sector decoder asks for, and which macro-ops have no end -/

namespace RadSim.Npu

/-- Without anything carried over, one macro-op after the other. -/
theorem expandAll_unit {M U : Type} (f : M → List U) (ms : List M) :
    (expandAll (fun (_ : Unit) m => (f m, ())) () ms).1 = ms.flatMap f := by
  induction ms with
  | nil => rfl
  | cons m ms ih =>
    show f m ++ (expandAll (fun (_ : Unit) m => (f m, ())) () ms).1 = _
    rw [ih, List.flatMap_cons]

theorem sum_const (n k : Nat) : ((List.range n).map fun _ => k).sum = n * k := by
  simp

namespace Sector

theorem rows_sum {m : MvuMop} (hm : m.Legal) : ((List.range m.groups).map fun g => m.vrfSize * m.rows g).sum = m.mrfSize := by
  have hG := groups_pos hm
  have h2 := hm.2.1
  obtain ⟨G, hG⟩ : ∃ G, m.groups = G + 1 := ⟨m.groups - 1, by omega⟩
  have h1 : ∀ g ∈ List.range G, m.vrfSize * m.rows g = m.vrfSize * 12 := by
    intro g hg
    have := List.mem_range.1 hg
    unfold MvuMop.rows
    rw [if_neg (by omega)]
  rw [hG, List.range_succ, List.map_append, List.sum_append, List.map_congr_left h1, sum_const]
  have h3 : m.rows G = m.wordsPerRow - 12 * G := by
    unfold MvuMop.rows
    rw [if_pos (by omega)]
    unfold MvuMop.groups at hG
    omega
  have h4 : 12 * G ≤ m.wordsPerRow := by
    unfold MvuMop.groups at hG
    omega
  simp only [List.map_cons, List.map_nil, List.sum_cons, List.sum_nil, Nat.add_zero]
  rw [h3, hm.2.2.1, Nat.mul_comm G, Nat.mul_assoc, ← Nat.mul_add, Nat.add_sub_cancel' h4, Nat.mul_comm]

theorem covers {m : MvuMop} (hm : m.Legal) (ho : m.op = true) (reg : Bool) :
    (((m.expand reg).1.map MvuUop.mrfAddr)).Perm (List.range' m.mrfBase m.mrfSize) := by
  have hG := groups_pos hm
  have h1 := hm.1
  unfold MvuMop.expand
  rw [if_pos ho]
  refine (List.Subperm.perm_of_length_le (List.subperm_of_subset List.nodup_range' ?_) ?_).symm
  · intro x hx
    obtain ⟨hx1, hx2⟩ := List.mem_range'_1.1 hx
    simp only [List.mem_map, List.mem_flatMap, List.mem_range]
    obtain ⟨k, rfl⟩ : ∃ k, x = m.mrfBase + k := ⟨x - m.mrfBase, by omega⟩
    have hk : k < m.wordsPerRow * m.vrfSize := by
      rw [← hm.2.2.1]
      omega
    have hrow : k / m.vrfSize < m.wordsPerRow := Nat.div_lt_of_lt_mul (by rwa [Nat.mul_comm] at hk)
    have hv := Nat.mod_lt k h1
    have hdm := Nat.div_add_mod k m.vrfSize
    generalize k / m.vrfSize = row at *
    generalize k % m.vrfSize = v at *
    have h3 : ∃ g p, g < m.groups ∧ p < m.rows g ∧ 12 * g + p = row := by
      by_cases h : row / 12 < m.groups - 1
      · refine ⟨row / 12, row % 12, by omega, ?_, by omega⟩
        have := rows_le (m := m) (g := row / 12)
        omega
      · refine ⟨m.groups - 1, row - 12 * (m.groups - 1), by omega, ?_, by omega⟩
        unfold MvuMop.rows
        rw [if_pos (by omega)]
        unfold MvuMop.groups at *
        omega
    obtain ⟨g, p, hg, hp, hrp⟩ := h3
    refine ⟨m.uop reg g v p, ⟨g, hg, v, hv, p, hp, rfl⟩, ?_⟩
    show m.mrfBase + (12 * g + p) * m.vrfSize + v = _
    rw [hrp, Nat.mul_comm, Nat.add_assoc, hdm]
  · rw [List.length_map, List.length_range', List.length_flatMap, ← rows_sum hm]
    refine Nat.le_of_eq ?_
    congr 1
    refine List.map_congr_left fun g _ => ?_
    rw [List.length_flatMap]
    simp

end Sector

/-- A decoder in its last state that cannot leave it. -/
theorem never_ends {M C U : Type} (K : Kind M C U) (m : M) (I : C → Prop)
    (h1 : ∀ c f, I c → (K.core m c f).2.2 = false ∧ I (K.core m c f).1) (h2 : ∀ c, I c → I (K.hold m c))
    (es : List (Bool × M × Bool)) (d : Dec M C U) (hp : d.phase = .core) (hn : d.nxt = m) (hI : I d.ctr) :
    (es.foldl (fun d e => d.tick K e.1 e.2.1 e.2.2) d).phase = .core := by
  induction es generalizing d with
  | nil => exact hp
  | cons e es ih =>
    obtain ⟨h3, h4⟩ := h1 d.ctr d.first hI
    have h5 := h2 d.ctr hI
    rw [← hn] at h3 h4 h5
    have hs : ∃ d' : Dec M C U, d.tick K e.1 e.2.1 e.2.2 = d' ∧ d'.phase = .core ∧ d'.nxt = m ∧ I d'.ctr := by
      refine ⟨_, rfl, ?_⟩
      unfold Dec.tick
      rw [hp]
      cases e.2.2 with
      | false => exact ⟨rfl, hn, h5⟩
      | true =>
        simp only [if_true, h3]
        exact ⟨rfl, hn, h4⟩
    obtain ⟨d', e1, h6, h7, h8⟩ := hs
    rw [List.foldl_cons, e1]
    exact ih d' h6 h7 h8

theorem pred_ne {x c : Nat} (hc : c < 512) (h : ¬ (1 ≤ x ∧ x ≤ 512)) (hx : x < 2048) : (c == pred x) = false := by
  rw [beq_eq_false_iff_ne]
  unfold pred
  omega

theorem evrf_stuck {m : EvrfMop} (hm : m.Wf) (hl : ¬ m.Legal) :
    ∀ c f, (c.addr < 512 ∧ c.batch < 4) →
      (evrfKind.core m c f).2.2 = false ∧ ((evrfKind.core m c f).1.addr < 512 ∧ (evrfKind.core m c f).1.batch < 4) := by
  intro c f ⟨h1, h2⟩
  obtain ⟨_, _, h3, h4, h5⟩ := hm
  refine ⟨?_, ?_, ?_⟩
  · show (c.addr == pred m.vrfSize && evrfLast m c) = false
    by_cases h : 1 ≤ m.vrfSize ∧ m.vrfSize ≤ 512
    · have hw : ¬ 1 ≤ m.width := fun h6 => hl ⟨h.1, h.2, h6, h5⟩
      have hs : m.srcSel = true := by
        unfold EvrfMop.width at hw
        split at hw
        · assumption
        · omega
      have hb : m.batch = 0 := by
        unfold EvrfMop.width at hw
        rw [if_pos hs] at hw
        omega
      have h6 : evrfLast m c = false := by
        unfold evrfLast
        rw [hs, hb]
        have : (c.batch == pred 0) = false := by
          rw [beq_eq_false_iff_ne]
          unfold pred
          omega
        rw [this]
        simp
      rw [h6, Bool.and_false]
    · rw [pred_ne h1 h h3, Bool.false_and]
  · show (if evrfLast m c = true then (c.addr + 1) % 2 ^ 9 else c.addr) < 512
    split <;> omega
  · show (if evrfLast m c = true then 0 else (c.batch + 1) % 2 ^ 2) < 4
    split <;> omega

theorem mfu_stuck {m : MfuMop} (hm : m.Wf) (hl : ¬ m.Legal) :
    ∀ c f, (c.count < 512 ∧ c.batch < 4 ∧ c.size = m.vrfSize ∧ c.numBatch = m.batch) →
      (mfuKind.core m c f).2.2 = false ∧ ((mfuKind.core m c f).1.count < 512 ∧ (mfuKind.core m c f).1.batch < 4 ∧
        (mfuKind.core m c f).1.size = m.vrfSize ∧ (mfuKind.core m c f).1.numBatch = m.batch) := by
  intro c f ⟨h1, h2, hs, hn⟩
  obtain ⟨_, _, _, _, h3, h4, _, h5⟩ := hm
  refine ⟨?_, ?_, ?_, hs, hn⟩
  · show (c.count == pred c.size && c.batch == pred c.numBatch) = false
    rw [hs, hn]
    by_cases h : 1 ≤ m.vrfSize ∧ m.vrfSize ≤ 512
    · have hb : m.batch = 0 := by
        rcases Nat.eq_zero_or_pos m.batch with h6 | h6
        · exact h6
        · exact absurd ⟨h.1, h.2, h6, h5⟩ hl
      have : (c.batch == pred m.batch) = false := by
        rw [beq_eq_false_iff_ne, hb]
        unfold pred
        omega
      rw [this, Bool.and_false]
    · rw [pred_ne h1 h h3, Bool.false_and]
  · show (if (c.batch == pred c.numBatch) = true then (c.count + 1) % 2 ^ 9 else c.count) < 512
    split <;> omega
  · show (if (c.batch == pred c.numBatch) = true then 0 else (c.batch + 1) % 2 ^ 2) < 4
    split <;> omega

theorem ld_stuck {m : LdMop} (hm : m.Wf) (hl : ¬ m.Legal) :
    ∀ c f, (c.count < 512 ∧ c.batch < 4 ∧ c.size = m.vrfSize ∧ c.numBatch = m.batch ∧ c.update = false) →
      (ldKind.core m c f).2.2 = false ∧ ((ldKind.core m c f).1.count < 512 ∧ (ldKind.core m c f).1.batch < 4 ∧
        (ldKind.core m c f).1.size = m.vrfSize ∧ (ldKind.core m c f).1.numBatch = m.batch ∧
        (ldKind.core m c f).1.update = false) := by
  intro c f ⟨h1, h2, hs, hn, hu⟩
  obtain ⟨_, _, _, _, _, _, _, h3, _, h5⟩ := hm
  have e : ldKind.core m c f = ldCore m c f := by
    show (if c.update = true then ldUpdate c else ldCore m c f) = _
    rw [hu, if_neg (by decide)]
  rw [e]
  refine ⟨rfl, ?_, ?_, hs, hn, ?_⟩
  · show (if (c.batch == pred c.numBatch) = true then (c.count + 1) % 2 ^ 9 else c.count) < 512
    split <;> omega
  · show (if (c.batch == pred c.numBatch) = true then 0 else (c.batch + 1) % 2 ^ 2) < 4
    split <;> omega
  · show (c.count == pred c.size && c.batch == pred c.numBatch) = false
    rw [hs, hn]
    by_cases h : 1 ≤ m.vrfSize ∧ m.vrfSize ≤ 512
    · have hb : m.batch = 0 := by
        rcases Nat.eq_zero_or_pos m.batch with h6 | h6
        · exact h6
        · exact absurd ⟨h.1, h.2, h6, h5⟩ hl
      have : (c.batch == pred m.batch) = false := by
        rw [beq_eq_false_iff_ne, hb]
        unfold pred
        omega
      rw [this, Bool.and_false]
    · rw [pred_ne h1 h h3, Bool.false_and]

end RadSim.Npu
