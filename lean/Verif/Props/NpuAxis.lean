import Verif.Lemmas.NpuAxis

/-!
# C138: the adapters between the FIFOs of the NPU and its AXI streams give every word, in order -/

namespace RadSim.Npu

/-- Whatever the FIFOs, the channel and the module behind do, no assertion of the adapters fails and what has been given is a prefix of what has
been taken: nothing is lost, changed, doubled or brought out of order. -/
theorem C138_stream {L : Link} (hL : L.Ok) (f : Transfer) {acc : Bv} (hacc : acc.Fits L.w) (r : Bv) (es : List LinkIn)
    (hes : ∀ i ∈ es, ∀ p, i.src = some p → p.Fits L.w) :
    ∃ a b t, (LinkSt.reset f acc r).run L es = some (a, b, t) ∧ (∃ rest, a = b ++ rest) ∧
      a.Sublist (es.filterMap (·.src)) ∧ t.m.buf.length ≤ 2 * L.T ∧ t.s.buf.length ≤ 2 := by
  obtain ⟨a, b, t, P, h1, h2, h3⟩ := (LinkSt.reset_inv hL f hacc r).run hL es hes
  refine ⟨a, b, t, h1, ⟨_, h3⟩, LinkSt.run_taken es h1, ?_, h2.s.cap⟩
  exact (LinkSt.run_cap hL es (by simp [LinkSt.reset]) (LinkSt.reset_inv hL f hacc r).m h1)

/-- When no more words come and nobody holds the others up, all that has been taken is given, after at most three cycles for every transfer. -/
theorem C138_all_given {L : Link} (hL : L.Ok) (f : Transfer) {acc : Bv} (hacc : acc.Fits L.w) (r : Bv) (es : List LinkIn)
    (hes : ∀ i ∈ es, ∀ p, i.src = some p → p.Fits L.w) {a b : List Bv} {t : LinkSt}
    (hr : (LinkSt.reset f acc r).run L es = some (a, b, t)) {n : Nat} (hn : 3 * L.T * a.length ≤ n) :
    ∃ t', (LinkSt.reset f acc r).run L (es ++ List.replicate n ⟨none, true, true, true⟩) = some (a, a, t') := by
  obtain ⟨a', b', t0, P, h1, h2, h3⟩ := (LinkSt.reset_inv hL f hacc r).run hL es hes
  rw [hr] at h1
  cases h1
  have h3 : a = b ++ (t.s.buf ++ P) := h3
  have htodo : t.todo ≤ n := by
    refine Nat.le_trans ?_ hn
    unfold LinkSt.todo
    have hw := congrArg List.length h2.way
    simp only [List.length_append, List.length_drop, List.length_flatMap, L.split_length] at hw
    have hs : (P.map fun _ => L.T).sum = L.T * P.length := by
      rw [List.map_const', List.sum_replicate_nat, Nat.mul_comm]
    rw [hs] at hw
    rw [h3]
    simp only [List.length_append]
    have h1 : t.s.buf.length ≤ L.T * t.s.buf.length := Nat.le_mul_of_pos_left _ hL.one
    have h2 : 3 * L.T * (b.length + (t.s.buf.length + P.length)) =
        3 * (L.T * b.length) + 3 * (L.T * t.s.buf.length) + 3 * (L.T * P.length) := by
      rw [Nat.mul_assoc, Nat.mul_add L.T, Nat.mul_add L.T]
      omega
    rw [h2]
    omega
  obtain ⟨b2, t2, k1, k2⟩ := LinkSt.drain hL n h2 htodo
  refine ⟨t2, ?_⟩
  rw [LinkSt.run_append, hr]
  simp only
  rw [k1]
  simp only
  rw [k2, List.append_nil, ← h3]

/-- A transfer that is offered stays offered, and stays the same, until it is taken. -/
theorem C138_stable {L : Link} (hL : L.Ok) (f : Transfer) {acc : Bv} (hacc : acc.Fits L.w) (r : Bv) (es : List LinkIn)
    (hes : ∀ i ∈ es, ∀ p, i.src = some p → p.Fits L.w) {a b : List Bv} {t : LinkSt}
    (hr : (LinkSt.reset f acc r).run L es = some (a, b, t)) (hv : t.m.valid = true) (src : Option Bv) :
    ∃ m', t.m.tick L src false = some (none, m') ∧ m'.valid = true ∧ m'.front = t.m.front := by
  obtain ⟨a', b', t0, P, h1, h2, h3⟩ := (LinkSt.reset_inv hL f hacc r).run hL es hes
  rw [hr] at h1
  cases h1
  obtain ⟨x, m', k1, k2, k3, k4, k5⟩ := h2.m.tick hL.one src false
  have hx : x = none := by
    unfold AxM.tick at k1
    simp only [Bool.and_false, Bool.false_eq_true, if_false] at k1
    generalize (if t.m.full L = true then none else src) = tk at k1
    cases tk with
    | none => exact (Prod.mk.inj (Option.some.inj k1)).1.symm
    | some p =>
      simp at k1
      exact k1.2.1.symm
  subst hx
  exact ⟨m', k1, k5 rfl hv⟩

/-- The words of the cores come back from the payload. -/
theorem C138_words {e n : Nat} (ws : List (List (BitVec e))) (hn : ∀ w ∈ ws, w.length = n) :
    unpackWords e n ws.length (packWords e n ws) = ws :=
  unpackWords_pack ws hn _ fun _ _ => rfl

/-- The words of a write-back come back from the payload: `xs` are the words without the four elements in front, which are the same for all
cores and are a register file, the two parts of an address of nine bits and a flag. -/
theorem C138_writeback {n : Nat} (id lo hi flag : BitVec 8) (h1 : id.toNat < 16) (h2 : hi.toNat < 2) (h3 : flag.toNat < 2)
    (xs : List (List (BitVec 8))) (hn : ∀ x ∈ xs, x.length = n) (hne : xs ≠ []) :
    unpackWriteback n xs.length (packWriteback n (xs.map fun x => id :: lo :: hi :: flag :: x)) =
      xs.map fun x => id :: lo :: hi :: flag :: x := by
  obtain ⟨g1, g2, g3, g4, g5⟩ := packWriteback_bits id lo hi flag h3 xs hne (n := n)
  have hu : unpackWords 8 n xs.length (packWriteback n (xs.map fun x => id :: lo :: hi :: flag :: x)) = xs :=
    unpackWords_pack xs hn _ g5
  unfold unpackWriteback
  simp only
  rw [hu]
  apply List.map_congr_left
  intro x _
  have e1 : (ofBits fun (b : Fin 8) => (packWriteback n (xs.map fun x => id :: lo :: hi :: flag :: x)).slice (xs.length * n * 8 + 14 - 4) 4 b) =
      id := by
    apply BitVec.eq_of_getLsbD_eq
    intro i hi'
    rw [ofBits_getLsbD _ ⟨i, hi'⟩]
    unfold Bv.slice
    split
    · rename_i h
      exact g1 i h
    · rename_i h
      exact (getLsbD_high id (k := 4) h1 (Nat.le_of_not_lt h)).symm
  have e2 : (ofBits fun (b : Fin 8) => packWriteback n (xs.map fun x => id :: lo :: hi :: flag :: x) (xs.length * n * 8 + 14 - 13 + b)) =
      lo := by
    apply BitVec.eq_of_getLsbD_eq
    intro i hi'
    rw [ofBits_getLsbD _ ⟨i, hi'⟩]
    exact g2 i hi'
  have e3 : (ofBits fun (b : Fin 8) => (packWriteback n (xs.map fun x => id :: lo :: hi :: flag :: x)).slice (xs.length * n * 8 + 14 - 5) 1 b) =
      hi := by
    apply BitVec.eq_of_getLsbD_eq
    intro i hi'
    rw [ofBits_getLsbD _ ⟨i, hi'⟩]
    unfold Bv.slice
    split
    · rename_i h
      exact g3 i h
    · rename_i h
      exact (getLsbD_high hi (k := 1) h2 (Nat.le_of_not_lt h)).symm
  have e4 : (ofBits fun (b : Fin 8) => (packWriteback n (xs.map fun x => id :: lo :: hi :: flag :: x)).slice (xs.length * n * 8 + 14 - 14) 1 b) =
      flag := by
    apply BitVec.eq_of_getLsbD_eq
    intro i hi'
    rw [ofBits_getLsbD _ ⟨i, hi'⟩]
    unfold Bv.slice
    split
    · rename_i h
      exact g4 i h
    · rename_i h
      exact (getLsbD_high flag (k := 1) h3 (Nat.le_of_not_lt h)).symm
  rw [e1, e2, e3, e4]

/-- The whole way of a write-back: words that are put at the end of the FIFOs of all cores come out at the other side as they are, in the
same order. -/
theorem C138_writeback_link {n c d T : Nat} (hL : (⟨true, c * n * 8 + 14, d, T⟩ : Link).Ok) (f : Transfer) {acc : Bv}
    (hacc : acc.Fits (c * n * 8 + 14)) (r : Bv) (hn : 1 ≤ n) (hc : 1 ≤ c) (es : List LinkIn)
    (hes : ∀ i ∈ es, ∀ p, i.src = some p → ∃ (id lo hi flag : BitVec 8) (xs : List (List (BitVec 8))),
      p = packWriteback n (xs.map fun x => id :: lo :: hi :: flag :: x) ∧ id.toNat < 16 ∧ hi.toNat < 2 ∧ flag.toNat < 2 ∧ xs.length = c ∧
        ∀ x ∈ xs, x.length = n) :
    ∃ a b t, (LinkSt.reset f acc r).run ⟨true, c * n * 8 + 14, d, T⟩ es = some (a.map (packWriteback n), b, t) ∧
      (a.map (packWriteback n)).Sublist (es.filterMap (·.src)) ∧ ∃ rest, a = b.map (unpackWriteback n c) ++ rest := by
  have hfit : ∀ i ∈ es, ∀ p, i.src = some p → p.Fits (c * n * 8 + 14) := by
    intro i hi p hp
    obtain ⟨id, lo, hi', flag, xs, rfl, _, _, _, rfl, _⟩ := hes i hi p hp
    exact packWriteback_fits hn id lo hi' flag xs
  obtain ⟨a, b, t, h1, ⟨rest, h2⟩, h3, _⟩ := C138_stream hL f hacc r es hfit
  have hback : ∀ p ∈ a, packWriteback n (unpackWriteback n c p) = p := by
    intro p hp
    obtain ⟨i, hi, hip⟩ := List.mem_filterMap.1 (h3.subset hp)
    obtain ⟨id, lo, hi', flag, xs, rfl, q1, q2, q3, rfl, q5⟩ := hes i hi p hip
    rw [C138_writeback id lo hi' flag q1 q2 q3 xs q5 (by intro e; rw [e] at hc; simp at hc)]
  have hmap : (a.map (unpackWriteback n c)).map (packWriteback n) = a := by
    rw [List.map_map]
    conv => rhs; rw [← List.map_id a]
    exact List.map_congr_left fun p hp => hback p hp
  refine ⟨a.map (unpackWriteback n c), b, t, ?_, ?_, rest.map (unpackWriteback n c), ?_⟩
  · rw [hmap]
    exact h1
  · rw [hmap]
    exact h3
  · rw [h2, List.map_append]

/-! ## Examples -/

/-- The three kinds of links of the design. -/
example : (⟨false, 256, 256, 1⟩ : Link).Ok := ⟨by decide, by decide, fun _ => by decide, fun h => by cases h⟩
example : (⟨true, 2 * 40 * 8 + 14, 256, 3⟩ : Link).Ok := ⟨by decide, by decide, fun h => by (cases h), fun _ => by decide⟩
example : (⟨false, 84, 256, 1⟩ : Link).Ok := ⟨by decide, by decide, fun _ => by decide, fun h => by cases h⟩

/-- Two write-backs of two cores with two lanes, over a stream of 16 bits: two transfers for each. The channel and the module behind hold
them up now and then. -/
def axisLink : Link := ⟨true, 2 * 2 * 8 + 14, 16, 2⟩
def axisWords : List (List (List (BitVec 8))) := [[[5, 200, 1, 0, 17, 255], [5, 200, 1, 0, 3, 128]], [[15, 7, 0, 1, 1, 2], [15, 7, 0, 1, 3, 4]]]
def axisIns : List LinkIn :=
  (axisWords.map fun w => ⟨some (packWriteback 2 w), true, true, true⟩) ++
    (List.range 12).map (fun k => ⟨none, k % 3 ≠ 0, k % 2 = 0, k % 4 = 1⟩) ++ List.replicate 12 ⟨none, true, true, true⟩

example : axisLink.Ok := ⟨by decide, by decide, fun h => by (cases h), fun _ => by decide⟩

example : ((LinkSt.reset ⟨fun _ => false, fun _ => false, false⟩ (fun _ => false) (fun _ => false)).run axisLink axisIns).map
    (fun r => (r.1.map (unpackWriteback 2 2), r.2.1.map (unpackWriteback 2 2))) = some (axisWords, axisWords) := by
  decide +kernel

/-- Without the bound on the identifier the round trip fails: only four bits of it go over. -/
example : unpackWriteback 2 1 (packWriteback 2 [[16, 0, 0, 0, 1, 2]]) = [[0, 0, 0, 0, 1, 2]] := by
  decide +kernel

example : unpackWords 32 2 3 (packWords 32 2 [[1, 2], [3, 4], [5, 0xffffffff]]) = [[1, 2], [3, 4], [5, 0xffffffff]] := by
  decide +kernel

end RadSim.Npu
