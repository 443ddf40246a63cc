import Verif.Lemmas.NpuDecode
import Verif.Spec.NpuDecode

/-!
# What the last states of the vector decoders make of a macro-op -/

namespace RadSim.Npu

variable {M C U : Type}

/-- From `c` on, the last state makes these micro-ops and is not left; `c'` is in the counters then, and `f'` in `first_uop`. -/
inductive Runs (K : Kind M C U) (m : M) : C → Bool → List U → C → Bool → Prop
  | nil (c : C) (f : Bool) : Runs K m c f [] c f
  | cons {c : C} {f : Bool} {u : U} {us : List U} {c1 c2 : C} {f2 : Bool} (hh : K.core m (K.hold m c) f = K.core m c f)
      (h : K.core m c f = (c1, u, false))
      (t : Runs K m c1 false us c2 f2) : Runs K m c f (u :: us) c2 f2

theorem Runs.append {K : Kind M C U} {m : M} {c c1 c2 : C} {f f1 f2 : Bool} {us vs : List U} (h : Runs K m c f us c1 f1)
    (t : Runs K m c1 f1 vs c2 f2) : Runs K m c f (us ++ vs) c2 f2 := by
  induction h with
  | nil => exact t
  | cons hh h _ ih => exact .cons hh h (ih t)

theorem Runs.emits {K : Kind M C U} {m : M} {c c1 c2 : C} {f f1 : Bool} {us vs : List U} (h : Runs K m c f us c1 f1)
    (t : Emits K m c1 f1 vs c2) : Emits K m c f (us ++ vs) c2 := by
  induction h with
  | nil => exact t
  | @cons c f u us c1 c3 f2 hh h _ ih =>
    have hi := ih t
    have hne := hi.ne_nil
    rw [List.cons_append]
    match hx : us ++ vs, hne with
    | v :: ws, _ =>
      rw [hx] at hi
      exact ⟨hh, by rw [h], by rw [h], by rw [h]; exact hi⟩

/-- A run step by step, from step `a` on. -/
theorem runs_index (K : Kind M C U) (m : M) (s : Nat → C) (u : Nat → Bool → U) (a N : Nat)
    (hh : ∀ t, a ≤ t → t < a + N → ∀ f, K.core m (K.hold m (s t)) f = K.core m (s t) f)
    (h : ∀ t, a ≤ t → t < a + N → ∀ f, K.core m (s t) f = (s (t + 1), u t f, false)) (f : Bool) :
    Runs K m (s a) f ((List.range' a N).map fun t => u t (t == a && f)) (s (a + N)) (f && N == 0) := by
  induction N generalizing a f with
  | zero => simpa using Runs.nil (s a) f
  | succ N ih =>
    have h1 := ih (a + 1) (fun t h1 h2 => hh t (by omega) (by omega)) (fun t h1 h2 => h t (by omega) (by omega)) false
    rw [List.range'_succ, List.map_cons]
    have e1 : (a + 1 + N) = a + (N + 1) := by omega
    rw [e1] at h1
    have e2 : (f && N + 1 == 0) = (false && N == 0) := by simp
    rw [e2]
    have e3 : u a (a == a && f) = u a f := by simp
    rw [e3]
    refine .cons (hh a (Nat.le_refl _) (by omega) f) (h a (Nat.le_refl _) (by omega) f) ?_
    have e4 : (List.range' (a + 1) N).map (fun t => u t (t == a && f)) =
        (List.range' (a + 1) N).map (fun t => u t (t == a + 1 && false)) := by
      apply List.map_congr_left
      intro t ht
      have := (List.mem_range'_1.1 ht).1
      have h5 : (t == a) = false := by simp; omega
      simp [h5]
    rw [e4]
    exact h1

theorem grid_range (n k : Nat) (hk : 0 < k) : grid n k = (List.range (n * k)).map fun t => (t / k, t % k) := by
  induction n with
  | zero => simp [grid]
  | succ n ih =>
    have h1 : grid (n + 1) k = grid n k ++ (List.range k).map fun b => (n, b) := by
      simp [grid, List.range_succ]
    rw [h1, ih, Nat.succ_mul, List.range_add, List.map_append]
    congr 1
    rw [List.map_map]
    apply List.map_congr_left
    intro b hb
    have hb := List.mem_range.1 hb
    simp only [Function.comp]
    rw [Nat.mul_comm n k, Nat.mul_add_div hk, Nat.mul_add_mod, Nat.div_eq_of_lt hb, Nat.mod_eq_of_lt hb, Nat.add_zero]

/-- The successor of a pair of counters, the second of which runs up to `k`. -/
theorem next_pair (t k : Nat) (hk : 0 < k) :
    (t % k = k - 1 → (t + 1) / k = t / k + 1 ∧ (t + 1) % k = 0) ∧
      (t % k ≠ k - 1 → (t + 1) / k = t / k ∧ (t + 1) % k = t % k + 1) := by
  have h1 := Nat.div_add_mod t k
  have h2 := Nat.mod_lt t hk
  generalize hq : t / k = q at *
  generalize hr : t % k = r at *
  constructor
  · intro h
    have e : t + 1 = k * (q + 1) := by
      rw [Nat.mul_add, Nat.mul_one]
      omega
    rw [e, Nat.mul_div_cancel_left _ hk, Nat.mul_mod_right]
    exact ⟨rfl, rfl⟩
  · intro h
    have e : t + 1 = k * q + (r + 1) := by omega
    rw [e, Nat.mul_add_div hk, Nat.mul_add_mod, Nat.div_eq_of_lt (by omega), Nat.mod_eq_of_lt (by omega)]
    exact ⟨rfl, rfl⟩

/-- The counters are at their last values only in the last step. -/
theorem last_pair (t n k : Nat) (hk : 0 < k) (ht : t < n * k) : (t / k = n - 1 ∧ t % k = k - 1) ↔ t + 1 = n * k := by
  have h1 := Nat.div_add_mod t k
  have h2 := Nat.mod_lt t hk
  have h3 : t / k < n := (Nat.div_lt_iff_lt_mul hk).2 ht
  constructor
  · rintro ⟨h4, h5⟩
    rw [h4, h5] at h1
    obtain ⟨n', rfl⟩ : ∃ n', n = n' + 1 := ⟨n - 1, by omega⟩
    rw [Nat.succ_mul, Nat.mul_comm n' k]
    rw [Nat.add_sub_cancel] at h1
    omega
  · intro h
    obtain ⟨a, b⟩ := next_pair t k hk
    have h4 : (t + 1) % k = 0 := by rw [h]; exact Nat.mul_mod_left n k
    have h5 : (t + 1) / k = n := by rw [h]; exact Nat.mul_div_cancel n hk
    by_cases h6 : t % k = k - 1
    · have h8 := (a h6).1
      rw [h5] at h8
      exact ⟨by rw [h8, Nat.add_sub_cancel], h6⟩
    · have h8 := (b h6).2
      rw [h4] at h8
      omega

theorem pred_eq {x : Nat} (h : 1 ≤ x) (hx : x < 2 ^ 64) : pred x = x - 1 := by
  unfold pred
  omega

/-- A loop over words and batch entries: the last state from counters at 0 to the last step, which is left for the caller. -/
theorem runs_grid (K : Kind M C U) (m : M) (hid : ∀ c, K.hold m c = c) (n k : Nat) (hk : 0 < k) (hn : 0 < n) (s : Nat → Nat → C) (u : Nat → Nat → Bool → U)
    (h : ∀ i b f, i < n → b < k → ¬ (i = n - 1 ∧ b = k - 1) →
      K.core m (s i b) f = (if b = k - 1 then s (i + 1) 0 else s i (b + 1), u i b f, false)) :
    ∃ f', Runs K m (s 0 0) true ((List.range (n * k - 1)).map fun t => u (t / k) (t % k) (t == 0)) (s (n - 1) (k - 1)) f' ∧
      ((grid n k).map fun x => u x.1 x.2 (x.1 == 0 && x.2 == 0)) =
        ((List.range (n * k - 1)).map fun t => u (t / k) (t % k) (t == 0)) ++ [u (n - 1) (k - 1) f'] := by
  have hpos : 0 < n * k := Nat.mul_pos hn hk
  have h1 := runs_index K m (fun t => s (t / k) (t % k)) (fun t f => u (t / k) (t % k) f) 0 (n * k - 1) (fun t _ _ f => by rw [hid]) (by
    intro t _ ht f
    have ht : t < n * k - 1 := by omega
    have h2 := last_pair t n k hk (by omega)
    have h3 : t / k < n := (Nat.div_lt_iff_lt_mul hk).2 (by omega)
    rw [h (t / k) (t % k) f h3 (Nat.mod_lt _ hk) (by rw [h2]; omega)]
    obtain ⟨a, b⟩ := next_pair t k hk
    by_cases h6 : t % k = k - 1
    · rw [if_pos h6, (a h6).1, (a h6).2]
    · rw [if_neg h6, (b h6).1, (b h6).2]) true
  have h7 := (last_pair (n * k - 1) n k hk (by omega)).2 (by omega)
  have e0 : (0 + (n * k - 1)) / k = n - 1 := by rw [Nat.zero_add]; exact h7.1
  have e1 : (0 + (n * k - 1)) % k = k - 1 := by rw [Nat.zero_add]; exact h7.2
  simp only [e0, e1, Nat.zero_div, Nat.zero_mod, Bool.and_true, Bool.true_and] at h1
  refine ⟨n * k - 1 == 0, ?_, ?_⟩
  · rw [List.range_eq_range']
    exact h1
  · rw [grid_range n k hk]
    have h8 : n * k = (n * k - 1) + 1 := by omega
    have hz : ∀ t, (t / k == 0 && t % k == 0) = (t == 0) := by
      intro t
      have h9 := Nat.div_add_mod t k
      rw [Bool.eq_iff_iff]
      simp only [Bool.and_eq_true, beq_iff_eq]
      constructor
      · rintro ⟨a, b⟩
        rw [a, b] at h9
        omega
      · rintro rfl
        simp
    rw [h8, List.range_succ, List.map_append, List.map_append, List.map_map]
    congr 1
    · apply List.map_congr_left
      intro t _
      simp only [Function.comp, hz]
    · have h9 := hz (n * k - 1)
      rw [h7.1, h7.2] at h9
      simp only [List.map_cons, List.map_nil, Nat.add_sub_cancel, h7.1, h7.2, h9]

theorem addrAt_word (base : List Nat) (b i : Nat) (hb : b < 3) : addrAt base b i = word base b i := by
  unfold addrAt word
  rw [if_pos hb]

theorem beq_succ {a b : Nat} (hb : 1 ≤ b) : (a == b - 1) = (a + 1 == b) := by
  rw [Bool.eq_iff_iff]
  simp only [beq_iff_eq]
  omega

/-- A loop over words and batch entries that is left at its end. -/
theorem emits_grid (K : Kind M C U) (m : M) (hid : ∀ c, K.hold m c = c) (n k : Nat) (hk : 0 < k) (hn : 0 < n) (s : Nat → Nat → C) (u : Nat → Nat → Bool → U)
    (c' : C)
    (h : ∀ i b f, i < n → b < k →
      K.core m (s i b) f =
        (if b + 1 = k then if i + 1 = n then c' else s (i + 1) 0 else s i (b + 1), u i b f, i + 1 == n && b + 1 == k)) :
    Emits K m (s 0 0) true ((grid n k).map fun x => u x.1 x.2 (x.1 == 0 && x.2 == 0)) c' := by
  obtain ⟨f', h1, h2⟩ := runs_grid K m hid n k hk hn s u (by
    intro i b f hi hb hne
    rw [h i b f hi hb]
    have h3 : (i + 1 == n && b + 1 == k) = false := by
      simp only [Bool.and_eq_false_iff, beq_eq_false_iff_ne]
      omega
    rw [h3]
    by_cases hb : b = k - 1
    · rw [if_pos hb, if_pos (by omega), if_neg (by omega)]
    · rw [if_neg hb, if_neg (by omega)])
  rw [h2]
  refine h1.emits ?_
  have h4 := h (n - 1) (k - 1) f' (by omega) (by omega)
  rw [if_pos (by omega), if_pos (by omega)] at h4
  refine ⟨by rw [hid], by rw [h4], ?_, by rw [h4]⟩
  rw [h4]
  simp only [Bool.and_eq_true, beq_iff_eq]
  omega

/-- The decoder of the external register file. -/
theorem evrf_follows : Follows evrfKind EvrfMop.Legal (fun _ => ()) (fun _ m => (m.expand, ())) := by
  constructor
  · intro m c ⟨h1, h2, h3, h4⟩ hv
    have hv : m.op = true := hv
    have hw : m.width ≤ 3 := by
      unfold EvrfMop.width
      split <;> omega
    have hlast : ∀ b i, b < m.width → evrfLast m ⟨b, i⟩ = (b + 1 == m.width) := by
      intro b i hb
      unfold evrfLast EvrfMop.width at *
      cases hs : m.srcSel with
      | false =>
        simp only [Bool.not_false, Bool.and_true, Bool.and_false, Bool.or_false]
        exact beq_succ (by decide)
      | true =>
        rw [hs] at hb h3
        simp only [if_true] at hb h3
        rw [pred_eq h3 (by omega)]
        simp only [Bool.not_true, Bool.and_true, Bool.and_false, Bool.false_or, if_true]
        exact beq_succ h3
    have hp : pred m.vrfSize = m.vrfSize - 1 := pred_eq h1 (by omega)
    refine ⟨⟨0, m.vrfSize % 2 ^ 9⟩, ?_, rfl⟩
    show Emits evrfKind m ⟨0, 0⟩ true m.expand _
    unfold EvrfMop.expand
    rw [if_pos hv]
    refine emits_grid evrfKind m (fun _ => rfl) m.vrfSize m.width h3 h1 (fun i b => ⟨b, i⟩)
      (fun i b f =>
        { vrfAddr := word m.vrfBase b i
          srcSel := if m.batch ≤ b then 2 else if m.srcSel then 1 else 0
          tag := m.tag
          first := f
          last := i + 1 == m.vrfSize && b + 1 == m.width }) _ ?_
    intro i b f hi hb
    show evrfCore m ⟨b, i⟩ f = _
    unfold evrfCore
    simp only
    rw [hlast b i hb, hp, beq_succ h1, addrAt_word _ _ _ (by omega)]
    refine Prod.ext ?_ (Prod.ext ?_ rfl)
    · simp only [beq_iff_eq]
      by_cases h5 : b + 1 = m.width
      · simp only [if_pos h5]
        by_cases h6 : i + 1 = m.vrfSize
        · rw [if_pos h6, h6]
        · rw [if_neg h6, Nat.mod_eq_of_lt (by omega)]
      · simp only [if_neg h5]
        rw [Nat.mod_eq_of_lt (by omega)]
    · simp only [EvrfUop.mk.injEq, true_and, and_true]
      by_cases h5 : b < m.batch
      · rw [if_pos h5, if_neg (by omega)]
        cases m.srcSel <;> rfl
      · rw [if_neg h5, if_pos (by omega)]
  · intro m r hv
    have hv : m.op = false := hv
    simp [EvrfMop.expand, hv]
  · intro m c
    rfl

theorem bit_eq (x i : Nat) : (x.testBit i).toNat = x / 2 ^ i % 2 := by
  rw [Nat.testBit_eq_decide_div_mod_eq]
  have := Nat.mod_lt (x / 2 ^ i) (show 0 < 2 by decide)
  by_cases h : x / 2 ^ i % 2 = 1
  · simp [h]
  · have : x / 2 ^ i % 2 = 0 := by omega
    simp [this]

/-- The decoder of a multi-function unit. -/
theorem mfu_follows : Follows mfuKind MfuMop.Legal (fun _ => ()) (fun _ m => (m.expand, ())) := by
  have hval : ∀ m : MfuMop, mfuKind.valid m = m.op.testBit 6 := by
    intro m
    show (m.op / 2 ^ 6 % 2 == 1) = _
    rw [Nat.testBit_eq_decide_div_mod_eq]
    by_cases h : m.op / 2 ^ 6 % 2 = 1 <;> simp [h]
  constructor
  · intro m c ⟨h1, h2, h3, h4⟩ hv
    rw [hval] at hv
    refine ⟨⟨0, m.vrfSize % 2 ^ 9, m.vrfSize, m.tag, m.op, m.batch⟩, ?_, rfl⟩
    show Emits mfuKind m ⟨0, 0, m.vrfSize, m.tag, m.op, m.batch⟩ true m.expand _
    unfold MfuMop.expand
    rw [if_pos hv]
    refine emits_grid mfuKind m (fun _ => rfl) m.vrfSize m.batch h3 h1 (fun i b => ⟨b, i, m.vrfSize, m.tag, m.op, m.batch⟩)
      (fun i b f =>
        { vrf0Addr := word m.addBase b i
          vrf1Addr := word m.mulBase b i
          tag := m.tag
          activation := (m.op.testBit 4).toNat + 2 * (m.op.testBit 5).toNat
          addOp := (m.op.testBit 1).toNat + 2 * (m.op.testBit 2).toNat + 4 * (m.op.testBit 3).toNat
          multOp := (m.op.testBit 0).toNat
          first := f
          last := i + 1 == m.vrfSize && b + 1 == m.batch }) _ ?_
    intro i b f hi hb
    show mfuCore m ⟨b, i, m.vrfSize, m.tag, m.op, m.batch⟩ f = _
    unfold mfuCore
    simp only
    rw [pred_eq h1 (by omega), pred_eq h3 (by omega), beq_succ h1, beq_succ h3, addrAt_word _ _ _ (by omega),
      addrAt_word _ _ _ (by omega)]
    refine Prod.ext ?_ (Prod.ext ?_ rfl)
    · simp only [beq_iff_eq]
      by_cases h5 : b + 1 = m.batch
      · simp only [if_pos h5]
        by_cases h6 : i + 1 = m.vrfSize
        · rw [if_pos h6, h6]
        · rw [if_neg h6, Nat.mod_eq_of_lt (by omega)]
      · simp only [if_neg h5]
        rw [Nat.mod_eq_of_lt (by omega)]
    · simp only [MfuUop.mk.injEq, true_and, and_true, bit_eq]
      omega
  · intro m r hv
    rw [hval] at hv
    simp [MfuMop.expand, hv]
  · intro m c
    rfl

/-- The decoder of the loader. -/
theorem ld_follows : Follows ldKind LdMop.Legal (fun _ => ()) (fun _ m => (m.expand, ())) := by
  constructor
  · intro m c ⟨h1, h2, h3, h4⟩ hv
    have hv : m.op = true := hv
    let s : Nat → Nat → LdCtr := fun i b => ⟨false, 0, m.batch, b, m.vrfSize, m.interrupt, m.output, m.srcSel, i⟩
    let u : Nat → Nat → Bool → LdUop := fun i b f =>
      { vrf0Id := m.vrf0Id
        block1Id := m.block1Id
        vrf1Id := m.vrf1Id
        vrf0Addr := word m.vrf0Base b i
        vrf1Addr := word m.vrf1Base b i
        srcSel := m.srcSel
        lastFlag := false
        interrupt := false
        output := m.output
        first := f
        last := false }
    let e : Nat → LdCtr := fun k =>
      ⟨true, k, m.batch, 0, m.vrfSize, m.interrupt, m.output, m.srcSel, m.vrfSize % 2 ^ 9⟩
    have hcore : ∀ i b f, i < m.vrfSize → b < m.batch → ldKind.core m (s i b) f =
        (if b + 1 = m.batch then if i + 1 = m.vrfSize then e 0 else s (i + 1) 0 else s i (b + 1), u i b f, false) := by
      intro i b f hi hb
      show ldCore m (s i b) f = _
      unfold ldCore
      simp only [s, u, e, LdUop.default]
      rw [pred_eq h1 (by omega), pred_eq h3 (by omega), beq_succ h1, beq_succ h3, addrAt_word _ _ _ (by omega),
        addrAt_word _ _ _ (by omega)]
      refine Prod.ext ?_ rfl
      simp only [beq_iff_eq]
      by_cases h5 : b + 1 = m.batch
      · simp only [if_pos h5]
        by_cases h6 : i + 1 = m.vrfSize
        · rw [if_pos h6, h6]
          simp [h5]
        · rw [if_neg h6, Nat.mod_eq_of_lt (by omega)]
          simp [h6]
      · simp only [if_neg h5]
        rw [Nat.mod_eq_of_lt (by omega)]
        simp [h5]
    obtain ⟨f', h5, h6⟩ := runs_grid ldKind m (fun _ => rfl) m.vrfSize m.batch h3 h1 s u (by
      intro i b f hi hb hne
      rw [hcore i b f hi hb]
      by_cases hb : b = m.batch - 1
      · rw [if_pos hb, if_pos (by omega), if_neg (by omega)]
      · rw [if_neg hb, if_neg (by omega)])
    have h7 := hcore (m.vrfSize - 1) (m.batch - 1) f' (by omega) (by omega)
    rw [if_pos (by omega), if_pos (by omega)] at h7
    have h8 : Runs ldKind m (s 0 0) true _ (e 0) false := h5.append (.cons rfl h7 (.nil _ _))
    rw [← h6] at h8
    refine ⟨e 3, ?_, rfl⟩
    show Emits ldKind m (s 0 0) true m.expand _
    unfold LdMop.expand
    rw [if_pos hv]
    refine h8.emits ?_
    show Emits ldKind m (e 0) false [tagUpdate 0 m.interrupt, tagUpdate 1 m.interrupt, tagUpdate 2 m.interrupt,
      tagUpdate 3 m.interrupt] (e 3)
    refine ⟨rfl, ?_, rfl, rfl, ?_, rfl, rfl, ?_, rfl, rfl, ?_, rfl, rfl⟩
    all_goals
      cases hm : m.interrupt <;> simp [ldKind, ldUpdate, tagUpdate, e, hm, LdUop.default]
  · intro m r hv
    have hv : m.op = false := hv
    simp [LdMop.expand, hv]
  · intro m c
    rfl

end RadSim.Npu
