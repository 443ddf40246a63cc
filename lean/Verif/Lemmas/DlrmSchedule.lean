import Verif.Lemmas.DlrmCompile

/-! What the compiled schedule makes of the streams of the channels. -/
namespace RadSim.Dlrm

open Spec

theorem popsIn_append (c : Nat) (a b : Inst) : popsIn c (a ++ b) = popsIn c a + popsIn c b := by
  simp [popsIn]

theorem popsIn_cons (c : Nat) (st : Step) (r : Inst) :
    popsIn c (st :: r) = (if st.pop ∧ st.fifo = c + 1 then 1 else 0) + popsIn c r := by
  unfold popsIn
  rw [List.filter_cons]
  by_cases h : st.pop = true ∧ st.fifo = c + 1
  · rw [if_pos h, if_pos (by simp [h.1, h.2]), List.length_cons]; omega
  · rw [if_neg h, if_neg (by simpa using h)]; omega

theorem assemble_append (σ : Nat → Nat → Nat) : ∀ (a : Inst) (pos : Nat → Nat) (b : Inst),
    assemble σ pos (a ++ b) = assemble σ pos a ++ assemble σ (fun c => pos c + popsIn c a) b := by
  intro a
  induction a with
  | nil => intro pos b; simp [assemble, popsIn]
  | cons st r ih =>
    intro pos b
    rw [List.cons_append, assemble, assemble, ih, List.append_assoc]
    congr 2
    congr 1
    funext c
    rw [popsIn_cons]
    split <;> omega

theorem assemble_length (σ : Nat → Nat → Nat) : ∀ (a : Inst) (pos : Nat → Nat),
    (assemble σ pos a).length = size a := by
  intro a
  induction a with
  | nil => intro _; rfl
  | cons st r ih =>
    intro pos
    rw [assemble, List.length_append, ih]
    simp [size]

/-- Steps without a channel copy zeros and pop nothing. -/
theorem assemble_zeros (σ : Nat → Nat → Nat) : ∀ (zs : Inst) (pos : Nat → Nat),
    (∀ st ∈ zs, st.fifo = 0 ∧ st.pop = false) →
    assemble σ pos zs = List.replicate (size zs) 0 := by
  intro zs
  induction zs with
  | nil => intro _ _; rfl
  | cons st r ih =>
    intro pos h
    have h0 := h st (by simp)
    rw [assemble, ih _ (fun x hx => h x (by simp [hx]))]
    have : size (st :: r) = (st.stop + 1 - st.start) + size r := by simp [size]
    rw [this, ← List.replicate_append_replicate]
    congr 1
    simp only [h0.1, if_true]
    rw [List.map_const', List.length_range']

theorem popsIn_zeros (c : Nat) : ∀ (zs : Inst), (∀ st ∈ zs, st.fifo = 0 ∧ st.pop = false) →
    popsIn c zs = 0 := by
  intro zs
  induction zs with
  | nil => intro _; rfl
  | cons st r ih =>
    intro h
    rw [popsIn_cons, ih (fun x hx => h x (by simp [hx])), if_neg (by simp [(h st (by simp)).2])]

/-- The first parts of a wide table read on in the same word. -/
theorem assemble_parts (σ : Nat → Nat → Nat) (nd : Nat) (hnd : 0 < nd) (t : Tab) (q : Nat)
    (h3 : 0 < t.fifo) : ∀ (m : Nat) (pos : Nat → Nat), m ≤ q →
    assemble σ pos ((List.range m).map (part nd t q)) =
      (List.range (m * nd)).map (elem (σ (t.fifo - 1) (pos (t.fifo - 1)))) ∧
    ∀ c, popsIn c ((List.range m).map (part nd t q)) =
      if 0 < q ∧ m = q ∧ t.fifo = c + 1 then 1 else 0 := by
  intro m
  induction m with
  | zero =>
    intro pos _
    refine ⟨by simp [assemble], fun c => ?_⟩
    rw [if_neg (by omega)]
    rfl
  | succ m ih =>
    intro pos hm
    obtain ⟨ih1, ih2⟩ := ih pos (by omega)
    have hp : ∀ c, popsIn c ((List.range m).map (part nd t q)) = 0 := by
      intro c
      rw [ih2 c, if_neg (by omega)]
    rw [List.range_succ, List.map_append]
    refine ⟨?_, fun c => ?_⟩
    · rw [assemble_append, ih1]
      have e1 : (m + 1) * nd = m * nd + nd := by rw [Nat.add_mul, Nat.one_mul]
      rw [e1, List.range_add, List.map_append]
      congr 1
      simp only [List.map_cons, List.map_nil, assemble, List.append_nil, part, hp, Nat.add_zero]
      rw [e1, show m * nd + nd - 1 + 1 - m * nd = nd by omega, List.range'_eq_map_range]
      rw [List.map_map, List.map_map]
      apply List.map_congr_left
      intro x _
      simp only [Function.comp]
      rw [if_neg (by omega)]
    · rw [popsIn_append, hp, Nat.zero_add, List.map_cons, List.map_nil, popsIn_cons]
      simp only [part, beq_iff_eq]
      have : popsIn c ([] : Inst) = 0 := rfl
      rw [this, Nat.add_zero]
      by_cases h : m = q - 1 ∧ t.fifo = c + 1
      · rw [if_pos h, if_pos ⟨by omega, by omega, h.2⟩]
      · rw [if_neg h, if_neg (fun hh => h ⟨by omega, hh.2.2⟩)]

theorem tabSteps_ok (σ : Nat → Nat → Nat) (nd : Nat) (hnd : 0 < nd) (t : Tab) (h3 : 0 < t.fifo)
    (h1 : 0 < t.row.len) (hw : nd < t.row.len → t.row.len % nd = 0) (pos : Nat → Nat) :
    assemble σ pos (tabSteps nd t) =
      (List.range t.row.len).map (elem (σ (t.fifo - 1) (pos (t.fifo - 1)))) ∧
    ∀ c, popsIn c (tabSteps nd t) = if t.fifo = c + 1 then 1 else 0 := by
  unfold tabSteps
  split
  · rename_i h
    have hq : t.row.len / nd * nd = t.row.len := by
      have := Nat.div_add_mod t.row.len nd
      have := hw h
      rw [Nat.mul_comm]; omega
    have hpos : 0 < t.row.len / nd := Nat.div_pos (by omega) hnd
    obtain ⟨a, b⟩ := assemble_parts σ nd hnd t (t.row.len / nd) h3 _ pos (Nat.le_refl _)
    refine ⟨by rw [a, hq], fun c => ?_⟩
    rw [b c]
    by_cases hc : t.fifo = c + 1
    · rw [if_pos hc, if_pos ⟨hpos, rfl, hc⟩]
    · rw [if_neg hc, if_neg (fun hh => hc hh.2.2)]
  · refine ⟨?_, fun c => ?_⟩
    · simp only [assemble, List.append_nil]
      rw [show t.row.len - 1 + 1 - 0 = t.row.len by omega, ← List.range_eq_range']
      apply List.map_congr_left
      intro x _
      rw [if_neg (by omega)]
    · rw [popsIn_cons]
      have : popsIn c ([] : Inst) = 0 := rfl
      rw [this, Nat.add_zero]
      simp

/-- The tables of a list that fits are not empty, have a FIFO, and take whole vectors
if they are wider than one. -/
theorem fits_mem {nd inElems numCh : Nat} : ∀ (tabs : List Tab) used a,
    Fits nd inElems numCh used a tabs → ∀ t ∈ tabs,
      0 < t.fifo ∧ t.fifo ≤ numCh ∧ 0 < t.row.len ∧ (nd < t.row.len → t.row.len % nd = 0) := by
  intro tabs
  induction tabs with
  | nil => intro _ _ _ t ht; cases ht
  | cons x r ih =>
    intro used a hf t ht
    rw [fits_cons] at hf
    obtain ⟨h1, h2, h3, h4, hf⟩ := hf
    rcases List.mem_cons.mp ht with rfl | ht
    · refine ⟨h3, h4, h1, fun hw => ?_⟩
      rw [if_pos hw] at hf
      exact hf.2.2.1
    · split at hf
      · exact ih _ _ hf.2.2.2 t ht
      · obtain ⟨_, _, hf⟩ := hf
        split at hf
        · exact ih _ _ hf t ht
        · exact ih _ _ hf t ht

theorem tabs_ok (σ : Nat → Nat → Nat) (nd : Nat) (hnd : 0 < nd) : ∀ (tabs : List Tab),
    (∀ t ∈ tabs, 0 < t.fifo ∧ 0 < t.row.len ∧ (nd < t.row.len → t.row.len % nd = 0)) →
    (∀ pos, assemble σ pos (tabs.flatMap (tabSteps nd)) = contents σ pos tabs) ∧
    ∀ c, popsIn c (tabs.flatMap (tabSteps nd)) = tablesOn c tabs := by
  intro tabs
  induction tabs with
  | nil => intro _; exact ⟨fun _ => rfl, fun _ => rfl⟩
  | cons t r ih =>
    intro h
    obtain ⟨h3, h1, hw⟩ := h t (by simp)
    obtain ⟨ih1, ih2⟩ := ih (fun x hx => h x (by simp [hx]))
    refine ⟨fun pos => ?_, fun c => ?_⟩
    · obtain ⟨a, b⟩ := tabSteps_ok σ nd hnd t h3 h1 hw pos
      rw [List.flatMap_cons, assemble_append, a, ih1, contents]
      congr 2
      funext c
      rw [b c]
      split <;> omega
    · obtain ⟨a, b⟩ := tabSteps_ok σ nd hnd t h3 h1 hw (fun _ => 0)
      rw [List.flatMap_cons, popsIn_append, b c, ih2]
      unfold tablesOn
      rw [List.filter_cons]
      by_cases hc : t.fifo = c + 1
      · rw [if_pos hc, if_pos (by simp [hc]), List.length_cons]; omega
      · rw [if_neg hc, if_neg (by simpa using hc)]; omega

/-- Pops over one pass through the program, and over many. -/
theorem pops_pass (prog : List Inst) (c : Nat) : ∀ q, q ≤ prog.length →
    ∀ j, popsBefore prog c (j * prog.length + q) =
      popsBefore prog c (j * prog.length) + popsIn c (prog.take q).flatten := by
  intro q
  induction q with
  | zero => intro _ j; simp [popsIn]
  | succ q ih =>
    intro hq j
    rw [show j * prog.length + (q + 1) = j * prog.length + q + 1 by omega, popsBefore,
      ih (by omega) j]
    have hi : instAt prog (j * prog.length + q) = prog[q]'(by omega) := by
      unfold instAt
      rw [Nat.mul_comm, Nat.mul_add_mod, Nat.mod_eq_of_lt (by omega),
        List.getElem?_eq_getElem (by omega)]
      rfl
    rw [hi, List.take_succ_eq_append_getElem (by omega), List.flatten_append, popsIn_append]
    simp
    omega

theorem pops_all (prog : List Inst) (c : Nat) : ∀ j,
    popsBefore prog c (j * prog.length) = j * popsIn c prog.flatten := by
  intro j
  induction j with
  | zero => simp [popsBefore]
  | succ j ih =>
    have := pops_pass prog c prog.length (Nat.le_refl _) j
    rw [List.take_length, ih] at this
    rw [Nat.add_mul, Nat.one_mul, this, Nat.add_mul, Nat.one_mul]

theorem pass_assembles (prog : List Inst) (σ : Nat → Nat → Nat) (j : Nat) : ∀ q, q ≤ prog.length →
    (List.range q).flatMap (fun i => vector prog σ (j * prog.length + i)) =
      assemble σ (fun c => j * popsIn c prog.flatten) (prog.take q).flatten := by
  intro q
  induction q with
  | zero => intro _; rfl
  | succ q ih =>
    intro hq
    rw [List.range_succ, List.flatMap_append, ih (by omega),
      List.take_succ_eq_append_getElem (by omega), List.flatten_append, assemble_append]
    congr 1
    have hi : instAt prog (j * prog.length + q) = prog[q]'(by omega) := by
      unfold instAt
      rw [Nat.mul_comm, Nat.mul_add_mod, Nat.mod_eq_of_lt (by omega),
        List.getElem?_eq_getElem (by omega)]
      rfl
    simp only [List.flatMap_cons, List.flatMap_nil, List.append_nil, vector, hi, List.flatten_cons,
      List.flatten_nil]
    congr 1
    funext c
    rw [pops_pass prog c q (by omega) j, pops_all]

end RadSim.Dlrm
