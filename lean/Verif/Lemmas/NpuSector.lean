import Verif.Lemmas.NpuExpand

/-!
# What the last state of the sector decoder makes of a macro-op -/

namespace RadSim.Npu

variable {M C U : Type}

/-- Runs one after the other. -/
theorem runs_flat (K : Kind M C U) (m : M) (n : Nat) (c : Nat → C) (us : Nat → Bool → List U)
    (h : ∀ i, i < n → ∀ f, Runs K m (c i) f (us i f) (c (i + 1)) false) (f : Bool) :
    Runs K m (c 0) f ((List.range n).flatMap fun i => us i (i == 0 && f)) (c n) (f && n == 0) := by
  induction n with
  | zero => simpa using Runs.nil (c 0) f
  | succ n ih =>
    have h1 := ih (fun i hi => h i (by omega))
    have h2 := h n (by omega) (f && n == 0)
    rw [List.range_succ, List.flatMap_append]
    have e : (f && n + 1 == 0) = false := by simp
    rw [e]
    refine h1.append ?_
    simp only [List.flatMap_cons, List.flatMap_nil, List.append_nil]
    have e2 : (n == 0 && f) = (f && n == 0) := Bool.and_comm _ _
    rw [e2]
    exact h2

namespace Sector

/-- The counters at the word `v` of the row `p` of group `g`. -/
def ctr (m : MvuMop) (reg : Bool) (g v p : Nat) : MvuCtr where
  batch := if p < 12 then p % 3 else 0
  vrf := v
  pipe := p
  vrfIdCount := if p < 12 then p % 3 else 0
  vrfId := if p < 12 then p / 3 else 0
  chunkOff := 12 * g * m.vrfSize
  pipeOff := p * m.vrfSize
  mrfAddr := m.mrfBase + (12 * g + p) * m.vrfSize + v
  tag := m.tag
  regSel := reg ^^ (g * m.vrfSize + v) % 2 == 1
  remaining := m.wordsPerRow - 12 * g
  accSize := if p = 0 ∧ v = 0 then 12 else m.rows g

variable {m : MvuMop}

theorem rows_le {g : Nat} : 12 ≤ m.rows g ∧ m.rows g ≤ 23 := by
  unfold MvuMop.rows
  split <;> omega

theorem remaining_eq {g : Nat} :
    (g + 1 < m.groups → 24 ≤ m.wordsPerRow - 12 * g ∧ m.rows g = 12) ∧
      (g + 1 = m.groups → m.wordsPerRow - 12 * g = m.rows g ∧ m.wordsPerRow - 12 * g < 24) := by
  unfold MvuMop.rows MvuMop.groups at *
  constructor
  · intro h
    rw [if_neg (by omega)]
    omega
  · intro h
    rw [if_pos h]
    omega

variable (hm : m.Legal)
include hm

theorem groups_pos : 1 ≤ m.groups := by
  unfold MvuMop.groups
  have := hm.2.1
  omega

omit hm in
/-- A row of a group is a row of the matrix; the last row of the last group is the last. -/
theorem row_lt {g p : Nat} (hg : g < m.groups) (hp : p < m.rows g) :
    12 * g + p < m.wordsPerRow ∧ (12 * g + p + 1 = m.wordsPerRow ↔ g + 1 = m.groups ∧ p + 1 = m.rows g) := by
  have h1 := remaining_eq (m := m) (g := g)
  by_cases h : g + 1 = m.groups
  · obtain ⟨h2, h3⟩ := h1.2 h
    omega
  · obtain ⟨h2, h3⟩ := h1.1 (by omega)
    omega

omit hm in
theorem acc_eq {g : Nat} (hg : g < m.groups) (reg : Bool) (v p : Nat) : mvuAcc (ctr m reg g v p) = m.rows g := by
  have h1 := remaining_eq (m := m) (g := g)
  have h0 : numAcc = 12 := rfl
  unfold mvuAcc ctr
  simp only
  by_cases h : g + 1 = m.groups
  · obtain ⟨h2, h3⟩ := h1.2 h
    rw [if_neg (by omega)]
    omega
  · obtain ⟨h2, h3⟩ := h1.1 (by omega)
    rw [if_pos (by omega)]
    omega

omit hm in
theorem lastP_eq {g v p : Nat} (reg : Bool) :
    ((ctr m reg g v p).pipe == pred (ctr m reg g v p).accSize) = (p + 1 == m.rows g) := by
  have h1 := rows_le (m := m) (g := g)
  unfold ctr
  simp only
  by_cases h : p = 0 ∧ v = 0
  · rw [if_pos h, pred_eq (by omega) (by omega), h.1, Bool.eq_iff_iff]
    simp only [beq_iff_eq]
    omega
  · rw [if_neg h, pred_eq (by omega) (by omega), Bool.eq_iff_iff]
    simp only [beq_iff_eq]
    omega

omit hm in
theorem lastV_eq {g v p : Nat} (hv : v < m.vrfSize) (reg : Bool) (hV : m.vrfSize < 1024) :
    ((ctr m reg g v p).vrf == pred m.vrfSize) = (v + 1 == m.vrfSize) := by
  rw [pred_eq (by omega) (by omega), Bool.eq_iff_iff]
  simp only [beq_iff_eq, ctr]
  omega

theorem small : 12 * m.vrfSize ≤ m.mrfSize := by
  rw [hm.2.2.1]
  exact Nat.mul_le_mul_right _ hm.2.1

theorem addr_lt {g v p : Nat} (hg : g < m.groups) (hv : v < m.vrfSize) (hp : p < m.rows g) :
    (12 * g + p) * m.vrfSize + v + 1 ≤ m.mrfSize ∧
      ((12 * g + p) * m.vrfSize + v + 1 = m.mrfSize ↔ g + 1 = m.groups ∧ p + 1 = m.rows g ∧ v + 1 = m.vrfSize) := by
  obtain ⟨h1, h2⟩ := row_lt hg hp
  rw [hm.2.2.1]
  have h3 : (12 * g + p) * m.vrfSize + v < m.wordsPerRow * m.vrfSize := by
    have := Nat.mul_le_mul_right m.vrfSize (show 12 * g + p + 1 ≤ m.wordsPerRow by omega)
    rw [Nat.succ_mul] at this
    omega
  refine ⟨h3, ?_⟩
  rw [← last_pair _ _ _ (by omega) h3, Nat.mul_comm _ m.vrfSize, Nat.mul_add_div (by omega), Nat.mul_add_mod,
    Nat.div_eq_of_lt hv, Nat.mod_eq_of_lt hv]
  omega

theorem done_eq {g v p : Nat} (hg : g < m.groups) (hv : v < m.vrfSize) (hp : p < m.rows g) (reg : Bool) :
    ((ctr m reg g v p).mrfAddr == pred (m.mrfBase + m.mrfSize)) =
      (g + 1 == m.groups && v + 1 == m.vrfSize && p + 1 == m.rows g) := by
  obtain ⟨h1, h2⟩ := addr_lt hm hg hv hp
  have h3 := hm.2.2.2
  rw [pred_eq (by omega) (by omega), Bool.eq_iff_iff]
  simp only [beq_iff_eq, ctr, Bool.and_eq_true]
  omega

omit hm in
/-- Waiting makes no difference. -/
theorem hold_eq {g v p : Nat} (hg : g < m.groups) (reg f : Bool) :
    mvuKind.core m (mvuKind.hold m (ctr m reg g v p)) f = mvuKind.core m (ctr m reg g v p) f := by
  have h1 := lastP_eq (m := m) (g := g) (v := v) (p := p) reg
  have h2 := rows_le (m := m) (g := g)
  have h3 : ((ctr m reg g v p).pipe == pred (mvuAcc (ctr m reg g v p))) = (p + 1 == m.rows g) := by
    rw [acc_eq hg, pred_eq (by omega) (by omega), Bool.eq_iff_iff]
    simp only [beq_iff_eq, ctr]
    omega
  show mvuCore m { ctr m reg g v p with accSize := mvuAcc (ctr m reg g v p) } f = mvuCore m (ctr m reg g v p) f
  unfold mvuCore
  simp only [h1, h3]
  rfl

theorem accOp_eq {g v p : Nat} (hg : g < m.groups) (hv : v < m.vrfSize) (hp : p < m.rows g) (reg : Bool) :
    mvuAccOp m (ctr m reg g v p) = accOp m.vrfSize v := by
  have h0 := small hm
  have h4 := hm.2.2.2
  have h5 := row_lt hg hp
  have h6 : p < m.wordsPerRow - 12 * g := by omega
  show (if p < m.wordsPerRow - 12 * g then
    if v = 0 ∧ v = pred m.vrfSize then 3 else if v = pred m.vrfSize then 2 else if v = 0 then 0 else 1 else 0) = _
  unfold accOp
  rw [pred_eq hm.1 (by omega), if_pos h6]
  by_cases h7 : m.vrfSize = 1
  · rw [if_pos (by constructor <;> omega), if_pos h7]
  · rw [if_neg (by omega), if_neg h7]
    by_cases h8 : v + 1 = m.vrfSize
    · rw [if_pos (by omega), if_pos h8]
    · rw [if_neg (by omega), if_neg h8]

/-- The micro-op. -/
theorem uop_eq {g v p : Nat} (hg : g < m.groups) (hv : v < m.vrfSize) (hp : p < m.rows g) (reg f : Bool) :
    (mvuCore m (ctr m reg g v p) f).2 =
      ({ m.uop reg g v p with first := f }, g + 1 == m.groups && v + 1 == m.vrfSize && p + 1 == m.rows g) := by
  unfold mvuCore
  simp only [done_eq hm hg hv hp, acc_eq hg, accOp_eq hm hg hv hp]
  refine Prod.ext ?_ rfl
  simp only [MvuMop.uop, MvuUop.mk.injEq]
  simp only [ctr, numAcc, true_and, and_true]
  refine ⟨addrAt_word _ _ _ ?_, rfl⟩
  split <;> omega

omit hm in
theorem batch_next (p : Nat) (w : Nat) (hw : 2 ≤ w) :
    (if decide (p < 12) = true then
        if (if p < 12 then p % 3 else 0) = 3 - 1 then 0 else ((if p < 12 then p % 3 else 0) + 1) % 2 ^ w
      else if p < 12 then p % 3 else 0) = if p + 1 < 12 then (p + 1) % 3 else 0 := by
  have h4 : 4 ≤ 2 ^ w := Nat.pow_le_pow_right (n := 2) (by omega) hw
  by_cases h : p < 12
  · rw [if_pos (decide_eq_true h), if_pos h]
    by_cases h1 : p % 3 = 3 - 1
    · rw [if_pos h1]
      split <;> omega
    · rw [if_neg h1, Nat.mod_eq_of_lt (by omega)]
      split <;> omega
  · rw [if_neg (by simpa using h), if_neg h, if_neg (by omega)]

omit hm in
theorem id_next (p : Nat) :
    (if decide (p < 12) = true then
        if (if p < 12 then p / 3 else 0) = 3 ∧ (if p < 12 then p % 3 else 0) = 3 - 1 then 0
        else if (if p < 12 then p % 3 else 0) = 3 - 1 then ((if p < 12 then p / 3 else 0) + 1) % 2 ^ 2
        else if p < 12 then p / 3 else 0
      else if p < 12 then p / 3 else 0) = if p + 1 < 12 then (p + 1) / 3 else 0 := by
  by_cases h : p < 12
  · rw [if_pos (decide_eq_true h), if_pos h, if_pos h]
    by_cases h1 : p % 3 = 3 - 1
    · rw [if_pos h1]
      by_cases h2 : p / 3 = 3
      · rw [if_pos ⟨h2, h1⟩, if_neg (by omega)]
      · rw [if_neg (by omega), if_pos (by omega)]
        omega
    · rw [if_neg (by omega), if_neg h1, if_pos (by omega)]
      omega
  · rw [if_neg (by simpa using h), if_neg h, if_neg (by omega)]

omit hm in
theorem parity (reg : Bool) (k : Nat) : (reg ^^ (k + 1) % 2 == 1) = !(reg ^^ k % 2 == 1) := by
  have e : (k + 1) % 2 = 1 - k % 2 := by omega
  rw [e]
  rcases Nat.mod_two_eq_zero_or_one k with h | h <;> rw [h] <;> cases reg <;> rfl

omit hm in
theorem ctr_congr {a a' b b' c c' d d' e e' f f' g g' h h' i i' : Nat} {j j' : Bool} {k k' l l' : Nat} (e1 : a = a') (e2 : b = b')
    (e3 : c = c') (e4 : d = d') (e5 : e = e') (e6 : f = f') (e7 : g = g') (e8 : h = h') (e9 : i = i') (e10 : j = j')
    (e11 : k = k') (e12 : l = l') : MvuCtr.mk a b c d e f g h i j k l = ⟨a', b', c', d', e', f', g', h', i', j', k', l'⟩ := by
  subst e1 e2 e3 e4 e5 e6 e7 e8 e9 e10 e11 e12
  rfl

/-- Where the counters go. -/
def next (m : MvuMop) (reg : Bool) (g v p : Nat) : MvuCtr :=
  if p + 1 = m.rows g then if v + 1 = m.vrfSize then ctr m reg (g + 1) 0 0 else ctr m reg g (v + 1) 0 else ctr m reg g v (p + 1)

theorem next_eq {g v p : Nat} (hg : g < m.groups) (hv : v < m.vrfSize) (hp : p < m.rows g) (reg f : Bool)
    (hne : ¬ (g + 1 = m.groups ∧ v + 1 = m.vrfSize ∧ p + 1 = m.rows g)) :
    (mvuCore m (ctr m reg g v p) f).1 = next m reg g v p := by
  have h0 := small hm
  have h4 := hm.2.2.2
  have h5 := row_lt hg hp
  have h6 := rows_le (m := m) (g := g)
  have hN : numAcc = 12 := rfl
  have hD : dots = 3 := rfl
  have hV : m.vrfSize < 1024 := by omega
  have hdone : (g + 1 == m.groups && v + 1 == m.vrfSize && p + 1 == m.rows g) = false := by
    rw [Bool.eq_false_iff]
    intro h
    simp only [Bool.and_eq_true, beq_iff_eq] at h
    omega
  have ha := addr_lt hm hg hv hp
  have hexp : (12 * g + p) * m.vrfSize = 12 * g * m.vrfSize + p * m.vrfSize := Nat.add_mul _ _ _
  unfold mvuCore next
  simp only [done_eq hm hg hv hp, acc_eq hg, lastP_eq, lastV_eq hv reg hV, hdone]
  by_cases hP : p + 1 = m.rows g
  · have e1 : (p + 1 == m.rows g) = true := by simpa using hP
    have e3 : ¬ p + 1 < 12 := by omega
    rw [if_pos hP, e1]
    by_cases hL : v + 1 = m.vrfSize
    · have hG : g + 1 < m.groups := by omega
      obtain ⟨h7, h8⟩ := (remaining_eq (m := m) (g := g)).1 hG
      have h9 := addr_lt hm (g := g + 1) (v := 0) (p := 0) hG (by omega) (by have := rows_le (m := m) (g := g + 1); omega)
      have h10 : 12 * (g + 1) * m.vrfSize = 12 * g * m.vrfSize + 12 * m.vrfSize := by
        rw [← Nat.add_mul]; rfl
      have h11 : (12 * (g + 1) + 0) * m.vrfSize = 12 * g * m.vrfSize + 12 * m.vrfSize := h10
      rw [h11] at h9
      have e2 : (v + 1 == m.vrfSize) = true := by simpa using hL
      have e4 : (g + 1) * m.vrfSize + 0 = g * m.vrfSize + v + 1 := by rw [Nat.succ_mul]; omega
      have e5 : 2 * 12 - 1 < m.wordsPerRow - 12 * g := by omega
      rw [if_pos hL, e2]
      refine ctr_congr ((batch_next p 2 (by omega)).trans (if_neg e3)) rfl rfl ((batch_next p 9 (by omega)).trans (if_neg e3))
        ((id_next p).trans (if_neg e3)) ?_ (Nat.zero_mul _).symm ?_ rfl ?_ ?_ ?_
      · show (12 * g * m.vrfSize + 12 * m.vrfSize) % 2 ^ 10 = _
        rw [h10, Nat.mod_eq_of_lt (by omega)]
      · show (m.mrfBase + (12 * g * m.vrfSize + 12 * m.vrfSize) % 2 ^ 10 + 0 + 0) % 2 ^ 10 = m.mrfBase + _ + 0
        rw [h11, Nat.mod_eq_of_lt (by omega), Nat.mod_eq_of_lt (by omega)]
      · show (!(reg ^^ (g * m.vrfSize + v) % 2 == 1)) = _
        rw [e4, parity]
      · show (if (true && true && decide (2 * 12 - 1 < m.wordsPerRow - 12 * g)) = true then m.wordsPerRow - 12 * g - 12
          else m.wordsPerRow - 12 * g) = _
        rw [if_pos (by simpa using e5)]
        omega
      · rw [h8]
        rfl
    · have e2 : (v + 1 == m.vrfSize) = false := by simpa using hL
      have h9 := addr_lt hm (v := v + 1) (p := 0) hg (by omega) (by omega)
      rw [show 12 * g + 0 = 12 * g from rfl] at h9
      rw [if_neg hL, e2]
      refine ctr_congr ((batch_next p 2 (by omega)).trans (if_neg e3)) ?_ rfl ((batch_next p 9 (by omega)).trans (if_neg e3))
        ((id_next p).trans (if_neg e3)) rfl (Nat.zero_mul _).symm ?_ rfl ?_ rfl ?_
      · show (v + 1) % 2 ^ 9 = v + 1
        rw [Nat.mod_eq_of_lt (by omega)]
      · show (m.mrfBase + 12 * g * m.vrfSize + 0 + (v + 1) % 2 ^ 9) % 2 ^ 10 = m.mrfBase + 12 * g * m.vrfSize + (v + 1)
        rw [Nat.mod_eq_of_lt (b := 2 ^ 9) (by omega), Nat.mod_eq_of_lt (by omega)]
        omega
      · exact (parity _ _).symm
      · exact (if_neg (by omega)).symm
  · have e1 : (p + 1 == m.rows g) = false := by simpa using hP
    have h9 := addr_lt hm (v := v) (p := p + 1) hg hv (by omega)
    have h10 : (12 * g + (p + 1)) * m.vrfSize = 12 * g * m.vrfSize + p * m.vrfSize + m.vrfSize := by
      rw [Nat.add_mul, Nat.add_mul p 1, Nat.one_mul, Nat.add_assoc]
    have h11 : (p + 1) * m.vrfSize = p * m.vrfSize + m.vrfSize := Nat.succ_mul _ _
    rw [h10] at h9
    rw [if_neg hP, e1, Bool.and_false]
    refine ctr_congr (batch_next p 2 (by omega)) rfl ?_ (batch_next p 9 (by omega)) (id_next p) rfl ?_ ?_ rfl rfl rfl ?_
    · show (p + 1) % 2 ^ 9 = p + 1
      rw [Nat.mod_eq_of_lt (by omega)]
    · show (p * m.vrfSize + m.vrfSize) % 2 ^ 10 = _
      rw [h11, Nat.mod_eq_of_lt (by omega)]
    · show (m.mrfBase + 12 * g * m.vrfSize + (p * m.vrfSize + m.vrfSize) % 2 ^ 10 + v) % 2 ^ 10 = m.mrfBase + _ + v
      rw [h10, Nat.mod_eq_of_lt (a := p * m.vrfSize + m.vrfSize) (by omega), Nat.mod_eq_of_lt (by omega)]
      omega
    · exact (if_neg (by omega)).symm

theorem core_eq {g v p : Nat} (hg : g < m.groups) (hv : v < m.vrfSize) (hp : p < m.rows g) (reg f : Bool)
    (hne : ¬ (g + 1 = m.groups ∧ v + 1 = m.vrfSize ∧ p + 1 = m.rows g)) :
    mvuKind.core m (ctr m reg g v p) f = (next m reg g v p, { m.uop reg g v p with first := f }, false) := by
  show mvuCore m (ctr m reg g v p) f = _
  refine Prod.ext (next_eq hm hg hv hp reg f hne) ?_
  rw [uop_eq hm hg hv hp]
  refine Prod.ext rfl ?_
  show (g + 1 == m.groups && v + 1 == m.vrfSize && p + 1 == m.rows g) = false
  rw [Bool.eq_false_iff]
  intro h
  simp only [Bool.and_eq_true, beq_iff_eq] at h
  omega

/-- The first `n` rows of a group with a word of the vectors. -/
def part (m : MvuMop) (reg : Bool) (g v n : Nat) (f : Bool) : List MvuUop :=
  (List.range n).map fun p => { m.uop reg g v p with first := p == 0 && f }

theorem runs_part {g v n : Nat} (hg : g < m.groups) (hv : v < m.vrfSize) (hn : n ≤ m.rows g) (hpos : 0 < n) (reg f : Bool)
    (hne : ¬ (g + 1 = m.groups ∧ v + 1 = m.vrfSize ∧ n = m.rows g)) :
    Runs mvuKind m (ctr m reg g v 0) f (part m reg g v n f) (next m reg g v (n - 1)) false := by
  let s : Nat → MvuCtr := fun p => if p = 0 then ctr m reg g v 0 else next m reg g v (p - 1)
  have hs : ∀ p, p < n → s p = ctr m reg g v p := by
    intro p hp
    match p with
    | 0 => rfl
    | p + 1 =>
      show next m reg g v p = _
      unfold next
      rw [if_neg (by omega)]
  have h := runs_index mvuKind m s (fun p f => { m.uop reg g v p with first := f }) 0 n
    (fun t _ ht f => by
      rw [hs t (by omega)]
      exact hold_eq hg reg f)
    (fun t _ ht f => by
      rw [hs t (by omega), core_eq hm hg hv (by omega) reg f (by omega)]
      rfl) f
  have e : (f && n == 0) = false := by
    have : (n == 0) = false := by simpa using Nat.pos_iff_ne_zero.1 hpos
    rw [this, Bool.and_false]
  rw [e, Nat.zero_add, ← List.range_eq_range'] at h
  have e2 : s n = next m reg g v (n - 1) := if_neg (by omega)
  rw [e2] at h
  exact h

/-- The first `n` words of the vectors with a group. -/
def words (m : MvuMop) (reg : Bool) (g n : Nat) (f : Bool) : List MvuUop :=
  (List.range n).flatMap fun v => part m reg g v (m.rows g) (v == 0 && f)

theorem runs_words {g n : Nat} (hg : g < m.groups) (hn : n ≤ m.vrfSize) (reg f : Bool) (hne : g + 1 = m.groups → n < m.vrfSize) :
    Runs mvuKind m (ctr m reg g 0 0) f (words m reg g n f) (if n = m.vrfSize then ctr m reg (g + 1) 0 0 else ctr m reg g n 0)
      (f && n == 0) := by
  have h1 := hm.1
  have h2 := rows_le (m := m) (g := g)
  have h := runs_flat mvuKind m n (fun v => if v = m.vrfSize then ctr m reg (g + 1) 0 0 else ctr m reg g v 0)
    (fun v f => part m reg g v (m.rows g) f) (by
      intro v hv f
      rw [if_neg (by omega)]
      have h3 := runs_part hm hg (v := v) (n := m.rows g) (by omega) (Nat.le_refl _) (by omega) reg f (by omega)
      unfold next at h3
      rw [if_pos (by omega)] at h3
      exact h3) f
  rw [if_neg (show ¬ 0 = m.vrfSize by omega)] at h
  exact h

/-- The micro-ops of a macro-op. -/
theorem mvu_emits (reg : Bool) :
    ∃ c, Emits mvuKind m (ctr m reg 0 0 0) true
      ((List.range m.groups).flatMap fun g => words m reg g m.vrfSize (g == 0 && true)) c ∧
        c.regSel = (reg ^^ (m.groups * m.vrfSize) % 2 == 1) := by
  have hV := hm.1
  have hG := groups_pos hm
  obtain ⟨G, hG⟩ : ∃ G, m.groups = G + 1 := ⟨m.groups - 1, by omega⟩
  obtain ⟨V, hV⟩ : ∃ V, m.vrfSize = V + 1 := ⟨m.vrfSize - 1, by omega⟩
  have h0 := rows_le (m := m) (g := G)
  obtain ⟨R, hR⟩ : ∃ R, m.rows G = R + 1 := ⟨m.rows G - 1, by omega⟩
  have h1 := runs_flat mvuKind m G (fun g => ctr m reg g 0 0) (fun g f => words m reg g m.vrfSize f) (by
    intro g hg f
    have h := runs_words hm (g := g) (n := m.vrfSize) (by omega) (Nat.le_refl _) reg f (by omega)
    rw [if_pos rfl] at h
    have e : (f && m.vrfSize == 0) = false := by simp [hV]
    rw [e] at h
    exact h) true
  have h2 := runs_words hm (g := G) (n := V) (by omega) (by omega) reg (true && G == 0) (by omega)
  rw [if_neg (by omega)] at h2
  have h3 := runs_part hm (g := G) (v := V) (n := R) (by omega) (by omega) (by omega) (by omega) reg (true && G == 0 && V == 0)
    (by omega)
  unfold next at h3
  rw [if_neg (by omega), show R - 1 + 1 = R by omega] at h3
  have h4 := uop_eq hm (g := G) (v := V) (p := R) (by omega) (by omega) (by omega) reg false
  have h5 := hold_eq (m := m) (g := G) (v := V) (p := R) (by omega) reg false
  have hdone : (G + 1 == m.groups && V + 1 == m.vrfSize && R + 1 == m.rows G) = true := by simp [hG, hV, hR]
  rw [hdone] at h4
  refine ⟨(mvuCore m (ctr m reg G V R) false).1, ?_, ?_⟩
  · have h6 : Emits mvuKind m (ctr m reg G V R) false [{ m.uop reg G V R with first := false }]
        (mvuCore m (ctr m reg G V R) false).1 := by
      exact ⟨h5, congrArg Prod.fst h4, congrArg Prod.snd h4, rfl⟩
    have h7 := ((h1.append h2).append h3).emits h6
    have e1 : (List.range m.groups).flatMap (fun g => words m reg g m.vrfSize (g == 0 && true)) =
        (((List.range G).flatMap fun g => words m reg g m.vrfSize (g == 0 && true)) ++ words m reg G V (true && G == 0)) ++
          part m reg G V R (true && G == 0 && V == 0) ++ [{ m.uop reg G V R with first := false }] := by
      rw [hG, List.range_succ, List.flatMap_append]
      simp only [List.flatMap_cons, List.flatMap_nil, List.append_nil, List.append_assoc]
      congr 1
      rw [Bool.and_true, Bool.true_and]
      unfold words
      rw [hV, List.range_succ, List.flatMap_append]
      simp only [List.flatMap_cons, List.flatMap_nil, List.append_nil]
      congr 1
      unfold part
      rw [hR, List.range_succ, List.map_append, Bool.and_comm]
      congr 1
      have e2 : (R == 0) = false := by
        rw [beq_eq_false_iff_ne]
        omega
      simp only [List.map_cons, List.map_nil, e2, Bool.false_and]
    rw [e1]
    exact h7
  · show (mvuCore m (ctr m reg G V R) false).1.regSel = _
    unfold mvuCore
    simp only [done_eq hm (show G < m.groups by omega) (show V < m.vrfSize by omega) (show R < m.rows G by omega), hdone,
      Bool.or_true, if_true]
    show (!(reg ^^ (G * m.vrfSize + V) % 2 == 1)) = _
    have e4 : m.groups * m.vrfSize = G * m.vrfSize + V + 1 := by
      rw [hG, Nat.succ_mul]
      omega
    rw [e4, parity]

end Sector

/-- The decoder of a sector and its accumulators. -/
theorem mvu_follows : Follows mvuKind MvuMop.Legal MvuCtr.regSel MvuMop.expand := by
  constructor
  · intro m c hm hv
    have hv : m.op = true := hv
    obtain ⟨c', h1, h2⟩ := Sector.mvu_emits hm c.regSel
    have e : Sector.ctr m c.regSel 0 0 0 = mvuStart m c := by
      have h1 := hm.1
      refine Sector.ctr_congr rfl rfl rfl rfl rfl (Nat.zero_mul _) (Nat.zero_mul _) ?_ rfl ?_ rfl rfl
      · show m.mrfBase + 0 * m.vrfSize + 0 = _
        rw [Nat.zero_mul]
        rfl
      · rw [Nat.zero_mul]
        cases c.regSel <;> rfl
    rw [e] at h1
    refine ⟨c', ?_, ?_⟩
    · show Emits mvuKind m (mvuStart m c) true (MvuMop.expand c.regSel m).1 c'
      unfold MvuMop.expand
      rw [if_pos hv]
      have e2 : (fun g => (List.range m.vrfSize).flatMap fun v => (List.range (m.rows g)).map fun p => m.uop c.regSel g v p) =
          fun g => Sector.words m c.regSel g m.vrfSize (g == 0 && true) := by
        funext g
        unfold Sector.words
        congr 1
        funext v
        unfold Sector.part
        congr 1
        funext p
        simp only [MvuMop.uop, MvuUop.mk.injEq, true_and, and_true]
        cases g == 0 <;> cases v == 0 <;> cases p == 0 <;> rfl
      rw [e2]
      exact h1
    · rw [h2]
      unfold MvuMop.expand
      rw [if_pos hv]
  · intro m r hv
    have hv : m.op = false := hv
    simp [MvuMop.expand, hv]
  · intro m c
    rfl

end RadSim.Npu
