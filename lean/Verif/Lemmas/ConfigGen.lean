import Verif.Model.ConfigGen
import Mathlib.Tactic.Ring

/-!
# Lemmas on the inter-RAD bandwidth

The table of `get_fraction` for all thousandths.
-/

namespace RadSim.ConfigGen

/-- `k` thousandths are nearest to the double `x`. -/
def Near (x k : Nat) : Prop := 2000 * x < (2 * k + 1) * one ∧ 2 * k * one < 2000 * x + one

/-- What `bandwidth` computes from the thousandths, for a double below one. -/
def bwOf (k : Nat) : Option (Nat × Nat) :=
  let remainder := nearest (k * one) 1000
  (if remainder = 0 then some (0, 1)
  else (scale 100 remainder 0).map fun (y, count) => (nearest y 1 / one, count * 10)).map
    fun (a, b) => if a ≤ b then (a, b) else (1, 1)

set_option exponentiation.threshold 2000 in
theorem one_pos : 0 < one := by unfold one; exact Nat.pow_pos (by decide)

theorem thousandths_of_near {x k : Nat} (h : Near x k) : thousandths x = k := by
  unfold Near at h
  unfold thousandths
  have hp := one_pos
  generalize one = o at *
  have hd := Nat.div_add_mod (1000 * x) o
  have hr := Nat.mod_lt (1000 * x) hp
  generalize 1000 * x / o = q at *
  generalize 1000 * x % o = r at *
  have e1 : (2 * k + 1) * o = 2 * (k * o) + o := by ring_nf
  have e2 : 2 * k * o = 2 * (k * o) := by ring_nf
  rw [e1, e2] at h
  have e3 : o * q = q * o := Nat.mul_comm _ _
  rw [e3] at hd
  dsimp only
  by_cases hup : 2 * r > o
  · rw [if_pos (Or.inl hup)]
    by_contra hne
    rcases Nat.lt_or_gt_of_ne hne with hc | hc
    · have := Nat.mul_le_mul_right o (show q + 2 ≤ k by omega)
      rw [Nat.add_mul] at this
      omega
    · have := Nat.mul_le_mul_right o (show k ≤ q by omega)
      omega
  · have hlt : ¬ 2 * r = o := by
      intro heq
      rcases Nat.lt_or_ge k (q + 1) with hc | hc
      · have := Nat.mul_le_mul_right o (show k ≤ q by omega)
        omega
      · have := Nat.mul_le_mul_right o hc
        rw [Nat.add_mul] at this
        omega
    rw [if_neg (by omega)]
    by_contra hne
    rcases Nat.lt_or_gt_of_ne hne with hc | hc
    · have := Nat.mul_le_mul_right o (show q + 1 ≤ k by omega)
      rw [Nat.add_mul] at this
      omega
    · have := Nat.mul_le_mul_right o (show k + 1 ≤ q by omega)
      rw [Nat.add_mul] at this
      omega

theorem bandwidth_eq {x : Nat} (hx : x < one) : bandwidth x = bwOf (thousandths x) := by
  have hn : nearest 0 1 = 0 := by decide
  simp only [bandwidth, getFraction, bwOf, Nat.mod_eq_of_lt hx, Nat.div_eq_of_lt hx, Nat.sub_self,
    Nat.zero_mul, hn, Nat.zero_add]

theorem near_le {x k : Nat} (hx : x < one) (h : Near x k) : k ≤ 1000 := by
  unfold Near at h
  have hp := one_pos
  generalize one = o at *
  by_contra hc
  have := Nat.mul_le_mul_right o (show 1001 ≤ k by omega)
  have e2 : 2 * k * o = 2 * (k * o) := by ring_nf
  omega

/-- The binary logarithm by halving of the exponent, which is quick to evaluate. -/
def lg (n : Nat) : Nat → Nat → Nat
  | 0, acc => acc
  | j + 1, acc => if 2 ^ (acc + 2 ^ j) ≤ n then lg n j (acc + 2 ^ j) else lg n j acc

theorem lg_spec (n : Nat) : ∀ j acc, 2 ^ acc ≤ n → n < 2 ^ (acc + 2 ^ j) →
    2 ^ (lg n j acc) ≤ n ∧ n < 2 ^ (lg n j acc + 1) := by
  intro j
  induction j with
  | zero => intro acc h1 h2; exact ⟨h1, by simpa [lg] using h2⟩
  | succ j ih =>
    intro acc h1 h2
    unfold lg
    split
    · next h =>
      refine ih _ h ?_
      rw [Nat.pow_succ] at h2
      rw [Nat.add_assoc, show 2 ^ j + 2 ^ j = 2 ^ j * 2 by omega]
      exact h2
    · next h => exact ih _ h1 (by omega)

/-- The binary logarithm, quick for numbers in the range of doubles. -/
def log2F (n : Nat) : Nat := if 0 < n ∧ n < 2 ^ 2 ^ 11 then lg n 11 0 else n.log2
theorem log2F_eq (n : Nat) : log2F n = n.log2 := by
  unfold log2F
  split
  · next h =>
    have := lg_spec n 11 0 (by rw [Nat.pow_zero]; exact h.1) (by rw [Nat.zero_add]; exact h.2)
    exact ((Nat.log2_eq_iff (by omega)).2 this).symm
  · rfl
/-- `nearest` with the quick logarithm. -/
def nearestF (n d : Nat) : Nat :=
  let sh := log2F (n / d) - 52
  let u := d * 2 ^ sh
  let q := n / u
  let r := n % u
  let up := 2 * r > u ∨ (2 * r = u ∧ q % 2 = 1)
  (if up then q + 1 else q) * 2 ^ sh
theorem nearestF_eq : nearestF = nearest := by
  funext n d
  simp only [nearestF, nearest, log2F_eq]
/-- `scale` by recursion on the iterations, with the quick rounding. -/
def scaleR (fuel : Nat) : Nat → Nat → Option (Nat × Nat) :=
  Nat.rec (fun _ _ => none)
    (fun _ ih y c => if y % one = 0 then some (y, c) else ih (nearestF (10 * y) 1) (c + 1)) fuel
theorem scaleR_eq : ∀ f y c, scaleR f y c = scale f y c := by
  intro f
  induction f with
  | zero => intros; rfl
  | succ f ih => intro y c; rw [scale, ← ih, ← nearestF_eq]; rfl
/-- `bwOf` with the quick functions. -/
def bwF (k : Nat) : Option (Nat × Nat) :=
  let remainder := nearestF (k * one) 1000
  (if remainder = 0 then some (0, 1)
  else (scaleR 100 remainder 0).map fun (y, count) => (nearestF y 1 / one, count * 10)).map
    fun (a, b) => if a ≤ b then (a, b) else (1, 1)

theorem bwF_eq (k : Nat) : bwF k = bwOf k := by
  simp only [bwF, bwOf, nearestF_eq, scaleR_eq]

/-- The table of all thousandths. -/
theorem bwOf_table : ∀ k < 1001, ∃ p, bwOf k = some p ∧ 0 < p.2 ∧ k * p.2 ≤ p.1 * 1000 ∧
    (p.1 * 1000 = k * p.2 ↔ k % 100 = 0) := by
  have h : ∀ k < 1001, (match bwF k with
      | none => false
      | some p => decide (0 < p.2 ∧ k * p.2 ≤ p.1 * 1000 ∧ (p.1 * 1000 = k * p.2 ↔ k % 100 = 0))) = true := by
    decide +kernel
  intro k hk
  have := h k hk
  rw [bwF_eq] at this
  split at this
  · simp at this
  · next p hp => exact ⟨p, hp, by simpa using this⟩

end RadSim.ConfigGen
