import Verif.Model.BufferState

namespace RadSim

@[simp] theorem upd_same {α : Type} (f : Nat → α) (i : Nat) (x : α) : upd f i x i = x := by
  simp [upd]

theorem upd_ne {α : Type} (f : Nat → α) {i j : Nat} (x : α) (h : j ≠ i) : upd f i x j = f j := by
  simp [upd, h]

theorem upd_apply {α : Type} (f : Nat → α) (i j : Nat) (x : α) :
    upd f i x j = if j = i then x else f j := rfl

/-- Sum of the first `n` values of a function. -/
def sumTo : Nat → (Nat → Int) → Int
  | 0, _ => 0
  | n + 1, f => sumTo n f + f n

theorem sumTo_congr {n : Nat} {f g : Nat → Int} (h : ∀ i, i < n → f i = g i) :
    sumTo n f = sumTo n g := by
  induction n with
  | zero => rfl
  | succ n ih =>
    simp only [sumTo]
    rw [ih (fun i hi => h i (by omega)), h n (by omega)]

theorem sumTo_upd {n : Nat} (f : Nat → Int) (i : Nat) (x : Int) (h : i < n) :
    sumTo n (upd f i x) = sumTo n f + (x - f i) := by
  induction n with
  | zero => omega
  | succ n ih =>
    simp only [sumTo]
    by_cases hi : i = n
    · subst hi
      rw [sumTo_congr (g := f) (fun j hj => upd_ne f x (by omega)), upd_same]
      omega
    · rw [ih (by omega), upd_ne f x (by omega)]
      omega

theorem sumTo_le {n : Nat} {f : Nat → Int} {b : Int} (h : ∀ i, i < n → f i ≤ b) :
    sumTo n f ≤ n * b := by
  induction n with
  | zero => simp [sumTo]
  | succ n ih =>
    have h1 := ih (fun i hi => h i (by omega))
    have h2 := h n (by omega)
    simp only [sumTo]
    have : ((n + 1 : Nat) : Int) * b = n * b + b := by
      push_cast
      rw [Int.add_mul, Int.one_mul]
    omega

theorem sumTo_nonneg {n : Nat} {f : Nat → Int} (h : ∀ i, i < n → 0 ≤ f i) : 0 ≤ sumTo n f := by
  induction n with
  | zero => simp [sumTo]
  | succ n ih =>
    have h1 := ih (fun i hi => h i (by omega))
    have h2 := h n (by omega)
    simp only [sumTo]
    omega

theorem le_sumTo {n : Nat} {f : Nat → Int} (h : ∀ i, i < n → 0 ≤ f i) {i : Nat} (hi : i < n) :
    f i ≤ sumTo n f := by
  induction n with
  | zero => omega
  | succ n ih =>
    simp only [sumTo]
    have h1 := sumTo_nonneg (n := n) (f := f) (fun i hi => h i (by omega))
    have h2 := h n (by omega)
    by_cases hin : i = n
    · subst hin; omega
    · have := ih (fun i hi => h i (by omega)) (by omega)
      omega

end RadSim
