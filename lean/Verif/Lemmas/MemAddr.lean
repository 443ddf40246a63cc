import Verif.Model.MemAddr
import Mathlib.Data.List.Perm.Basic
import Mathlib.Data.List.Nodup

/-! # Mixed-radix numbers with power-of-two digits -/

namespace RadSim.Dram

/-- Sum of the widths of a list of fields. -/
def total (w : Field → Nat) (l : List Field) : Nat := (l.map w).sum

/-- The number with digits `v`, first field lowest. -/
def enc (w v : Field → Nat) : List Field → Nat
  | [] => 0
  | f :: fs => v f + 2 ^ w f * enc w v fs

/-- Bits below field `f`. -/
def below (w : Field → Nat) (f : Field) : List Field → Nat
  | [] => 0
  | g :: gs => if g = f then 0 else w g + below w f gs

theorem enc_lt (w v : Field → Nat) (l : List Field) (h : ∀ f ∈ l, v f < 2 ^ w f) : enc w v l < 2 ^ total w l := by
  induction l with
  | nil => simp [enc, total]
  | cons f l ih =>
    have h1 := ih fun x hx => h x (List.mem_cons_of_mem _ hx)
    have h2 := h f (List.mem_cons_self ..)
    have h3 : total w (f :: l) = w f + total w l := by simp [total]
    rw [h3, Nat.pow_add]
    unfold enc
    calc v f + 2 ^ w f * enc w v l < 2 ^ w f + 2 ^ w f * enc w v l := by omega
      _ = 2 ^ w f * (enc w v l + 1) := by rw [Nat.mul_add, Nat.mul_one, Nat.add_comm]
      _ ≤ 2 ^ w f * 2 ^ total w l := Nat.mul_le_mul_left _ h1

theorem enc_digit (w v : Field → Nat) (l : List Field) (h : ∀ f ∈ l, v f < 2 ^ w f) (f : Field) (hf : f ∈ l) :
    enc w v l / 2 ^ below w f l % 2 ^ w f = v f := by
  induction l with
  | nil => cases hf
  | cons g l ih =>
    have hg := h g (List.mem_cons_self ..)
    unfold enc below
    by_cases e : g = f
    · subst e
      rw [if_pos rfl, Nat.pow_zero, Nat.div_one, Nat.add_mul_mod_self_left, Nat.mod_eq_of_lt hg]
    · rw [if_neg e, Nat.pow_add, ← Nat.div_div_eq_div_mul]
      rw [Nat.add_mul_div_left _ _ (Nat.two_pow_pos _), Nat.div_eq_of_lt hg, Nat.zero_add]
      exact ih (fun x hx => h x (List.mem_cons_of_mem _ hx)) ((List.mem_cons.mp hf).resolve_left fun q => e q.symm)

theorem enc_append (w v : Field → Nat) (l m : List Field) :
    enc w v (l ++ m) = enc w v l + 2 ^ total w l * enc w v m := by
  induction l with
  | nil => simp [enc, total]
  | cons f l ih =>
    have h3 : total w (f :: l) = w f + total w l := by simp [total]
    have e1 : enc w v (f :: (l ++ m)) = v f + 2 ^ w f * enc w v (l ++ m) := rfl
    have e2 : enc w v (f :: l) = v f + 2 ^ w f * enc w v l := rfl
    rw [List.cons_append, e1, e2, ih, h3, Nat.pow_add, Nat.mul_add, Nat.mul_assoc, Nat.add_assoc]

theorem enc_congr (w v v' : Field → Nat) (l : List Field) (h : ∀ f ∈ l, v f = v' f) : enc w v l = enc w v' l := by
  induction l with
  | nil => rfl
  | cons f l ih =>
    unfold enc
    rw [h f (List.mem_cons_self ..), ih fun x hx => h x (List.mem_cons_of_mem _ hx)]

/-- A number is composed of its digits. -/
theorem enc_digits (w : Field → Nat) (l : List Field) (hn : l.Nodup) (x : Nat) :
    enc w (fun f => x / 2 ^ below w f l % 2 ^ w f) l = x % 2 ^ total w l := by
  induction l generalizing x with
  | nil => simp [enc, total, Nat.mod_one]
  | cons g l ih =>
    have h3 : total w (g :: l) = w g + total w l := by simp [total]
    have hg : g ∉ l := (List.nodup_cons.mp hn).1
    unfold enc
    rw [enc_congr w _ (fun f => x / 2 ^ w g / 2 ^ below w f l % 2 ^ w f) l (by
      intro f hf
      have : g ≠ f := fun e => hg (e ▸ hf)
      simp only [below, if_neg this, Nat.pow_add, Nat.div_div_eq_div_mul])]
    rw [ih (List.nodup_cons.mp hn).2, h3, Nat.pow_add]
    simp only [below, if_true, Nat.pow_zero, Nat.div_one]
    rw [Nat.mod_mul]

theorem digits_eq_iff (w : Field → Nat) (l : List Field) (hn : l.Nodup) (x y : Nat) :
    (∀ f ∈ l, x / 2 ^ below w f l % 2 ^ w f = y / 2 ^ below w f l % 2 ^ w f) ↔
      x % 2 ^ total w l = y % 2 ^ total w l := by
  constructor
  · intro h
    rw [← enc_digits w l hn x, ← enc_digits w l hn y]
    exact enc_congr _ _ _ _ h
  · intro h f hf
    have hx := enc_digit w (fun f => x / 2 ^ below w f l % 2 ^ w f) l
      (fun f _ => Nat.mod_lt _ (Nat.two_pow_pos _)) f hf
    have hy := enc_digit w (fun f => y / 2 ^ below w f l % 2 ^ w f) l
      (fun f _ => Nat.mod_lt _ (Nat.two_pow_pos _)) f hf
    rw [enc_digits w l hn] at hx hy
    rw [← hx, ← hy, h]

theorem total_perm (w : Field → Nat) (l m : List Field) (h : l.Perm m) : total w l = total w m := by
  unfold total
  induction h with
  | nil => rfl
  | cons a _ ih => simp only [List.map_cons, List.sum_cons, ih]
  | swap a b l => simp only [List.map_cons, List.sum_cons]; omega
  | trans _ _ ih1 ih2 => exact ih1.trans ih2

/-! ## The loops of the code -/

theorem positions_aux (w : Field → Nat) (l : List Field) : ∀ (m : Field → Option Nat) (n : Nat), l.Nodup →
    ∀ f, (l.foldl (fun (p : (Field → Option Nat) × Nat) f => (fun x => if x = f then some p.2 else p.1 x, p.2 + w f)) (m, n)).1 f =
      if f ∈ l then some (n + below w f l) else m f := by
  induction l with
  | nil => intro m n _ f; simp
  | cons g l ih =>
    intro m n hn f
    rw [List.foldl_cons, ih _ _ (List.nodup_cons.mp hn).2]
    have hg : g ∉ l := (List.nodup_cons.mp hn).1
    by_cases e : g = f
    · subst e
      simp [hg, below]
    · have e' : ¬ f = g := fun q => e q.symm
      by_cases hf : f ∈ l
      · simp [hf, below, e, Nat.add_assoc]
      · simp [hf, e']

theorem positions_eq (w : Field → Nat) (order : List Field) (hn : order.Nodup) (f : Field) (hf : f ∈ order) :
    (positions w order).1 f = some (below w f order.reverse) := by
  unfold positions
  rw [positions_aux w _ _ _ (List.nodup_reverse.mpr hn), if_pos (List.mem_reverse.mpr hf), Nat.zero_add]

theorem splitAt_eq (w : Field → Nat) (f : Field) (l : List Field) (hf : f ∈ l) (x : Nat) :
    splitAt w f l x = x / 2 ^ below w f l := by
  induction l generalizing x with
  | nil => cases hf
  | cons g l ih =>
    unfold splitAt below
    by_cases e : g = f
    · rw [if_pos e, if_pos e, Nat.pow_zero, Nat.div_one]
    · rw [if_neg e, if_neg e, ih ((List.mem_cons.mp hf).resolve_left fun q => e q.symm), Nat.pow_add,
        Nat.div_div_eq_div_mul]

theorem skipBits_eq (w : Field → Nat) (l : List Field) (hf : .ch ∈ l) (n : Nat) :
    skipBits w l n = n + below w .ch l := by
  induction l generalizing n with
  | nil => cases hf
  | cons g l ih =>
    unfold skipBits below
    by_cases e : g = .ch
    · rw [if_neg (fun h => h e), if_pos e, Nat.add_zero]
    · rw [if_pos e, if_neg e, ih ((List.mem_cons.mp hf).resolve_left fun q => e q.symm), Nat.add_assoc]

theorem logBase2_eq (n : Nat) : logBase2 n = Nat.log 2 n := by
  induction n using Nat.strongRecOn with
  | ind n ih =>
    unfold logBase2
    split
    next h =>
      rw [ih (n / 2) (by omega)]
      exact (Nat.log_of_one_lt_of_le (by omega) (by omega)).symm
    next h => exact (Nat.log_of_lt (by omega)).symm

theorem dramWidth_eq (g : Geometry) : g.dramWidth = g.ctrlWidth := by
  funext f
  cases f <;> simp only [Geometry.dramWidth, Geometry.ctrlWidth, logBase2_eq, Nat.log_pow (Nat.lt_succ_self 1)]

theorem dramShift_eq (g : Geometry) (h : 8 ∣ g.busWidth) : g.dramShift = g.ctrlShift := by
  obtain ⟨k, hk⟩ := h
  unfold Geometry.dramShift Geometry.ctrlShift
  rw [logBase2_eq, hk, Nat.mul_div_cancel_left _ (by decide)]
  congr 1
  rw [show g.burstLength * (8 * k) = 8 * (g.burstLength * k) by
    rw [Nat.mul_left_comm], Nat.mul_div_cancel_left _ (by decide), Nat.mul_comm]

theorem low_eq (x w : Nat) (h : w ≤ 30) : low x w = some (x % 2 ^ w) := by unfold low; rw [if_pos h]

/-- Fields given to the arranging loop. -/
def Geometry.given (g : Geometry) (addr ch : Nat) (f : Field) : Nat :=
  if f = .ch then ch
  else addr / 2 ^ g.ctrlShift / 2 ^ below g.ctrlWidth f splitOrder % 2 ^ g.ctrlWidth f

theorem mem_splitOrder (f : Field) : f ∈ splitOrder := by cases f <;> decide

theorem fieldValue_eq (g : Geometry) (addr : Nat) (f : Field) (hw : g.ctrlWidth f ≤ 30) :
    g.fieldValue addr f =
      some (addr / 2 ^ g.ctrlShift / 2 ^ below g.ctrlWidth f splitOrder % 2 ^ g.ctrlWidth f) := by
  unfold Geometry.fieldValue
  rw [low_eq _ _ hw, splitAt_eq _ _ _ (mem_splitOrder f)]

theorem arrange_eq (g : Geometry) (addr ch : Nat) (hw : ∀ f, g.ctrlWidth f ≤ 30) (l : List Field) :
    ∀ x, (x * 2 ^ total g.ctrlWidth l + enc g.ctrlWidth (g.given addr ch) l.reverse) < 2 ^ 64 →
      g.arrange addr ch l x =
        some (x * 2 ^ total g.ctrlWidth l + enc g.ctrlWidth (g.given addr ch) l.reverse) := by
  induction l with
  | nil => intro x _; simp [Geometry.arrange, total, enc]
  | cons f l ih =>
    intro x hx
    have h3 : total g.ctrlWidth (f :: l) = g.ctrlWidth f + total g.ctrlWidth l := by simp [total]
    have ht : total g.ctrlWidth l.reverse = total g.ctrlWidth l := total_perm _ _ _ l.reverse_perm
    have key : x * 2 ^ total g.ctrlWidth (f :: l) + enc g.ctrlWidth (g.given addr ch) (f :: l).reverse =
        (x * 2 ^ g.ctrlWidth f + g.given addr ch f) * 2 ^ total g.ctrlWidth l +
          enc g.ctrlWidth (g.given addr ch) l.reverse := by
      rw [h3, List.reverse_cons, enc_append, ht]
      simp only [enc, Nat.mul_zero, Nat.add_zero]
      rw [Nat.pow_add, Nat.add_mul, Nat.mul_assoc, Nat.mul_comm (g.given addr ch f)]
      omega
    rw [key] at hx ⊢
    have hlt : x * 2 ^ g.ctrlWidth f + g.given addr ch f < 2 ^ 64 := by
      refine Nat.lt_of_le_of_lt ?_ (Nat.lt_of_le_of_lt (Nat.le_add_right _ _) hx)
      exact Nat.le_mul_of_pos_right _ (Nat.two_pow_pos _)
    unfold Geometry.arrange
    by_cases e : f = .ch
    · rw [if_pos e]
      have hg : g.given addr ch f = ch := by unfold Geometry.given; rw [if_pos e]
      rw [hg] at hx hlt ⊢
      rw [Nat.mod_eq_of_lt hlt]
      exact ih _ hx
    · rw [if_neg e, fieldValue_eq g addr f (hw f)]
      have hg : g.given addr ch f =
          addr / 2 ^ g.ctrlShift / 2 ^ below g.ctrlWidth f splitOrder % 2 ^ g.ctrlWidth f := by
        unfold Geometry.given; rw [if_neg e]
      rw [hg] at hx hlt ⊢
      simp only
      rw [Nat.mod_eq_of_lt hlt]
      exact ih _ hx

end RadSim.Dram
