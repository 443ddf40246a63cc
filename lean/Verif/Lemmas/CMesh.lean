import Verif.Model.CMesh
import Verif.Lemmas.Worms
import Verif.Spec.Grid
import Mathlib.Data.Nat.Bitwise

/-! # Wiring and moves of the concentrated mesh -/

namespace RadSim.CMesh

open Worms

/-- Number of the channel of kind `j` at column `x` and row `y`. -/
def code (k j x y : Nat) : Nat := k * y + x + j * (k * k)

theorem split {k x y : Nat} (hx : x < k) : (k * y + x) / k = y ∧ (k * y + x) % k = x := by
  have hk : 0 < k := by omega
  exact ⟨by rw [Nat.mul_add_div hk, Nat.div_eq_of_lt hx, Nat.add_zero],
    by rw [Nat.mul_add_mod, Nat.mod_eq_of_lt hx]⟩

theorem cell_lt {k x y : Nat} (hx : x < k) (hy : y < k) : k * y + x < k * k := by
  have : k * (y + 1) ≤ k * k := Nat.mul_le_mul_left k hy
  rw [Nat.mul_add] at this
  omega

theorem code_inj {k j x y j' x' y' : Nat} (hx : x < k) (hy : y < k) (hx' : x' < k) (hy' : y' < k)
    (h : code k j x y = code k j' x' y') : j = j' ∧ x = x' ∧ y = y' := by
  have hkk : 0 < k * k := Nat.mul_pos (by omega) (by omega)
  have a := cell_lt hx hy
  have b := cell_lt hx' hy'
  unfold code at h
  have e1 : j = j' := by
    have := congrArg (· / (k * k)) h
    simp only [Nat.add_mul_div_right _ _ hkk, Nat.div_eq_of_lt a, Nat.div_eq_of_lt b] at this
    omega
  subst e1
  have e2 : k * y + x = k * y' + x' := by omega
  have e3 : x = x' := by rw [← (split (y := y) hx).2, e2, (split hx').2]
  have e4 : y = y' := by rw [← (split (y := y) hx).1, e2, (split hx').1]
  exact ⟨rfl, e3, e4⟩

/-- The other end of an express link. -/
def jump (k z : Nat) : Nat := if z < k / 2 then z + k / 2 else z - k / 2

theorem jump_lt {k z : Nat} (hz : z < k) : jump k z < k := by unfold jump; split <;> omega

/-- Kind, column and row of the channel read at input port `4 + p`. -/
def source (k x y p : Nat) : Nat × Nat × Nat :=
  if p = 0 then (if x = k - 1 then (0, x, jump k y) else (1, x + 1, y))
  else if p = 1 then (if x = 0 then (1, x, jump k y) else (0, x - 1, y))
  else if p = 2 then (if y = k - 1 then (2, jump k x, y) else (3, x, y + 1))
  else (if y = 0 then (3, jump k x, y) else (2, x, y - 1))

theorem source_lt {k x y p : Nat} (hx : x < k) (hy : y < k) :
    (source k x y p).2.1 < k ∧ (source k x y p).2.2 < k := by
  have h1 := jump_lt hx
  have h2 := jump_lt hy
  unfold source
  repeat' split
  all_goals (simp only; omega)

theorem input_eq {k x y p : Nat} (hx : x < k) (hp : p < 4) :
    inputChannel k (k * y + x) (4 + p) =
      code k (source k x y p).1 (source k x y p).2.1 (source k x y p).2.2 := by
  unfold inputChannel source code jump
  simp only [(split (y := y) hx).1, (split (y := y) hx).2, Nat.add_sub_cancel_left]
  rcases (by omega : p = 0 ∨ p = 1 ∨ p = 2 ∨ p = 3) with rfl | rfl | rfl | rfl
  all_goals simp only [if_true, if_false, OfNat.ofNat_ne_zero, reduceIte, Nat.reduceEqDiff, one_ne_zero]
  all_goals (repeat' split)
  all_goals simp_all

theorem output_eq {k x y p : Nat} (hx : x < k) : outputChannel k (k * y + x) (4 + p) = code k p x y := by
  unfold outputChannel code
  simp only [(split (y := y) hx).1, (split (y := y) hx).2, Nat.add_sub_cancel_left]

/-- Column, row and input port of the reader of output port `4 + p`. -/
def target (k x y p : Nat) : Nat × Nat × Nat :=
  if p = 0 then (if x = k - 1 then (x, jump k y, 0) else (x + 1, y, 1))
  else if p = 1 then (if x = 0 then (x, jump k y, 1) else (x - 1, y, 0))
  else if p = 2 then (if y = k - 1 then (jump k x, y, 2) else (x, y + 1, 3))
  else (if y = 0 then (jump k x, y, 3) else (x, y - 1, 2))

/-- The port does not lead out of the grid. -/
def Inner (k x y p : Nat) : Prop :=
  (p = 0 → x + 1 < k) ∧ (p = 1 → 0 < x) ∧ (p = 2 → y + 1 < k) ∧ (p = 3 → 0 < y)

theorem target0 (k x y : Nat) :
    target k x y (4 - 4) = if x = k - 1 then (x, jump k y, 0) else (x + 1, y, 1) := rfl
theorem target1 (k x y : Nat) :
    target k x y (5 - 4) = if x = 0 then (x, jump k y, 1) else (x - 1, y, 0) := rfl
theorem target2 (k x y : Nat) :
    target k x y (6 - 4) = if y = k - 1 then (jump k x, y, 2) else (x, y + 1, 3) := rfl
theorem target3 (k x y : Nat) :
    target k x y (7 - 4) = if y = 0 then (jump k x, y, 3) else (x, y - 1, 2) := rfl

theorem target_lt {k x y p : Nat} (hx : x < k) (hy : y < k) :
    (target k x y p).1 < k ∧ (target k x y p).2.1 < k ∧ (target k x y p).2.2 < 4 := by
  have h1 := jump_lt hx
  have h2 := jump_lt hy
  unfold target
  repeat' split
  all_goals (simp only; omega)

theorem source_iff {k x y p x' y' q : Nat} (hx : x < k) (hy : y < k) (hp : p < 4) (hx' : x' < k)
    (hy' : y' < k) (hq : q < 4) (hok : k % 2 = 0 ∨ Inner k x y p) :
    source k x' y' q = (p, x, y) ↔ (x', y', q) = target k x y p := by
  have hjx : k % 2 = 0 → (jump k x' = x ↔ x' = jump k x) := fun h => by
    unfold jump; repeat' split
    all_goals omega
  have hjy : k % 2 = 0 → (jump k y' = y ↔ y' = jump k y) := fun h => by
    unfold jump; repeat' split
    all_goals omega
  unfold source target
  generalize jump k x' = a, jump k y' = b, jump k x = c, jump k y = d at *
  obtain ⟨o0, o1, o2, o3⟩ : (k % 2 = 0 ∨ ¬ p = 0 ∨ x + 1 < k) ∧ (k % 2 = 0 ∨ ¬ p = 1 ∨ 0 < x) ∧
      (k % 2 = 0 ∨ ¬ p = 2 ∨ y + 1 < k) ∧ (k % 2 = 0 ∨ ¬ p = 3 ∨ 0 < y) := by
    unfold Inner at hok
    by_cases he : k % 2 = 0
    · simp [he]
    · obtain ⟨i0, i1, i2, i3⟩ := hok.resolve_left he
      refine ⟨?_, ?_, ?_, ?_⟩ <;> refine Or.inr (Classical.or_iff_not_imp_left.mpr fun h => ?_)
      exacts [i0 (by omega), i1 (by omega), i2 (by omega), i3 (by omega)]
  by_cases he : k % 2 = 0
  · have hjx := hjx he
    have hjy := hjy he
    repeat' split
    all_goals (simp only [Prod.mk.injEq]; omega)
  · repeat' split
    all_goals (simp only [Prod.mk.injEq]; omega)

theorem flatMap_single {α : Type} (f : Nat → List α) (v : Nat) (a : α) :
    ∀ n, v < n → f v = [a] → (∀ u, u < n → u ≠ v → f u = []) → (List.range n).flatMap f = [a]
  | 0, h, _, _ => by omega
  | n + 1, h, hv, hu => by
    rw [List.range_succ, List.flatMap_append]
    by_cases e : v = n
    · subst e
      have : (List.range v).flatMap f = [] := by
        rw [List.flatMap_eq_nil_iff]
        intro x hx
        have := List.mem_range.mp hx
        exact hu x (by omega) (by omega)
      rw [this]; simp [hv]
    · rw [flatMap_single f v a n (by omega) hv fun u h1 h2 => hu u (by omega) h2]
      simp [hu n (by omega) (Ne.symm e)]

/-- A link inside the grid, and with an even radix also an express link, has exactly one reader. -/
theorem receivers_eq {k x y p : Nat} (hx : x < k) (hy : y < k) (hp : p < 4)
    (hok : k % 2 = 0 ∨ Inner k x y p) :
    receivers k (outputChannel k (k * y + x) (4 + p)) =
      [(k * (target k x y p).2.1 + (target k x y p).1, 4 + (target k x y p).2.2)] := by
  obtain ⟨t1, t2, t3⟩ := target_lt (p := p) hx hy
  have hk : 0 < k := by omega
  have key : ∀ u q, u < k * k → q < 4 → (inputChannel k u (4 + q) = outputChannel k (k * y + x) (4 + p) ↔
      (u % k, u / k, q) = target k x y p) := by
    intro u q hu hq
    have hux : u % k < k := Nat.mod_lt _ hk
    have huy : u / k < k := by rw [Nat.div_lt_iff_lt_mul hk]; exact hu
    rw [← source_iff hx hy hp hux huy hq hok]
    have hue : u = k * (u / k) + u % k := (Nat.div_add_mod u k).symm
    obtain ⟨s1, s2⟩ := source_lt (p := q) hux huy
    rw [show inputChannel k u (4 + q) = inputChannel k (k * (u / k) + u % k) (4 + q) by rw [← hue],
      input_eq hux hq, output_eq hx]
    constructor
    · intro h
      obtain ⟨a, b, c⟩ := code_inj s1 s2 hx hy h
      exact Prod.ext a (Prod.ext b c)
    · intro h; rw [h]
  unfold receivers
  refine flatMap_single _ (k * (target k x y p).2.1 + (target k x y p).1) _ _ (cell_lt t1 t2) ?_ ?_
  · have hsp := split (y := (target k x y p).2.1) t1
    have hv := cell_lt t1 t2
    have k2 : ∀ q, q < 4 → (inputChannel k (k * (target k x y p).2.1 + (target k x y p).1) (4 + q) =
        outputChannel k (k * y + x) (4 + p) ↔ q = (target k x y p).2.2) := by
      intro q hq
      rw [key _ q hv hq, hsp.1, hsp.2]
      constructor
      · intro h; rw [← h]
      · intro h; rw [h]
    have h0 := k2 0 (by omega)
    have h1 := k2 1 (by omega)
    have h2 := k2 2 (by omega)
    have h3 := k2 3 (by omega)
    simp only [Nat.add_zero, Nat.reduceAdd] at h0 h1 h2 h3
    simp only [List.filter_cons, List.filter_nil, h0, h1, h2, h3]
    rcases (by omega : (target k x y p).2.2 = 0 ∨ (target k x y p).2.2 = 1 ∨ (target k x y p).2.2 = 2 ∨
      (target k x y p).2.2 = 3) with e | e | e | e <;> simp [e]
  · intro u hu hne
    rw [List.map_eq_nil_iff, List.filter_eq_nil_iff]
    intro q hq hc
    have hq' : ∃ r, r < 4 ∧ q = 4 + r := by
      rcases (by simpa using hq : q = 4 ∨ q = 5 ∨ q = 6 ∨ q = 7) with rfl | rfl | rfl | rfl
      exacts [⟨0, by omega, rfl⟩, ⟨1, by omega, rfl⟩, ⟨2, by omega, rfl⟩, ⟨3, by omega, rfl⟩]
    obtain ⟨r, hr, rfl⟩ := hq'
    have := (key u r hu hr).mp (by simpa using hc)
    apply hne
    rw [← this]
    exact (Nat.div_add_mod u k).symm

/-! ## Terminals -/

theorem addr_parts {k a : Nat} (hk : 0 < k) (ha : a < 4 * (k * k)) :
    a / (2 * k) < 2 * k ∧ a % (2 * k) < 2 * k ∧ 2 * k * (a / (2 * k)) + a % (2 * k) = a ∧
      a % 2 = a % (2 * k) % 2 := by
  refine ⟨?_, Nat.mod_lt _ (by omega), Nat.div_add_mod a (2 * k), ?_⟩
  · rw [Nat.div_lt_iff_lt_mul (by omega)]
    calc a < 4 * (k * k) := ha
      _ = 2 * k * (2 * k) := by rw [Nat.mul_mul_mul_comm]
  · rw [Nat.mod_mod_of_dvd a (Nat.dvd_mul_right 2 k)]

theorem router_parts {k a : Nat} (hk : 0 < k) (ha : a < 4 * (k * k)) :
    nodeToRouter k a / k = a / (2 * k) / 2 ∧ nodeToRouter k a % k = a % (2 * k) / 2 ∧
      nodeToRouter k a < k * k := by
  obtain ⟨h1, h2, -, -⟩ := addr_parts hk ha
  have hx : a % (2 * k) / 2 < k := by omega
  have hy : a / (2 * k) / 2 < k := by omega
  have e : nodeToRouter k a = k * (a / (2 * k) / 2) + a % (2 * k) / 2 := by
    unfold nodeToRouter; simp only; rw [Nat.mul_comm k]
  rw [e]
  exact ⟨(split hx).1, (split hx).2, cell_lt hx hy⟩

theorem nodeToPort_eq (k a : Nat) : nodeToPort k a = 2 * (a / (2 * k) % 2) + a % 2 := by
  unfold nodeToPort
  simp only [Nat.and_one_is_mod]

theorem nodeToPort_lt (k a : Nat) : nodeToPort k a < 4 := by rw [nodeToPort_eq]; omega

/-! ## Progress -/

/-- Position of a packet in the order of channels it may take. -/
def rankC (k cx cy dx dy : Nat) : Nat :=
  if cx < dx then cx else if dx < cx then k - 1 - cx
  else if cy < dy then k + cy else if dy < cy then k + (k - 1 - cy) else 2 * k

def distC (cx cy dx dy : Nat) : Nat := Grid.gap cx dx + Grid.gap cy dy

/-- What the proofs need of a function for the next router. -/
structure Sound (k : Nat) (next : Nat → Nat → Nat → Nat) : Prop where
  step : ∀ u d, u < k * k → d < k * k → u ≠ d → ∃ p, p < 4 ∧ next k u d = 4 + p ∧
    (k % 2 = 0 ∨ Inner k (u % k) (u / k) p) ∧
    rankC k (u % k) (u / k) (d % k) (d / k) <
      rankC k (target k (u % k) (u / k) p).1 (target k (u % k) (u / k) p).2.1 (d % k) (d / k) ∧
    distC (target k (u % k) (u / k) p).1 (target k (u % k) (u / k) p).2.1 (d % k) (d / k) <
      distC (u % k) (u / k) (d % k) (d / k)
  same : ∀ u d e, u < k * k → d < k * k → e < k * k → u ≠ d → u ≠ e → next k u d = next k u e →
    rankC k (u % k) (u / k) (d % k) (d / k) = rankC k (u % k) (u / k) (e % k) (e / k)

theorem parts_lt {k u : Nat} (hu : u < k * k) : u % k < k ∧ u / k < k := by
  have hk : 0 < k := by rcases Nat.eq_zero_or_pos k with rfl | h; · omega
                        · exact h
  exact ⟨Nat.mod_lt _ hk, by rw [Nat.div_lt_iff_lt_mul hk]; exact hu⟩

theorem parts_ne {k u d : Nat} (h : u ≠ d) : u % k ≠ d % k ∨ u / k ≠ d / k := by
  by_cases h1 : u % k = d % k
  · right; intro h2; exact h (by rw [← Nat.div_add_mod u k, ← Nat.div_add_mod d k, h1, h2])
  · exact Or.inl h1

theorem noExpress_step {k u d : Nat} (hu : u < k * k) (hd : d < k * k) (h : u ≠ d) :
    ∃ p, p < 4 ∧ nextNoExpress k u d = 4 + p ∧ Inner k (u % k) (u / k) p ∧
    rankC k (u % k) (u / k) (d % k) (d / k) <
      rankC k (target k (u % k) (u / k) p).1 (target k (u % k) (u / k) p).2.1 (d % k) (d / k) ∧
    distC (target k (u % k) (u / k) p).1 (target k (u % k) (u / k) p).2.1 (d % k) (d / k) + 1 =
      distC (u % k) (u / k) (d % k) (d / k) := by
  obtain ⟨u1, u2⟩ := parts_lt hu
  obtain ⟨d1, d2⟩ := parts_lt hd
  have hne := parts_ne (k := k) h
  unfold nextNoExpress
  generalize u % k = cx, u / k = cy, d % k = dx, d / k = dy at *
  simp only
  by_cases h1 : cx < dx
  · refine ⟨0, by omega, by rw [if_pos h1], ⟨by omega, by omega, by omega, by omega⟩, ?_⟩
    have ht : target k cx cy 0 = (cx + 1, cy, 1) := by unfold target; simp; omega
    rw [ht]; unfold rankC distC Grid.gap; simp only
    constructor <;> (repeat' split) <;> omega
  by_cases h2 : cx > dx
  · refine ⟨1, by omega, by rw [if_neg h1, if_pos h2], ⟨by omega, by omega, by omega, by omega⟩, ?_⟩
    have ht : target k cx cy 1 = (cx - 1, cy, 0) := by unfold target; simp; omega
    rw [ht]; unfold rankC distC Grid.gap; simp only
    constructor <;> (repeat' split) <;> omega
  by_cases h3 : cy < dy
  · refine ⟨2, by omega, by rw [if_neg h1, if_neg h2, if_pos h3], ⟨by omega, by omega, by omega, by omega⟩, ?_⟩
    have ht : target k cx cy 2 = (cx, cy + 1, 3) := by unfold target; simp; omega
    rw [ht]; unfold rankC distC Grid.gap; simp only
    constructor <;> (repeat' split) <;> omega
  · have h4 : cy > dy := by omega
    refine ⟨3, by omega, by rw [if_neg h1, if_neg h2, if_neg h3, if_pos h4],
      ⟨by omega, by omega, by omega, by omega⟩, ?_⟩
    have ht : target k cx cy 3 = (cx, cy - 1, 2) := by unfold target; simp; omega
    rw [ht]; unfold rankC distC Grid.gap; simp only
    constructor <;> (repeat' split) <;> omega

theorem sound_noExpress (k : Nat) : Sound k nextNoExpress where
  step u d hu hd h := by
    obtain ⟨p, h1, h2, h3, h4, h5⟩ := noExpress_step hu hd h
    exact ⟨p, h1, h2, Or.inr h3, h4, by omega⟩
  same u d e hu hd he h1 h2 hn := by
    have := parts_ne (k := k) h1
    have := parts_ne (k := k) h2
    unfold nextNoExpress at hn
    unfold rankC
    generalize u % k = cx, u / k = cy, d % k = dx, d / k = dy, e % k = ex, e / k = ey at *
    simp only at hn
    repeat' split at hn
    all_goals (repeat' split)
    all_goals omega

/-- The rank of a packet from the router and the output port it wants, with express links. -/
def portRank (k cx cy p : Nat) : Nat :=
  if (p = 7 ∧ cy = 0) ∨ (p = 6 ∧ cy = k - 1) then (if cx < k / 2 then cx else k - 1 - cx)
  else if (p = 5 ∧ cx = 0) ∨ (p = 4 ∧ cx = k - 1) then k + (if cy < k / 2 then cy else k - 1 - cy)
  else if p = 4 then cx else if p = 5 then k - 1 - cx else if p = 6 then k + cy else k + (k - 1 - cy)

/-- One step with express links, in coordinates. -/
structure StepE (k cx cy dx dy n : Nat) : Prop where
  lo : 4 ≤ n
  hi : n < 8
  rank : rankC k cx cy dx dy = portRank k cx cy n
  up : rankC k cx cy dx dy < rankC k (target k cx cy (n - 4)).1 (target k cx cy (n - 4)).2.1 dx dy
  near : distC (target k cx cy (n - 4)).1 (target k cx cy (n - 4)).2.1 dx dy < distC cx cy dx dy

theorem stepE_of {k cx cy dx dy n x' y' q : Nat} (lo : 4 ≤ n) (hi : n < 8)
    (ht : target k cx cy (n - 4) = (x', y', q)) (hr : rankC k cx cy dx dy = portRank k cx cy n)
    (hu : rankC k cx cy dx dy < rankC k x' y' dx dy) (hn : distC x' y' dx dy < distC cx cy dx dy) :
    StepE k cx cy dx dy n := ⟨lo, hi, hr, by rw [ht]; exact hu, by rw [ht]; exact hn⟩

set_option maxHeartbeats 2000000 in
theorem express_step {k cx cy dx dy : Nat} (hk : k % 2 = 0) (u1 : cx < k) (u2 : cy < k) (d1 : dx < k)
    (d2 : dy < k) (hne : cx ≠ dx ∨ cy ≠ dy) :
    StepE k cx cy dx dy
      (if cx < dx then
        if dx - cx + 1 > k / 2 ∧ cy = 0 then 4 + 3
        else if dx - cx + 1 > k / 2 ∧ cy = k - 1 then 4 + 2 else 4 + 0
      else if cx > dx then
        if cx - dx + 1 > k / 2 ∧ cy = 0 then 4 + 3
        else if cx - dx + 1 > k / 2 ∧ cy = k - 1 then 4 + 2 else 4 + 1
      else if cy < dy then
        if dy - cy + 1 > k / 2 ∧ cx = 0 then 4 + 1
        else if dy - cy + 1 > k / 2 ∧ cx = k - 1 then 4 + 0 else 4 + 2
      else if cy > dy then
        if cy - dy + 1 > k / 2 ∧ cx = 0 then 4 + 1
        else if cy - dy + 1 > k / 2 ∧ cx = k - 1 then 4 + 0 else 4 + 3
      else 3) := by
  have hk2 : 2 * (k / 2) = k := by omega
  by_cases h1 : cx < dx
  · rw [if_pos h1]
    by_cases e1 : dx - cx + 1 > k / 2 ∧ cy = 0
    · rw [if_pos e1]
      exact stepE_of (n := 7) (x' := cx + k / 2) (y' := cy) (q := 3) (by omega) (by omega)
        (by rw [target3, if_pos (by omega), show jump k cx = cx + k / 2 by unfold jump; split <;> omega])
        (by unfold rankC portRank; (repeat' split) <;> omega)
        (by unfold rankC; (repeat' split) <;> omega) (by unfold distC Grid.gap; omega)
    rw [if_neg e1]
    by_cases e2 : dx - cx + 1 > k / 2 ∧ cy = k - 1
    · rw [if_pos e2]
      exact stepE_of (n := 6) (x' := cx + k / 2) (y' := cy) (q := 2) (by omega) (by omega)
        (by rw [target2, if_pos (by omega), show jump k cx = cx + k / 2 by unfold jump; split <;> omega])
        (by unfold rankC portRank; (repeat' split) <;> omega)
        (by unfold rankC; (repeat' split) <;> omega) (by unfold distC Grid.gap; omega)
    rw [if_neg e2]
    exact stepE_of (n := 4) (x' := cx + 1) (y' := cy) (q := 1) (by omega) (by omega)
        (by rw [target0, if_neg (by omega)])
        (by unfold rankC portRank; (repeat' split) <;> omega)
        (by unfold rankC; (repeat' split) <;> omega) (by unfold distC Grid.gap; omega)
  rw [if_neg h1]
  by_cases h2 : cx > dx
  · rw [if_pos h2]
    by_cases e1 : cx - dx + 1 > k / 2 ∧ cy = 0
    · rw [if_pos e1]
      exact stepE_of (n := 7) (x' := cx - k / 2) (y' := cy) (q := 3) (by omega) (by omega)
        (by rw [target3, if_pos (by omega), show jump k cx = cx - k / 2 by unfold jump; split <;> omega])
        (by unfold rankC portRank; (repeat' split) <;> omega)
        (by unfold rankC; (repeat' split) <;> omega) (by unfold distC Grid.gap; omega)
    rw [if_neg e1]
    by_cases e2 : cx - dx + 1 > k / 2 ∧ cy = k - 1
    · rw [if_pos e2]
      exact stepE_of (n := 6) (x' := cx - k / 2) (y' := cy) (q := 2) (by omega) (by omega)
        (by rw [target2, if_pos (by omega), show jump k cx = cx - k / 2 by unfold jump; split <;> omega])
        (by unfold rankC portRank; (repeat' split) <;> omega)
        (by unfold rankC; (repeat' split) <;> omega) (by unfold distC Grid.gap; omega)
    rw [if_neg e2]
    exact stepE_of (n := 5) (x' := cx - 1) (y' := cy) (q := 0) (by omega) (by omega)
        (by rw [target1, if_neg (by omega)])
        (by unfold rankC portRank; (repeat' split) <;> omega)
        (by unfold rankC; (repeat' split) <;> omega) (by unfold distC Grid.gap; omega)
  rw [if_neg h2]
  by_cases h3 : cy < dy
  · rw [if_pos h3]
    by_cases e1 : dy - cy + 1 > k / 2 ∧ cx = 0
    · rw [if_pos e1]
      exact stepE_of (n := 5) (x' := cx) (y' := cy + k / 2) (q := 1) (by omega) (by omega)
        (by rw [target1, if_pos (by omega), show jump k cy = cy + k / 2 by unfold jump; split <;> omega])
        (by unfold rankC portRank; (repeat' split) <;> omega)
        (by unfold rankC; (repeat' split) <;> omega) (by unfold distC Grid.gap; omega)
    rw [if_neg e1]
    by_cases e2 : dy - cy + 1 > k / 2 ∧ cx = k - 1
    · rw [if_pos e2]
      exact stepE_of (n := 4) (x' := cx) (y' := cy + k / 2) (q := 0) (by omega) (by omega)
        (by rw [target0, if_pos (by omega), show jump k cy = cy + k / 2 by unfold jump; split <;> omega])
        (by unfold rankC portRank; (repeat' split) <;> omega)
        (by unfold rankC; (repeat' split) <;> omega) (by unfold distC Grid.gap; omega)
    rw [if_neg e2]
    exact stepE_of (n := 6) (x' := cx) (y' := cy + 1) (q := 3) (by omega) (by omega)
        (by rw [target2, if_neg (by omega)])
        (by unfold rankC portRank; (repeat' split) <;> omega)
        (by unfold rankC; (repeat' split) <;> omega) (by unfold distC Grid.gap; omega)
  rw [if_neg h3]
  have h4 : cy > dy := by omega
  rw [if_pos h4]
  by_cases e1 : cy - dy + 1 > k / 2 ∧ cx = 0
  · rw [if_pos e1]
    exact stepE_of (n := 5) (x' := cx) (y' := cy - k / 2) (q := 1) (by omega) (by omega)
        (by rw [target1, if_pos (by omega), show jump k cy = cy - k / 2 by unfold jump; split <;> omega])
        (by unfold rankC portRank; (repeat' split) <;> omega)
        (by unfold rankC; (repeat' split) <;> omega) (by unfold distC Grid.gap; omega)
  rw [if_neg e1]
  by_cases e2 : cy - dy + 1 > k / 2 ∧ cx = k - 1
  · rw [if_pos e2]
    exact stepE_of (n := 4) (x' := cx) (y' := cy - k / 2) (q := 0) (by omega) (by omega)
        (by rw [target0, if_pos (by omega), show jump k cy = cy - k / 2 by unfold jump; split <;> omega])
        (by unfold rankC portRank; (repeat' split) <;> omega)
        (by unfold rankC; (repeat' split) <;> omega) (by unfold distC Grid.gap; omega)
  rw [if_neg e2]
  exact stepE_of (n := 7) (x' := cx) (y' := cy - 1) (q := 2) (by omega) (by omega)
        (by rw [target3, if_neg (by omega)])
        (by unfold rankC portRank; (repeat' split) <;> omega)
        (by unfold rankC; (repeat' split) <;> omega) (by unfold distC Grid.gap; omega)

theorem sound_express {k : Nat} (hk : k % 2 = 0) : Sound k nextExpress where
  step u d hu hd h := by
    obtain ⟨u1, u2⟩ := parts_lt hu
    obtain ⟨d1, d2⟩ := parts_lt hd
    obtain ⟨lo, hi, -, up, near⟩ := express_step hk u1 u2 d1 d2 (parts_ne h)
    exact ⟨nextExpress k u d - 4, by unfold nextExpress; simp only; omega,
      by unfold nextExpress; simp only; omega, Or.inl hk, up, near⟩
  same u d e hu hd he h1 h2 hn := by
    obtain ⟨u1, u2⟩ := parts_lt hu
    obtain ⟨d1, d2⟩ := parts_lt hd
    obtain ⟨e1, e2⟩ := parts_lt he
    have a := (express_step hk u1 u2 d1 d2 (parts_ne h1)).rank
    have b := (express_step hk u1 u2 e1 e2 (parts_ne h2)).rank
    unfold nextExpress at hn
    simp only at hn
    rw [a, b, hn]

/-! ## Heads -/

/-- A head in the network. -/
def Good (k : Nat) (h : Head) : Prop := h.router < k * k ∧ h.dest < 4 * (k * k) ∧ h.lo ≤ h.hi

theorem pos_of {k u : Nat} (hu : u < k * k) : 0 < k := by
  rcases Nat.eq_zero_or_pos k with rfl | h
  · omega
  · exact h

theorem home_iff {k : Nat} {next : Nat → Nat → Nat → Nat} (hs : Sound k next) {h : Head} (g : Good k h) :
    Home next k h ↔ h.router = nodeToRouter k h.dest := by
  unfold Home port
  split
  · rename_i e
    exact ⟨fun _ => e.symm, fun _ => nodeToPort_lt k h.dest⟩
  · rename_i e
    obtain ⟨p, -, h2, -⟩ := hs.step h.router (nodeToRouter k h.dest) g.1
      (router_parts (pos_of g.1) g.2.1).2.2 (Ne.symm e)
    rw [h2]
    exact ⟨fun h => by omega, fun h => absurd h.symm e⟩

theorem takes_iff {k : Nat} {next : Nat → Nat → Nat → Nat} (hs : Sound k next) {h h' : Head}
    {c : Nat × Nat} (g : Good k h) :
    Takes next k h c h' ↔ h.router ≠ nodeToRouter k h.dest ∧
      c.1 = outputChannel k h.router (next k h.router (nodeToRouter k h.dest)) ∧ h.lo ≤ c.2 ∧ c.2 ≤ h.hi ∧
      h' = { h with router :=
        k * (target k (h.router % k) (h.router / k) (next k h.router (nodeToRouter k h.dest) - 4)).2.1 +
          (target k (h.router % k) (h.router / k) (next k h.router (nodeToRouter k h.dest) - 4)).1 } := by
  unfold Takes
  by_cases e : nodeToRouter k h.dest = h.router
  · have hp : port next k h = nodeToPort k h.dest := by unfold port; rw [if_pos e]
    have := nodeToPort_lt k h.dest
    constructor
    · intro ⟨h1, _⟩; omega
    · intro ⟨h1, _⟩; exact absurd e.symm h1
  · have hp : port next k h = next k h.router (nodeToRouter k h.dest) := by unfold port; rw [if_neg e]
    obtain ⟨p, h1, h2, h3, -⟩ := hs.step h.router (nodeToRouter k h.dest) g.1
      (router_parts (pos_of g.1) g.2.1).2.2 (Ne.symm e)
    obtain ⟨u1, u2⟩ := parts_lt g.1
    have hr := receivers_eq u1 u2 h1 h3
    rw [Nat.div_add_mod] at hr
    rw [hp, h2, Nat.add_sub_cancel_left]
    constructor
    · rintro ⟨-, a, b, d, v, q, hv, rfl⟩
      rw [a, hr, List.cons.injEq, Prod.mk.injEq] at hv
      exact ⟨Ne.symm e, a, b, d, by rw [hv.1.1]⟩
    · rintro ⟨-, a, b, d, rfl⟩
      exact ⟨by omega, a, b, d, _, _, by rw [a, hr], rfl⟩

theorem can_take {k : Nat} {next : Nat → Nat → Nat → Nat} (hs : Sound k next) {h : Head} (g : Good k h)
    (hh : ¬ Home next k h) {vc : Nat} (h1 : h.lo ≤ vc) (h2 : vc ≤ h.hi) :
    ∃ h', Takes next k h (outputChannel k h.router (next k h.router (nodeToRouter k h.dest)), vc) h' :=
  ⟨_, (takes_iff hs g).mpr ⟨fun e => hh ((home_iff hs g).mpr e), rfl, h1, h2, rfl⟩⟩

/-- Rank of a head. -/
def rankH (k : Nat) (h : Head) : Nat :=
  rankC k (h.router % k) (h.router / k) (nodeToRouter k h.dest % k) (nodeToRouter k h.dest / k)

/-- Distance of a head from its destination router. -/
def distH (k : Nat) (h : Head) : Nat :=
  distC (h.router % k) (h.router / k) (nodeToRouter k h.dest % k) (nodeToRouter k h.dest / k)

theorem takes_good {k : Nat} {next : Nat → Nat → Nat → Nat} (hs : Sound k next) {h h' : Head}
    {c : Nat × Nat} (g : Good k h) (ht : Takes next k h c h') :
    Good k h' ∧ h'.dest = h.dest ∧ rankH k h < rankH k h' ∧ distH k h' < distH k h := by
  obtain ⟨hne, -, -, -, rfl⟩ := (takes_iff hs g).mp ht
  obtain ⟨p, h1, h2, -, h4, h5⟩ := hs.step h.router (nodeToRouter k h.dest) g.1
    (router_parts (pos_of g.1) g.2.1).2.2 hne
  obtain ⟨u1, u2⟩ := parts_lt g.1
  obtain ⟨t1, t2, -⟩ := target_lt (p := p) u1 u2
  rw [h2, Nat.add_sub_cancel_left]
  refine ⟨⟨cell_lt t1 t2, g.2.1, g.2.2⟩, rfl, ?_, ?_⟩
  · unfold rankH; simp only [(split t1).1, (split t1).2]; exact h4
  · unfold distH; simp only [(split t1).1, (split t1).2]; exact h5

theorem noDeadlockC {k : Nat} {next : Nat → Nat → Nat → Nat} (hs : Sound k next) :
    NoDeadlock (Enters k) (Takes next k) (Home next k) := by
  refine noDeadlock (Good := Good k) (rankH k) (fun h e => e) (fun h c h' g t => (takes_good hs g t).1)
    (fun h c h' g t => Nat.le_of_lt (takes_good hs g t).2.2.1) fun h g hh => ?_
  obtain ⟨h', ht⟩ := can_take hs g hh (Nat.le_refl _) g.2.2
  refine ⟨_, h', ht, fun t t' gt tt => ?_⟩
  have hup := (takes_good hs gt tt).2.2.1
  obtain ⟨a1, a2, -⟩ := (takes_iff hs g).mp ht
  obtain ⟨b1, b2, -⟩ := (takes_iff hs gt).mp tt
  simp only at a2 b2
  have dh := (router_parts (pos_of g.1) g.2.1).2.2
  have dt := (router_parts (pos_of gt.1) gt.2.1).2.2
  obtain ⟨p, hp, e1, -⟩ := hs.step _ _ g.1 dh a1
  obtain ⟨q, hq, e2, -⟩ := hs.step _ _ gt.1 dt b1
  obtain ⟨u1, u2⟩ := parts_lt g.1
  obtain ⟨v1, v2⟩ := parts_lt gt.1
  rw [e1, e2, ← Nat.div_add_mod h.router k, ← Nat.div_add_mod t.router k, output_eq u1, output_eq v1] at b2
  obtain ⟨c1, c2, c3⟩ := code_inj u1 u2 v1 v2 b2
  have er : h.router = t.router := by
    rw [← Nat.div_add_mod h.router k, ← Nat.div_add_mod t.router k, c2, c3]
  have hsame := hs.same h.router (nodeToRouter k h.dest) (nodeToRouter k t.dest) g.1 dh dt a1
    (by rw [er]; exact b1) (by rw [e1, c1, er, e2])
  have : rankH k h = rankH k t := by unfold rankH; rw [hsame, er]
  omega

end RadSim.CMesh
