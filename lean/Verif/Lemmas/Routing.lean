import Verif.Model.Routing
import Verif.Spec.Grid
import Verif.Lemmas.Worms
import Mathlib.Algebra.Order.BigOperators.Group.Finset
import Mathlib.Data.Nat.ModEq
import Mathlib.Data.Nat.Bitwise

/-! # Coordinates, wiring and routing lemmas -/

namespace RadSim.Routing

open Grid

section Digits

variable {k : Nat}

theorem coord_lt (hk : 0 < k) (u d : Nat) : coord k u d < k := Nat.mod_lt _ hk

theorem coord_of_lt {d' d u w : Nat} (h : d' < d) (e : w % k ^ d = u % k ^ d) :
    coord k w d' = coord k u d' := by
  have hd : k ^ d' * k ∣ k ^ d := by
    rw [← Nat.pow_succ]; exact Nat.pow_dvd_pow k h
  unfold coord
  rw [← Nat.mod_mul_right_div_self, ← Nat.mod_mul_right_div_self, ← Nat.mod_mod_of_dvd w hd,
    ← Nat.mod_mod_of_dvd u hd, e]

theorem coord_of_gt {d' d u w : Nat} (h : d < d') (e : w / k ^ d / k = u / k ^ d / k) :
    coord k w d' = coord k u d' := by
  obtain ⟨m, rfl⟩ := Nat.exists_eq_add_of_lt h
  unfold coord
  have hp : k ^ (d + m + 1) = k ^ d * k * k ^ m := by
    rw [Nat.pow_succ, Nat.pow_add]; ac_rfl
  rw [hp, ← Nat.div_div_eq_div_mul, ← Nat.div_div_eq_div_mul, ← Nat.div_div_eq_div_mul,
    ← Nat.div_div_eq_div_mul, e]

theorem lt_of_high (hk : 0 < k) {d n u w : Nat} (hd : d < n) (hu : u < k ^ n)
    (e : w / k ^ d / k = u / k ^ d / k) : w < k ^ n := by
  obtain ⟨m, rfl⟩ := Nat.exists_eq_add_of_lt hd
  have hp : k ^ (d + m + 1) = k ^ m * (k ^ d * k) := by
    rw [Nat.pow_succ, Nat.pow_add]; ac_rfl
  have hpos : 0 < k ^ d * k := Nat.mul_pos (Nat.pow_pos hk) hk
  rw [hp] at hu ⊢
  rw [← Nat.div_lt_iff_lt_mul hpos, ← Nat.div_div_eq_div_mul] at hu ⊢
  rw [e]; exact hu

theorem coord_ext (hk : 0 < k) : ∀ (n : Nat) {u v : Nat}, u < k ^ n → v < k ^ n →
    (∀ d, d < n → coord k u d = coord k v d) → u = v
  | 0, u, v, hu, hv, _ => by simp at hu hv; omega
  | n + 1, u, v, hu, hv, h => by
    have h0 := h 0 (by omega)
    have hq : u / k = v / k := by
      refine coord_ext hk n ?_ ?_ fun d hd => ?_
      · rw [Nat.div_lt_iff_lt_mul hk, ← Nat.pow_succ]; exact hu
      · rw [Nat.div_lt_iff_lt_mul hk, ← Nat.pow_succ]; exact hv
      · have := h (d + 1) (by omega)
        unfold coord at this ⊢
        rw [Nat.pow_succ, Nat.mul_comm, ← Nat.div_div_eq_div_mul, ← Nat.div_div_eq_div_mul] at this
        exact this
    simp only [coord, Nat.pow_zero, Nat.div_one] at h0
    rw [← Nat.div_add_mod u k, ← Nat.div_add_mod v k, hq, h0]

end Digits

/-- The router reached from `u` by going right. -/
structure Right (s : Shape) (u d w : Nat) : Prop where
  same : ∀ d', d' ≠ d → coord s.k w d' = coord s.k u d'
  at_d : coord s.k w d = if coord s.k u d = s.k - 1 then 0 else coord s.k u d + 1
  lt : d < s.n → u < s.nodes → w < s.nodes

/-- The router reached from `u` by going left. -/
structure Left (s : Shape) (u d w : Nat) : Prop where
  same : ∀ d', d' ≠ d → coord s.k w d' = coord s.k u d'
  at_d : coord s.k w d = if coord s.k u d = 0 then s.k - 1 else coord s.k u d - 1
  lt : d < s.n → u < s.nodes → w < s.nodes

section Nodes

variable {s : Shape}

theorem mk_right (hk : 0 < s.k) {u d w q : Nat}
    (hw : w = s.k ^ d * q + u % s.k ^ d) (hq : q / s.k = u / s.k ^ d / s.k) :
    w / s.k ^ d = q ∧ w % s.k ^ d = u % s.k ^ d ∧ w / s.k ^ d / s.k = u / s.k ^ d / s.k := by
  have hp : 0 < s.k ^ d := Nat.pow_pos hk
  have hr := Nat.mod_lt u hp
  have h1 : w / s.k ^ d = q := by
    rw [hw, Nat.mul_add_div hp, Nat.div_eq_of_lt hr, Nat.add_zero]
  refine ⟨h1, ?_, by rw [h1, hq]⟩
  rw [hw, Nat.mul_add_mod, Nat.mod_eq_of_lt hr]

theorem div_step {q k q' : Nat} (h : q' + q % k = q + q' % k) (hk : 0 < k) : q' / k = q / k := by
  have h1 := Nat.div_add_mod q k
  have h2 := Nat.div_add_mod q' k
  have : k * (q' / k) = k * (q / k) := by omega
  exact Nat.eq_of_mul_eq_mul_left hk this

theorem right_spec (hk : 0 < s.k) (u d : Nat) : Right s u d (rightNode s u d) := by
  have hp : 0 < s.k ^ d := Nat.pow_pos hk
  have hu := Nat.div_add_mod u (s.k ^ d)
  have hc : u / s.k ^ d % s.k < s.k := Nat.mod_lt _ hk
  have hqm := Nat.mod_le (u / s.k ^ d) s.k
  by_cases h : u / s.k ^ d % s.k = s.k - 1
  · have hm : (u / s.k ^ d - (s.k - 1)) % s.k = 0 := by
      have := Nat.sub_mod_eq_zero_of_mod_eq (m := u / s.k ^ d) (n := s.k - 1) (k := s.k)
        (by rw [h, Nat.mod_eq_of_lt (by omega)])
      exact this
    have hw : rightNode s u d = s.k ^ d * (u / s.k ^ d - (s.k - 1)) + u % s.k ^ d := by
      have hle : (s.k - 1) * s.k ^ d ≤ s.k ^ d * (u / s.k ^ d) := by
        rw [Nat.mul_comm]; exact Nat.mul_le_mul_left _ (by omega)
      simp only [rightNode, h, if_true]
      rw [Nat.mul_sub, Nat.mul_comm (s.k ^ d) (s.k - 1)]
      rw [← Nat.sub_add_comm hle, hu]
    have hq := div_step (q := u / s.k ^ d) (k := s.k) (q' := u / s.k ^ d - (s.k - 1))
      (by rw [hm, h]; omega) hk
    obtain ⟨h1, h2, h3⟩ := mk_right hk hw hq
    refine ⟨fun d' hd' => ?_, ?_, fun hd hu => lt_of_high hk hd hu h3⟩
    · rcases Nat.lt_or_gt_of_ne hd' with h' | h'
      · exact coord_of_lt h' h2
      · exact coord_of_gt h' h3
    · unfold coord; rw [h1, hm, h]; simp
  · have hm : (u / s.k ^ d + 1) % s.k = u / s.k ^ d % s.k + 1 := by
      rw [Nat.add_mod]
      rcases Nat.lt_or_ge 1 s.k with h1 | h1
      · rw [Nat.mod_eq_of_lt h1, Nat.mod_eq_of_lt]; omega
      · omega
    have hw : rightNode s u d = s.k ^ d * (u / s.k ^ d + 1) + u % s.k ^ d := by
      simp only [rightNode, h, if_false]
      rw [Nat.mul_add]
      omega
    have hq := div_step (q := u / s.k ^ d) (k := s.k) (q' := u / s.k ^ d + 1)
      (by rw [hm]; omega) hk
    obtain ⟨h1, h2, h3⟩ := mk_right hk hw hq
    refine ⟨fun d' hd' => ?_, ?_, fun hd hu => lt_of_high hk hd hu h3⟩
    · rcases Nat.lt_or_gt_of_ne hd' with h' | h'
      · exact coord_of_lt h' h2
      · exact coord_of_gt h' h3
    · unfold coord; rw [h1, hm, if_neg h]

theorem left_spec (hk : 0 < s.k) (u d : Nat) : Left s u d (leftNode s u d) := by
  have hp : 0 < s.k ^ d := Nat.pow_pos hk
  have hu := Nat.div_add_mod u (s.k ^ d)
  have hc : u / s.k ^ d % s.k < s.k := Nat.mod_lt _ hk
  have hqm := Nat.mod_le (u / s.k ^ d) s.k
  by_cases h : u / s.k ^ d % s.k = 0
  · have hm : (u / s.k ^ d + (s.k - 1)) % s.k = s.k - 1 := by
      rw [Nat.add_mod, h, Nat.zero_add, Nat.mod_mod, Nat.mod_eq_of_lt (by omega)]
    have hw : leftNode s u d = s.k ^ d * (u / s.k ^ d + (s.k - 1)) + u % s.k ^ d := by
      simp only [leftNode, h, if_true]
      rw [Nat.mul_add, Nat.mul_comm (s.k ^ d) (s.k - 1)]
      omega
    have hq := div_step (q := u / s.k ^ d) (k := s.k) (q' := u / s.k ^ d + (s.k - 1))
      (by rw [hm, h]; omega) hk
    obtain ⟨h1, h2, h3⟩ := mk_right hk hw hq
    refine ⟨fun d' hd' => ?_, ?_, fun hd hu => lt_of_high hk hd hu h3⟩
    · rcases Nat.lt_or_gt_of_ne hd' with h' | h'
      · exact coord_of_lt h' h2
      · exact coord_of_gt h' h3
    · unfold coord; rw [h1, hm, h]; simp
  · have hm : (u / s.k ^ d - 1) % s.k = u / s.k ^ d % s.k - 1 := by
      have h2 := Nat.div_add_mod (u / s.k ^ d) s.k
      have : u / s.k ^ d - 1 = s.k * (u / s.k ^ d / s.k) + (u / s.k ^ d % s.k - 1) := by omega
      rw [this, Nat.mul_add_mod, Nat.mod_eq_of_lt (by omega)]
    have hw : leftNode s u d = s.k ^ d * (u / s.k ^ d - 1) + u % s.k ^ d := by
      have hle : s.k ^ d ≤ s.k ^ d * (u / s.k ^ d) := Nat.le_mul_of_pos_right _ (by omega)
      simp only [leftNode, h, if_false]
      rw [Nat.mul_sub, Nat.mul_one]
      rw [← Nat.sub_add_comm hle, hu]
    have hq := div_step (q := u / s.k ^ d) (k := s.k) (q' := u / s.k ^ d - 1)
      (by rw [hm]; omega) hk
    obtain ⟨h1, h2, h3⟩ := mk_right hk hw hq
    refine ⟨fun d' hd' => ?_, ?_, fun hd hu => lt_of_high hk hd hu h3⟩
    · rcases Nat.lt_or_gt_of_ne hd' with h' | h'
      · exact coord_of_lt h' h2
      · exact coord_of_gt h' h3
    · unfold coord; rw [h1, hm, if_neg h]

theorem left_right (hk : 0 < s.k) {u d : Nat} (hd : d < s.n) (hu : u < s.nodes) :
    leftNode s (rightNode s u d) d = u := by
  have hr := right_spec hk u d
  have hl := left_spec hk (rightNode s u d) d
  refine coord_ext hk s.n (hl.lt hd (hr.lt hd hu)) hu fun d' _ => ?_
  by_cases e : d' = d
  · subst e
    rw [hl.at_d, hr.at_d]
    have := coord_lt hk u d'
    split <;> rename_i h <;> split <;> rename_i h' <;> (try split at h) <;> omega
  · rw [hl.same _ e, hr.same _ e]

theorem right_left (hk : 0 < s.k) {u d : Nat} (hd : d < s.n) (hu : u < s.nodes) :
    rightNode s (leftNode s u d) d = u := by
  have hr := left_spec hk u d
  have hl := right_spec hk (leftNode s u d) d
  refine coord_ext hk s.n (hl.lt hd (hr.lt hd hu)) hu fun d' _ => ?_
  by_cases e : d' = d
  · subst e
    rw [hl.at_d, hr.at_d]
    have := coord_lt hk u d'
    split <;> rename_i h <;> split <;> rename_i h' <;> (try split at h) <;> omega
  · rw [hl.same _ e, hr.same _ e]

end Nodes

/-- The router at the other end of an output port. -/
def nbr (s : Shape) (u p : Nat) : Nat :=
  if p % 2 = 0 then rightNode s u (p / 2) else leftNode s u (p / 2)

/-- The input port at the other end of an output port. -/
def opp (p : Nat) : Nat := if p % 2 = 0 then p + 1 else p - 1

theorem filter_unique {α : Type} (P : α → Bool) (a : α) : ∀ l : List α, l.Nodup → a ∈ l →
    (∀ x ∈ l, P x = true ↔ x = a) → l.filter P = [a]
  | [], _, h, _ => by simp at h
  | b :: l, hn, h, hP => by
    rw [List.nodup_cons] at hn
    by_cases e : b = a
    · subst e
      have hno : l.filter P = [] := by
        rw [List.filter_eq_nil_iff]
        intro x hx hp
        exact hn.1 ((hP x (List.mem_cons_of_mem _ hx)).mp hp ▸ hx)
      rw [List.filter_cons_of_pos ((hP b (by simp)).mpr rfl), hno]
    · have hb : ¬ P b = true := fun hp => e ((hP b (by simp)).mp hp)
      rw [List.filter_cons_of_neg hb]
      refine filter_unique P a l hn.2 ?_ fun x hx => hP x (List.mem_cons_of_mem _ hx)
      rcases List.mem_cons.mp h with h | h
      · exact absurd h.symm e
      · exact h

theorem flatMap_unique {α β : Type} (f : α → List β) (a : α) (b : β) : ∀ l : List α, l.Nodup → a ∈ l →
    f a = [b] → (∀ x ∈ l, x ≠ a → f x = []) → l.flatMap f = [b]
  | [], _, h, _, _ => by simp at h
  | c :: l, hn, h, hb, hP => by
    rw [List.nodup_cons] at hn
    rw [List.flatMap_cons]
    by_cases e : c = a
    · subst e
      have hno : l.flatMap f = [] := by
        rw [List.flatMap_eq_nil_iff]
        intro x hx
        exact hP x (List.mem_cons_of_mem _ hx) fun e => hn.1 (e ▸ hx)
      rw [hb, hno]; rfl
    · rw [hP c (by simp) e, List.nil_append]
      refine flatMap_unique f a b l hn.2 ?_ hb fun x hx => hP x (List.mem_cons_of_mem _ hx)
      rcases List.mem_cons.mp h with h | h
      · exact absurd h.symm e
      · exact h

theorem enc_inj {m a b x y : Nat} (hx : x < m) (hy : y < m) (h : m * a + x = m * b + y) :
    a = b ∧ x = y := by
  have hm : 0 < m := by omega
  have h1 : (m * a + x) / m = (m * b + y) / m := by rw [h]
  rw [Nat.mul_add_div hm, Nat.mul_add_div hm, Nat.div_eq_of_lt hx, Nat.div_eq_of_lt hy] at h1
  have h2 : a = b := by omega
  subst h2
  exact ⟨rfl, by omega⟩

theorem outputChannel_eq (s : Shape) (u p : Nat) : outputChannel s u p = 2 * s.n * u + p := by
  unfold outputChannel rightChannel leftChannel
  split <;> omega

theorem inputChannel_eq (s : Shape) (u p : Nat) : inputChannel s u p = 2 * s.n * nbr s u p + opp p := by
  unfold inputChannel nbr opp
  split
  · unfold leftChannel; rename_i h; have : 2 * (p / 2) + 1 = p + 1 := by omega
    rw [this]
  · unfold rightChannel; rename_i h; have : 2 * (p / 2) = p - 1 := by omega
    rw [this]

theorem opp_lt {p n : Nat} (h : p < 2 * n) : opp p < 2 * n := by unfold opp; split <;> omega

theorem opp_opp (p : Nat) : opp (opp p) = p := by
  unfold opp; by_cases h : p % 2 = 0
  · rw [if_pos h, if_neg (by omega)]; omega
  · rw [if_neg h, if_pos (by omega)]; omega

theorem opp_half (p : Nat) : opp p / 2 = p / 2 := by unfold opp; split <;> omega

theorem opp_parity (p : Nat) : (opp p % 2 = 0) ↔ ¬ p % 2 = 0 := by unfold opp; split <;> omega

theorem xor_one (p : Nat) : p ^^^ 1 = opp p := by
  unfold opp
  split
  · rename_i h
    rw [Nat.xor_one_of_even (Nat.even_iff.mpr h)]
  · rename_i h
    rw [Nat.xor_one_of_odd (Nat.odd_iff.mpr (by omega))]

section Wiring

variable {s : Shape}

theorem nbr_lt (hk : 0 < s.k) {u p : Nat} (hp : p < 2 * s.n) (hu : u < s.nodes) : nbr s u p < s.nodes := by
  unfold nbr
  split
  · exact (right_spec hk u _).lt (by omega) hu
  · exact (left_spec hk u _).lt (by omega) hu

theorem nbr_opp (hk : 0 < s.k) {u p : Nat} (hp : p < 2 * s.n) (hu : u < s.nodes) :
    nbr s (nbr s u p) (opp p) = u := by
  have h1 := opp_half p
  have h2 := opp_parity p
  by_cases h : p % 2 = 0
  · unfold nbr
    rw [if_neg (by tauto), if_pos h, h1]
    exact left_right hk (by omega) hu
  · unfold nbr
    rw [if_pos (by tauto), if_neg h, h1]
    exact right_left hk (by omega) hu

theorem reads_iff (hk : 0 < s.k) {u p v q : Nat} (hp : p < 2 * s.n) (hu : u < s.nodes)
    (hq : q < 2 * s.n) (hv : v < s.nodes) :
    inputChannel s v q = outputChannel s u p ↔ v = nbr s u p ∧ q = opp p := by
  rw [inputChannel_eq, outputChannel_eq]
  constructor
  · intro h
    obtain ⟨h1, h2⟩ := enc_inj (opp_lt hq) hp h
    have h3 : q = opp p := by rw [← h2, opp_opp]
    refine ⟨?_, h3⟩
    rw [← h1, ← h2, nbr_opp hk hq hv]
  · rintro ⟨rfl, rfl⟩
    rw [nbr_opp hk hp hu, opp_opp]

theorem receivers_eq (hk : 0 < s.k) {u p : Nat} (hp : p < 2 * s.n) (hu : u < s.nodes) :
    receivers s (outputChannel s u p) = [(nbr s u p, opp p)] := by
  refine flatMap_unique _ (nbr s u p) _ _ List.nodup_range (List.mem_range.mpr (nbr_lt hk hp hu)) ?_ ?_
  · have : (List.range (2 * s.n)).filter
        (fun port => decide (inputChannel s (nbr s u p) port = outputChannel s u p)) = [opp p] := by
      refine filter_unique _ _ _ List.nodup_range (List.mem_range.mpr (opp_lt hp)) fun x hx => ?_
      rw [decide_eq_true_iff, reads_iff hk hp hu (List.mem_range.mp hx) (nbr_lt hk hp hu)]
      simp
    rw [this]; rfl
  · intro v hv hne
    have : (List.range (2 * s.n)).filter
        (fun port => decide (inputChannel s v port = outputChannel s u p)) = [] := by
      rw [List.filter_eq_nil_iff]
      intro x hx h
      rw [decide_eq_true_iff, reads_iff hk hp hu (List.mem_range.mp hx) (List.mem_range.mp hv)] at h
      exact hne h.1
    rw [this]; rfl

end Wiring

/-- What a step of dimension-order routing decides: the first dimension, in ascending or descending
order, in which the routers differ, and the direction towards the destination in it. -/
structure Dor (s : Shape) (desc : Bool) (u v p d : Nat) : Prop where
  dim : d < s.n
  ne : coord s.k u d ≠ coord s.k v d
  before : ∀ d', d' < s.n → (if desc then d < d' else d' < d) → coord s.k u d' = coord s.k v d'
  port : p = if coord s.k u d < coord s.k v d then 2 * d else 2 * d + 1

section Dor

variable {s : Shape}

theorem ascLoop_spec (k u v : Nat) : ∀ (m d : Nat), (∀ d', d' < d → coord k u d' = coord k v d') →
    ∃ d', d ≤ d' ∧ d' ≤ d + m ∧ ascLoop k m d (u / k ^ d) (v / k ^ d) = (d', u / k ^ d', v / k ^ d') ∧
      (∀ x, x < d' → coord k u x = coord k v x) ∧ (d' < d + m → coord k u d' ≠ coord k v d')
  | 0, d, h => ⟨d, Nat.le_refl _, by omega, rfl, h, by omega⟩
  | m + 1, d, h => by
    unfold ascLoop
    by_cases e : u / k ^ d % k ≠ v / k ^ d % k
    · rw [if_pos e]
      exact ⟨d, Nat.le_refl _, by omega, rfl, h, fun _ => e⟩
    · rw [if_neg e]
      obtain ⟨d', h1, h2, h3, h4, h5⟩ := ascLoop_spec k u v m (d + 1) fun x hx => by
        rcases Nat.lt_or_ge x d with hx' | hx'
        · exact h x hx'
        · have : x = d := by omega
          subst this; exact Classical.not_not.mp e
      refine ⟨d', by omega, by omega, ?_, h4, fun hd => h5 (by omega)⟩
      rw [← h3, Nat.div_div_eq_div_mul, Nat.div_div_eq_div_mul, Nat.pow_succ]

theorem top_digit {k : Nat} (hk : 0 < k) {n j u : Nat} (hj : j < n) :
    u * k ^ j % k ^ n * k / k ^ n = coord k u (n - 1 - j) := by
  obtain ⟨m, rfl⟩ := Nat.exists_eq_add_of_lt hj
  have e1 : j + m + 1 - 1 - j = m := by omega
  have e2 : k ^ (j + m + 1) = k ^ (m + 1) * k ^ j := by rw [← Nat.pow_add]; congr 1; omega
  rw [e1, e2, Nat.mul_mod_mul_right]
  have e3 : u % k ^ (m + 1) * k ^ j * k = u % (k ^ m * k) * (k ^ j * k) := by
    rw [Nat.pow_succ]; ac_rfl
  have e4 : k ^ (m + 1) * k ^ j = k ^ m * (k ^ j * k) := by rw [Nat.pow_succ]; ac_rfl
  rw [e3, e4, Nat.mul_div_mul_right _ _ (Nat.mul_pos (Nat.pow_pos hk) hk), Nat.mod_mul_right_div_self]
  rfl

theorem shift_step {k : Nat} {n j u : Nat} :
    u * k ^ j % k ^ n * k % k ^ n = u * k ^ (j + 1) % k ^ n := by
  rw [Nat.mod_mul_mod, Nat.pow_succ, Nat.mul_assoc]

theorem descLoop_spec (hk : 0 < s.k) (u v : Nat) : ∀ (m j : Nat), m + j = s.n - 1 → 0 < s.n →
    (∀ d', d' < s.n → m < d' → coord s.k u d' = coord s.k v d') →
    ∃ d c e, d ≤ m ∧ descLoop s m (u * s.k ^ j % s.nodes) (v * s.k ^ j % s.nodes) = (d, c, e) ∧
      c * s.k / s.nodes = coord s.k u d ∧ e * s.k / s.nodes = coord s.k v d ∧
      (∀ x, x < s.n → d < x → coord s.k u x = coord s.k v x) ∧
      (0 < d → coord s.k u d ≠ coord s.k v d)
  | 0, j, hj, hn, h => by
    have e : s.n - 1 - j = 0 := by omega
    refine ⟨0, _, _, Nat.le_refl _, rfl, ?_, ?_, h, by omega⟩
    · rw [Shape.nodes, top_digit hk (by omega), e]
    · rw [Shape.nodes, top_digit hk (by omega), e]
  | m + 1, j, hj, hn, h => by
    have e : s.n - 1 - j = m + 1 := by omega
    have hu : u * s.k ^ j % s.nodes * s.k / s.nodes = coord s.k u (m + 1) := by
      rw [Shape.nodes, top_digit hk (by omega), e]
    have hv : v * s.k ^ j % s.nodes * s.k / s.nodes = coord s.k v (m + 1) := by
      rw [Shape.nodes, top_digit hk (by omega), e]
    unfold descLoop
    by_cases hne : coord s.k u (m + 1) ≠ coord s.k v (m + 1)
    · rw [if_pos (by rw [hu, hv]; exact hne)]
      exact ⟨m + 1, _, _, Nat.le_refl _, rfl, hu, hv, h, fun _ => hne⟩
    · rw [if_neg (by rw [hu, hv]; exact hne)]
      have e1 : ∀ w, w * s.k ^ j % s.nodes * s.k % s.nodes = w * s.k ^ (j + 1) % s.nodes :=
        fun w => shift_step
      rw [e1, e1]
      obtain ⟨d, c, e, h1, h2⟩ := descLoop_spec hk u v m (j + 1) (by omega) hn fun x hx hx' => by
        rcases Nat.lt_or_ge (m + 1) x with h' | h'
        · exact h x hx h'
        · have : x = m + 1 := by omega
          subst this; exact Classical.not_not.mp hne
      exact ⟨d, c, e, by omega, h2⟩

theorem exists_ne (hk : 0 < s.k) {u v : Nat} (hu : u < s.nodes) (hv : v < s.nodes) (h : u ≠ v) :
    ∃ d, d < s.n ∧ coord s.k u d ≠ coord s.k v d := by
  refine Classical.byContradiction fun hno => h (coord_ext hk s.n hu hv fun d hd => ?_)
  exact Classical.byContradiction fun e => hno ⟨d, hd, e⟩

theorem dor_spec (hk : 0 < s.k) {u v : Nat} (hu : u < s.nodes) (hv : v < s.nodes) (h : u ≠ v)
    (desc : Bool) : ∃ d, Dor s desc u v (dorNextMesh s u v desc) d := by
  obtain ⟨d0, hd0, hne0⟩ := exists_ne hk hu hv h
  have hn : 0 < s.n := by omega
  unfold dorNextMesh
  rw [if_neg h]
  cases desc with
  | false =>
    obtain ⟨d, _, h2, h3, h4, h5⟩ := ascLoop_spec s.k u v (s.n - 1) 0 (by omega)
    rw [Nat.pow_zero, Nat.div_one, Nat.div_one] at h3
    have hne : coord s.k u d ≠ coord s.k v d := by
      rcases Nat.lt_or_ge d (0 + (s.n - 1)) with h' | h'
      · exact h5 h'
      · have hdd : ¬ d0 < d := fun hlt => hne0 (h4 d0 hlt)
        have : d0 = d := by omega
        exact this ▸ hne0
    refine ⟨d, by omega, hne, fun d' _ h' => h4 d' (by simpa using h'), ?_⟩
    simp only [Bool.false_eq_true, if_false, h3]
    rfl
  | true =>
    obtain ⟨d, c, e, h1, h2, h3, h4, h5, h6⟩ := descLoop_spec hk u v (s.n - 1) 0 (by omega) hn (by omega)
    rw [Nat.pow_zero, Nat.mul_one, Nat.mul_one, Nat.mod_eq_of_lt hu, Nat.mod_eq_of_lt hv] at h2
    have hne : coord s.k u d ≠ coord s.k v d := by
      rcases Nat.eq_zero_or_pos d with h' | h'
      · have hdd : ¬ d < d0 := fun hlt => hne0 (h5 d0 hd0 hlt)
        have : d0 = d := by omega
        exact this ▸ hne0
      · exact h6 h'
    refine ⟨d, by omega, hne, fun d' hd' h' => h5 d' hd' (by simpa using h'), ?_⟩
    simp only [if_true, h2, h3, h4]

/-- One step of dimension-order routing moves one coordinate by one towards the destination. -/
theorem dor_step (hk : 0 < s.k) {desc : Bool} {u v p d : Nat} (h : Dor s desc u v p d) :
    p < 2 * s.n ∧ p / 2 = d ∧ (∀ d', d' ≠ d → coord s.k (nbr s u p) d' = coord s.k u d') ∧
      ((p % 2 = 0 ∧ coord s.k u d < coord s.k v d ∧ coord s.k (nbr s u p) d = coord s.k u d + 1) ∨
       (p % 2 = 1 ∧ coord s.k v d < coord s.k u d ∧ coord s.k (nbr s u p) d + 1 = coord s.k u d)) := by
  have hd := h.dim
  have hne := h.ne
  have hv := coord_lt hk v d
  have hu := coord_lt hk u d
  have hp := h.port
  by_cases hlt : coord s.k u d < coord s.k v d
  · rw [if_pos hlt] at hp
    have e1 : p % 2 = 0 := by omega
    have e2 : p / 2 = d := by omega
    have hr := right_spec hk u d
    have hnb : nbr s u p = rightNode s u d := by unfold nbr; rw [if_pos e1, e2]
    refine ⟨by omega, e2, by rw [hnb]; exact hr.same, Or.inl ⟨e1, hlt, ?_⟩⟩
    rw [hnb, hr.at_d, if_neg (by omega)]
  · rw [if_neg hlt] at hp
    have e1 : p % 2 = 1 := by omega
    have e2 : p / 2 = d := by omega
    have hr := left_spec hk u d
    have hnb : nbr s u p = leftNode s u d := by unfold nbr; rw [if_neg (by omega), e2]
    refine ⟨by omega, e2, by rw [hnb]; exact hr.same, Or.inr ⟨e1, by omega, ?_⟩⟩
    rw [hnb, hr.at_d, if_neg (by omega)]; omega

end Dor

end RadSim.Routing
