import Verif.Spec.Int8Mvm
import Mathlib.Data.List.Rotate
import Mathlib.Algebra.BigOperators.Group.Finset.Basic
import Mathlib.Algebra.BigOperators.Intervals

/-! # The run of a program of `mlp_int8` by instructions, and the parts of a clock edge -/

namespace RadSim.Int8

/-! ## instructions -/

theorem Ref.next_cases {c : Mvm} {p : List Inst} {w : Nat → BitVec 9 → Vec} {s s' : Ref} (h : s.next c p w = some s') :
    ∃ i x xs, p[s.pc % p.length]? = some i ∧ s.ins = x :: xs ∧
      ((i.reduce = true ∧ ∃ y ys, s.reds = y :: ys ∧ s' = s.put c i (value c w i x y (s.acc i.accumRaddr)) ys) ∨
        (i.reduce = false ∧ s' = s.put c i (value c w i x [] (s.acc i.accumRaddr)) s.reds)) := by
  unfold Ref.next at h
  cases hp : p[s.pc % p.length]? with
  | none => rw [hp] at h; simp at h
  | some i =>
    rw [hp] at h
    cases hi : s.ins with
    | nil => rw [hi] at h; simp at h
    | cons x xs =>
      rw [hi] at h
      refine ⟨i, x, xs, rfl, rfl, ?_⟩
      cases hr : i.reduce with
      | true =>
        simp only [hr, if_true] at h
        cases hy : s.reds with
        | nil => rw [hy] at h; simp at h
        | cons y ys =>
          rw [hy] at h
          exact .inl ⟨rfl, y, ys, rfl, (Option.some.inj h).symm⟩
      | false =>
        simp only [hr, Bool.false_eq_true, if_false] at h
        exact .inr ⟨rfl, (Option.some.inj h).symm⟩

theorem Ref.next_reduce {c : Mvm} {p : List Inst} {w : Nat → BitVec 9 → Vec} {s : Ref} {i : Inst} {x y : Vec} {xs ys : List Vec}
    (hp : p[s.pc % p.length]? = some i) (hi : s.ins = x :: xs) (hr : i.reduce = true) (hy : s.reds = y :: ys) :
    s.next c p w = some (s.put c i (value c w i x y (s.acc i.accumRaddr)) ys) := by
  unfold Ref.next
  rw [hp, hi]
  simp only [hr, if_true, hy]

theorem Ref.next_plain {c : Mvm} {p : List Inst} {w : Nat → BitVec 9 → Vec} {s : Ref} {i : Inst} {x : Vec} {xs : List Vec}
    (hp : p[s.pc % p.length]? = some i) (hi : s.ins = x :: xs) (hr : i.reduce = false) :
    s.next c p w = some (s.put c i (value c w i x [] (s.acc i.accumRaddr)) s.reds) := by
  unfold Ref.next
  rw [hp, hi]
  simp only [hr, Bool.false_eq_true, if_false]

/-- With more vectors behind those there are. -/
def Ref.more (s : Ref) (x y : List Vec) : Ref := { s with ins := s.ins ++ x, reds := s.reds ++ y }

theorem Ref.next_more {c : Mvm} {p : List Inst} {w : Nat → BitVec 9 → Vec} {s s' : Ref} (a b : List Vec)
    (h : s.next c p w = some s') : (s.more a b).next c p w = some (s'.more a b) := by
  obtain ⟨i, x, xs, hp, hi, ⟨hr, y, ys, hy, rfl⟩ | ⟨hr, rfl⟩⟩ := Ref.next_cases h
  · rw [Ref.next_reduce (s := s.more a b) (x := x) (xs := xs ++ a) (y := y) (ys := ys ++ b) hp (by simp [Ref.more, hi]) hr
      (by simp [Ref.more, hy])]
    simp only [Ref.more, Ref.put, hi, Option.some.injEq, Ref.mk.injEq, true_and, and_true]
    split <;> simp
  · rw [Ref.next_plain (s := s.more a b) (x := x) (xs := xs ++ a) hp (by simp [Ref.more, hi]) hr]
    simp only [Ref.more, Ref.put, hi, Option.some.injEq, Ref.mk.injEq, true_and, and_true]
    split <;> simp

theorem Ref.Reach.more {c : Mvm} {p : List Inst} {w : Nat → BitVec 9 → Vec} {s s' : Ref} (a b : List Vec)
    (h : Ref.Reach c p w s s') : Ref.Reach c p w (s.more a b) (s'.more a b) := by
  induction h with
  | refl => exact .refl
  | tail _ hn ih => exact .tail ih (Ref.next_more a b hn)

/-- Nothing happens without input vectors. -/
theorem Ref.Reach.still {c : Mvm} {p : List Inst} {w : Nat → BitVec 9 → Vec} {y : List Vec} {r : Ref}
    (h : Ref.Reach c p w (Ref.start [] y) r) : r = Ref.start [] y := by
  induction h with
  | refl => rfl
  | tail _ hn ih =>
    subst ih
    obtain ⟨i, x, xs, -, hi, -⟩ := Ref.next_cases hn
    simp [Ref.start] at hi

/-! ## lists of beats -/

theorem programOf_append (a b : List Beat) : programOf (a ++ b) = programOf a ++ programOf b := by simp [programOf]

theorem inputsOf_append (c : Mvm) (a b : List Beat) : inputsOf c (a ++ b) = inputsOf c a ++ inputsOf c b := by simp [inputsOf]

theorem addsOf_append (c : Mvm) (a b : List Beat) : addsOf c (a ++ b) = addsOf c a ++ addsOf c b := by simp [addsOf]

theorem weights_append (c : Mvm) (a : List Beat) (b : Beat) (d : Nat) (n : BitVec 9) :
    weights c (a ++ [b]) d n = if b.loads d n then b.vec c else weights c a d n := by
  simp only [weights, List.reverse_append, List.reverse_cons, List.reverse_nil, List.nil_append, List.singleton_append,
    List.find?_cons]
  cases b.loads d n <;> simp

/-- A beat behind an ordered list: it is a vector, or there is no input vector before it. -/
theorem Ordered.snoc {bs : List Beat} {b : Beat} (h : Ordered (bs ++ [b])) :
    Ordered bs ∧ ((b.kind = 1 ∨ b.kind = 2) ∨ ∀ x ∈ bs, x.kind ≠ 2) := by
  obtain ⟨p, q, he, hp, hq⟩ := h
  rcases List.eq_nil_or_concat q with rfl | ⟨q', x, rfl⟩
  · rw [List.append_nil] at he
    subst he
    exact ⟨⟨bs, [], by simp, fun x hx => hp x (by simp [hx]), by simp⟩, .inr fun x hx => hp x (by simp [hx])⟩
  · rw [List.concat_eq_append, ← List.append_assoc] at he
    obtain ⟨rfl, hb⟩ := List.append_inj' he rfl
    rw [List.cons.injEq] at hb
    obtain ⟨rfl, -⟩ := hb
    exact ⟨⟨p, q', rfl, hp, fun y hy => hq y (by simp [hy])⟩, .inl (hq _ (by simp))⟩

theorem Ordered.prefix {a b : List Beat} (h : Ordered (a ++ b)) : Ordered a := by
  induction b using List.reverseRecOn with
  | nil => simpa using h
  | append_singleton b x ih =>
    rw [← List.append_assoc] at h
    exact ih h.snoc.1

/-! ## bits -/

theorem tag_kind (b : Beat) : tag b.user = b.kind := by
  simp [tag, Beat.kind, Nat.shiftRight_eq_div_pow]

theorem unpack_vec (c : Mvm) (b : Beat) : unpack c b.data = b.vec c := by
  unfold unpack Beat.vec
  refine List.map_congr_left fun l _ => ?_
  rw [Nat.shiftRight_eq_div_pow]
  apply BitVec.eq_of_toNat_eq
  simp

theorem testBit_div (n k : Nat) : n.testBit k = decide (n / 2 ^ k % 2 = 1) := Nat.testBit_eq_decide_div_mod_eq

theorem fromBv_inst (b : Beat) : Inst.fromBv b.data = b.inst := by
  have h : ∀ n, BitVec.ofNat 9 n = BitVec.ofNat 9 (n % 2 ^ 9) := by
    intro n
    apply BitVec.eq_of_toNat_eq
    simp
  simp only [Inst.fromBv, Beat.inst, testBit_div, Nat.shiftRight_eq_div_pow, Inst.mk.injEq, ← h]
  simp

theorem loads_iff (b : Beat) (d : Nat) (a : BitVec 9) :
    b.loads d a = (decide (tag b.user = 3) && rfEn b.user d && decide (a = rfAddr b.user)) := by
  unfold Beat.loads rfEn rfAddr
  rw [tag_kind, testBit_div, ← Bool.decide_and, ← Bool.decide_and, decide_eq_decide]
  constructor
  · rintro ⟨h1, h2, h3⟩
    refine ⟨⟨h1, h2⟩, ?_⟩
    apply BitVec.eq_of_toNat_eq
    rw [← h3]
    simp
  · rintro ⟨⟨h1, h2⟩, rfl⟩
    exact ⟨h1, h2, by simp⟩

theorem vec_length (c : Mvm) (b : Beat) : (b.vec c).length = c.lanes := by simp [Beat.vec]

/-- What `pack` writes, lane by lane. -/
theorem pack_lane (v : Vec) (l : Nat) : pack v / 2 ^ (8 * l) % 2 ^ 8 = (v.getD l 0).toNat := by
  induction v generalizing l with
  | nil => simp [pack]
  | cons x v ih =>
    have hx := x.isLt
    cases l with
    | zero =>
      simp only [pack, Nat.mul_zero, pow_zero, Nat.div_one, List.getD_cons_zero]
      omega
    | succ l =>
      have : pack (x :: v) / 2 ^ (8 * (l + 1)) = pack v / 2 ^ (8 * l) := by
        rw [show 8 * (l + 1) = 8 + 8 * l by omega, pow_add, ← Nat.div_div_eq_div_mul]
        congr 1
        simp only [pack]
        omega
      rw [this, ih]
      simp

/-! ## pipelines -/

theorem pipe_length {α : Type} (x : α) (l : List α) : (pipe x l).length = l.length := by simp [pipe]

theorem pipe_map {α β : Type} (f : α → β) (x : α) (l : List α) : (pipe x l).map f = pipe (f x) (l.map f) := by
  simp [pipe, List.map_take]

theorem pipe_cons {α : Type} (x y : α) (l : List α) : pipe x (y :: l) = x :: pipe y l := by
  simp [pipe]

theorem pipe_reverse {α : Type} (x : α) {l : List α} (h : l ≠ []) : (pipe x l).reverse = l.reverse.tail ++ [x] := by
  obtain ⟨l, y, rfl⟩ : ∃ l' y, l = l' ++ [y] := ⟨_, _, (List.dropLast_append_getLast h).symm⟩
  have : pipe x (l ++ [y]) = x :: l := by
    unfold pipe
    rw [show (l ++ [y]).length = l.length + 1 by simp, List.take_succ_cons]
    simp
  rw [this]
  simp

theorem reverse_cons {α : Type} (d : α) {l : List α} (h : l ≠ []) : l.reverse = l.getLastD d :: l.reverse.tail := by
  obtain ⟨l, y, rfl⟩ : ∃ l' y, l = l' ++ [y] := ⟨_, _, (List.dropLast_append_getLast h).symm⟩
  simp

theorem getLastD_map {α β : Type} (f : α → β) (d : α) (l : List α) : (l.map f).getLastD (f d) = f (l.getLastD d) := by
  rw [List.getLastD_eq_getLast?, List.getLastD_eq_getLast?, List.getLast?_map]
  cases l.getLast? <;> rfl

theorem pipe_get {α : Type} (x : α) (l : List α) (i : Nat) (h : i < l.length) : (pipe x l)[i]? = (x :: l)[i]? := by
  unfold pipe
  rw [List.getElem?_take, if_pos h]

/-! ## arithmetic -/

theorem setWidth_sum (l : List (BitVec 32)) : (l.sum).setWidth 8 = (l.map (·.setWidth 8)).sum := by
  induction l with
  | nil => rfl
  | cons x l ih =>
    rw [List.sum_cons, List.map_cons, List.sum_cons, ← ih]
    exact BitVec.setWidth_add _ _ (by decide)

theorem setWidth_signExtend (x : BitVec 8) : (x.signExtend 32).setWidth 8 = x := by
  ext i hi
  rw [BitVec.getElem_setWidth, BitVec.getLsbD_signExtend, if_pos hi, BitVec.getLsbD_eq_getElem hi]
  simp [show i < 32 by omega]

theorem range_sum {β : Type} [AddCommMonoid β] (f : Nat → β) (n : Nat) :
    ((List.range n).map f).sum = ∑ j ∈ Finset.range n, f j := by
  induction n with
  | zero => rfl
  | succ n ih => rw [List.range_succ, List.map_append, List.sum_append, ih, Finset.sum_range_succ]; simp

theorem dot8 (c : Mvm) (x w : Vec) : (dot c x w).setWidth 8 = ∑ j ∈ Finset.range c.lanes, x.getD j 0 * w.getD j 0 := by
  unfold dot
  rw [setWidth_sum, List.map_map, ← range_sum]
  congr 1
  refine List.map_congr_left fun j _ => ?_
  simp only [Function.comp_apply]
  rw [BitVec.setWidth_mul _ _ (by decide), setWidth_signExtend, setWidth_signExtend]

end RadSim.Int8
