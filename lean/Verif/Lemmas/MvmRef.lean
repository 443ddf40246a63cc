import Verif.Lemmas.Mvm
import Mathlib.Algebra.BigOperators.Intervals
import Mathlib.Algebra.BigOperators.Fin

/-! # The run of a program by instructions, and the parts of a clock edge -/

namespace RadSim.Mlp

open AddDesign (Fifo FifoCfg FifoErr)

/-! ## instructions -/

theorem Ref.next_cases {c : Mvm} {s s' : Ref} (h : s.next c = some s') :
    ((c.prog s.pc).en = true ∧ (c.prog s.pc).jump = true ∧ s' = { s with pc := (c.prog s.pc).raddr }) ∨
    ((c.prog s.pc).en = true ∧ (c.prog s.pc).jump = false ∧ (c.prog s.pc).reduce = true ∧ ∃ x xs y ys, s.ins = x :: xs ∧
      s.reds = y :: ys ∧ s' = s.put (c.prog s.pc) (value c (c.prog s.pc) x (some y) (s.acc (c.prog s.pc).accum)) ys) ∨
    ((c.prog s.pc).en = true ∧ (c.prog s.pc).jump = false ∧ (c.prog s.pc).reduce = false ∧ ∃ x xs, s.ins = x :: xs ∧
      s' = s.put (c.prog s.pc) (value c (c.prog s.pc) x none (s.acc (c.prog s.pc).accum)) s.reds) := by
  unfold Ref.next at h
  simp only at h
  cases he : (c.prog s.pc).en with
  | false => simp [he] at h
  | true =>
    cases hj : (c.prog s.pc).jump with
    | true =>
      simp only [he, hj, Bool.not_true, Bool.false_eq_true, if_false, if_true, Option.some.injEq] at h
      exact .inl ⟨rfl, rfl, h.symm⟩
    | false =>
      simp only [he, hj, Bool.not_true, Bool.false_eq_true, if_false] at h
      cases hi : s.ins with
      | nil => simp [hi] at h
      | cons x xs =>
        simp only [hi] at h
        cases hr : (c.prog s.pc).reduce with
        | true =>
          simp only [hr, if_true] at h
          cases hy : s.reds with
          | nil => simp [hy] at h
          | cons y ys =>
            simp only [hy, Option.some.injEq] at h
            exact .inr (.inl ⟨rfl, rfl, rfl, x, xs, y, ys, rfl, rfl, h.symm⟩)
        | false =>
          simp only [hr, Bool.false_eq_true, if_false, Option.some.injEq] at h
          exact .inr (.inr ⟨rfl, rfl, rfl, x, xs, rfl, h.symm⟩)

theorem Ref.next_jump {c : Mvm} {s : Ref} (he : (c.prog s.pc).en = true) (hj : (c.prog s.pc).jump = true) :
    s.next c = some { s with pc := (c.prog s.pc).raddr } := by
  simp [Ref.next, he, hj]

theorem Ref.next_reduce {c : Mvm} {s : Ref} (he : (c.prog s.pc).en = true) (hj : (c.prog s.pc).jump = false)
    (hr : (c.prog s.pc).reduce = true) {x : Vec} {xs : List Vec} {y : Vec} {ys : List Vec} (hi : s.ins = x :: xs)
    (hy : s.reds = y :: ys) :
    s.next c = some (s.put (c.prog s.pc) (value c (c.prog s.pc) x (some y) (s.acc (c.prog s.pc).accum)) ys) := by
  simp [Ref.next, he, hj, hr, hi, hy]

theorem Ref.next_plain {c : Mvm} {s : Ref} (he : (c.prog s.pc).en = true) (hj : (c.prog s.pc).jump = false)
    (hr : (c.prog s.pc).reduce = false) {x : Vec} {xs : List Vec} (hi : s.ins = x :: xs) :
    s.next c = some (s.put (c.prog s.pc) (value c (c.prog s.pc) x none (s.acc (c.prog s.pc).accum)) s.reds) := by
  simp [Ref.next, he, hj, hr, hi]

/-- With more vectors behind those there are. -/
def Ref.more (s : Ref) (x y : List Vec) : Ref := { s with ins := s.ins ++ x, reds := s.reds ++ y }

theorem Ref.next_more {c : Mvm} {s s' : Ref} (x y : List Vec) (h : s.next c = some s') :
    (s.more x y).next c = some (s'.more x y) := by
  rcases Ref.next_cases h with ⟨he, hj, rfl⟩ | ⟨he, hj, hr, a, as, b, bs, hi, hb, rfl⟩ | ⟨he, hj, hr, a, as, hi, rfl⟩
  · exact Ref.next_jump (s := s.more x y) he hj
  · rw [Ref.next_reduce (s := s.more x y) he hj hr (x := a) (xs := as ++ x) (y := b) (ys := bs ++ y)
      (by simp [Ref.more, hi]) (by simp [Ref.more, hb])]
    simp only [Ref.more, Ref.put, hi, Option.some.injEq, Ref.mk.injEq, true_and, and_true]
    split <;> simp
  · rw [Ref.next_plain (s := s.more x y) he hj hr (x := a) (xs := as ++ x) (by simp [Ref.more, hi])]
    simp only [Ref.more, Ref.put, hi, Option.some.injEq, Ref.mk.injEq, true_and, and_true]
    split <;> simp

theorem Ref.Reach.more {c : Mvm} {s s' : Ref} (x y : List Vec) (h : Ref.Reach c s s') :
    Ref.Reach c (s.more x y) (s'.more x y) := by
  induction h with
  | refl => exact .refl
  | tail _ hn ih => exact .tail ih (Ref.next_more x y hn)

theorem Ref.start_more (i r x y : List Vec) : (Ref.start i r).more x y = Ref.start (i ++ x) (r ++ y) := rfl

theorem value_length (c : Mvm) (i : Inst) (x : Vec) (r a : Option Vec) : (value c i x r a).length = c.lanes := by
  simp [value]

/-- All results and accumulators have an element for each lane. -/
def Ref.Wide (c : Mvm) (s : Ref) : Prop := ∀ o ∈ s.out, o.vec.length = c.lanes

theorem Ref.Reach.wide {c : Mvm} {s s' : Ref} (h : Ref.Reach c s s') (hs : s.Wide c) : s'.Wide c := by
  induction h with
  | refl => exact hs
  | tail _ hn ih =>
    rcases Ref.next_cases hn with ⟨-, -, rfl⟩ | ⟨-, -, -, a, as, b, bs, -, -, rfl⟩ | ⟨-, -, -, a, as, -, rfl⟩
    · exact ih
    all_goals
      intro o ho
      simp only [Ref.put, List.mem_append] at ho
      rcases ho with ho | ho
      · exact ih o ho
      · split at ho
        · simp only [List.mem_cons, List.not_mem_nil, or_false] at ho
          subst ho
          exact value_length ..
        · simp at ho

/-! ## dot products -/

theorem zip_sum (a b : Vec) (n : Nat) (h : b.length = n) :
    (List.zipWith (· * ·) a b).sum = ∑ j ∈ Finset.range n, a.getD j 0 * b.getD j 0 := by
  induction a generalizing b n with
  | nil => simp
  | cons x a ih =>
    cases b with
    | nil =>
      simp only [List.length_nil] at h
      subst h
      simp
    | cons y b =>
      cases n with
      | zero => simp at h
      | succ n =>
        rw [Finset.sum_range_succ']
        simp only [List.zipWith_cons_cons, List.sum_cons, List.getD_cons_succ, List.getD_cons_zero]
        rw [ih b n (by simpa using h), add_comm]

theorem dotv_product {c : Mvm} (hc : c.Fits) (x : Vec) (addr d : Nat) : dotv x (c.weights d addr) = product c addr x d :=
  zip_sum _ _ _ (hc.weights d addr)

/-! ## pipelines -/

theorem shift_length {α : Type} (x : α) (l : List α) : (shift x l).length = l.length := by
  simp [shift]

theorem shift_reverse {α : Type} (x : α) {l : List α} (h : l ≠ []) : (shift x l).reverse = l.reverse.tail ++ [x] := by
  obtain ⟨l, y, rfl⟩ : ∃ l' y, l = l' ++ [y] := ⟨_, _, (List.dropLast_append_getLast h).symm⟩
  have : shift x (l ++ [y]) = x :: l := by
    unfold shift
    rw [show (l ++ [y]).length = l.length + 1 by simp, List.take_succ_cons]
    simp
  rw [this]
  simp

theorem reverse_cons {α : Type} (d : α) {l : List α} (h : l ≠ []) : l.reverse = l.getLastD d :: l.reverse.tail := by
  obtain ⟨l, y, rfl⟩ : ∃ l' y, l = l' ++ [y] := ⟨_, _, (List.dropLast_append_getLast h).symm⟩
  simp

theorem shift_zip {α β : Type} (x : α) (y : β) {a : List α} {b : List β} (h : a.length = b.length) :
    (shift x a).zip (shift y b) = shift (x, y) (a.zip b) := by
  unfold shift
  rw [h]
  unfold List.zip
  rw [← List.take_zipWith]
  simp [h]

theorem getLastD_zip {α β : Type} (x : α) (y : β) {a : List α} {b : List β} (h : a.length = b.length) :
    (a.zip b).getLastD (x, y) = (a.getLastD x, b.getLastD y) := by
  induction a generalizing b with
  | nil =>
    cases b with
    | nil => rfl
    | cons _ _ => simp at h
  | cons u a ih =>
    cases b with
    | nil => simp at h
    | cons v b =>
      cases a with
      | nil =>
        cases b with
        | nil => rfl
        | cons _ _ => simp at h
      | cons u' a =>
        cases b with
        | nil => simp at h
        | cons v' b => exact ih (b := v' :: b) (by simpa using h)

/-! ## the operations in the pipeline -/

/-- What an operation in the pipeline will compute. -/
def Front.value (c : Mvm) (f : Front) (addr : Nat) (a : Option Vec) : Vec :=
  (List.range c.lanes).map fun d =>
    product c addr f.x d + f.red.getD d 0 + (if f.accumEn then (a.map (·.getD d 0)).getD 0 else 0)

/-- The result of an operation, if it is released. -/
def Front.outs (f : Front) (v : Vec) : List Out := if f.release then [⟨v, f.destLayer, f.destMvm⟩] else []

/-- What the operations in the pipeline, oldest first, will do to the accumulators and what they will release. -/
def flow (c : Mvm) : (Nat → Option Vec) → List (Front × Nat) → Option ((Nat → Option Vec) × List Out)
  | a, [] => some (a, [])
  | a, (f, n) :: l =>
    if f.valid then
      if c.memDepth ≤ f.accum ∨ (f.accumEn = true ∧ a f.accum = none) then none
      else
        (flow c (fun j => if j = f.accum then some (f.value c n (a f.accum)) else a j) l).map fun y =>
          (y.1, f.outs (f.value c n (a f.accum)) ++ y.2)
    else flow c a l

theorem flow_append {c : Mvm} {a a' : Nat → Option Vec} {l : List (Front × Nat)} {o : List Out} (l' : List (Front × Nat))
    (h : flow c a l = some (a', o)) : flow c a (l ++ l') = (flow c a' l').map fun y => (y.1, o ++ y.2) := by
  induction l generalizing a o with
  | nil =>
    simp only [flow, Option.some.injEq, Prod.mk.injEq] at h
    obtain ⟨rfl, rfl⟩ := h
    simp
  | cons p l ih =>
    obtain ⟨f, n⟩ := p
    simp only [flow, List.cons_append] at h ⊢
    split at h
    · rename_i hv
      rw [if_pos hv]
      split at h
      · simp at h
      · rename_i hn
        rw [if_neg hn]
        simp only [Option.map_eq_some_iff] at h
        obtain ⟨⟨b, p⟩, hb, he⟩ := h
        simp only [Prod.mk.injEq] at he
        obtain ⟨rfl, rfl⟩ := he
        rw [ih hb, Option.map_map]
        congr 1
        funext y
        simp
    · rename_i hv
      rw [if_neg hv]
      exact ih h

/-- The accumulators of the module as those of a program. -/
def accOf (a : Nat → Vec) : Nat → Option Vec := fun j => if a j = [] then none else some (a j)

theorem result_ok {c : Mvm} (hc : c.Fits) {f : Front} (addr : Nat) {a : Vec} (hl : a = [] ∨ a.length = c.lanes)
    (hn : ¬ (f.accumEn = true ∧ (if a = [] then none else some a) = none)) :
    result c f addr a = some (f.value c addr (if a = [] then none else some a)) := by
  unfold result Front.value
  rw [if_neg]
  · simp only [Option.some.injEq, List.map_inj_left]
    intro d _
    rw [dotv_product hc]
    split
    · split
      · rename_i he h0
        exact absurd ⟨he, by simp [h0]⟩ hn
      · rfl
    · rfl
  · rintro ⟨he, hlt⟩
    rcases hl with rfl | hl
    · exact hn ⟨he, by simp⟩
    · omega

/-- The oldest operation is done. -/
theorem compute_ok {c : Mvm} (hc : c.Fits) {r : Reg} {p : List (Front × Nat)} {a : Nat → Option Vec} {o : List Out}
    (hw : ∀ j, r.acc j = [] ∨ (r.acc j).length = c.lanes)
    (h : flow c (accOf r.acc) ((r.front.getLastD .idle, r.raddrs.getLastD 0) :: p) = some (a, o)) :
    ∃ acc v o', compute c r = .ok (acc, v) ∧ (∀ j, acc j = [] ∨ (acc j).length = c.lanes) ∧ flow c (accOf acc) p = some (a, o') ∧
      o = (if (r.front.getLastD .idle).valid then (r.front.getLastD .idle).outs v else []) ++ o' := by
  unfold compute
  simp only [flow] at h
  cases hv : (r.front.getLastD .idle).valid with
  | false =>
    simp only [hv, Bool.false_eq_true, if_false] at h
    exact ⟨r.acc, (r.back.headD .idle).result, o, by simp only [hv, Bool.false_eq_true, if_false], hw, h, by simp⟩
  | true =>
    simp only [hv, if_true] at h
    split at h
    · simp at h
    · rename_i hn
      have hn : ¬ c.memDepth ≤ (r.front.getLastD .idle).accum ∧
        ¬ ((r.front.getLastD .idle).accumEn = true ∧ accOf r.acc (r.front.getLastD .idle).accum = none) := not_or.1 hn
      simp only [Option.map_eq_some_iff] at h
      obtain ⟨⟨b, o'⟩, hb, he⟩ := h
      simp only [Prod.mk.injEq] at he
      obtain ⟨rfl, rfl⟩ := he
      have hres := result_ok hc (f := r.front.getLastD .idle) (r.raddrs.getLastD 0) (hw (r.front.getLastD .idle).accum) hn.2
      have hlen : ((r.front.getLastD .idle).value c (r.raddrs.getLastD 0) (accOf r.acc (r.front.getLastD .idle).accum)).length
          = c.lanes := by simp [Front.value]
      have hne : (r.front.getLastD .idle).value c (r.raddrs.getLastD 0) (accOf r.acc (r.front.getLastD .idle).accum) ≠ [] := by
        intro h0
        have := hc.lanes
        rw [h0] at hlen
        simp at hlen
        omega
      refine ⟨Function.update r.acc (r.front.getLastD .idle).accum
        ((r.front.getLastD .idle).value c (r.raddrs.getLastD 0) (accOf r.acc (r.front.getLastD .idle).accum)),
        (r.front.getLastD .idle).value c (r.raddrs.getLastD 0) (accOf r.acc (r.front.getLastD .idle).accum), o', ?_, ?_, ?_, rfl⟩
      · simp only [hv, if_true]
        rw [if_neg (by omega), hres]
        rfl
      · intro j
        by_cases hj : j = (r.front.getLastD .idle).accum
        · subst hj
          rw [Function.update_self]
          exact .inr hlen
        · rw [Function.update_of_ne hj]
          exact hw j
      · rw [← hb]
        congr 1
        funext j
        unfold accOf
        by_cases hj : j = (r.front.getLastD .idle).accum
        · subst hj
          rw [Function.update_self, if_pos rfl, if_neg (by simpa [accOf] using hne)]
        · rw [Function.update_of_ne hj, if_neg hj]

end RadSim.Mlp
