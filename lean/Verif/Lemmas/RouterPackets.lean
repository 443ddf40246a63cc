import Verif.Spec.Cut
import Verif.Lemmas.RouterLive
import Mathlib.Algebra.BigOperators.Group.Finset.Basic
import Mathlib.Algebra.Order.BigOperators.Group.Finset
import Mathlib.Algebra.BigOperators.Group.Finset.Piecewise
import Mathlib.Data.List.Induction

/-! # A router passes packets on as a whole -/

namespace RadSim

section
variable {α β κ : Type} {head tail : α → Bool} {key : α → κ}

/-- The packet that is not complete. -/
def rest (tail : α → Bool) (l : List α) : List α := (cut tail l).2

theorem cut_snoc (l : List α) (x : α) : cut tail (l ++ [x]) =
    if tail x then (whole tail l ++ [rest tail l ++ [x]], []) else (whole tail l, rest tail l ++ [x]) := by
  simp [cut, whole, rest]

theorem whole_snoc (l : List α) (x : α) :
    whole tail (l ++ [x]) = whole tail l ++ (if tail x then [rest tail l ++ [x]] else []) := by
  unfold whole; rw [cut_snoc]; split <;> simp [whole]

theorem rest_snoc (l : List α) (x : α) : rest tail (l ++ [x]) = if tail x then [] else rest tail l ++ [x] := by
  unfold rest; rw [cut_snoc]; split <;> simp [rest]

theorem rest_closed {l : List α} (h : Closed tail l) : rest tail l = [] := by
  rcases List.eq_nil_or_concat l with rfl | ⟨l', a, rfl⟩
  · rfl
  · rw [List.concat_eq_append] at h ⊢
    rw [rest_snoc, if_pos (closed_snoc.1 h)]

theorem rest_open {l : List α} {a : α} (h : l.getLast? = some a) (ha : tail a = false) :
    ∃ r, rest tail l = r ++ [a] := by
  rcases List.eq_nil_or_concat l with rfl | ⟨l', b, rfl⟩
  · cases h
  · rw [List.concat_eq_append] at h ⊢
    simp only [List.getLast?_append, List.getLast?_singleton, Option.some_or, Option.some.injEq] at h
    subst h
    exact ⟨rest tail l', by rw [rest_snoc, if_neg (by simp [ha])]⟩

/-- A sequence is closed or its last element is not a tail. -/
theorem closed_or_open (tail : α → Bool) (l : List α) : Closed tail l ∨ ∃ a, l.getLast? = some a ∧ tail a = false := by
  by_cases h : Closed tail l
  · exact .inl h
  · right
    simp only [Closed, not_forall] at h
    obtain ⟨a, h1, h2⟩ := h
    exact ⟨a, h1, by simpa using h2⟩

theorem last_of_rest {l : List α} {r : List α} {a : α} (h : rest tail l = r ++ [a]) : l.getLast? = some a ∧ tail a = false := by
  rcases closed_or_open tail l with h1 | ⟨b, h1, h2⟩
  · rw [rest_closed h1] at h; simp at h
  · obtain ⟨r', h3⟩ := rest_open h1 h2
    rw [h3] at h
    have := (List.append_inj' h rfl).2
    cases this
    exact ⟨h1, h2⟩

theorem cut_flatten (l : List α) : (whole tail l).flatten ++ rest tail l = l := by
  induction l using List.reverseRecOn with
  | nil => rfl
  | append_singleton l x ih =>
    rw [whole_snoc, rest_snoc]
    by_cases hx : tail x = true
    · simp only [hx, if_true, List.flatten_append, List.append_nil, List.flatten_cons, List.flatten_nil]
      rw [← List.append_assoc, ih]
    · simp only [hx, Bool.false_eq_true, if_false, List.append_nil]
      rw [← List.append_assoc, ih]

theorem whole_append (l r : List α) : ∃ w, whole tail (l ++ r) = whole tail l ++ w := by
  induction r using List.reverseRecOn with
  | nil => exact ⟨[], by simp⟩
  | append_singleton r x ih =>
    obtain ⟨w, hw⟩ := ih
    rw [← List.append_assoc, whole_snoc, hw, List.append_assoc]
    exact ⟨_, rfl⟩

theorem whole_prefix {l l' : List α} (h : l <+: l') : whole tail l <+: whole tail l' := by
  obtain ⟨r, rfl⟩ := h
  obtain ⟨w, hw⟩ := whole_append (tail := tail) l r
  exact ⟨w, hw.symm⟩

theorem cut_map (g : β → α) (l : List β) :
    cut tail (l.map g) = ((whole (fun x => tail (g x)) l).map (List.map g), (rest (fun x => tail (g x)) l).map g) := by
  induction l using List.reverseRecOn with
  | nil => rfl
  | append_singleton l x ih =>
    rw [List.map_append, List.map_cons, List.map_nil, cut_snoc, whole_snoc, rest_snoc]
    unfold whole rest at ih ⊢
    rw [ih]
    by_cases hx : tail (g x) = true <;> simp [hx]

theorem whole_map (g : β → α) (l : List β) :
    whole tail (l.map g) = (whole (fun x => tail (g x)) l).map (List.map g) := by
  unfold whole; rw [cut_map]; rfl

/-- Every element belongs to a packet with a head. -/
theorem packets_head {l : List α} (h : Packets head tail key l) {x : α} (hx : x ∈ l) :
    ∃ y ∈ l, head y = true ∧ key y = key x := by
  induction l using List.reverseRecOn generalizing x with
  | nil => cases hx
  | append_singleton l z ih =>
    obtain ⟨h1, h2⟩ := packets_snoc.1 h
    rcases List.mem_append.1 hx with hx | hx
    · obtain ⟨y, hy, hh⟩ := ih h1 hx
      exact ⟨y, by simp [hy], hh⟩
    · rw [List.mem_singleton] at hx
      subst hx
      by_cases hh : head x = true
      · exact ⟨x, by simp, hh, rfl⟩
      · rcases closed_or_open tail l with hc | ⟨a, ha, ht⟩
        · exact absurd (Fits.head_of_closed hc h2) hh
        · obtain ⟨_, hk⟩ := Fits.head_of_open ha ht h2
          obtain ⟨y, hy, hyh, hyk⟩ := ih h1 (List.mem_of_getLast? ha)
          exact ⟨y, by simp [hy], hyh, by rw [hyk, hk]⟩
end

namespace Router

variable {δ σ τ ρ ρ' : Type}

/-- The last two conditions of `Explains`. -/
structure Tidy (l : List (Pass δ)) : Prop where
  together : ∀ i v, PassPk (fun e => (e.o, e.u)) (passedFrom l i v)
  unmixed : ∀ o u, PassPk (fun e => (e.i, e.v)) (passedTo l o u)

abbrev ptail (e : Pass δ) : Bool := e.f.tail

theorem Tidy.snoc {l : List (Pass δ)} {e : Pass δ} (h : Tidy (l ++ [e])) : Tidy l ∧
    Fits (fun e => e.f.head) ptail (fun e => (e.o, e.u)) (passedFrom l e.i e.v) e ∧
    Fits (fun e => e.f.head) ptail (fun e => (e.i, e.v)) (passedTo l e.o e.u) e := by
  refine ⟨⟨fun i v => ?_, fun o u => ?_⟩, ?_, ?_⟩
  · have := h.together i v
    rw [from_snoc] at this
    split at this
    · exact (packets_snoc.1 this).1
    · exact this
  · have := h.unmixed o u
    rw [to_snoc] at this
    split at this
    · exact (packets_snoc.1 this).1
    · exact this
  · have := h.together e.i e.v
    rw [from_snoc, if_pos ⟨rfl, rfl⟩] at this
    exact (packets_snoc.1 this).2
  · have := h.unmixed e.o e.u
    rw [to_snoc, if_pos ⟨rfl, rfl⟩] at this
    exact (packets_snoc.1 this).2

theorem mem_from {l : List (Pass δ)} {e : Pass δ} {i v : Nat} (h : e ∈ passedFrom l i v) : e ∈ l ∧ e.i = i ∧ e.v = v := by
  simpa [passedFrom] using h

theorem mem_to {l : List (Pass δ)} {e : Pass δ} {o u : Nat} (h : e ∈ passedTo l o u) : e ∈ l ∧ e.o = o ∧ e.u = u := by
  simpa [passedTo] using h

/-- The open packet of an input is the open packet of its output. -/
theorem Tidy.corr {l : List (Pass δ)} (h : Tidy l) : ∀ i v a, (passedFrom l i v).getLast? = some a → a.f.tail = false →
    rest ptail (passedFrom l i v) = rest ptail (passedTo l a.o a.u) := by
  induction l using List.reverseRecOn with
  | nil => intro i v a ha; cases ha
  | append_singleton l e ih =>
    obtain ⟨hl, hf, ht⟩ := h.snoc
    have ih := ih hl
    intro i v a ha hat
    by_cases hiv : e.i = i ∧ e.v = v
    · obtain ⟨rfl, rfl⟩ := hiv
      rw [from_snoc, if_pos ⟨rfl, rfl⟩] at ha ⊢
      simp only [List.getLast?_append, List.getLast?_singleton, Option.some_or, Option.some.injEq] at ha
      subst ha
      rw [to_snoc, if_pos ⟨rfl, rfl⟩, rest_snoc, rest_snoc]
      simp only [ptail, hat]
      simp only [Bool.false_eq_true, if_false, List.append_cancel_right_eq]
      rcases closed_or_open ptail (passedFrom l e.i e.v) with hc | ⟨b, hb, hbt⟩
      · have hh := Fits.head_of_closed hc hf
        rcases closed_or_open ptail (passedTo l e.o e.u) with hc' | ⟨b, hb, hbt⟩
        · rw [rest_closed hc, rest_closed hc']
        · have := (Fits.head_of_open hb hbt ht).1
          exact absurd (hh.symm.trans this) (by simp)
      · obtain ⟨_, hk⟩ := Fits.head_of_open hb hbt hf
        simp only [Prod.mk.injEq] at hk
        rw [ih _ _ b hb hbt, hk.1, hk.2]
    · rw [from_snoc, if_neg hiv] at ha ⊢
      have h1 := ih i v a ha hat
      rw [to_snoc]
      split
      · rename_i hou
        obtain ⟨r, hr⟩ := rest_open (tail := ptail) ha hat
        rw [hr] at h1
        obtain ⟨h2, h3⟩ := last_of_rest h1.symm
        rw [← hou.1, ← hou.2] at h2
        have h4 := (Fits.head_of_open h2 h3 ht).2
        simp only [Prod.mk.injEq] at h4
        have h5 := (mem_from (List.mem_of_getLast? ha)).2
        exact absurd ⟨h4.1.trans h5.1, h4.2.trans h5.2⟩ hiv
      · exact h1

/-- The open packets of the two ends of a pass. -/
theorem Tidy.rest_eq {l : List (Pass δ)} {e : Pass δ} (h : Tidy (l ++ [e])) :
    rest ptail (passedFrom l e.i e.v) = rest ptail (passedTo l e.o e.u) := by
  obtain ⟨hl, hf, ht⟩ := h.snoc
  rcases closed_or_open ptail (passedFrom l e.i e.v) with hc | ⟨b, hb, hbt⟩
  · have hh := Fits.head_of_closed hc hf
    rcases closed_or_open ptail (passedTo l e.o e.u) with hc' | ⟨b, hb, hbt⟩
    · rw [rest_closed hc, rest_closed hc']
    · have := (Fits.head_of_open hb hbt ht).1
      exact absurd (hh.symm.trans this) (by simp)
  · obtain ⟨_, hk⟩ := Fits.head_of_open hb hbt hf
    simp only [Prod.mk.injEq] at hk
    rw [hl.corr _ _ b hb hbt, hk.1, hk.2]

/-- What is common to the flits of a packet at the inputs is common to them at the outputs. -/
theorem Tidy.keyed {κ : Type} {l : List (Pass δ)} (h : Tidy l) {key : Pass δ → κ}
    (hk : ∀ i v, PassPk key (passedFrom l i v)) : ∀ o u, PassPk (fun e => ((e.i, e.v), key e)) (passedTo l o u) := by
  induction l using List.reverseRecOn with
  | nil => intro o u; exact packets_nil
  | append_singleton l e ih =>
    obtain ⟨hl, hf, ht⟩ := h.snoc
    have hk' : ∀ i v, PassPk key (passedFrom l i v) := by
      intro i v
      have := hk i v
      rw [from_snoc] at this
      split at this
      · exact (packets_snoc.1 this).1
      · exact this
    intro o u
    rw [to_snoc]
    split
    · rename_i hou
      obtain ⟨rfl, rfl⟩ := hou
      refine packets_snoc.2 ⟨ih hl hk' _ _, ?_⟩
      rcases closed_or_open ptail (passedTo l e.o e.u) with hc | ⟨b, hb, hbt⟩
      · have hh : e.f.head = true := Fits.head_of_closed (head := fun e : Pass δ => e.f.head) hc ht
        exact Fits.of_closed hc hh
      · obtain ⟨h1, h2⟩ := Fits.head_of_open hb hbt ht
        refine Fits.of_open hb hbt h1 ?_
        obtain ⟨r, hr⟩ := rest_open (tail := ptail) hb hbt
        rw [← h.rest_eq] at hr
        obtain ⟨h3, _⟩ := last_of_rest hr
        have h4 := hk e.i e.v
        rw [from_snoc, if_pos ⟨rfl, rfl⟩] at h4
        have h5 := (Fits.head_of_open h3 hbt (packets_snoc.1 h4).2).2
        simp only [Prod.mk.injEq] at h2 ⊢
        exact ⟨h2, h5⟩
    · exact ih hl hk' o u

theorem sum_at {I V a c : Nat} (ha : a < I) (hc : c < V) (f g : Nat → Nat → Nat)
    (k : Nat) (h : ∀ i v, g i v = f i v + if a = i ∧ c = v then k else 0) :
    ∑ i ∈ Finset.range I, ∑ v ∈ Finset.range V, g i v = (∑ i ∈ Finset.range I, ∑ v ∈ Finset.range V, f i v) + k := by
  simp only [h, Finset.sum_add_distrib]
  congr 1
  have : ∀ i ∈ Finset.range I, ∑ v ∈ Finset.range V, (if a = i ∧ c = v then k else 0) = if a = i then k else 0 := by
    intro i _
    by_cases h : a = i
    · simp [h, hc]
    · simp [h]
  rw [Finset.sum_congr rfl this]
  simp [ha]

/-- The packets that leave are packets that came in. -/
theorem Tidy.packets {l : List (Pass δ)} (h : Tidy l) {I O V : Nat}
    (hr : ∀ e ∈ l, (e.i < I ∧ e.v < V) ∧ e.o < O ∧ e.u < V) (P : List (Pass δ) → Bool) :
    ∑ o ∈ Finset.range O, ∑ u ∈ Finset.range V, (whole ptail (passedTo l o u)).countP P =
      ∑ i ∈ Finset.range I, ∑ v ∈ Finset.range V, (whole ptail (passedFrom l i v)).countP P := by
  induction l using List.reverseRecOn with
  | nil => simp [passedTo, passedFrom, whole, cut]
  | append_singleton l e ih =>
    obtain ⟨hl, _, _⟩ := h.snoc
    have he := hr e (by simp)
    have hq := h.rest_eq
    rw [sum_at he.2.1 he.2.2 (fun o u => (whole ptail (passedTo l o u)).countP P) _
      (if ptail e then if P (rest ptail (passedFrom l e.i e.v) ++ [e]) then 1 else 0 else 0),
      sum_at he.1.1 he.1.2 (fun i v => (whole ptail (passedFrom l i v)).countP P) _
      (if ptail e then if P (rest ptail (passedFrom l e.i e.v) ++ [e]) then 1 else 0 else 0),
      ih hl fun e he => hr e (by simp [he])]
    · intro i v
      rw [from_snoc]
      split
      · rename_i hiv
        obtain ⟨rfl, rfl⟩ := hiv
        rw [whole_snoc, List.countP_append]
        congr 1
        by_cases ht : ptail e = true <;> simp [ht, List.countP_cons]
      · simp
    · intro o u
      rw [to_snoc]
      split
      · rename_i hiv
        obtain ⟨rfl, rfl⟩ := hiv
        rw [whole_snoc, List.countP_append]
        congr 1
        by_cases ht : ptail e = true <;> simp [ht, List.countP_cons, hq]
      · simp

end Router
end RadSim
