import Verif.Spec.Worms
import Mathlib.Data.List.Basic

/-! # Progress from a rank on head states -/

namespace RadSim.Worms

variable {S C : Type} {takes : S → C → S → Prop} {enters home Good : S → Prop}

theorem good_last (hgood : ∀ s c s', Good s → takes s c s' → Good s') :
    ∀ (l : List (C × S)) (s : S), Good s → Moves takes s l → Good (last s l)
  | [], _, hs, _ => hs
  | (c, s') :: l, s, hs, h => good_last hgood l s' (hgood s c s' hs h.1) h.2

theorem mono_last {r : S → Nat} (hgood : ∀ s c s', Good s → takes s c s' → Good s')
    (hmono : ∀ s c s', Good s → takes s c s' → r s ≤ r s') :
    ∀ (l : List (C × S)) (s : S), Good s → Moves takes s l → r s ≤ r (last s l)
  | [], _, _, _ => Nat.le_refl _
  | (c, s') :: l, s, hs, h =>
    Nat.le_trans (hmono s c s' hs h.1) (mono_last hgood hmono l s' (hgood s c s' hs h.1) h.2)

/-- A channel in the history of a packet was taken from a good state, and the head is no earlier. -/
theorem mem_moves {r : S → Nat} (hgood : ∀ s c s', Good s → takes s c s' → Good s')
    (hmono : ∀ s c s', Good s → takes s c s' → r s ≤ r s') (c : C) :
    ∀ (l : List (C × S)) (s : S), Good s → Moves takes s l → c ∈ l.map Prod.fst →
      ∃ t t', Good t ∧ takes t c t' ∧ r t' ≤ r (last s l)
  | [], _, _, _, h => by simp at h
  | (d, s') :: l, s, hs, h, hm => by
    rcases List.mem_cons.mp hm with e | hm
    · subst e
      exact ⟨s, s', hs, h.1, mono_last hgood hmono l s' (hgood _ _ _ hs h.1) h.2⟩
    · exact mem_moves hgood hmono c l s' (hgood _ _ _ hs h.1) h.2 hm

theorem exists_max (f : Packet S C → Nat) : ∀ ps : List (Packet S C), ps ≠ [] →
    ∃ p ∈ ps, ∀ q ∈ ps, f q ≤ f p
  | [], h => absurd rfl h
  | [p], _ => ⟨p, by simp, by simp⟩
  | p :: q :: l, _ => by
    obtain ⟨m, hm, h⟩ := exists_max f (q :: l) (by simp)
    by_cases hp : f m ≤ f p
    · refine ⟨p, by simp, fun x hx => ?_⟩
      rcases List.mem_cons.mp hx with rfl | hx
      · exact Nat.le_refl _
      · exact Nat.le_trans (h x hx) hp
    · refine ⟨m, List.mem_cons_of_mem _ hm, fun x hx => ?_⟩
      rcases List.mem_cons.mp hx with rfl | hx
      · omega
      · exact h x hx

/-- If the rank never falls and every head short of the exit has a channel that leads every packet that
ever takes it to a higher rank, there is no deadlock. -/
theorem noDeadlock (r : S → Nat) (hin : ∀ s, enters s → Good s)
    (hgood : ∀ s c s', Good s → takes s c s' → Good s')
    (hmono : ∀ s c s', Good s → takes s c s' → r s ≤ r s')
    (hesc : ∀ s, Good s → ¬ home s →
      ∃ c s', takes s c s' ∧ ∀ t t', Good t → takes t c t' → r s < r t') :
    NoDeadlock enters takes home := by
  intro ps hne hv
  obtain ⟨p, hp, hmax⟩ := exists_max (fun p => r p.head) ps hne
  refine ⟨p, hp, ?_⟩
  by_cases hh : home p.head
  · exact Or.inl hh
  right
  have hg : Good p.head := good_last hgood _ _ (hin _ (hv p hp).1) (hv p hp).2
  obtain ⟨c, s', ht, hlt⟩ := hesc _ hg hh
  refine ⟨c, s', ht, fun q hq hc => ?_⟩
  have hc' : c ∈ q.moves.map Prod.fst := by
    obtain ⟨x, hx, e⟩ := List.mem_map.mp hc
    exact List.mem_map.mpr ⟨x, List.mem_of_mem_drop hx, e⟩
  obtain ⟨t, t', hgt, htt, hle⟩ :=
    mem_moves hgood hmono c q.moves q.src (hin _ (hv q hq).1) (hv q hq).2 hc'
  have h1 := hlt t t' hgt htt
  have h2 : r q.head ≤ r p.head := hmax q hq
  have h3 : r (last q.src q.moves) = r q.head := rfl
  omega

theorem chain_lt {dep : C → C → Prop} (r : C → Nat) (h : ∀ a b, dep a b → r a < r b) {a b : C}
    (hc : Chain dep a b) : r a < r b := by
  induction hc with
  | one hd => exact h _ _ hd
  | cons hd _ ih => exact Nat.lt_trans (h _ _ hd) ih

/-- A measure that every move lowers by one counts the moves. -/
theorem length_add {D : S → Nat} (hgood : ∀ s c s', Good s → takes s c s' → Good s')
    (hD : ∀ s c s', Good s → takes s c s' → D s = D s' + 1) :
    ∀ (l : List (C × S)) (s : S), Good s → Moves takes s l → l.length + D (last s l) = D s
  | [], _, _, _ => by simp [last]
  | (c, s') :: l, s, hs, h => by
    have h1 := length_add hgood hD l s' (hgood s c s' hs h.1) h.2
    have h2 := hD s c s' hs h.1
    simp only [last, List.length_cons]
    omega

/-- With such a measure every head that can always move reaches the exit. -/
theorem reaches {D : S → Nat} (hgood : ∀ s c s', Good s → takes s c s' → Good s')
    (hD : ∀ s c s', Good s → takes s c s' → D s = D s' + 1)
    (hcan : ∀ s, Good s → ¬ home s → ∃ c s', takes s c s') :
    ∀ (n : Nat) (s : S), D s = n → Good s → ∃ l, Moves takes s l ∧ home (last s l)
  | n, s, hn, hs => by
    by_cases hh : home s
    · exact ⟨[], trivial, hh⟩
    · obtain ⟨c, s', ht⟩ := hcan s hs hh
      have h2 := hD s c s' hs ht
      obtain ⟨l, hl, he⟩ := reaches hgood hD hcan (D s') s' rfl (hgood s c s' hs ht)
      exact ⟨(c, s') :: l, ⟨ht, hl⟩, he⟩
termination_by n => n
decreasing_by omega

end RadSim.Worms
