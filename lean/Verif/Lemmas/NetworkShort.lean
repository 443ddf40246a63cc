import Verif.Lemmas.NetworkPackets

/-! # The length of incomplete packets in a network -/

namespace RadSim

section
variable {α β : Type} {tail : α → Bool}

/-- Before every tail, and at the end, there are fewer than `L` flits of a packet. -/
def Short (tail : α → Bool) (L : Nat) (l : List α) : Prop := ∀ p, p <+: l → (rest tail p).length < L

theorem Short.prefix {L : Nat} {l l' : List α} (h : Short tail L l) (hp : l' <+: l) : Short tail L l' :=
  fun p hp' => h p (hp'.trans hp)

theorem Short.pos {L : Nat} {l : List α} (h : Short tail L l) : 0 < L := h [] List.nil_prefix

theorem short_nil {L : Nat} (h : 0 < L) : Short tail L [] := by
  intro p hp
  rw [List.prefix_nil.1 hp]
  exact h

theorem prefix_snoc {p l : List α} {x : α} (h : p <+: l ++ [x]) : p <+: l ∨ p = l ++ [x] := by
  obtain ⟨z, hz⟩ := h
  cases z using List.reverseRecOn with
  | nil => exact Or.inr (by simpa using hz)
  | append_singleton z y =>
    left
    rw [← List.append_assoc] at hz
    exact ⟨z, (List.append_inj' hz rfl).1⟩

theorem short_snoc {L : Nat} {l : List α} {x : α} :
    Short tail L (l ++ [x]) ↔ Short tail L l ∧ (rest tail (l ++ [x])).length < L := by
  constructor
  · intro h
    exact ⟨h.prefix (List.prefix_append _ _), h _ (List.prefix_refl _)⟩
  · rintro ⟨h1, h2⟩ p hp
    rcases prefix_snoc hp with h | rfl
    · exact h1 p h
    · exact h2

theorem rest_length_le (l : List α) : (rest tail l).length ≤ l.length := by
  have := congrArg List.length (cut_flatten (tail := tail) l)
  rw [List.length_append] at this
  omega

theorem rest_append {p : List α} (hc : Closed tail p) (q : List α) : rest tail (p ++ q) = rest tail q := by
  induction q using List.reverseRecOn with
  | nil => rw [List.append_nil, rest_closed hc]; rfl
  | append_singleton q x ih => rw [← List.append_assoc, rest_snoc, rest_snoc, ih]

theorem short_append {L : Nat} {p q : List α} (hc : Closed tail p) (hp : Short tail L p) (hq : Short tail L q) :
    Short tail L (p ++ q) := by
  induction q using List.reverseRecOn with
  | nil => rwa [List.append_nil]
  | append_singleton q x ih =>
    obtain ⟨h1, h2⟩ := short_snoc.1 hq
    rw [← List.append_assoc, short_snoc]
    exact ⟨ih h1, by rw [List.append_assoc, rest_append hc]; exact h2⟩

theorem short_flatMap {L : Nat} (hL : 0 < L) {f : β → List α} {l : List β}
    (h : ∀ x ∈ l, Short tail L (f x) ∧ Closed tail (f x)) : Short tail L (l.flatMap f) := by
  induction l with
  | nil => exact short_nil hL
  | cons x l ih =>
    rw [List.flatMap_cons]
    exact short_append (h x (by simp)).2 (h x (by simp)).1 (ih fun y hy => h y (by simp [hy]))

theorem short_closed {L : Nat} (hL : 0 < L) {l : List α} (hl : l.length ≤ L) (hc : Closed tail l) : Short tail L l := by
  intro p hp
  have h1 := rest_length_le (tail := tail) p
  have h2 := hp.length_le
  by_cases h3 : p.length = l.length
  · rw [hp.eq_of_length h3, rest_closed hc]
    exact hL
  · omega

theorem short_map {L : Nat} (g : β → α) (l : List β) : Short tail L (l.map g) ↔ Short (fun x => tail (g x)) L l := by
  have hr : ∀ p : List β, (rest tail (p.map g)).length = (rest (fun x => tail (g x)) p).length := by
    intro p
    have : rest tail (p.map g) = (rest (fun x => tail (g x)) p).map g := congrArg Prod.snd (cut_map g p)
    rw [this, List.length_map]
  constructor
  · intro h p hp
    rw [← hr]
    exact h _ (hp.map g)
  · intro h p hp
    rw [List.prefix_iff_eq_take] at hp
    rw [hp, ← List.map_take, hr]
    exact h _ (List.take_prefix _ _)

end

namespace Router

variable {δ : Type}

/-- The packets of the outputs are those of the inputs. -/
theorem Tidy.short {l : List (Pass δ)} (h : Tidy l) {L : Nat} (hL : 0 < L) (hs : ∀ i v, Short ptail L (passedFrom l i v)) :
    ∀ o u, Short ptail L (passedTo l o u) := by
  induction l using List.reverseRecOn with
  | nil => intro o u; exact short_nil hL
  | append_singleton l e ih =>
    obtain ⟨hl, -, -⟩ := h.snoc
    have hs' : ∀ i v, Short ptail L (passedFrom l i v) := by
      intro i v
      refine (hs i v).prefix ?_
      rw [from_snoc]
      split
      · exact List.prefix_append _ _
      · exact List.prefix_refl _
    intro o u
    rw [to_snoc]
    split
    · rename_i hou
      obtain ⟨rfl, rfl⟩ := hou
      refine short_snoc.2 ⟨ih hl hs' _ _, ?_⟩
      have h1 := hs e.i e.v
      rw [from_snoc, if_pos ⟨rfl, rfl⟩, short_snoc, rest_snoc, h.rest_eq, ← rest_snoc] at h1
      exact h1.2
    · exact ih hl hs' o u

end Router

namespace Net

open Router (Flit Cfg upto received Pass passedFrom passedTo)

variable {δ σ τ ρ ρ' : Type} {VA : Alloc.Cls σ ρ} {SA : Alloc.Cls τ ρ'} {t : Topo} {b : Cfg} {va : Nat → σ} {sa : Nat → τ}
  {N : Nat} {e : Nat → Env δ ρ ρ'} {s : Nat → S δ σ τ}

theorem injected_mono (e : Nat → Env δ ρ ρ') (l : Nat) {n m : Nat} (h : n ≤ m) : injected e l n <+: injected e l m := by
  obtain ⟨d, rfl⟩ := Nat.exists_eq_add_of_le h
  clear h
  induction d with
  | zero => exact List.prefix_refl _
  | succ d ih =>
    refine ih.trans ?_
    unfold injected
    rw [show n + (d + 1) = n + d + 1 by omega, filterMap_snoc]
    exact List.prefix_append _ _

/-- Packets are nowhere longer than at the sources. -/
theorem short (ht : t.Wired) (hb : b.Ok) (ha : Allocs VA SA t b va sa) (h : Ticks VA SA t b va sa N e s) {L : Nat} (hL : 0 < L)
    (hk : ∀ l, t.Source l → ∀ v, Short Flit.tail L (onVc (injected e l N) v)) :
    ∀ n ≤ N, ∀ l < t.links, ∀ v, Short Flit.tail L (onVc (entered s l n) v) := by
  intro n
  induction n with
  | zero =>
    intro _ l _ v
    have : entered s l 0 = [] := by simp [entered, upto, h.start, S.init]
    rw [this]
    exact short_nil hL
  | succ n ih =>
    intro hn l hl v
    cases hd : t.driver l with
    | none =>
      have hs := (driver_none hl).1 hd
      rw [h.entered_source hn hs]
      exact (hk l hs v).prefix ((injected_mono e l hn).filter _)
    | some x =>
      obtain ⟨r, o⟩ := x
      obtain ⟨h1, h2, rfl⟩ := driver_some hd
      rw [h.entered_driven hn hl hd]
      obtain ⟨L', hL', -⟩ := router_log ht hb ha h hn h1
      have hfrom : ∀ i v, Short Router.ptail L (passedFrom L' i v) := by
        intro i v
        refine (short_map (tail := Flit.tail) Pass.f _).1 (Short.prefix ?_ (hL'.from_input i v))
        by_cases hi : i < t.inputs r
        · rw [received_eq hi]
          have hli := ht.inLt r h1 i hi
          exact (ih (by omega) _ hli v).prefix ((flitsAt_prefix h (show n ≤ N by omega) hli).filter _)
        · rw [received_none hi]; exact short_nil hL
      refine Short.prefix ?_ (hL'.to_vc o v)
      exact (short_map (tail := Flit.tail) Pass.flit _).2 (hL'.tidy.short hL hfrom o v)

end Net
end RadSim
