import Verif.Model.Alloc
import Verif.Lemmas.Arbiter

/-! # Lemmas about allocators -/

namespace RadSim.Alloc

open Arb (setAt)

/-- Induction over a loop with a counter. -/
theorem foldl_range {α : Type} (f : α → Nat → α) (P : Nat → α → Prop) (n : Nat) (s : α) (h0 : P 0 s)
    (hs : ∀ k s, k < n → P k s → P (k + 1) (f s k)) : P n ((List.range n).foldl f s) := by
  induction n with
  | zero => exact h0
  | succ n ih =>
    rw [List.range_succ, List.foldl_append]
    exact hs n _ (by omega) (ih fun k s hk => hs k s (by omega))

theorem valid_empty (req : Reqs) : Valid req Match.empty := by simp [Valid, Match.empty]

theorem valid_link {req : Reqs} {m : Match} (h : Valid req m) {i o : Nat} (hi : m.inm i = none)
    (ho : m.outm o = none) (hr : req i o ≠ none) : Valid req (m.link i o) := by
  constructor
  · intro a b
    simp only [Match.link, setAt]
    by_cases ha : a = i
    · subst ha
      by_cases hb : b = o
      · subst hb; simp
      · simp only [if_true, hb, if_false]
        constructor
        · intro e; exact absurd (Option.some.inj e).symm hb
        · intro e; rw [← h.1, hi] at e; cases e
    · by_cases hb : b = o
      · subst hb
        simp only [if_true, ha, if_false]
        constructor
        · intro e; rw [h.1, ho] at e; cases e
        · intro e; exact absurd (Option.some.inj e).symm ha
      · simp only [ha, hb, if_false]; exact h.1 a b
  · intro a b e
    simp only [Match.link, setAt] at e
    by_cases ha : a = i
    · subst ha
      simp only [if_true, Option.some.injEq] at e
      subst e; exact hr
    · simp only [ha, if_false] at e
      exact h.2 a b e

/-- Sound grants: to a free input by a free output that it requested. -/
def Sound (req : Reqs) (m : Match) (grants : Nat → Option Nat) : Prop :=
  ∀ o i, grants o = some i → req i o ≠ none ∧ m.inm i = none ∧ m.outm o = none

/-- What input `i` does in an accept phase. -/
def Step (req : Reqs) (grants : Nat → Option Nat) (i : Nat) (m m' : Match) : Prop :=
  (m' = m ∧ ∀ o, grants o ≠ some i) ∨ ∃ o, grants o = some i ∧ req i o ≠ none ∧ m' = m.link i o

/-- The accept phase after the first `k` inputs. -/
structure Accepted (req : Reqs) (grants : Nat → Option Nat) (m0 : Match) (k : Nat) (m : Match) : Prop where
  valid : Valid req m
  free : ∀ i o, k ≤ i → grants o = some i → m.inm i = none ∧ m.outm o = none
  keepIn : ∀ i o, m0.inm i = some o → m.inm i = some o
  keepOut : ∀ o i, m0.outm o = some i → m.outm o = some i
  served : ∀ i o, i < k → grants o = some i → m.inm i ≠ none

theorem Accepted.start {req : Reqs} {grants : Nat → Option Nat} {m : Match} (h : Valid req m)
    (hs : Sound req m grants) : Accepted req grants m 0 m :=
  ⟨h, fun i o _ hg => (hs o i hg).2, fun _ _ h => h, fun _ _ h => h, fun _ _ h => absurd h (by omega)⟩

theorem Accepted.step {req : Reqs} {grants : Nat → Option Nat} {m0 m m' : Match} {k : Nat}
    (h : Accepted req grants m0 k m) (hs : Step req grants k m m') : Accepted req grants m0 (k + 1) m' := by
  rcases hs with ⟨rfl, hno⟩ | ⟨o, hg, hr, rfl⟩
  · refine ⟨h.valid, fun i o hk => h.free i o (by omega), h.keepIn, h.keepOut, ?_⟩
    intro i o hi hg
    by_cases e : i = k
    · subst e; exact absurd hg (hno o)
    · exact h.served i o (by omega) hg
  · obtain ⟨fi, fo⟩ := h.free k o (Nat.le_refl k) hg
    refine ⟨valid_link h.valid fi fo hr, ?_, ?_, ?_, ?_⟩
    · intro i o' hi hg'
      have h1 : i ≠ k := by omega
      have h2 : o' ≠ o := by rintro rfl; rw [hg] at hg'; cases hg'; exact h1 rfl
      simp only [Match.link, setAt, h1, h2, if_false]
      exact h.free i o' (by omega) hg'
    · intro i o' hi
      have h1 := h.keepIn i o' hi
      simp only [Match.link, setAt]
      split
      · next e => subst e; rw [fi] at h1; cases h1
      · exact h1
    · intro o' i hi
      have h1 := h.keepOut o' i hi
      simp only [Match.link, setAt]
      split
      · next e => subst e; rw [fo] at h1; cases h1
      · exact h1
    · intro i o' hi hg'
      simp only [Match.link, setAt]
      split
      · simp
      · exact h.served i o' (by omega) hg'

theorem Accepted.keepIn' {req : Reqs} {grants : Nat → Option Nat} {m0 m : Match} {k : Nat}
    (h : Accepted req grants m0 k m) (i : Nat) (hi : m0.inm i ≠ none) : m.inm i ≠ none := by
  cases hx : m0.inm i with
  | none => exact absurd hx hi
  | some o => rw [h.keepIn i o hx]; simp

theorem Accepted.keepOut' {req : Reqs} {grants : Nat → Option Nat} {m0 m : Match} {k : Nat}
    (h : Accepted req grants m0 k m) (o : Nat) (ho : m0.outm o ≠ none) : m.outm o ≠ none := by
  cases hx : m0.outm o with
  | none => exact absurd hx ho
  | some i => rw [h.keepOut o i hx]; simp

/-! ## Ports and scans -/

theorem mem_outputsOf {b : Base} (hr : InRange b.inputs b.outputs b.req) {i o : Nat} :
    o ∈ outputsOf b i ↔ b.req i o ≠ none := by
  simp only [outputsOf, List.mem_filter, List.mem_range, Option.isSome_iff_ne_none]
  exact ⟨fun h => h.2, fun h => ⟨(hr i o h).2, h⟩⟩

theorem mem_inputsOf {b : Base} (hr : InRange b.inputs b.outputs b.req) {i o : Nat} :
    i ∈ inputsOf b o ↔ b.req i o ≠ none := by
  simp only [inputsOf, List.mem_filter, List.mem_range, Option.isSome_iff_ne_none]
  exact ⟨fun h => h.2, fun h => ⟨(hr i o h).1, h⟩⟩

theorem mem_scan {ports : List Nat} {off x : Nat} : x ∈ scan ports off ↔ x ∈ ports := by
  unfold scan
  cases ports with
  | nil => simp
  | cons a r =>
    simp only [List.mem_append, List.mem_cons]
    constructor
    · rintro (h | h | h)
      · exact List.mem_cons.1 ((List.dropWhile_suffix _).mem h)
      · exact Or.inl h
      · exact Or.inr ((List.takeWhile_prefix _).mem h)
    · intro h
      have hm : x ∈ (a :: r).takeWhile (· < off) ++ (a :: r).dropWhile (· < off) := by
        rw [List.takeWhile_append_dropWhile]; exact List.mem_cons.2 h
      rcases List.mem_append.1 hm with hm | hm
      · rw [List.takeWhile_cons] at hm
        split at hm
        · rcases List.mem_cons.1 hm with hm | hm
          · exact Or.inr (Or.inl hm)
          · exact Or.inr (Or.inr hm)
        · simp at hm
      · exact Or.inl hm

theorem mem_rotate {n r x : Nat} (h : x < n) : x ∈ (List.range n).map fun i => (i + r) % n := by
  rw [List.mem_map]
  refine ⟨(x + (n - r % n)) % n, List.mem_range.2 (Nat.mod_lt _ (by omega)), ?_⟩
  have hr : r % n < n := Nat.mod_lt _ (by omega)
  rw [Nat.add_mod, Nat.mod_mod, ← Nat.add_mod, Nat.add_mod, Nat.add_mod x]
  conv_lhs => rw [← Nat.add_mod x, ← Nat.add_mod]
  rw [Nat.add_mod]
  conv_lhs => rw [Nat.add_mod, Nat.mod_mod, Nat.mod_mod, ← Nat.add_mod]
  rw [← Nat.add_mod_mod]
  rw [show x + (n - r % n) + r % n = x + n by omega, Nat.add_mod_right, Nat.mod_eq_of_lt h]

/-! ## iSLIP -/

/-- The parts of the base class that an allocation does not change. -/
def SameReq (a b : Base) : Prop := a.inputs = b.inputs ∧ a.outputs = b.outputs ∧ a.req = b.req ∧ a.dirty = b.dirty

theorem SameReq.refl (b : Base) : SameReq b b := ⟨rfl, rfl, rfl, rfl⟩

theorem SameReq.trans {a b c : Base} (h : SameReq a b) (h' : SameReq b c) : SameReq a c :=
  ⟨h.1.trans h'.1, h.2.1.trans h'.2.1, h.2.2.1.trans h'.2.2.1, h.2.2.2.trans h'.2.2.2⟩

theorem SameReq.outputsOf {a b : Base} (h : SameReq a b) (i : Nat) : outputsOf a i = outputsOf b i := by
  unfold Alloc.outputsOf; rw [h.2.1, h.2.2.1]

theorem Islip.grants_sound {s : Islip} (hr : InRange s.base.inputs s.base.outputs s.base.req) :
    Sound s.base.req s.base.m s.grants := by
  intro o i hg
  unfold Islip.grants at hg
  split at hg
  · next h =>
    have h1 := List.find?_some hg
    have h2 := List.mem_of_find?_eq_some hg
    rw [mem_scan, mem_inputsOf hr] at h2
    exact ⟨h2, by simpa using h1, h.2⟩
  · cases hg

theorem Islip.grants_some {s : Islip} (hr : InRange s.base.inputs s.base.outputs s.base.req) {i o : Nat}
    (hreq : s.base.req i o ≠ none) (hi : s.base.m.inm i = none) (ho : s.base.m.outm o = none) :
    ∃ i', s.grants o = some i' := by
  unfold Islip.grants
  rw [if_pos ⟨(hr i o hreq).2, ho⟩]
  cases hf : (scan (inputsOf s.base o) (s.gptrs o)).find? fun i => (s.base.m.inm i).isNone with
  | some i' => exact ⟨i', rfl⟩
  | none =>
    rw [List.find?_eq_none] at hf
    have := hf i (mem_scan.2 ((mem_inputsOf hr).2 hreq))
    rw [hi] at this
    exact absurd rfl this

theorem Islip.accept_step {first : Bool} {g : Nat → Option Nat} {s : Islip} {i : Nat}
    (hr : InRange s.base.inputs s.base.outputs s.base.req) (hg : ∀ o, g o = some i → s.base.req i o ≠ none) :
    Step s.base.req g i s.base.m (Islip.accept first g s i).base.m ∧
      SameReq (Islip.accept first g s i).base s.base := by
  unfold Islip.accept
  cases hf : (scan (Alloc.outputsOf s.base i) (s.aptrs i)).find? fun o => decide (g o = some i) with
  | none =>
    refine ⟨Or.inl ⟨rfl, ?_⟩, SameReq.refl _⟩
    intro o ho
    rw [List.find?_eq_none] at hf
    have := hf o (mem_scan.2 ((mem_outputsOf hr).2 (hg o ho)))
    simp [ho] at this
  | some o =>
    have h1 := List.find?_some hf
    have h2 := List.mem_of_find?_eq_some hf
    rw [mem_scan, mem_outputsOf hr] at h2
    simp only [decide_eq_true_eq] at h1
    cases first <;> exact ⟨Or.inr ⟨o, h1, h2, rfl⟩, SameReq.refl _⟩

theorem Islip.iterate_spec {first : Bool} {s : Islip} (hr : InRange s.base.inputs s.base.outputs s.base.req)
    (hv : Valid s.base.req s.base.m) :
    Accepted s.base.req s.grants s.base.m s.base.inputs (s.iterate first).base.m ∧
      SameReq (s.iterate first).base s.base := by
  have hs := Islip.grants_sound hr
  have := foldl_range (Islip.accept first s.grants)
    (fun k t => Accepted s.base.req s.grants s.base.m k t.base.m ∧ SameReq t.base s.base) s.base.inputs s
    ⟨Accepted.start hv hs, SameReq.refl _⟩ (by
      rintro k t hk ⟨ha, hsame⟩
      have hreq := hsame.2.2.1
      have hr' : InRange t.base.inputs t.base.outputs t.base.req := by
        rw [hsame.1, hsame.2.1, hsame.2.2.1]; exact hr
      obtain ⟨h1, h2⟩ := Islip.accept_step (first := first) (g := s.grants) (i := k) hr'
        (fun o ho => by rw [hreq]; exact (hs o k ho).1)
      rw [hreq] at h1
      exact ⟨ha.step h1, h2.trans hsame⟩)
  exact this

/-- The number of matched inputs. -/
def matched (n : Nat) (f : Nat → Option Nat) : Nat := (List.range n).countP fun i => (f i).isSome

theorem matched_le (n : Nat) (f : Nat → Option Nat) : matched n f ≤ n := by
  have := List.countP_le_length (p := fun i => (f i).isSome) (l := List.range n)
  simpa [matched] using this

theorem matched_lt {n : Nat} {f g : Nat → Option Nat} (h : ∀ i, f i ≠ none → g i ≠ none) {j : Nat} (hj : j < n)
    (h1 : f j = none) (h2 : g j ≠ none) : matched n f < matched n g := by
  apply Arb.countP_lt
  · intro i _ hi
    rw [Option.isSome_iff_ne_none] at *
    exact h i hi
  · exact ⟨j, List.mem_range.2 hj, Option.isSome_iff_ne_none.2 h2, by simp [h1]⟩

theorem Maximal.keep {req : Reqs} {m m' : Match} (h : Maximal req m) (hi : ∀ i, m.inm i ≠ none → m'.inm i ≠ none)
    (ho : ∀ o, m.outm o ≠ none → m'.outm o ≠ none) : Maximal req m' := fun i o hr =>
  (h i o hr).imp (hi i) (ho o)

/-- Some output grants whenever a requested pair is free. -/
def Complete (req : Reqs) (m : Match) (grants : Nat → Option Nat) : Prop :=
  ∀ i o, req i o ≠ none → m.inm i = none → m.outm o = none → grants o ≠ none

/-- An assignment after `k` iterations that started from `m0`: it is valid, keeps what was matched, and is
maximal or has at least `k` pairs more. -/
structure Grown (I O : Nat) (req : Reqs) (m0 : Match) (k : Nat) (m : Match) : Prop where
  valid : Valid req m
  keepIn : ∀ i, m0.inm i ≠ none → m.inm i ≠ none
  keepOut : ∀ o, m0.outm o ≠ none → m.outm o ≠ none
  more : Maximal req m ∨
    (matched I m0.inm + k ≤ matched I m.inm ∧ matched O m0.outm + k ≤ matched O m.outm)

theorem Grown.refl {I O : Nat} {req : Reqs} {m : Match} (h : Valid req m) : Grown I O req m 0 m :=
  ⟨h, fun _ h => h, fun _ h => h, Or.inr ⟨Nat.le_refl _, Nat.le_refl _⟩⟩

theorem Grown.trans {I O : Nat} {req : Reqs} {m0 m m' : Match} {j k : Nat} (h : Grown I O req m0 j m)
    (h' : Grown I O req m k m') : Grown I O req m0 (k + j) m' := by
  refine ⟨h'.valid, fun i hi => h'.keepIn i (h.keepIn i hi), fun i hi => h'.keepOut i (h.keepOut i hi), ?_⟩
  rcases h.more with hm | ⟨a, b⟩
  · exact Or.inl (hm.keep h'.keepIn h'.keepOut)
  · rcases h'.more with hm | ⟨c, d⟩
    · exact Or.inl hm
    · exact Or.inr ⟨by omega, by omega⟩

/-- One grant and accept phase. -/
theorem Accepted.grown {I O : Nat} {req : Reqs} {g : Nat → Option Nat} {m0 m : Match} (hr : InRange I O req)
    (hv : Valid req m0) (hs : Sound req m0 g) (hc : Complete req m0 g) (hacc : Accepted req g m0 I m) :
    Grown I O req m0 1 m := by
  refine ⟨hacc.valid, hacc.keepIn', hacc.keepOut', ?_⟩
  by_cases hm : Maximal req m0
  · exact Or.inl (hm.keep hacc.keepIn' hacc.keepOut')
  · right
    simp only [Maximal, not_forall, not_or, not_not] at hm
    obtain ⟨i, o, hreq, hi, ho⟩ := hm
    cases hg : g o with
    | none => exact absurd hg (hc i o hreq hi ho)
    | some i' =>
      obtain ⟨hq, hin, hout⟩ := hs o i' hg
      have hi' := (hr i' o hq).1
      have hserved := hacc.served i' o hi' hg
      refine ⟨matched_lt hacc.keepIn' hi' hin hserved, ?_⟩
      cases hx : m.inm i' with
      | none => exact absurd hx hserved
      | some o' =>
        have hq' := hacc.valid.2 i' o' hx
        have hx' := (hacc.valid.1 i' o').1 hx
        refine matched_lt hacc.keepOut' (hr i' o' hq').2 ?_ (by rw [hx']; simp)
        cases hy : m0.outm o' with
        | none => rfl
        | some j =>
          have h1 := hacc.keepOut o' j hy
          rw [hx'] at h1
          cases h1
          rw [(hv.1 i' o').2 hy] at hin
          cases hin

theorem Islip.iterate_grown {first : Bool} {s : Islip}
    (hr : InRange s.base.inputs s.base.outputs s.base.req) (hv : Valid s.base.req s.base.m) :
    Grown s.base.inputs s.base.outputs s.base.req s.base.m 1 (s.iterate first).base.m ∧
      SameReq (s.iterate first).base s.base := by
  obtain ⟨hacc, hsame⟩ := Islip.iterate_spec (first := first) hr hv
  refine ⟨hacc.grown hr hv (Islip.grants_sound hr) ?_, hsame⟩
  intro i o h1 h2 h3
  obtain ⟨i', h⟩ := Islip.grants_some hr h1 h2 h3
  rw [h]; simp

theorem Islip.more_grown {k : Nat} {s : Islip} (hr : InRange s.base.inputs s.base.outputs s.base.req)
    (hv : Valid s.base.req s.base.m) :
    Grown s.base.inputs s.base.outputs s.base.req s.base.m k (Islip.more k s).base.m ∧
      SameReq (Islip.more k s).base s.base := by
  induction k generalizing s with
  | zero => exact ⟨Grown.refl hv, SameReq.refl _⟩
  | succ k ih =>
    obtain ⟨hg, hsame⟩ := Islip.iterate_grown (first := false) hr hv
    have := ih (s := s.iterate false) (by rw [hsame.1, hsame.2.1, hsame.2.2.1]; exact hr)
      (by rw [hsame.2.2.1]; exact hg.valid)
    rw [hsame.1, hsame.2.1, hsame.2.2.1] at this
    exact ⟨hg.trans this.1, this.2.trans hsame⟩

theorem Islip.allocate_grown {s : Islip} (hr : InRange s.base.inputs s.base.outputs s.base.req)
    (hv : Valid s.base.req s.base.m) :
    Grown s.base.inputs s.base.outputs s.base.req s.base.m s.iters s.allocate.base.m ∧
      SameReq s.allocate.base s.base := by
  unfold Islip.allocate
  cases hk : s.iters with
  | zero => exact ⟨Grown.refl hv, SameReq.refl _⟩
  | succ k =>
    obtain ⟨hg, hsame⟩ := Islip.iterate_grown (first := true) hr hv
    have := Islip.more_grown (k := k) (s := s.iterate true) (by rw [hsame.1, hsame.2.1, hsame.2.2.1]; exact hr)
      (by rw [hsame.2.2.1]; exact hg.valid)
    rw [hsame.1, hsame.2.1, hsame.2.2.1] at this
    exact ⟨hg.trans this.1, this.2.trans hsame⟩

theorem Islip.allocate_iters (s : Islip) : s.allocate.iters = s.iters := by
  have ha : ∀ (f : Bool) (g : Nat → Option Nat) (t : Islip) (i : Nat), (Islip.accept f g t i).iters = t.iters := by
    intro f g t i
    unfold Islip.accept
    split
    · rfl
    · cases f <;> rfl
  have hi : ∀ (f : Bool) (t : Islip), (t.iterate f).iters = t.iters := by
    intro f t
    exact foldl_range _ (fun _ (u : Islip) => u.iters = t.iters) _ _ rfl fun k (u : Islip) _ h => (ha _ _ _ _).trans h
  have hm : ∀ (k : Nat) (t : Islip), (Islip.more k t).iters = t.iters := by
    intro k
    induction k with
    | zero => intro t; rfl
    | succ k ih => intro t; exact (ih _).trans (hi _ _)
  unfold Islip.allocate
  split
  · rfl
  · exact (hm _ _).trans (hi _ _)

/-! ## PIM -/

theorem pimGrants_sound {rnd : Nat → Nat} {b : Base} : Sound b.req b.m (pimGrants rnd b) := by
  intro o i hg
  unfold pimGrants at hg
  split at hg
  · have h1 := List.find?_some hg
    simp only [Bool.and_eq_true, Option.isSome_iff_ne_none, Option.isNone_iff_eq_none] at h1
    exact ⟨h1.1.1, h1.1.2, h1.2⟩
  · cases hg

theorem pimAccept_step {rnd : Nat → Nat} {g : Nat → Option Nat} {b : Base} {i : Nat}
    (hr : InRange b.inputs b.outputs b.req) (hg : ∀ o, g o = some i → b.req i o ≠ none) :
    Step b.req g i b.m (pimAccept rnd g b i).m ∧ SameReq (pimAccept rnd g b i) b := by
  unfold pimAccept
  cases hf : ((List.range b.outputs).map fun o => (o + rnd i) % b.outputs).find? fun o => decide (g o = some i) with
  | none =>
    refine ⟨Or.inl ⟨rfl, ?_⟩, SameReq.refl _⟩
    intro o ho
    rw [List.find?_eq_none] at hf
    have := hf o (mem_rotate (hr i o (hg o ho)).2)
    simp [ho] at this
  | some o =>
    have h1 := List.find?_some hf
    simp only [decide_eq_true_eq] at h1
    exact ⟨Or.inr ⟨o, h1, hg o h1, rfl⟩, SameReq.refl _⟩

theorem pimGrants_complete {rnd : Nat → Nat} {b : Base} (hr : InRange b.inputs b.outputs b.req) :
    Complete b.req b.m (pimGrants rnd b) := by
  intro i o hq hi ho hn
  unfold pimGrants at hn
  rw [if_pos (hr i o hq).2, List.find?_eq_none] at hn
  have := hn i (mem_rotate (hr i o hq).1)
  simp only [hi, ho, Option.isNone_none, Bool.and_true, Option.isSome_iff_ne_none] at this
  exact this hq

theorem pimAllocate_spec (l : List ((Nat → Nat) × (Nat → Nat))) {b : Base}
    (hr : InRange b.inputs b.outputs b.req) (hv : Valid b.req b.m) :
    Grown b.inputs b.outputs b.req b.m l.length (pimAllocate l b).m ∧ SameReq (pimAllocate l b) b := by
  induction l generalizing b with
  | nil => exact ⟨Grown.refl hv, SameReq.refl _⟩
  | cons x l ih =>
    obtain ⟨rg, ra⟩ := x
    have hs : Sound b.req b.m (pimGrants rg b) := pimGrants_sound
    have := foldl_range (pimAccept ra (pimGrants rg b))
      (fun k t => Accepted b.req (pimGrants rg b) b.m k t.m ∧ SameReq t b) b.inputs b
      ⟨Accepted.start hv hs, SameReq.refl _⟩ (by
        rintro k t hk ⟨ha, hsame⟩
        have hreq := hsame.2.2.1
        have hr' : InRange t.inputs t.outputs t.req := by
          rw [hsame.1, hsame.2.1, hsame.2.2.1]; exact hr
        obtain ⟨h1, h2⟩ := pimAccept_step (rnd := ra) (g := pimGrants rg b) (i := k) hr'
          (fun o ho => by rw [hreq]; exact (hs o k ho).1)
        rw [hreq] at h1
        exact ⟨ha.step h1, h2.trans hsame⟩)
    obtain ⟨hacc, hsame⟩ := this
    have hg := hacc.grown hr hv hs (pimGrants_complete hr)
    simp only [pimAllocate, List.length_cons]
    have h := ih (b := (List.range b.inputs).foldl (pimAccept ra (pimGrants rg b)) b)
      (by rw [hsame.1, hsame.2.1, hsame.2.2.1]; exact hr) (by rw [hsame.2.2.1]; exact hacc.valid)
    rw [hsame.1, hsame.2.1, hsame.2.2.1] at h
    exact ⟨hg.trans h.1, h.2.trans hsame⟩

/-! ## Lonely output -/

theorem Loa.lonely_req {s : Loa} {i o : Nat} (h : s.lonely i = some o) : s.base.req i o ≠ none := by
  have key : ∀ (l : List Nat) (acc : Option Nat × Nat), (∀ o, acc.1 = some o → s.base.req i o ≠ none) →
      ∀ o, (l.foldl (fun (acc : Option Nat × Nat) o' =>
        let o := (o' + s.rptr i) % s.base.outputs
        if (s.base.req i o).isSome ∧ Loa.count s.base o < acc.2 then (some o, Loa.count s.base o) else acc) acc).1 = some o →
      s.base.req i o ≠ none := by
    intro l
    induction l with
    | nil => intro acc h; exact h
    | cons x l ih =>
      intro acc h
      rw [List.foldl_cons]
      apply ih
      intro o ho
      simp only at ho
      split at ho
      · next hc =>
        cases ho
        exact Option.isSome_iff_ne_none.1 hc.1
      · exact h o ho
  exact key _ _ (by simp) o h

theorem Loa.lonely_some {s : Loa} {i o : Nat} (hr : InRange s.base.inputs s.base.outputs s.base.req)
    (h : s.base.req i o ≠ none) : s.lonely i ≠ none := by
  have hc : ∀ o, Loa.count s.base o < s.base.inputs + 1 := by
    intro o
    have := List.countP_le_length (p := fun i => (s.base.req i o).isSome) (l := List.range s.base.inputs)
    rw [List.length_range] at this
    unfold Loa.count
    omega
  have key : ∀ (l : List Nat) (acc : Option Nat × Nat), (acc.1 = none → acc.2 = s.base.inputs + 1) →
      (acc.1 ≠ none ∨ ∃ o' ∈ l, s.base.req i ((o' + s.rptr i) % s.base.outputs) ≠ none) →
      (l.foldl (fun (acc : Option Nat × Nat) o' =>
        let o := (o' + s.rptr i) % s.base.outputs
        if (s.base.req i o).isSome ∧ Loa.count s.base o < acc.2 then (some o, Loa.count s.base o) else acc) acc).1 ≠ none := by
    intro l
    induction l with
    | nil =>
      intro acc _ h
      rcases h with h | ⟨_, h, _⟩
      · exact h
      · cases h
    | cons x l ih =>
      intro acc h0 h
      rw [List.foldl_cons]
      simp only
      split
      · exact ih _ (by simp) (Or.inl (by simp))
      · next hn =>
        apply ih _ h0
        rcases h with h | ⟨o', hm, h⟩
        · exact Or.inl h
        · by_cases ha : acc.1 = none
          · rcases List.mem_cons.1 hm with rfl | hm
            · exact absurd ⟨Option.isSome_iff_ne_none.2 h, by rw [h0 ha]; exact hc _⟩ hn
            · exact Or.inr ⟨o', hm, h⟩
          · exact Or.inl ha
  have hm := mem_rotate (r := s.rptr i) (hr i o h).2
  rw [List.mem_map] at hm
  obtain ⟨o', h1, h2⟩ := hm
  exact key _ _ (fun _ => rfl) (Or.inr ⟨o', h1, by rw [h2]; exact h⟩)

theorem Loa.allocate_spec {s : Loa} (hr : InRange s.base.inputs s.base.outputs s.base.req)
    (hm : s.base.m = Match.empty) :
    Valid s.base.req s.allocate.base.m ∧ SameReq s.allocate.base s.base ∧
      ∀ i o, s.base.req i o ≠ none → s.allocate.base.m.Some := by
  have := foldl_range (Loa.grant s.lonely)
    (fun k t => (Valid s.base.req t.base.m ∧ (∀ o, k ≤ o → t.base.m.outm o = none) ∧
      (∀ i o, t.base.m.inm i = some o → s.lonely i = some o) ∧
      ∀ i o, o < k → i < s.base.inputs → s.lonely i = some o → t.base.m.Some) ∧ SameReq t.base s.base) s.base.outputs s
    ⟨⟨by rw [hm]; exact valid_empty _, by rw [hm]; simp [Match.empty], by rw [hm]; simp [Match.empty], by simp⟩, SameReq.refl _⟩ (by
      rintro k t hk ⟨⟨hv, hfree, hin, hsm⟩, hsame⟩
      unfold Loa.grant
      cases hf : ((List.range t.base.inputs).map fun i => (i + t.gptr k) % t.base.inputs).find? fun i =>
          decide (s.lonely i = some k) with
      | none =>
        refine ⟨⟨hv, fun o ho => hfree o (by omega), hin, ?_⟩, hsame⟩
        intro i o ho hi hl
        by_cases e : o = k
        · subst e
          rw [List.find?_eq_none] at hf
          have := hf i (mem_rotate (by rw [hsame.1]; exact hi))
          simp [hl] at this
        · exact hsm i o (by omega) hi hl
      | some i =>
        have h1 := List.find?_some hf
        simp only [decide_eq_true_eq] at h1
        have hfi : t.base.m.inm i = none := by
          cases hx : t.base.m.inm i with
          | none => rfl
          | some o =>
            have := hin i o hx
            rw [h1] at this
            cases this
            rw [hv.1, hfree k (Nat.le_refl k)] at hx
            cases hx
        refine ⟨⟨valid_link hv hfi (hfree k (Nat.le_refl k)) (Loa.lonely_req h1), ?_, ?_, fun _ _ _ _ _ => ⟨i, k, by simp [Match.link, setAt]⟩⟩, hsame⟩
        · intro o ho
          have : o ≠ k := by omega
          simp only [Match.link, setAt, this, if_false]
          exact hfree o (by omega)
        · intro j o hj
          simp only [Match.link, setAt] at hj
          split at hj
          · next e => subst e; cases hj; exact h1
          · exact hin j o hj)
  refine ⟨this.1.1, this.2, ?_⟩
  intro i o hq
  cases hl : s.lonely i with
  | none => exact absurd hl (Loa.lonely_some hr hq)
  | some o' => exact this.1.2.2.2 i o' (hr i o' (Loa.lonely_req hl)).2 (hr i o hq).1 hl

/-! ## Select -/

theorem selBest_spec (pri : Nat → Int) (ok : Nat → Bool) (ports : List Nat) :
    (∀ p, selBest pri ok ports = some p → p ∈ ports ∧ ok p = true) ∧
      (selBest pri ok ports = none → ∀ p ∈ ports, ok p = false) := by
  have key : ∀ (l : List Nat) (acc : Option Nat × Int),
      (∀ p, (l.foldl (fun (acc : Option Nat × Int) p =>
        if ok p ∧ (pri p > acc.2 ∨ acc.1 = none) then (some p, pri p) else acc) acc).1 = some p →
        acc.1 = some p ∨ (p ∈ l ∧ ok p = true)) ∧
      ((l.foldl (fun (acc : Option Nat × Int) p =>
        if ok p ∧ (pri p > acc.2 ∨ acc.1 = none) then (some p, pri p) else acc) acc).1 = none →
        acc.1 = none ∧ ∀ p ∈ l, ok p = false) := by
    intro l
    induction l with
    | nil => intro acc; exact ⟨fun p h => Or.inl h, fun h => ⟨h, by simp⟩⟩
    | cons x l ih =>
      intro acc
      rw [List.foldl_cons]
      by_cases hc : ok x ∧ (pri x > acc.2 ∨ acc.1 = none)
      · rw [if_pos hc]
        obtain ⟨a, b⟩ := ih (some x, pri x)
        constructor
        · intro p hp
          rcases a p hp with h | h
          · cases h; exact Or.inr ⟨by simp, hc.1⟩
          · exact Or.inr ⟨by simp [h.1], h.2⟩
        · intro hn; exact absurd (b hn).1 (by simp)
      · rw [if_neg hc]
        obtain ⟨a, b⟩ := ih acc
        constructor
        · intro p hp
          rcases a p hp with h | h
          · exact Or.inl h
          · exact Or.inr ⟨by simp [h.1], h.2⟩
        · intro hn
          obtain ⟨h1, h2⟩ := b hn
          refine ⟨h1, ?_⟩
          intro p hp
          rcases List.mem_cons.1 hp with rfl | hp
          · cases hk : ok p with
            | false => rfl
            | true => exact absurd ⟨hk, Or.inr h1⟩ hc
          · exact h2 p hp
  obtain ⟨a, b⟩ := key ports (none, 0)
  refine ⟨fun p h => ?_, fun h => (b h).2⟩
  rcases a p h with h | h
  · cases h
  · exact h

theorem Sel.allocate_spec {s : Sel} (e : s.iters = 1) (h0 : ∀ o, s.outmask o = 0)
    (hr : InRange s.base.inputs s.base.outputs s.base.req) (hv : Valid s.base.req s.base.m) :
    Grown s.base.inputs s.base.outputs s.base.req s.base.m 1 s.allocate.base.m ∧ SameReq s.allocate.base s.base ∧
      s.allocate.iters = s.iters ∧ s.allocate.outmask = s.outmask := by
  unfold Sel.allocate
  · conv_lhs => rw [e]
    rw [e]
    simp only [Sel.loop]
    have hs : Sound s.base.req s.base.m (s.grants fun _ => none) := by
      intro o i hg
      unfold Sel.grants at hg
      split at hg
      · next h =>
        split at hg
        · cases hg
        · next i' hb =>
          cases hg
          obtain ⟨hm, hok⟩ := (selBest_spec _ _ _).1 _ hb
          rw [mem_scan, mem_inputsOf hr] at hm
          exact ⟨hm, by simpa using hok, h.2.1⟩
      · cases hg
    have := foldl_range (Sel.accept true (s.grants fun _ => none))
      (fun k t => Accepted s.base.req (s.grants fun _ => none) s.base.m k t.base.m ∧ SameReq t.base s.base ∧
        t.iters = 1 ∧ t.outmask = s.outmask)
      s.base.inputs s ⟨Accepted.start hv hs, SameReq.refl _, e, rfl⟩ (by
        rintro k t hk ⟨ha, hsame, hrest⟩
        have hreq := hsame.2.2.1
        have hr' : InRange t.base.inputs t.base.outputs t.base.req := by
          rw [hsame.1, hsame.2.1, hsame.2.2.1]; exact hr
        have hsp := selBest_spec (fun o => priOf Rqst.inPri (t.base.req k o))
          (fun o => decide ((s.grants fun _ => none) o = some k)) (scan (Alloc.outputsOf t.base k) (t.aptrs k))
        unfold Sel.accept
        cases hb : selBest (fun o => priOf Rqst.inPri (t.base.req k o))
          (fun o => decide ((s.grants fun _ => none) o = some k)) (scan (Alloc.outputsOf t.base k) (t.aptrs k)) with
        | none =>
          refine ⟨ha.step (Or.inl ⟨rfl, ?_⟩), hsame, hrest⟩
          intro o ho
          have := hsp.2 hb o (mem_scan.2 ((mem_outputsOf hr').2 (by rw [hreq]; exact (hs o k ho).1)))
          simp [ho] at this
        | some o =>
          obtain ⟨_, hok⟩ := hsp.1 o hb
          simp only [decide_eq_true_eq] at hok
          exact ⟨ha.step (Or.inr ⟨o, hok, (hs o k hok).1, rfl⟩), hsame, hrest⟩)
    refine ⟨this.1.grown hr hv hs ?_, this.2⟩
    intro i o hq hi ho hn
    unfold Sel.grants at hn
    rw [if_pos ⟨(hr i o hq).2, ho, h0 o⟩] at hn
    cases hb : selBest (fun i => priOf Rqst.outPri (s.base.req i o)) (fun i => (s.base.m.inm i).isNone)
        (scan (inputsOf s.base o) (s.gptrs o)) with
    | some x => rw [hb] at hn; cases hn
    | none =>
      have := (selBest_spec _ _ _).2 hb i (mem_scan.2 ((mem_inputsOf hr).2 hq))
      rw [hi] at this
      cases this

end RadSim.Alloc
