import Verif.Lemmas.Alloc

/-! # Rounds of an allocator -/

namespace RadSim.Alloc

open Arb (setAt)

/-! ## Arrivals -/

theorem asked_snoc (l : List Ask) (a : Ask) :
    asked (l ++ [a]) = setReq (asked l) a.i a.o (some a.rq) := by
  induction l with
  | nil =>
    funext i o
    simp only [List.nil_append, asked, setReq]
    by_cases h : a.i = i ∧ a.o = o
    · rw [if_pos h, if_pos ⟨h.1.symm, h.2.symm⟩]
    · rw [if_neg h, if_neg (fun e => h ⟨e.1.symm, e.2.symm⟩)]
  | cons x l ih =>
    funext i o
    simp only [List.cons_append, asked]
    rw [ih]
    simp only [setReq]
    by_cases h : i = a.i ∧ o = a.o
    · simp [h]
    · simp [h]

theorem asked_mem {l : List Ask} {i o : Nat} {r : Rqst} (h : asked l i o = some r) : ⟨i, o, r⟩ ∈ l := by
  induction l with
  | nil => simp [asked] at h
  | cons a l ih =>
    simp only [asked] at h
    cases hx : asked l i o with
    | some r' => rw [hx] at h; cases h; exact List.mem_cons_of_mem _ (ih hx)
    | none =>
      rw [hx] at h
      simp only at h
      split at h
      · next e =>
        cases h
        obtain ⟨rfl, rfl⟩ := e
        exact List.mem_cons_self ..
      · cases h

theorem asked_some {l : List Ask} {a : Ask} (h : a ∈ l) : asked l a.i a.o ≠ none := by
  induction l with
  | nil => cases h
  | cons x l ih =>
    simp only [asked]
    cases hx : asked l a.i a.o with
    | some r' => simp
    | none =>
      rcases List.mem_cons.1 h with rfl | h
      · simp
      · exact absurd hx (ih h)

theorem Asks.inRange {I O : Nat} {l : List Ask} (h : Asks I O l) : InRange I O (asked l) := by
  intro i o hne
  cases hx : asked l i o with
  | none => exact absurd hx hne
  | some r => exact h _ (asked_mem hx)

theorem Asks.snoc {I O : Nat} {l : List Ask} {a : Ask} (h : Asks I O (l ++ [a])) : Asks I O l ∧ a.i < I ∧ a.o < O :=
  ⟨fun x hx => h x (by simp [hx]), h a (by simp)⟩

/-! ## The base class -/

/-- Between rounds. -/
structure BIdle (I O : Nat) (b : Base) : Prop where
  inputs : b.inputs = I
  outputs : b.outputs = O
  clean : b.dirty = false → b.m = Match.empty

/-- After the arrivals `l` of a round. -/
structure BReady (I O : Nat) (l : List Ask) (b : Base) : Prop where
  inputs : b.inputs = I
  outputs : b.outputs = O
  req : b.req = asked l
  m : b.m = Match.empty
  dirty : l ≠ [] → b.dirty = true

theorem BIdle.init (I O : Nat) : BIdle I O (Base.init I O) := ⟨rfl, rfl, fun _ => rfl⟩

theorem BIdle.clear {I O : Nat} {b : Base} (h : BIdle I O b) : BReady I O [] b.clear := by
  refine ⟨h.inputs, h.outputs, rfl, ?_, by simp⟩
  simp only [Base.clear]
  cases hd : b.dirty with
  | false => simpa using h.clean hd
  | true => rfl

theorem BReady.idle {I O : Nat} {l : List Ask} {b : Base} (h : BReady I O l b) : BIdle I O b :=
  ⟨h.inputs, h.outputs, fun _ => h.m⟩

theorem valid_none_empty {m : Match} (h : Valid (asked []) m) : m = Match.empty := by
  have hi : ∀ i, m.inm i = none := by
    intro i
    cases hx : m.inm i with
    | none => rfl
    | some o => exact absurd rfl (h.2 i o hx)
  have ho : ∀ o, m.outm o = none := by
    intro o
    cases hx : m.outm o with
    | none => rfl
    | some i => rw [← h.1, hi] at hx; cases hx
  obtain ⟨a, b⟩ := m
  simp only [Match.empty, Match.mk.injEq]
  exact ⟨funext hi, funext ho⟩

theorem BReady.after {I O : Nat} {l : List Ask} {b b' : Base} (h : BReady I O l b) (hs : SameReq b' b)
    (hv : Valid (asked l) b'.m) : BIdle I O b' := by
  refine ⟨hs.1.trans h.inputs, hs.2.1.trans h.outputs, fun hd => ?_⟩
  by_cases hl : l = []
  · subst hl; exact valid_none_empty hv
  · rw [hs.2.2.2, h.dirty hl] at hd; cases hd

theorem BReady.put {I O : Nat} {l : List Ask} {b : Base} (h : BReady I O l b) {a : Ask} (hi : a.i < I) (ho : a.o < O) :
    (b.req a.i a.o = none → ∃ b', b.add a.i a.o a.rq = some b' ∧ BReady I O (l ++ [a]) b') ∧
    (∀ r, b.req a.i a.o = some r → ∃ b1 b2 b', b.removeDense a.i a.o = some b1 ∧
      b.removeSparse a.i a.o r.label = some b2 ∧ b1 = b2 ∧ b1.add a.i a.o a.rq = some b' ∧ BReady I O (l ++ [a]) b') := by
  constructor
  · intro hn
    refine ⟨{ b with req := setReq b.req a.i a.o (some a.rq), dirty := true }, ?_, ?_⟩
    · rw [Base.add, if_pos ⟨by rw [h.inputs]; exact hi, by rw [h.outputs]; exact ho, hn⟩]
    · exact ⟨h.inputs, h.outputs, by rw [asked_snoc, h.req], h.m, fun _ => rfl⟩
  · intro r hr
    refine ⟨{ b with req := setReq b.req a.i a.o none }, { b with req := setReq b.req a.i a.o none },
      { b with req := setReq b.req a.i a.o (some a.rq), dirty := true }, ?_, ?_, rfl, ?_, ?_⟩
    · rw [Base.removeDense, if_pos ⟨by rw [h.inputs]; exact hi, by rw [h.outputs]; exact ho⟩]
    · rw [Base.removeSparse, if_pos ⟨by rw [h.inputs]; exact hi, by rw [h.outputs]; exact ho, by rw [hr]; rfl⟩]
    · rw [Base.add, if_pos ⟨by rw [← h.inputs] at hi; exact hi, by rw [← h.outputs] at ho; exact ho, by simp [setReq]⟩]
      congr 2
      funext i o
      simp only [setReq]
      split <;> rfl
    · exact ⟨h.inputs, h.outputs, by rw [asked_snoc, h.req], h.m, fun _ => rfl⟩

/-! ## Classes -/

variable {σ ρ : Type}

/-- An allocator class whose rounds have assignments with property `P`. -/
structure Good (C : Cls σ ρ) (I O : Nat) (idle : σ → Prop) (ready : List Ask → σ → Prop)
    (P : List Ask → Match → Prop) : Prop where
  clear : ∀ {s}, idle s → ready [] (C.clear s)
  put : ∀ {l s a}, ready l s → a.i < I → a.o < O → ∃ s', put C s a = some s' ∧ ready (l ++ [a]) s'
  rest : ∀ {s}, ready [] s → idle s ∧ P [] (C.base s).m
  allocate : ∀ {l s} (x : ρ), Asks I O l → ready l s → ∃ s', C.allocate x s = some s' ∧ idle s' ∧ P l (C.base s').m

variable {C : Cls σ ρ} {I O : Nat} {idle : σ → Prop} {ready : List Ask → σ → Prop} {P : List Ask → Match → Prop}

theorem Good.putAll (G : Good C I O idle ready P) {s : σ} {l l' : List Ask} (h : ready l s) (ha : Asks I O l') :
    ∃ s', putAll C s l' = some s' ∧ ready (l ++ l') s' := by
  induction l' generalizing s l with
  | nil => exact ⟨s, rfl, by simpa using h⟩
  | cons a l' ih =>
    obtain ⟨s1, h1, r1⟩ := G.put h (ha a (by simp)).1 (ha a (by simp)).2
    obtain ⟨s2, h2, r2⟩ := ih r1 fun x hx => ha x (by simp [hx])
    exact ⟨s2, by simp [Alloc.putAll, h1, h2], by simpa using r2⟩

theorem Good.round (G : Good C I O idle ready P) {s : σ} {l : List Ask} (h : idle s) (ha : Asks I O l) (call : Bool)
    (x : ρ) : ∃ s' m, round C s l call x = some (s', m) ∧ idle s' ∧ P l m := by
  obtain ⟨s1, h1, r1⟩ := G.putAll (G.clear h) ha
  rw [List.nil_append] at r1
  simp only [Alloc.round, h1]
  by_cases hc : l = [] ∧ call = false
  · rw [if_pos hc]
    obtain ⟨rfl, -⟩ := hc
    exact ⟨_, _, rfl, G.rest r1⟩
  · rw [if_neg hc]
    obtain ⟨s2, h2, i2, p2⟩ := G.allocate x ha r1
    exact ⟨s2, _, by rw [h2]; rfl, i2, p2⟩

theorem Good.rounds (G : Good C I O idle ready P) {s : σ} (h : idle s) {hist : List (List Ask × Bool × ρ)}
    (ha : ∀ x ∈ hist, Asks I O x.1) :
    ∃ s' ms, rounds C s hist = some (s', ms) ∧ idle s' ∧ List.Forall₂ (fun x m => P x.1 m) hist ms := by
  induction hist generalizing s with
  | nil => exact ⟨s, [], rfl, h, .nil⟩
  | cons x t ih =>
    obtain ⟨l, call, x⟩ := x
    obtain ⟨s1, m, h1, i1, p1⟩ := G.round h (ha (l, call, x) (by simp)) call x
    obtain ⟨s2, ms, h2, i2, p2⟩ := ih i1 fun x hx => ha x (by simp [hx])
    exact ⟨s2, m :: ms, by simp [Alloc.rounds, h1, h2], i2, .cons p1 p2⟩

/-- What every class achieves: a valid assignment, not empty when there are requests. -/
def Serves (l : List Ask) (m : Match) : Prop := Valid (asked l) m ∧ (l ≠ [] → m.Some)

theorem serves_nil : Serves [] Match.empty := ⟨valid_empty _, fun h => absurd rfl h⟩

/-- A maximal assignment is not empty when there are requests. -/
theorem some_of_maximal {l : List Ask} {m : Match} (hv : Valid (asked l) m) (hm : Maximal (asked l) m) (hl : l ≠ []) :
    m.Some := by
  obtain ⟨a, t, rfl⟩ := List.exists_cons_of_ne_nil hl
  rcases hm a.i a.o (asked_some (by simp)) with h | h
  · cases hx : m.inm a.i with
    | none => exact absurd hx h
    | some o => exact ⟨_, o, hx⟩
  · cases hx : m.outm a.o with
    | none => exact absurd hx h
    | some i => exact ⟨i, _, (hv.1 i a.o).2 hx⟩

/-- A matched port. -/
theorem some_of_matched {n : Nat} {m : Match} (h : 0 < matched n m.inm) : m.Some := by
  rw [matched, List.countP_pos_iff] at h
  obtain ⟨i, -, hi⟩ := h
  cases hx : m.inm i with
  | none => rw [hx] at hi; cases hi
  | some o => exact ⟨i, o, hx⟩

theorem matched_empty (n : Nat) : matched n Match.empty.inm = 0 ∧ matched n Match.empty.outm = 0 := by
  simp [matched, Match.empty]

theorem Grown.some {I O : Nat} {l : List Ask} {k : Nat} {m : Match}
    (h : Grown I O (asked l) Match.empty k m) (hk : 0 < k) (hl : l ≠ []) : m.Some := by
  rcases h.more with h1 | h1
  · exact some_of_maximal h.valid h1 hl
  · exact some_of_matched (n := I) (by omega)

theorem Grown.maximal {I O : Nat} {l : List Ask} {k : Nat} {m : Match} (hr : InRange I O (asked l))
    (h : Grown I O (asked l) Match.empty k m) (hk : min I O ≤ k) : Maximal (asked l) m := by
  rcases h.more with h1 | ⟨h1, h2⟩
  · exact h1
  · intro i o hq
    have hi := (hr i o hq).1
    have ho := (hr i o hq).2
    have a := matched_le I m.inm
    have b := matched_le O m.outm
    rw [(matched_empty I).1] at h1
    rw [(matched_empty O).2] at h2
    have full : ∀ (n : Nat) (f : Nat → Option Nat), matched n f = n → ∀ j < n, f j ≠ none := by
      intro n f hm j hj hn
      have : matched n f < matched n (fun _ => .some 0) := matched_lt (by simp) hj hn (by simp)
      have := matched_le n (fun _ => Option.some 0)
      omega
    rcases Nat.le_total I O with e | e
    · rw [Nat.min_eq_left e] at hk
      exact Or.inl (full I m.inm (by omega) i hi)
    · rw [Nat.min_eq_right e] at hk
      exact Or.inr (full O m.outm (by omega) o ho)

/-- The functions of a class whose state holds the base class as a field. -/
theorem put_sparse {C : Cls σ ρ} {I O : Nat} {l : List Ask} {s : σ} {a : Ask} (set : σ → Base → σ)
    (h : BReady I O l (C.base s)) (hi : a.i < I) (ho : a.o < O)
    (hset : ∀ s b, C.base (set s b) = b) (hss : ∀ s b b', set (set s b) b' = set s b')
    (hadd : ∀ s a, C.add s a = ((C.base s).add a.i a.o a.rq).map (set s))
    (hrem : ∀ s a, C.remove s a = ((C.base s).removeSparse a.i a.o a.rq.label).map (set s)) :
    ∃ b, put C s a = some (set s b) ∧ BReady I O (l ++ [a]) b := by
  obtain ⟨h1, h2⟩ := h.put hi ho
  unfold put
  cases hq : (C.base s).req a.i a.o with
  | none =>
    obtain ⟨b, hb, hr⟩ := h1 hq
    exact ⟨b, by simp [hadd, hb], hr⟩
  | some r =>
    obtain ⟨b1, b2, b, _, hb2, rfl, hb, hr⟩ := h2 r hq
    exact ⟨b, by simp [hrem, hadd, hb2, hset, hss, hb], hr⟩

/-- The same for classes with a dense base. -/
theorem put_dense {C : Cls σ ρ} {I O : Nat} {l : List Ask} {s : σ} {a : Ask} (set : σ → Base → σ)
    (h : BReady I O l (C.base s)) (hi : a.i < I) (ho : a.o < O)
    (hset : ∀ s b, C.base (set s b) = b) (hss : ∀ s b b', set (set s b) b' = set s b')
    (hadd : ∀ s a, C.add s a = ((C.base s).add a.i a.o a.rq).map (set s))
    (hrem : ∀ s a, C.remove s a = ((C.base s).removeDense a.i a.o).map (set s)) :
    ∃ b, put C s a = some (set s b) ∧ BReady I O (l ++ [a]) b := by
  obtain ⟨h1, h2⟩ := h.put hi ho
  unfold put
  cases hq : (C.base s).req a.i a.o with
  | none =>
    obtain ⟨b, hb, hr⟩ := h1 hq
    exact ⟨b, by simp [hadd, hb], hr⟩
  | some r =>
    obtain ⟨b1, b2, b, hb1, _, rfl, hb, hr⟩ := h2 r hq
    exact ⟨b, by simp [hrem, hadd, hb1, hset, hss, hb], hr⟩

/-! ## iSLIP, PIM -/

/-- iSLIP with any number of iterations, whatever the pointers. -/
theorem islip_good (I O k : Nat) : Good islip I O (fun s => BIdle I O s.base ∧ s.iters = k)
    (fun l s => BReady I O l s.base ∧ s.iters = k)
    (fun l m => Grown I O (asked l) Match.empty k m ∨ l = [] ∧ m = Match.empty) where
  clear := fun h => ⟨h.1.clear, h.2⟩
  put := by
    intro l s a h hi ho
    obtain ⟨b, hb, hr⟩ := put_sparse (C := islip) (fun s b => { s with base := b }) h.1 hi ho (fun _ _ => rfl)
      (fun _ _ _ => rfl) (fun _ _ => rfl) (fun _ _ => rfl)
    exact ⟨_, hb, hr, h.2⟩
  rest := fun h => ⟨⟨h.1.idle, h.2⟩, Or.inr ⟨rfl, h.1.m⟩⟩
  allocate := by
    intro l s _ ha h
    have hr : InRange s.base.inputs s.base.outputs s.base.req := by
      rw [h.1.inputs, h.1.outputs, h.1.req]; exact ha.inRange
    obtain ⟨hg, hs⟩ := Islip.allocate_grown hr (by rw [h.1.m]; exact valid_empty _)
    rw [h.1.inputs, h.1.outputs, h.1.req, h.1.m, h.2] at hg
    exact ⟨_, rfl, ⟨h.1.after hs hg.valid, (Islip.allocate_iters s).trans h.2⟩, Or.inl hg⟩

theorem pim_good (I O k : Nat) : Good (pim k) I O (BIdle I O) (BReady I O)
    (fun l m => Grown I O (asked l) Match.empty k m ∨ l = [] ∧ m = Match.empty) where
  clear := fun h => h.clear
  put := by
    intro l s a h hi ho
    obtain ⟨b, hb, hr⟩ := put_dense (C := pim k) (fun _ b => b) h hi ho (fun _ _ => rfl)
      (fun _ _ _ => rfl) (fun _ _ => by simp [pim]) (fun _ _ => by simp [pim])
    exact ⟨_, hb, hr⟩
  rest := fun h => ⟨h.idle, Or.inr ⟨rfl, h.m⟩⟩
  allocate := by
    intro l s x ha h
    have hr : InRange s.inputs s.outputs s.req := by
      rw [h.inputs, h.outputs, h.req]; exact ha.inRange
    obtain ⟨hg, hs⟩ := pimAllocate_spec ((List.range k).map x) hr (by rw [h.m]; exact valid_empty _)
    rw [h.inputs, h.outputs, h.req, h.m, List.length_map, List.length_range] at hg
    exact ⟨_, rfl, h.after hs hg.valid, Or.inl hg⟩

/-! ## Lonely output, select -/

theorem loa_good (I O : Nat) : Good loa I O (fun s => BIdle I O s.base) (fun l s => BReady I O l s.base) Serves where
  clear := fun h => h.clear
  put := by
    intro l s a h hi ho
    obtain ⟨b, hb, hr⟩ := put_dense (C := loa) (fun s b => { s with base := b }) h hi ho (fun _ _ => rfl)
      (fun _ _ _ => rfl) (fun _ _ => rfl) (fun _ _ => rfl)
    exact ⟨_, hb, hr⟩
  rest := fun h => ⟨h.idle, by rw [show (loa.base _).m = Match.empty from h.m]; exact serves_nil⟩
  allocate := by
    intro l s _ ha h
    have hr : InRange s.base.inputs s.base.outputs s.base.req := by
      rw [h.inputs, h.outputs, h.req]; exact ha.inRange
    obtain ⟨hv, hs, hsome⟩ := Loa.allocate_spec hr h.m
    rw [h.req] at hv hsome
    refine ⟨_, rfl, h.after hs hv, hv, fun hl => ?_⟩
    obtain ⟨a, t, rfl⟩ := List.exists_cons_of_ne_nil hl
    exact hsome a.i a.o (asked_some (by simp))

theorem sel_good (I O : Nat) : Good sel I O (fun s => BIdle I O s.base ∧ s.iters = 1 ∧ ∀ o, s.outmask o = 0)
    (fun l s => BReady I O l s.base ∧ s.iters = 1 ∧ ∀ o, s.outmask o = 0) Serves where
  clear := fun h => ⟨h.1.clear, h.2⟩
  put := by
    intro l s a h hi ho
    obtain ⟨b, hb, hr⟩ := put_sparse (C := sel) (fun s b => { s with base := b }) h.1 hi ho (fun _ _ => rfl)
      (fun _ _ _ => rfl) (fun _ _ => rfl) (fun _ _ => rfl)
    exact ⟨_, hb, hr, h.2⟩
  rest := fun h => ⟨⟨h.1.idle, h.2⟩, by rw [show (sel.base _).m = Match.empty from h.1.m]; exact serves_nil⟩
  allocate := by
    intro l s _ ha h
    have hr : InRange s.base.inputs s.base.outputs s.base.req := by
      rw [h.1.inputs, h.1.outputs, h.1.req]; exact ha.inRange
    obtain ⟨hg, hs, h1, h2⟩ := Sel.allocate_spec h.2.1 h.2.2 hr (by rw [h.1.m]; exact valid_empty _)
    rw [h.1.inputs, h.1.outputs, h.1.req, h.1.m] at hg
    exact ⟨_, rfl, ⟨h.1.after hs hg.valid, h1.trans h.2.1, by intro o; rw [h2]; exact h.2.2 o⟩, hg.valid, hg.some (by omega)⟩

end RadSim.Alloc
