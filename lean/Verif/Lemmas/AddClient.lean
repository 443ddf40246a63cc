import Verif.Model.AddDesign

/-! # The FIFO and the client of the example designs as queues -/

namespace RadSim.AddDesign

/-- The queue after an edge. -/
def after {α : Type} (m : List α) (wen ren : Bool) (d : α) : List α :=
  (if ren then m.tail else m) ++ if wen then [d] else []

theorem tick_show {α : Type} (c : FifoCfg) (zero : α) (m : List α) (wen ren : Bool) (d : α) (hr : ren = true → m ≠ [])
    (hw : wen = true → (if ren then m.tail else m).length ≠ c.depth) :
    (Fifo.show c zero m).tick c zero wen ren d = .ok (Fifo.show c zero (after m wen ren d)) := by
  unfold Fifo.tick after
  cases ren with
  | false =>
    cases wen with
    | false => simp [Fifo.show]
    | true =>
      have := hw rfl
      simp only [Fifo.show, Bool.false_eq_true, if_false, if_true] at this ⊢
      rw [if_neg this]
  | true =>
    cases m with
    | nil => exact absurd rfl (hr rfl)
    | cons x r =>
      cases wen with
      | false => simp [Fifo.show]
      | true =>
        have := hw rfl
        simp only [Fifo.show, if_true, List.tail_cons] at this ⊢
        rw [if_neg this]

/-- The client that holds `q`. -/
def clientOf (depth : Nat) (q : List (Nat × Bool)) : Client :=
  ⟨Fifo.show (clientFifo depth) 0 (q.map (·.1)), Fifo.show (clientFifo depth) false (q.map (·.2))⟩

theorem reset_client {depth : Nat} (hd : 2 ≤ depth) : Client.reset = clientOf depth [] := by
  unfold Client.reset clientOf Fifo.reset Fifo.show clientFifo
  have h1 : ¬ depth - 1 ≤ 0 := by omega
  have h2 : ¬ 0 = depth := by omega
  simp [h1, h2]

theorem ready_client (depth : Nat) (q : List (Nat × Bool)) : (clientOf depth q).ready = decide (q.length < depth - 1) := by
  unfold Client.ready clientOf Fifo.show clientFifo
  rw [Bool.eq_iff_iff]
  simp
  omega

theorem offer_client (depth : Nat) (q : List (Nat × Bool)) : (clientOf depth q).offer = q.head? := by
  unfold Client.offer clientOf Fifo.show
  cases q <;> rfl

theorem tick_client (depth : Nat) (q : List (Nat × Bool)) (valid : Bool) (v : Nat) (l tready : Bool) :
    (clientOf depth q).tick depth valid v l tready =
      .ok (clientOf depth (after q ((clientOf depth q).ready && valid) tready (v, l))) := by
  unfold Client.tick
  have ho := offer_client depth q
  have hl := ready_client depth q
  generalize (clientOf depth q).ready = rdy at hl ⊢
  rw [ho]
  cases q with
  | nil =>
    simp only [clientOf, List.map_nil, List.head?_nil, Option.isSome_none, Bool.false_and]
    have hw : (rdy && valid) = true → (if false then ([] : List Nat).tail else []).length ≠ (clientFifo depth).depth := by
      intro h
      simp only [hl, List.length_nil, Bool.and_eq_true, decide_eq_true_eq] at h
      show 0 ≠ depth
      omega
    rw [tick_show (clientFifo depth) 0 [] (rdy && valid) false v (by simp) hw,
      tick_show (clientFifo depth) false [] (rdy && valid) false l (by simp) hw]
    unfold after
    cases tready <;> cases hw : (rdy && valid) <;> rfl
  | cons y q =>
    simp only [clientOf, List.map_cons, List.head?_cons, Option.isSome_some, Bool.true_and]
    have hw : ∀ {α : Type} (m : List α), m.length = q.length + 1 → (rdy && valid) = true →
        (if tready then m.tail else m).length ≠ (clientFifo depth).depth := by
      intro α m hm h
      simp only [hl, List.length_cons, Bool.and_eq_true, decide_eq_true_eq] at h
      show _ ≠ depth
      cases tready <;> simp [hm] <;> omega
    rw [tick_show (clientFifo depth) 0 _ (rdy && valid) tready v (by simp) (hw _ (by simp)),
      tick_show (clientFifo depth) false _ (rdy && valid) tready l (by simp) (hw _ (by simp))]
    unfold after
    cases tready <;> cases hw : (rdy && valid) <;> simp

/-! ## the driver -/

/-- The numbers with the flag of the last one. -/
def mark : List Nat → List (Nat × Bool)
  | [] => []
  | v :: r => (v, r.isEmpty) :: mark r

theorem mark_length (l : List Nat) : (mark l).length = l.length := by
  induction l with
  | nil => rfl
  | cons v r ih => simp [mark, ih]

theorem mark_fst (l : List Nat) : (mark l).map (·.1) = l := by
  induction l with
  | nil => rfl
  | cons v r ih => simp [mark, ih]

theorem mark_eq_nil {l : List Nat} (h : mark l = []) : l = [] := by
  cases l with
  | nil => rfl
  | cons v r => cases h

/-- A part that ends with the flag is everything. -/
theorem mark_end {l : List Nat} {p : List (Nat × Bool)} {y : Nat × Bool} (hp : p <+: mark l) (hy : p.getLast? = some y)
    (h : y.2 = true) : p = mark l := by
  induction l generalizing p with
  | nil => rw [List.prefix_nil.1 hp] at hy; cases hy
  | cons v r ih =>
    cases p with
    | nil => cases hy
    | cons z p =>
      rw [mark, List.cons_prefix_cons] at hp
      obtain ⟨rfl, hp⟩ := hp
      cases p with
      | nil =>
        cases hy
        have h' : r.isEmpty = true := h
        rw [List.isEmpty_iff] at h'
        subst h'
        rfl
      | cons z' p =>
        rw [mark, ih hp (by rw [List.getLast?_cons_cons] at hy; exact hy)]

theorem mark_last {l : List Nat} (h : l ≠ []) : ∃ y, (mark l).getLast? = some y ∧ y.2 = true := by
  induction l with
  | nil => exact absurd rfl h
  | cons v r ih =>
    cases r with
    | nil => exact ⟨_, rfl, rfl⟩
    | cons v' r =>
      obtain ⟨y, h1, h2⟩ := ih (by simp)
      refine ⟨y, ?_, h2⟩
      rw [mark, mark, List.getLast?_cons_cons]
      exact h1

/-- What the driver shows. -/
def Shows (s : Source) : Prop :=
  s.valid = true → ∃ v r, s.queue = v :: r ∧ s.tdata = v ∧ s.tlast = r.isEmpty

theorem tick_source {s : Source} (hs : Shows s) (ready : Bool) :
    Shows (s.tick ready) ∧
      mark s.queue = (if ready && s.valid then [(s.tdata, s.tlast)] else []) ++ mark (s.tick ready).queue ∧
      ((s.tick ready).queue ≠ [] → (s.tick ready).valid = true) := by
  have hq : (s.tick ready).queue = if s.valid && ready then s.queue.tail else s.queue := by
    unfold Source.tick
    dsimp only
    split
    · rename_i h; exact h.symm
    · rename_i h; exact h.symm
  refine ⟨?_, ?_, ?_⟩
  · unfold Source.tick
    dsimp only
    split
    · intro h; cases h
    · rename_i v r _
      intro _
      refine ⟨v, r, rfl, rfl, ?_⟩
      rw [Bool.eq_iff_iff]
      cases r <;> simp
  · rw [hq]
    cases hv : s.valid with
    | false => simp
    | true =>
      obtain ⟨v, r, h1, h2, h3⟩ := hs hv
      cases ready <;> simp [h1, h2, h3, mark]
  · unfold Source.tick
    dsimp only
    split
    · intro h; exact absurd rfl h
    · intro _; rfl

end RadSim.AddDesign
