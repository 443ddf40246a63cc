import Verif.Model.NpuDispatch
import Verif.Spec.NpuDispatch
import Verif.Lemmas.NpuVew

/-!
# The dispatcher of the `npu`: lemmas -/

namespace RadSim.Npu

variable {I M : Type} {op : I → Bool} {get : I → M} {dflt : M}

theorem inst_tick (f : Fifo M) (ren : Bool) (hr : ren = true → f.mem ≠ []) (push : Option M) (hp : push.isSome = true → f.mem.length ≤ mopLimit) :
    ∃ f', f.tick mopLimit dflt ren push = some f' ∧ DSound mopLimit f' ∧ f'.mem = (if ren then f.mem.tail else f.mem) ++ push.toList := by
  have h1 : ¬ (ren = true ∧ f.mem = []) := fun ⟨a, b⟩ => hr a b
  unfold Fifo.tick
  rw [if_neg h1]
  have hl : (if ren then f.mem.tail else f.mem).length ≤ f.mem.length := by
    split
    · simp
    · exact Nat.le_refl _
  generalize (if ren then f.mem.tail else f.mem) = m1 at hl ⊢
  cases push with
  | none => exact ⟨_, rfl, ⟨rfl, rfl, headD_sound dflt m1⟩, by simp⟩
  | some x =>
    have := hp rfl
    simp only
    rw [if_neg (by omega)]
    exact ⟨_, rfl, ⟨rfl, rfl, headD_sound dflt _⟩, rfl⟩

structure LaneRoom (s : Lane M) : Prop where
  f : DSound mopLimit s.f
  room : s.f.mem.length + s.wen.toNat ≤ mopLimit + 1

theorem LaneRoom.tick {s : Lane M} (h : LaneRoom s) (i : LaneIn I) {x : I} (hx : i.mem[s.pc]? = some x) :
    ∃ f', s.tick op get dflt i = .ok (⟨if i.ren && !s.f.empty then some s.f.rdata else none, !s.flag && i.start⟩,
        ⟨(s.next i (op x)).1, (s.next i (op x)).2.1, (s.next i (op x)).2.2, get x, f'⟩) ∧
      LaneRoom (⟨(s.next i (op x)).1, (s.next i (op x)).2.1, (s.next i (op x)).2.2, get x, f'⟩ : Lane M) ∧
      f'.mem = (if i.ren && !s.f.empty then s.f.mem.tail else s.f.mem) ++ (if s.wen then some s.wdata else none).toList ∧
      (if i.ren && !s.f.empty then some s.f.rdata else none).toList ++ (if i.ren && !s.f.empty then s.f.mem.tail else s.f.mem) = s.f.mem := by
  have hpop : (i.ren && !s.f.empty) = true → s.f.mem ≠ [] := by
    intro e
    rw [Bool.and_eq_true, h.f.empty] at e
    intro e'
    rw [e'] at e
    cases e.2
  obtain ⟨f', e1, e2, e3⟩ := inst_tick (dflt := dflt) s.f (i.ren && !s.f.empty) hpop (if s.wen then some s.wdata else none) (by
    intro e
    have := h.room
    cases hw : s.wen with
    | false => rw [hw] at e; cases e
    | true => rw [hw, Bool.toNat_true] at this; omega)
  refine ⟨f', ?_, ⟨e2, ?_⟩, e3, ?_⟩
  · unfold Lane.tick
    rw [hx]
    simp only
    rw [e1]
  · show f'.mem.length + (s.next i (op x)).2.2.toNat ≤ mopLimit + 1
    have hl : f'.mem.length ≤ s.f.mem.length + s.wen.toNat := by
      rw [e3, List.length_append]
      have : (if (i.ren && !s.f.empty) = true then s.f.mem.tail else s.f.mem).length ≤ s.f.mem.length := by
        split
        · simp
        · exact Nat.le_refl _
      generalize (if (i.ren && !s.f.empty) = true then s.f.mem.tail else s.f.mem) = m1 at this ⊢
      cases s.wen <;> simp <;> omega
    have h0 := h.room
    cases ha : s.f.almostFull with
    | true =>
      have : (s.next i (op x)).2.2 = false := by
        unfold Lane.next
        rw [ha]
        split
        · rfl
        · split <;> rfl
      rw [this, Bool.toNat_false]
      omega
    | false =>
      rw [h.f.almostFull] at ha
      have := of_decide_eq_false ha
      have hw := Bool.toNat_le s.wen
      have hw' := Bool.toNat_le (s.next i (op x)).2.2
      omega
  · cases e : (i.ren && !s.f.empty) with
    | false => rfl
    | true =>
      cases hm : s.f.mem with
      | nil => exact absurd hm (hpop e)
      | cons y t =>
        have := h.f.rdata y t hm
        simp [this]

theorem next_pc {s : Lane M} {i : LaneIn I} {b : Bool} {n : Nat} (h : s.pc < n) (h1 : i.startPc < n) (h2 : i.endPc < n) : (s.next i b).2.1 < n := by
  unfold Lane.next
  repeat' split
  all_goals first
    | exact h
    | exact h1
    | (show s.pc + 1 < n; omega)

theorem lane_reset_room : LaneRoom (Lane.reset dflt) := ⟨⟨rfl, rfl, by (intro m t h; cases h)⟩, Nat.zero_le _⟩

theorem laneProgram_succ {mem : List I} {a c : Nat} (hac : a ≤ c) {x : I} (hx : mem[c]? = some x) :
    laneProgram op get mem a (c + 1) = laneProgram op get mem a c ++ (if op x then some (get x) else none).toList := by
  unfold laneProgram
  have hlt : c < mem.length := by
    rcases Nat.lt_or_ge c mem.length with q | q
    · exact q
    · rw [List.getElem?_eq_none q] at hx; cases hx
  rw [show c + 1 - a = c - a + 1 by omega, List.take_add_one, List.getElem?_drop, show a + (c - a) = c by omega, hx]
  rw [List.filter_append, List.map_append]
  congr 1
  cases e : op x <;> simp [e]

/-- The memory and the limits stay as they are. -/
structure LaneInv (op : I → Bool) (get : I → M) (mem : List I) (a b : Nat) (os : List (LaneOut M)) (s : Lane M) : Prop where
  room : LaneRoom s
  pc : s.pc ≤ b
  low : s.flag = true → a ≤ s.pc
  stream : ∃ n, n + s.flag.toNat = os.countP (·.begun) ∧
    os.filterMap (·.given) ++ s.f.mem ++ (if s.wen then some s.wdata else none).toList =
      (List.replicate n (laneProgram op get mem a (b + 1))).flatten ++ (if s.flag then laneProgram op get mem a s.pc else [])

/-- Cycles with the memory and the limits as they are. -/
def Steady (mem : List I) (a b : Nat) (i : LaneIn I) : Prop := i.mem = mem ∧ i.startPc = a ∧ i.endPc = b

theorem LaneInv.tick {mem : List I} {a b : Nat} (hab : a ≤ b) (hb : b < mem.length) {os : List (LaneOut M)} {s : Lane M} (h : LaneInv op get mem a b os s)
    {i : LaneIn I} (hi : Steady mem a b i) : ∃ o s', s.tick op get dflt i = .ok (o, s') ∧ LaneInv op get mem a b (os ++ [o]) s' ∧
      (s.flag = true → s.f.almostFull = false → if s.pc < b then s'.flag = true ∧ s'.pc = s.pc + 1 else s'.flag = false) := by
  obtain ⟨hm, ha, he⟩ := hi
  have hx : mem[s.pc]? = some (mem[s.pc]'(Nat.lt_of_le_of_lt h.pc hb)) := List.getElem?_eq_getElem _
  generalize hxe : mem[s.pc]'(Nat.lt_of_le_of_lt h.pc hb) = x at hx
  obtain ⟨f', e1, e2, e3, e4⟩ := h.room.tick (op := op) (get := get) (dflt := dflt) i (x := x) (by rw [hm]; exact hx)
  refine ⟨_, _, e1, ⟨e2, ?_, ?_, ?_⟩, ?_⟩
  · have := next_pc (s := s) (i := i) (b := op x) (n := b + 1) (by have := h.pc; omega) (by omega) (by omega)
    show (s.next i (op x)).2.1 ≤ b
    omega
  · show (s.next i (op x)).1 = true → a ≤ (s.next i (op x)).2.1
    unfold Lane.next
    rw [ha]
    cases hf : s.flag with
    | true =>
      have := h.low hf
      simp only [if_true]
      split
      · intro _; exact this
      · split
        · intro _; show a ≤ s.pc + 1; omega
        · intro e; cases e
    | false =>
      simp only [Bool.false_eq_true, if_false]
      split
      · intro _; exact Nat.le_refl _
      · intro e; cases e
  · obtain ⟨n, n1, n2⟩ := h.stream
    have key : (os ++ [(⟨if i.ren && !s.f.empty then some s.f.rdata else none, !s.flag && i.start⟩ : LaneOut M)]).filterMap (·.given) ++ f'.mem =
        os.filterMap (·.given) ++ s.f.mem ++ (if s.wen then some s.wdata else none).toList := by
      rw [List.filterMap_append, e3]
      have : [(⟨if i.ren && !s.f.empty then some s.f.rdata else none, !s.flag && i.start⟩ : LaneOut M)].filterMap (·.given) =
          (if i.ren && !s.f.empty then some s.f.rdata else none).toList := by
        cases (i.ren && !s.f.empty) <;> rfl
      rw [this]
      conv => rhs; rw [← e4]
      simp only [List.append_assoc]
    simp only
    rw [key, n2, List.countP_append]
    unfold Lane.next
    rw [ha, he]
    cases hf : s.flag with
    | false =>
      rw [hf] at n1
      simp only [Bool.false_eq_true, if_false, Bool.not_false, Bool.true_and]
      cases hst : i.start with
      | false =>
        simp only [Bool.false_eq_true, if_false]
        refine ⟨n, ?_, ?_⟩
        · rw [n1]; rfl
        · simp
      | true =>
        simp only [if_true]
        refine ⟨n, ?_, ?_⟩
        · rw [← n1]; rfl
        · simp [laneProgram]
    | true =>
      rw [hf] at n1
      have hlow := h.low hf
      simp only [if_true, Bool.not_true, Bool.false_and]
      have h0 : List.countP (fun x => x.begun) [(⟨if (i.ren && !s.f.empty) = true then some s.f.rdata else none, false⟩ : LaneOut M)] = 0 := rfl
      rw [h0]
      cases haf : s.f.almostFull with
      | true =>
        simp only [if_true]
        refine ⟨n, by rw [n1]; rfl, ?_⟩
        simp
      | false =>
        simp only [Bool.false_eq_true, if_false]
        by_cases hpc : s.pc < b
        · rw [if_pos hpc]
          refine ⟨n, by rw [n1]; rfl, ?_⟩
          simp only [if_true]
          rw [laneProgram_succ hlow hx, List.append_assoc]
        · rw [if_neg hpc]
          have e : s.pc = b := by have := h.pc; omega
          refine ⟨n + 1, ?_, ?_⟩
          · rw [← n1]; rfl
          · simp only [Bool.false_eq_true, if_false, List.append_nil]
            rw [List.replicate_succ', List.flatten_append, List.flatten_singleton, ← e, laneProgram_succ hlow hx]
            simp only [List.append_assoc]
  · intro hf haf
    show if s.pc < b then (s.next i (op x)).1 = true ∧ (s.next i (op x)).2.1 = s.pc + 1 else (s.next i (op x)).1 = false
    unfold Lane.next
    rw [hf, haf, he]
    simp only [if_true, Bool.false_eq_true, if_false]
    split
    · exact ⟨rfl, rfl⟩
    · rfl

theorem LaneInv.run {mem : List I} {a b : Nat} (hab : a ≤ b) (hb : b < mem.length) : ∀ (es : List (LaneIn I)) {os : List (LaneOut M)} {s : Lane M},
    LaneInv op get mem a b os s → (∀ i ∈ es, Steady mem a b i) →
    ∃ os' s', s.run op get dflt es = .ok (os', s') ∧ LaneInv op get mem a b (os ++ os') s'
  | [], os, s, h, _ => ⟨[], s, rfl, by rw [List.append_nil]; exact h⟩
  | i :: es, os, s, h, hi => by
    obtain ⟨o, s1, e1, i1, _⟩ := h.tick (dflt := dflt) hab hb (hi i (List.mem_cons_self ..))
    obtain ⟨os', s2, e2, i2⟩ := LaneInv.run hab hb es i1 (fun x hx => hi x (List.mem_cons_of_mem _ hx))
    refine ⟨o :: os', s2, ?_, ?_⟩
    · rw [Lane.run, e1]
      simp only
      rw [e2]
    · rw [List.append_assoc] at i2
      exact i2

theorem reset_inv {mem : List I} {a b : Nat} : LaneInv op get mem a b [] (Lane.reset dflt) where
  room := lane_reset_room
  pc := Nat.zero_le _
  low := by intro h; cases h
  stream := ⟨0, rfl, rfl⟩

/-- With a reader that always reads, the FIFO has at most one macro-op. -/
theorem tick_short {s s' : Lane M} {o : LaneOut M} {i : LaneIn I} (hr : LaneRoom s) (hs : s.f.mem.length ≤ 1) (hi : i.ren = true)
    (h : s.tick op get dflt i = .ok (o, s')) : s'.f.mem.length ≤ s.wen.toNat := by
  unfold Lane.tick at h
  cases hx : i.mem[s.pc]? with
  | none => rw [hx] at h; cases h
  | some x =>
    obtain ⟨f', e1, _, e3, _⟩ := hr.tick (op := op) (get := get) (dflt := dflt) i hx
    unfold Lane.tick at e1
    rw [e1] at h
    cases h
    show f'.mem.length ≤ _
    rw [e3, hi, hr.f.empty, List.length_append]
    cases hm : s.f.mem with
    | nil => cases s.wen <;> simp
    | cons y t =>
      rw [hm] at hs
      simp only [List.length_cons] at hs
      have : t = [] := List.eq_nil_of_length_eq_zero (by omega)
      subst this
      cases s.wen <;> simp

end RadSim.Npu
