import Verif.Lemmas.NpuDispatch
import Verif.Model.NpuInst

/-!
# The dispatcher of the VLIW instructions of the example design `npu`

C141. -/

namespace RadSim.Npu

variable {I M : Type} {op : I → Bool} {get : I → M} {dflt : M}

theorem lane_no_error {n : Nat} : ∀ (es : List (LaneIn I)) {s : Lane M}, LaneRoom s → s.pc < n →
    (∀ i ∈ es, i.mem.length = n ∧ i.startPc < n ∧ i.endPc < n) → ∃ os s', s.run op get dflt es = .ok (os, s') ∧ os.length = es.length
  | [], s, _, _, _ => ⟨[], s, rfl, rfl⟩
  | i :: es, s, h, hp, hi => by
    obtain ⟨h1, h2, h3⟩ := hi i (List.mem_cons_self ..)
    obtain ⟨f', e1, e2, _⟩ := h.tick (op := op) (get := get) (dflt := dflt) i (List.getElem?_eq_getElem (by omega))
    obtain ⟨os, s', e3, e4⟩ := lane_no_error es e2 (next_pc hp h2 h3) fun x hx => hi x (List.mem_cons_of_mem _ hx)
    refine ⟨⟨if i.ren && !s.f.empty then some s.f.rdata else none, !s.flag && i.start⟩ :: os, s', ?_, by rw [List.length_cons, List.length_cons, e4]⟩
    rw [Lane.run, e1]
    simp only
    rw [e3]

/-- Whatever is written to the memory, whenever it is started, and however the reader reads, there is no error as long as the limits of the program are inside the memory of `n`
instructions: the FIFO does not overflow, though it is written one cycle after it has been looked at. -/
theorem C141_no_error {n : Nat} (hn : 0 < n) (es : List (LaneIn I)) (hi : ∀ i ∈ es, i.mem.length = n ∧ i.startPc < n ∧ i.endPc < n) :
    ∃ os s', (Lane.reset dflt).run op get dflt es = .ok (os, s') ∧ os.length = es.length :=
  lane_no_error es lane_reset_room hn hi

/-- With a program that is not changed while it is dispatched, the reader gets the macro-ops of its block of the instructions from `start_pc` to `end_pc`, `end_pc` included, each once and in order,
once for every start that is taken; what has not been read yet is in the FIFO or in the register before it, and of the program that is under way it is what is before the program counter. -/
theorem C141_order {mem : List I} {a b : Nat} (hab : a ≤ b) (hb : b < mem.length) (es : List (LaneIn I)) (hi : ∀ i ∈ es, Steady mem a b i) {os : List (LaneOut M)} {s' : Lane M}
    (h : (Lane.reset dflt).run op get dflt es = .ok (os, s')) :
    ∃ n, n + s'.flag.toNat = os.countP (·.begun) ∧
      os.filterMap (·.given) ++ s'.f.mem ++ (if s'.wen then some s'.wdata else none).toList =
        (List.replicate n (laneProgram op get mem a (b + 1))).flatten ++ (if s'.flag then laneProgram op get mem a s'.pc else []) := by
  obtain ⟨os', s'', e, i⟩ := LaneInv.run (op := op) (get := get) (dflt := dflt) hab hb es reset_inv hi
  rw [e] at h
  cases h
  rw [List.nil_append] at i
  exact i.stream

/-- Nothing is held up without need: a start is taken when nothing is under way, and in every cycle in which the FIFO has fewer than 502 macro-ops the program goes on by one instruction or ends. -/
theorem C141_progress {mem : List I} {a b : Nat} (hab : a ≤ b) (hb : b < mem.length) (es : List (LaneIn I)) (hi : ∀ i ∈ es, Steady mem a b i) {os : List (LaneOut M)} {s' : Lane M}
    (h : (Lane.reset dflt).run op get dflt es = .ok (os, s')) (i : LaneIn I) (hi' : Steady mem a b i) :
    ∃ o s'', s'.tick op get dflt i = .ok (o, s'') ∧ (s'.flag = false → i.start = true → o.begun = true) ∧
      (s'.flag = true → s'.f.mem.length < 502 → if s'.pc < b then s''.flag = true ∧ s''.pc = s'.pc + 1 else s''.flag = false) ∧
      (∀ x t, s'.f.mem = x :: t → i.ren = true → o.given = some x) := by
  obtain ⟨os', s1, e, i1⟩ := LaneInv.run (op := op) (get := get) (dflt := dflt) hab hb es reset_inv hi
  rw [e] at h
  cases h
  obtain ⟨o, s2, e2, _, e4⟩ := i1.tick (dflt := dflt) hab hb hi'
  have ho : o = ⟨if i.ren && !s'.f.empty then some s'.f.rdata else none, !s'.flag && i.start⟩ := by
    unfold Lane.tick at e2
    split at e2
    · cases e2
    · simp only at e2
      split at e2
      · cases e2
      · cases e2; rfl
  refine ⟨o, s2, e2, ?_, ?_, ?_⟩
  · intro h1 h2
    rw [ho, h1, h2]
    rfl
  · intro h1 h2
    refine e4 h1 ?_
    rw [i1.room.f.almostFull]
    exact decide_eq_false (by have : mopLimit = 502 := rfl; omega)
  · intro x t hx hren
    rw [ho]
    have := i1.room.f.rdata x t hx
    simp [hren, i1.room.f.empty, hx, this]

/-- What is left of the program. -/
def laneLeft (b : Nat) (s : Lane M) : Nat := if s.flag then b + 1 - s.pc else 0

theorem run_left {mem : List I} {a b : Nat} (hab : a ≤ b) (hb : b < mem.length) : ∀ (n : Nat) {os : List (LaneOut M)} {s : Lane M}, LaneInv op get mem a b os s → s.f.mem.length ≤ 1 →
    laneLeft b s + 2 ≤ n → ∃ os' s', s.run op get dflt (List.replicate n ⟨mem, false, a, b, true⟩) = .ok (os', s') ∧ LaneInv op get mem a b (os ++ os') s' ∧
      s'.flag = false ∧ s'.wen = false ∧ s'.f.mem = [] ∧ os'.countP (·.begun) = 0
  | 0, os, s, _, _, hn => by omega
  | n + 1, os, s, h, hs, hn => by
    obtain ⟨o, s1, e1, i1, e4⟩ := h.tick (dflt := dflt) hab hb (i := ⟨mem, false, a, b, true⟩) ⟨rfl, rfl, rfl⟩
    have hsh := tick_short h.room hs rfl e1
    have hob : o.begun = false ∧ (s.flag = false → s1.flag = false ∧ s1.wen = false) := by
      unfold Lane.tick at e1
      split at e1
      · cases e1
      · simp only at e1
        split at e1
        · cases e1
        · cases e1
          refine ⟨by simp, fun hf => ?_⟩
          simp [Lane.next, hf]
    have h1 : s1.f.mem.length ≤ 1 := Nat.le_trans hsh (Bool.toNat_le _)
    have haf : s.f.almostFull = false := by
      rw [h.room.f.almostFull]
      exact decide_eq_false (by have : mopLimit = 502 := rfl; omega)
    have glue : ∀ {m : Nat} {os' : List (LaneOut M)} {s' : Lane M}, s1.run op get dflt (List.replicate n ⟨mem, false, a, b, true⟩) = .ok (os', s') →
        s.run op get dflt (List.replicate (n + 1) ⟨mem, false, a, b, true⟩) = .ok (o :: os', s') := by
      intro m os' s' e
      rw [List.replicate_succ, Lane.run, e1]
      simp only
      rw [e]
    by_cases hl : laneLeft b s1 + 2 ≤ n
    · obtain ⟨os', s', e5, e6, e7, e8, e9, e10⟩ := run_left hab hb n i1 h1 hl
      refine ⟨o :: os', s', glue (m := 0) e5, by rw [List.append_assoc] at e6; exact e6, e7, e8, e9, ?_⟩
      rw [List.countP_cons, e10, hob.1]
      rfl
    · -- the lane has been idle already
      have hf : s.flag = false := by
        cases hf : s.flag with
        | false => rfl
        | true =>
          exfalso
          have := e4 hf haf
          have hp := h.pc
          unfold laneLeft at hn hl
          rw [hf] at hn
          simp only [if_true] at hn
          split at this
          · rw [this.1, this.2] at hl
            simp only [if_true] at hl
            omega
          · rw [this] at hl
            simp only [Bool.false_eq_true, if_false] at hl
            omega
      obtain ⟨g1, g2⟩ := hob.2 hf
      have hn1 : n = 1 := by
        unfold laneLeft at hn hl
        rw [hf] at hn
        rw [g1] at hl
        simp only [Bool.false_eq_true, if_false] at hn hl
        omega
      subst hn1
      obtain ⟨o2, s2, d1, d2, _⟩ := i1.tick (dflt := dflt) hab hb (i := ⟨mem, false, a, b, true⟩) ⟨rfl, rfl, rfl⟩
      have hsh2 := tick_short i1.room h1 rfl d1
      have hob2 : o2.begun = false ∧ s2.flag = false ∧ s2.wen = false := by
        unfold Lane.tick at d1
        split at d1
        · cases d1
        · simp only at d1
          split at d1
          · cases d1
          · cases d1
            refine ⟨by simp, ?_⟩
            simp [Lane.next, g1]
      refine ⟨[o, o2], s2, glue (m := 0) (os' := [o2]) ?_, by rw [List.append_assoc] at d2; exact d2, hob2.2.1, hob2.2.2, ?_, ?_⟩
      · rw [List.replicate_succ, List.replicate_zero, Lane.run, d1]
        rfl
      · rw [g2] at hsh2
        exact List.eq_nil_of_length_eq_zero (by simpa using hsh2)
      · rw [List.countP_cons, List.countP_cons, hob.1, hob2.1]
        rfl

/-- A program comes to its end: with a reader that always reads, after one cycle for the start, one for every instruction and two more the reader has been given the macro-ops of the program, and nothing else. -/
theorem C141_completes {mem : List I} {a b : Nat} (hab : a ≤ b) (hb : b < mem.length) (n : Nat) (hn : b + 1 - a + 2 ≤ n) :
    ∃ os s', (Lane.reset dflt).run op get dflt (⟨mem, true, a, b, true⟩ :: List.replicate n ⟨mem, false, a, b, true⟩) = .ok (os, s') ∧
      os.filterMap (·.given) = laneProgram op get mem a (b + 1) ∧ s'.flag = false := by
  obtain ⟨o, s1, e1, i1, _⟩ := (reset_inv (op := op) (get := get) (dflt := dflt) (mem := mem) (a := a) (b := b)).tick (dflt := dflt) hab hb
    (i := ⟨mem, true, a, b, true⟩) ⟨rfl, rfl, rfl⟩
  have hsh := tick_short lane_reset_room (Nat.zero_le _) rfl e1
  have hob : o.begun = true ∧ s1.flag = true ∧ s1.pc = a := by
    unfold Lane.tick at e1
    split at e1
    · cases e1
    · simp only at e1
      split at e1
      · cases e1
      · cases e1
        exact ⟨rfl, rfl, rfl⟩
  obtain ⟨os', s', e2, e3, e4, e5, e6, e7⟩ := run_left (dflt := dflt) hab hb n i1 (Nat.le_trans hsh (Bool.toNat_le _)) (by
    unfold laneLeft
    rw [hob.2.1, hob.2.2]
    exact hn)
  refine ⟨o :: os', s', ?_, ?_, e4⟩
  · rw [Lane.run, e1]
    simp only
    rw [e2]
  · obtain ⟨k, k1, k2⟩ := e3.stream
    rw [e4, e5, e6] at k2
    rw [e4] at k1
    have hk : k = 1 := by
      rw [List.nil_append, List.countP_append, List.countP_cons, hob.1, e7] at k1
      simpa using k1
    rw [hk] at k2
    simpa using k2

/-- The driver gives the size of the program as `end_pc`, which is one too far. All is well if the memory has one more instruction, and this has no macro-op for the block, as after the construction. -/
theorem C141_driver_partial (old prog : List I) {x : I} (hx : old[prog.length]? = some x) (hop : op x = false) (n : Nat) (hn : prog.length + 3 ≤ n) :
    ∃ os s', (Lane.reset dflt).run op get dflt (driverIn old prog n) = .ok (os, s') ∧ os.filterMap (·.given) = (prog.filter op).map get ∧ s'.flag = false := by
  have hlt : prog.length < old.length := by
    rcases Nat.lt_or_ge prog.length old.length with q | q
    · exact q
    · rw [List.getElem?_eq_none q] at hx; cases hx
  obtain ⟨os, s', h1, h2, h3⟩ := C141_completes (op := op) (get := get) (dflt := dflt) (mem := prog ++ old.drop prog.length) (a := 0) (b := prog.length) (Nat.zero_le _)
    (by simp; omega) n (by omega)
  refine ⟨os, s', h1, ?_, h3⟩
  rw [h2, laneProgram_succ (Nat.zero_le _) (x := x) (by rw [List.getElem?_append_right (Nat.le_refl _), Nat.sub_self, List.getElem?_drop]; exact hx), hop]
  simp [laneProgram]

/-- If a longer program has been in the memory before, the first instruction after the new one is dispatched, too. -/
theorem C141_stale_violated :
    ((Lane.reset 0).run (fun _ => true) id 0 (driverIn [7, 8, 9] [5] 6)).toOption.map (fun r => r.1.filterMap (·.given)) = some [5, 8] := by decide +kernel

theorem run_outside {mem : List I} : ∀ (k : Nat) {s : Lane M}, LaneRoom s → s.f.mem.length ≤ 1 → s.flag = true → s.pc + k = mem.length →
    s.run op get dflt (List.replicate (k + 1) ⟨mem, false, 0, mem.length, true⟩) = .error .outside
  | 0, s, _, _, _, hp => by
    rw [List.replicate_succ, Lane.run]
    unfold Lane.tick
    simp only
    rw [List.getElem?_eq_none (by omega)]
  | k + 1, s, h, hs, hf, hp => by
    obtain ⟨f', e1, e2, _⟩ := h.tick (op := op) (get := get) (dflt := dflt) ⟨mem, false, 0, mem.length, true⟩ (List.getElem?_eq_getElem (show s.pc < mem.length by omega))
    have haf : s.f.almostFull = false := by
      rw [h.f.almostFull]
      exact decide_eq_false (by have : mopLimit = 502 := rfl; omega)
    have hnx : s.next (⟨mem, false, 0, mem.length, true⟩ : LaneIn I) (op (mem[s.pc]'(by omega))) = (true, s.pc + 1, op (mem[s.pc]'(by omega))) := by
      unfold Lane.next
      rw [hf, haf]
      simp only [if_true, Bool.false_eq_true, if_false]
      rw [if_pos (by omega)]
    have hsh := tick_short h hs rfl e1
    have := run_outside (mem := mem) k e2 (Nat.le_trans hsh (Bool.toNat_le _)) (by rw [hnx]) (by rw [hnx]; show s.pc + 1 + k = _; omega)
    rw [List.replicate_succ, Lane.run, e1]
    simp only
    rw [this]

/-- If the program fills the memory, the memory is read outside. -/
theorem C141_full_violated (prog : List I) (hne : prog ≠ []) :
    (Lane.reset dflt).run op get dflt (driverIn prog prog (prog.length + 1)) = .error .outside := by
  have h0 : 0 < prog.length := List.length_pos_iff.2 hne
  obtain ⟨f', e1, e2, _⟩ := (lane_reset_room (dflt := dflt)).tick (op := op) (get := get) (dflt := dflt) ⟨prog, true, 0, prog.length, true⟩ (x := prog[0])
    (List.getElem?_eq_getElem h0)
  have hsh := tick_short lane_reset_room (Nat.zero_le _) rfl e1
  have := run_outside (op := op) (get := get) (dflt := dflt) (mem := prog) prog.length e2 (Nat.le_trans hsh (Bool.toNat_le _)) rfl (Nat.zero_add _)
  unfold driverIn
  rw [List.drop_length, List.append_nil, Lane.run, e1]
  simp only
  rw [this]

/-- A start while a program is under way is lost. -/
theorem C141_restart_violated :
    ((Lane.reset 0).run (fun _ => true) id 0 ([⟨[5, 6], true, 0, 1, true⟩, ⟨[5, 6], true, 0, 1, true⟩] ++ List.replicate 8 ⟨[5, 6], false, 0, 1, true⟩)).toOption.map
      (fun r => r.1.filterMap (·.given)) = some [5, 6] := by decide +kernel

/-! ## Examples -/

/-- Instructions with a macro-op for the block, but for the third. -/
def laneEx : List (Option Nat) := [some 4, some 5, none, some 6, some 7, none]

example : ((Lane.reset 0).run Option.isSome (·.getD 0) 0 (⟨laneEx, true, 1, 3, true⟩ :: List.replicate 5 ⟨laneEx, false, 1, 3, true⟩)).toOption.map
    (fun r => (r.1.filterMap (·.given), r.2.flag)) = some ([5, 6], false) := by decide +kernel

example : laneProgram Option.isSome (·.getD 0) laneEx 1 4 = [5, 6] := by decide

example : ((Lane.reset 0).run Option.isSome (·.getD 0) 0 (driverIn (List.replicate 8 none) laneEx 9)).toOption.map (fun r => r.1.filterMap (·.given)) = some [4, 5, 6, 7] := by decide +kernel

end RadSim.Npu
