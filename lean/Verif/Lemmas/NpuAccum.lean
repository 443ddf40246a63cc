import Verif.Spec.NpuAccum
import Verif.Lemmas.NpuDecode

/-! # Lemmas on the accumulator -/

namespace RadSim.Npu

variable {A : Type} [Add A]

namespace Acc

/-- The entry after `a` of those written: the next one, or the first after at least the third. -/
def Nx (a b : Nat) : Prop := b = a + 1 ∨ (b = 0 ∧ 2 ≤ a)

/-- A stage writes. -/
def app (m : List A) (s : AccStage A) (w : A) : List A := if s.valid then m.set s.addr w else m

/-- What a stage will have written. -/
def val (s : AccStage A) (r : A) : A := if accSets s.op then s.x else s.x + r

def m1 (a : Acc A) : List A := app a.mem a.s2 a.wdata
def m2 (a : Acc A) : List A := app a.m1 a.s1 (val a.s1 a.rdata)
def w0 (a : Acc A) : A := AccSpec.value a.m2 a.s0.addr a.s0.op a.s0.x
def m3 (a : Acc A) : List A := app a.m2 a.s0 a.w0

/-- What a stage will have put out. -/
def emit (s : AccStage A) (w : A) : List A := if s.valid && accWrites s.op then [w] else []

/-- What is to be put out still. -/
def pend (a : Acc A) : List A := emit a.s2 a.wdata ++ emit a.s1 (val a.s1 a.rdata) ++ emit a.s0 a.w0

/-- The pipeline, with what is still in it written, is the machine of the specification. -/
structure Inv (a : Acc A) (s : AccSpec A) : Prop where
  len : a.mem.length = 24
  ptr : a.raddr = s.ptr
  lt : s.ptr < 24
  lt0 : a.s0.addr < 24
  lt1 : a.s1.addr < 24
  lt2 : a.s2.addr < 24
  mem : s.mem = a.m3
  read : a.s1.valid = true → a.m1[a.s1.addr]? = some a.rdata
  n0 : a.s0.valid = true → Nx a.s0.addr s.ptr
  n1 : a.s1.valid = true → Nx a.s1.addr (if a.s0.valid then a.s0.addr else s.ptr)
  n2 : a.s2.valid = true → Nx a.s2.addr (if a.s1.valid then a.s1.addr else if a.s0.valid then a.s0.addr else s.ptr)

omit [Add A] in
theorem app_length (m : List A) (s : AccStage A) (w : A) : (app m s w).length = m.length := by
  unfold app
  split <;> simp

omit [Add A] in
theorem app_ne (m : List A) (s : AccStage A) (w : A) {k : Nat} (h : s.valid = true → s.addr ≠ k) : (app m s w)[k]? = m[k]? := by
  unfold app
  split
  · rename_i hv
    rw [List.getElem?_set_ne (h hv)]
  · rfl

theorem sets_iff (op : Nat) : accSets op = true ↔ op = 0 ∨ op = 3 := by simp [accSets]

theorem writes_iff (op : Nat) : accWrites op = true ↔ op = 2 ∨ op = 3 := by simp [accWrites]

theorem value_eq {m : List A} {st : AccStage A} {r : A} (h : m[st.addr]? = some r) :
    AccSpec.value m st.addr st.op st.x = val st r := by
  unfold AccSpec.value val
  simp only [sets_iff, h]

/-- One cycle. -/
theorem step {a : Acc A} {s : AccSpec A} (h : Inv a s) (i : AccIn A) (hs : i.size ≤ 24)
    (hv : i.valid = true → 3 ≤ i.size ∧ s.ptr < i.size) :
    ∃ a', a.tick i = some a' ∧ Inv a' (if i.valid then (s.put i).2 else s) ∧
      a.out ++ a'.pend = a.pend ++ (if i.valid then (s.put i).1 else []) := by
  have hr : a.mem[a.s0.addr]? = some (a.mem[a.s0.addr]'(by rw [h.len]; exact h.lt0)) := List.getElem?_eq_getElem _
  generalize a.mem[a.s0.addr]'(by rw [h.len]; exact h.lt0) = r at hr
  have hm2 : a.s0.valid = true → a.m2[a.s0.addr]? = some r := by
    intro h0
    have d1 : a.s1.valid = true → a.s1.addr ≠ a.s0.addr := by
      intro h1
      have := h.n1 h1
      rw [if_pos h0] at this
      rcases this with hh | hh <;> omega
    have d2 : a.s2.valid = true → a.s2.addr ≠ a.s0.addr := by
      intro h2
      have g2 := h.n2 h2
      by_cases h1 : a.s1.valid = true
      · have g1 := h.n1 h1
        rw [if_pos h0] at g1
        rw [if_pos h1] at g2
        rcases g1 with hh | hh <;> rcases g2 with gg | gg <;> omega
      · rw [if_neg h1, if_pos h0] at g2
        rcases g2 with gg | gg <;> omega
    unfold m2 m1
    rw [app_ne _ _ _ d1, app_ne _ _ _ d2, hr]
  have hw0 : a.s0.valid = true → a.w0 = val a.s0 r := fun h0 => value_eq (hm2 h0)
  have hm3 : a.m3 = app a.m2 a.s0 (val a.s0 r) := by
    unfold m3
    by_cases h0 : a.s0.valid = true
    · rw [hw0 h0]
    · simp only [app, if_neg h0]
  have hlt2 : ¬ (a.s2.valid = true ∧ a.mem.length ≤ a.s2.addr) := by
    have := h.lt2
    have := h.len
    omega
  have hptr : i.valid = true → (if a.raddr == pred i.size then 0 else (a.raddr + 1) % 2 ^ 5) =
      if s.ptr + 1 = i.size then 0 else s.ptr + 1 := by
    intro hi
    obtain ⟨q1, q2⟩ := hv hi
    have hp : pred i.size = i.size - 1 := by unfold pred; omega
    rw [h.ptr, hp]
    by_cases hc : s.ptr + 1 = i.size
    · rw [if_pos hc, if_pos (by simp only [beq_iff_eq]; omega)]
    · rw [if_neg hc, if_neg (by simp only [beq_iff_eq]; omega)]
      omega
  refine ⟨_, by unfold tick; rw [if_neg (by show ¬ 24 < i.size; omega), hr]; simp only; rw [if_neg hlt2], ?_, ?_⟩
  · by_cases hi : i.valid = true
    · obtain ⟨q1, q2⟩ := hv hi
      have hnx : Nx s.ptr (s.put i).2.ptr := by
        show Nx s.ptr (if s.ptr + 1 = i.size then 0 else s.ptr + 1)
        unfold Nx
        split <;> omega
      rw [show (if i.valid then (s.put i).2 else s) = (s.put i).2 from if_pos hi]
      refine ⟨?_, ?_, ?_, ?_, h.lt0, h.lt1, ?_, ?_, ?_, ?_, ?_⟩
      · show (app a.mem a.s2 a.wdata).length = 24
        rw [app_length, h.len]
      · show (if i.valid then _ else a.raddr) = _
        rw [if_pos hi, hptr hi]
        rfl
      · show (if s.ptr + 1 = i.size then 0 else s.ptr + 1) < 24
        split <;> omega
      · show a.raddr < 24
        rw [h.ptr]
        exact h.lt
      · show s.mem.set s.ptr (AccSpec.value s.mem s.ptr i.op i.x) = app (app a.m2 a.s0 (val a.s0 r)) ⟨a.raddr, i.valid, i.op, i.x⟩
          (AccSpec.value (app a.m2 a.s0 (val a.s0 r)) a.raddr i.op i.x)
        rw [← hm3, ← h.mem, h.ptr]
        unfold app
        simp only [hi, ↓reduceIte]
      · exact hm2
      · intro _
        show Nx a.raddr _
        rw [h.ptr]
        exact hnx
      · intro h0
        show Nx a.s0.addr (if i.valid then a.raddr else _)
        rw [if_pos hi, h.ptr]
        exact h.n0 h0
      · intro h1
        show Nx a.s1.addr (if a.s0.valid then a.s0.addr else if i.valid then a.raddr else _)
        rw [if_pos hi, h.ptr]
        exact h.n1 h1
    · rw [show (if i.valid then (s.put i).2 else s) = s from if_neg hi]
      refine ⟨?_, ?_, h.lt, ?_, h.lt0, h.lt1, ?_, ?_, ?_, ?_, ?_⟩
      · show (app a.mem a.s2 a.wdata).length = 24
        rw [app_length, h.len]
      · show (if i.valid then _ else a.raddr) = _
        rw [if_neg hi, h.ptr]
      · show a.raddr < 24
        rw [h.ptr]
        exact h.lt
      · show s.mem = app (app a.m2 a.s0 (val a.s0 r)) ⟨a.raddr, i.valid, i.op, i.x⟩ _
        rw [← hm3, ← h.mem]
        unfold app
        rw [if_neg hi]
      · exact hm2
      · intro h9
        exact absurd h9 hi
      · intro h0
        show Nx a.s0.addr (if i.valid then a.raddr else _)
        rw [if_neg hi]
        exact h.n0 h0
      · intro h1
        show Nx a.s1.addr (if a.s0.valid then a.s0.addr else if i.valid then a.raddr else _)
        rw [if_neg hi]
        exact h.n1 h1
  · show emit a.s2 a.wdata ++ (emit a.s1 (val a.s1 a.rdata) ++ emit a.s0 (val a.s0 r) ++ emit ⟨a.raddr, i.valid, i.op, i.x⟩
      (AccSpec.value (app a.m2 a.s0 (val a.s0 r)) a.raddr i.op i.x)) = _
    have e0 : emit a.s0 (val a.s0 r) = emit a.s0 a.w0 := by
      by_cases h0 : a.s0.valid = true
      · rw [hw0 h0]
      · simp [emit, h0]
    rw [e0, ← hm3, ← h.mem, h.ptr]
    unfold pend
    simp only [List.append_assoc]
    congr 3
    by_cases hi : i.valid = true
    · simp only [emit, hi, Bool.true_and, ↓reduceIte, writes_iff, AccSpec.put]
    · simp [emit, hi]

/-- The partial sums among the inputs. -/
def fed (es : List (Option (AccIn A))) : List (AccIn A) := (es.filterMap id).filter (·.valid)

/-- A sequence of cycles. -/
theorem run_ok : ∀ (es : List (Option (AccIn A))) {a : Acc A} {s : AccSpec A}, Inv a s → (∀ i, some i ∈ es → i.size ≤ 24) →
    s.Fits (fed es) → ∃ o a', a.run es = some (o, a') ∧ Inv a' (s.run (fed es)).2 ∧ o ++ a'.pend = a.pend ++ (s.run (fed es)).1
  | [], a, s, h, _, _ => ⟨[], a, rfl, h, by simp [fed, AccSpec.run]⟩
  | none :: es, a, s, h, hs, hf => by
    obtain ⟨o, a', h1, h2, h3⟩ := run_ok es h (fun i hi => hs i (by simp [hi])) hf
    exact ⟨o, a', h1, h2, h3⟩
  | some i :: es, a, s, h, hs, hf => by
    have hfed : fed (some i :: es) = if i.valid then i :: fed es else fed es := by
      unfold fed
      simp only [List.filterMap_cons_some (f := id) rfl, List.filter_cons]
    rw [hfed] at hf ⊢
    obtain ⟨a1, g1, g2, g3⟩ := step h i (hs i (by simp)) (fun hi => by
      rw [if_pos hi] at hf
      exact ⟨hf.1, hf.2.2.1⟩)
    obtain ⟨o, a', h1, h2, h3⟩ := run_ok es g2 (fun i hi => hs i (by simp [hi])) (by
      by_cases hi : i.valid = true
      · rw [if_pos hi] at hf ⊢
        exact hf.2.2.2
      · rw [if_neg hi] at hf ⊢
        exact hf)
    refine ⟨a.out ++ o, a', by simp only [run, g1, h1], ?_, ?_⟩
    · by_cases hi : i.valid = true
      · rw [if_pos hi] at h2 ⊢
        exact h2
      · rw [if_neg hi] at h2 ⊢
        exact h2
    · rw [List.append_assoc, h3, ← List.append_assoc, g3]
      by_cases hi : i.valid = true
      · simp only [if_pos hi, List.append_assoc]
        rfl
      · simp only [if_neg hi, List.append_assoc, List.nil_append]

/-- A cycle without a partial sum. -/
theorem tick_idle {a : Acc A} {i : AccIn A} {a' : Acc A} (h : a.tick i = some a') : a'.s1 = a.s0 ∧ a'.s2 = a.s1 ∧ a'.s0.valid = i.valid := by
  unfold tick at h
  split at h
  · cases h
  · split at h
    · cases h
    · split at h
      · cases h
      · injection h with h
        subst h
        exact ⟨rfl, rfl, rfl⟩

/-- Nothing is left in the pipeline after three cycles without a partial sum. -/
theorem drained {a a1 a2 a3 : Acc A} {i j k : AccIn A} (hi : i.valid = false) (hj : j.valid = false) (hk : k.valid = false)
    (h1 : a.tick i = some a1) (h2 : a1.tick j = some a2) (h3 : a2.tick k = some a3) : a3.pend = [] := by
  obtain ⟨_, _, e1⟩ := tick_idle h1
  obtain ⟨f2, _, e2⟩ := tick_idle h2
  obtain ⟨f3, g3, e3⟩ := tick_idle h3
  rw [hi] at e1
  rw [hj] at e2
  rw [hk] at e3
  simp [pend, emit, e3, f3, e2, g3, f2, e1]

end Acc

namespace AccSpec

theorem run_append (s : AccSpec A) (is js : List (AccIn A)) :
    s.run (is ++ js) = ((s.run is).1 ++ ((s.run is).2.run js).1, ((s.run is).2.run js).2) := by
  induction is generalizing s with
  | nil => simp [run]
  | cons i is ih => simp only [List.cons_append, run, ih, List.append_assoc]

theorem fits_append (s : AccSpec A) (is js : List (AccIn A)) : s.Fits (is ++ js) ↔ s.Fits is ∧ (s.run is).2.Fits js := by
  induction is generalizing s with
  | nil => simp [run, Fits]
  | cons i is ih => simp only [List.cons_append, run, Fits, ih, and_assoc]

/-- One word of each row. -/
def pass (op n : Nat) (y : Nat → A) (k : Nat) : List (AccIn A) := (List.range k).map fun p => ⟨true, op, n, y p⟩

theorem pass_run {s : AccSpec A} {n op : Nat} (y : Nat → A) (hn : n ≤ 24) (hn3 : 3 ≤ n) (hp : s.ptr = 0)
    (hl : s.mem.length = 24) : ∀ k, k ≤ n →
    s.Fits (pass op n y k) ∧ (s.run (pass op n y k)).2.ptr = (if k = n then 0 else k) ∧
      (s.run (pass op n y k)).2.mem.length = 24 ∧
      (∀ q, (s.run (pass op n y k)).2.mem[q]? = if q < k then some (value s.mem q op (y q)) else s.mem[q]?) ∧
      (s.run (pass op n y k)).1 = if op = 2 ∨ op = 3 then (List.range k).map fun q => value s.mem q op (y q) else [] := by
  intro k
  induction k with
  | zero =>
    intro _
    simp [pass, run, Fits, hp, hl]
  | succ k ih =>
    intro hk
    obtain ⟨h1, h2, h3, h4, h5⟩ := ih (by omega)
    have hsplit : pass op n y (k + 1) = pass op n y k ++ [⟨true, op, n, y k⟩] := by
      simp [pass, List.range_succ]
    rw [if_neg (by omega)] at h2
    have hval : value (s.run (pass op n y k)).2.mem k op (y k) = value s.mem k op (y k) := by
      unfold value
      rw [h4 k, if_neg (Nat.lt_irrefl k)]
    rw [hsplit, fits_append, run_append]
    refine ⟨⟨h1, hn3, hn, by rw [h2]; exact hk, trivial⟩, ?_, ?_, ?_, ?_⟩
    · show (if _ + 1 = n then 0 else _ + 1) = _
      rw [h2]
    · show (List.set _ _ _).length = 24
      rw [List.length_set, h3]
    · intro q
      show (List.set _ (s.run (pass op n y k)).2.ptr (value _ (s.run (pass op n y k)).2.ptr op (y k)))[q]? = _
      rw [h2, hval, List.getElem?_set]
      by_cases hq : k = q
      · subst hq
        rw [if_pos rfl, if_pos (by rw [h3]; omega), if_pos (by omega)]
      · rw [if_neg hq, h4 q]
        by_cases hqk : q < k
        · rw [if_pos hqk, if_pos (by omega)]
        · rw [if_neg hqk, if_neg (by omega)]
    · show _ ++ ((if op = 2 ∨ op = 3 then [value _ (s.run (pass op n y k)).2.ptr op (y k)] else []) ++ []) = _
      rw [h2, hval, h5, List.append_nil]
      split
      · rw [List.range_succ, List.map_append]
        rfl
      · rfl

theorem accOp_zero (V : Nat) : accOp V 0 = 0 ∨ accOp V 0 = 3 := by
  unfold accOp
  repeat' split
  all_goals omega

theorem accOp_pos {V k : Nat} (h : 0 < k) (hk : k < V) : ¬ (accOp V k = 0 ∨ accOp V k = 3) := by
  unfold accOp
  repeat' split
  all_goals omega

theorem accOp_last {V k : Nat} (h : k + 1 = V) : accOp V k = 2 ∨ accOp V k = 3 := by
  unfold accOp
  repeat' split
  all_goals omega

theorem accOp_not {V k : Nat} (hk : k < V) (h : ¬ k + 1 = V) : ¬ (accOp V k = 2 ∨ accOp V k = 3) := by
  unfold accOp
  repeat' split
  all_goals omega

/-- The words `v < k` of each row. -/
def passes (n V : Nat) (x : Nat → Nat → A) (k : Nat) : List (AccIn A) :=
  (List.range k).flatMap fun v => (List.range n).map fun p => ⟨true, accOp V v, n, x v p⟩

theorem passes_run {s : AccSpec A} {n V : Nat} (x : Nat → Nat → A) (hn : n ≤ 24) (hn3 : 3 ≤ n) (hp : s.ptr = 0)
    (hl : s.mem.length = 24) : ∀ k, k ≤ V →
    s.Fits (passes n V x k) ∧ (s.run (passes n V x k)).2.ptr = 0 ∧ (s.run (passes n V x k)).2.mem.length = 24 ∧
      (∀ q, q < n → 0 < k → (s.run (passes n V x k)).2.mem[q]? = some (total (fun v => x v q) (k - 1))) ∧
      (s.run (passes n V x k)).1 = if k = V ∧ 0 < k then (List.range n).map fun q => total (fun v => x v q) (V - 1) else [] := by
  intro k
  induction k with
  | zero =>
    intro _
    simp [passes, run, Fits, hp, hl]
  | succ k ih =>
    intro hk
    obtain ⟨h1, h2, h3, h4, h5⟩ := ih (by omega)
    have hsplit : passes n V x (k + 1) = passes n V x k ++ pass (accOp V k) n (x k) n := by
      simp [passes, pass, List.range_succ]
    obtain ⟨g1, g2, g3, g4, g5⟩ := pass_run (op := accOp V k) (x k) hn hn3 h2 h3 n (Nat.le_refl n)
    rw [if_neg (by omega)] at h5
    have hval : ∀ q, q < n → value (s.run (passes n V x k)).2.mem q (accOp V k) (x k q) = total (fun v => x v q) k := by
      intro q hq
      unfold value
      rcases Nat.eq_zero_or_pos k with h0 | h0
      · subst h0
        rw [if_pos (accOp_zero V)]
        rfl
      · rw [if_neg (accOp_pos h0 (by omega)), h4 q hq h0]
        obtain ⟨k', rfl⟩ : ∃ k', k = k' + 1 := ⟨k - 1, by omega⟩
        rfl
    rw [hsplit, fits_append, run_append]
    refine ⟨⟨h1, g1⟩, ?_, g3, ?_, ?_⟩
    · rw [if_pos rfl] at g2
      exact g2
    · intro q hq _
      rw [g4 q, if_pos hq, hval q hq]
      rfl
    · show (s.run (passes n V x k)).1 ++ _ = _
      rw [h5, g5, List.nil_append]
      by_cases hc : k + 1 = V
      · rw [if_pos (accOp_last hc), if_pos ⟨hc, by omega⟩]
        apply List.map_congr_left
        intro q hq
        rw [hval q (List.mem_range.1 hq)]
        congr 1
        omega
      · rw [if_neg (accOp_not (by omega) hc), if_neg (fun h => hc h.1)]

/-- A group of rows. -/
theorem group_run {s : AccSpec A} {n V : Nat} (x : Nat → Nat → A) (hn : n ≤ 24) (hn3 : 3 ≤ n) (hV : 1 ≤ V) (hp : s.ptr = 0)
    (hl : s.mem.length = 24) :
    s.Fits (groupIn n V x) ∧ (s.run (groupIn n V x)).2.ptr = 0 ∧ (s.run (groupIn n V x)).2.mem.length = 24 ∧
      (s.run (groupIn n V x)).1 = (List.range n).map fun q => total (fun v => x v q) (V - 1) := by
  obtain ⟨h1, h2, h3, _, h5⟩ := passes_run x hn hn3 hp hl V (Nat.le_refl V)
  rw [if_pos ⟨rfl, hV⟩] at h5
  exact ⟨h1, h2, h3, h5⟩

/-- A sequence of groups. -/
theorem groups_run {V : Nat} (hV : 1 ≤ V) (n : Nat → Nat) (hn : ∀ g, 3 ≤ n g ∧ n g ≤ 24) (x : Nat → Nat → Nat → A) {s : AccSpec A}
    (hp : s.ptr = 0) (hl : s.mem.length = 24) : ∀ k,
    s.Fits ((List.range k).flatMap fun g => groupIn (n g) V (x g)) ∧
      (s.run ((List.range k).flatMap fun g => groupIn (n g) V (x g))).2.ptr = 0 ∧
      (s.run ((List.range k).flatMap fun g => groupIn (n g) V (x g))).2.mem.length = 24 ∧
      (s.run ((List.range k).flatMap fun g => groupIn (n g) V (x g))).1 =
        (List.range k).flatMap fun g => (List.range (n g)).map fun q => total (fun v => x g v q) (V - 1) := by
  intro k
  induction k with
  | zero => simp [run, Fits, hp, hl]
  | succ k ih =>
    obtain ⟨h1, h2, h3, h4⟩ := ih
    obtain ⟨g1, g2, g3, g4⟩ := group_run (x k) (hn k).2 (hn k).1 hV h2 h3
    rw [List.range_succ, List.flatMap_append, List.flatMap_singleton, fits_append, run_append, List.flatMap_append,
      List.flatMap_singleton]
    exact ⟨⟨h1, g1⟩, g2, g3, by rw [h4, g4]⟩

/-- The rows of the groups are the rows. -/
theorem rows_order {m : MvuMop} (hm : m.Legal) {B : Type} (h : Nat → B) :
    ((List.range m.groups).flatMap fun g => (List.range (m.rows g)).map fun p => h (12 * g + p)) =
      (List.range m.wordsPerRow).map h := by
  have key : ∀ k, k + 1 ≤ m.groups → ((List.range k).flatMap fun g => (List.range (m.rows g)).map fun p => h (12 * g + p)) =
      (List.range (12 * k)).map h := by
    intro k
    induction k with
    | zero => intro _; rfl
    | succ k ih =>
      intro hk
      rw [List.range_succ, List.flatMap_append, List.flatMap_singleton, ih (by omega)]
      have hr : m.rows k = 12 := by
        unfold MvuMop.rows
        rw [if_neg (by omega)]
      rw [hr, show 12 * (k + 1) = 12 * k + 12 by omega, List.range_add, List.map_append, List.map_map]
      rfl
  obtain ⟨h1, h2, h3, h4⟩ := hm
  have hg : m.groups = m.groups - 1 + 1 := by
    unfold MvuMop.groups
    omega
  rw [hg, List.range_succ, List.flatMap_append, List.flatMap_singleton, key _ (by omega)]
  have hr : m.rows (m.groups - 1) = 12 + m.wordsPerRow % 12 := by
    unfold MvuMop.rows
    rw [if_pos (by omega)]
  have hW : m.wordsPerRow = 12 * (m.groups - 1) + m.rows (m.groups - 1) := by
    rw [hr]
    unfold MvuMop.groups at *
    omega
  conv => rhs; rw [hW]
  rw [List.range_add, List.map_append, List.map_map]
  rfl

/-- A list of macro-ops. -/
theorem feed_run (P : Nat → Nat → Nat → A) : ∀ (ms : List MvuMop) (k : Nat) {s : AccSpec A}, (∀ m ∈ ms, m.Legal) → s.ptr = 0 →
    s.mem.length = 24 → s.Fits (sectorFeed P k ms) ∧ (s.run (sectorFeed P k ms)).1 = sectorRows P k ms
  | [], k, s, _, _, _ => ⟨trivial, rfl⟩
  | m :: ms, k, s, hm, hp, hl => by
    have hL := hm m (by simp)
    obtain ⟨h1, h2, h3, h4⟩ := groups_run hL.1 m.rows (fun g => by unfold MvuMop.rows; split <;> omega)
      (fun g v p => P k (12 * g + p) v) hp hl m.groups
    have hro := rows_order hL fun r => total (fun v => P k r v) (m.vrfSize - 1)
    obtain ⟨f1, f2⟩ := feed_run P ms (k + 1) (fun m' h' => hm m' (by simp [h'])) h2 h3
    refine ⟨(fits_append _ _ _).2 ⟨h1, f1⟩, ?_⟩
    show (s.run (_ ++ _)).1 = _
    rw [run_append]
    show _ ++ _ = _ ++ _
    rw [← f2, ← hro]
    congr 1

omit [Add A] in
/-- What it is fed with is what the micro-ops say. -/
theorem feed_uops (P : Nat → Nat → Nat → A) : ∀ (ms : List MvuMop) (k : Nat) (reg : Bool), (∀ m ∈ ms, m.op = true) →
    (sectorFeed P k ms).map (fun i => (i.op, i.size)) = (expandAll MvuMop.expand reg ms).1.map fun u => (u.accumOp, u.accumSize)
  | [], _, _, _ => rfl
  | m :: ms, k, reg, hm => by
    have ho := hm m (by simp)
    have ih := feed_uops P ms (k + 1) (m.expand reg).2 (fun m' h' => hm m' (by simp [h']))
    show List.map _ (_ ++ _) = List.map _ (_ ++ _)
    rw [List.map_append, List.map_append, ih]
    congr 1
    unfold MvuMop.expand
    rw [if_pos ho]
    simp only [List.map_flatMap, List.map_map]
    rfl

end AccSpec
end RadSim.Npu
