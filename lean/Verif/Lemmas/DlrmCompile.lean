import Verif.Spec.DlrmCompile
import Verif.Lemmas.DlrmFi

/-! Lemmas about the schedule that the DLRM compiler writes. -/
namespace RadSim.Dlrm

open Spec

/-- `Fits` table by table. -/
theorem fits_cons (nd inElems numCh : Nat) (used : List Nat) (a : Nat) (t : Tab) (r : List Tab) :
    Fits nd inElems numCh used a (t :: r) ↔
      0 < t.row.len ∧ t.row.len ≤ inElems ∧ 0 < t.fifo ∧ t.fifo ≤ numCh ∧
      if nd < t.row.len then
        a = 0 ∧ t.ddr = true ∧ t.row.len % nd = 0 ∧ Fits nd inElems numCh [] 0 r
      else
        a + t.row.len ≤ nd ∧ t.fifo ∉ used ∧
        if a + t.row.len = nd then Fits nd inElems numCh [] 0 r
        else Fits nd inElems numCh (t.fifo :: used) (a + t.row.len) r := by
  rw [Fits]
  by_cases hw : nd < t.row.len
  · simp only [if_pos hw, if_pos (Or.inl hw : nd < t.row.len ∨ a + t.row.len = nd), and_assoc]
  · by_cases he : a + t.row.len = nd
    · simp only [if_neg hw, if_pos (Or.inr he : nd < t.row.len ∨ a + t.row.len = nd), if_pos he,
        and_assoc]
    · have hn : ¬ (nd < t.row.len ∨ a + t.row.len = nd) := by omega
      simp only [if_neg hw, if_neg hn, if_neg he, and_assoc]

/-- An instruction as numbers. -/
def encode (inst : Inst) : List Nat :=
  inst.flatMap fun st => [st.fifo, st.start, st.stop, if st.pop then 1 else 0]

theorem parse_encode (inst : Inst) : parseLine (encode inst) = inst := by
  induction inst with
  | nil => rfl
  | cons st r ih =>
    have : encode (st :: r) =
        st.fifo :: st.start :: st.stop :: (if st.pop then 1 else 0) :: encode r := rfl
    rw [this, parseLine, ih, if_pos (by split <;> omega)]
    cases st with
    | mk f s e p => cases p <;> rfl

theorem encode_append (a b : Inst) : encode (a ++ b) = encode a ++ encode b := by
  simp [encode]

/-- The elements an instruction copies. -/
def size (inst : Inst) : Nat := (inst.map fun st => st.stop + 1 - st.start).sum

theorem size_append (a b : Inst) : size (a ++ b) = size a + size b := by simp [size]

/-- Part `i` of `q` of a wide table. -/
def part (nd : Nat) (t : Tab) (q i : Nat) : Step := ⟨t.fifo, i * nd, (i + 1) * nd - 1, i == q - 1⟩

/-- The steps of a table. -/
def tabSteps (nd : Nat) (t : Tab) : Inst :=
  if nd < t.row.len then (List.range (t.row.len / nd)).map (part nd t (t.row.len / nd))
  else [⟨t.fifo, 0, t.row.len - 1, true⟩]

/-- The invariant of the schedule: `S` are the steps of the line under way, `L` the
lines written, `all` the steps of the tables so far. -/
structure SchedInv (nd : Nat) (inElems numCh : Nat) (used : List Nat) (a : Nat) (s : Sched)
    (S : Inst) (L : List Inst) (all : Inst) : Prop where
  step : s.step = encode S
  lines : s.lines = L.map encode
  running : s.running = a
  sizeS : size S = a
  lt : a < nd
  nil : a = 0 → S = []
  sizeL : ∀ inst ∈ L, size inst = nd
  flat : L.flatten ++ S = all
  used : ∀ st ∈ S, st.fifo ∈ used
  onceS : S.Pairwise fun x y => x.fifo ≠ 0 → x.pop = true → y.fifo ≠ x.fifo
  onceL : ∀ inst ∈ L, inst.Pairwise fun x y => x.fifo ≠ 0 → x.pop = true → y.fifo ≠ x.fifo
  okS : ∀ st ∈ S, st.fifo ≤ numCh ∧ st.stop < inElems
  okL : ∀ inst ∈ L, ∀ st ∈ inst, st.fifo ≤ numCh ∧ st.stop < inElems

theorem part_size (nd : Nat) (t : Tab) (q i : Nat) (h : 0 < nd) : size [part nd t q i] = nd := by
  simp only [size, part, List.map_cons, List.map_nil, List.sum_cons, List.sum_nil]
  have : (i + 1) * nd = i * nd + nd := by rw [Nat.add_mul, Nat.one_mul]
  omega

theorem flatten_singletons {α β : Type} (l : List α) (f : α → β) :
    (l.map fun i => [f i]).flatten = l.map f := by
  induction l with
  | nil => rfl
  | cons x xs ih => simp [ih]

theorem addTab_inv {nd inElems numCh : Nat} {used : List Nat} {a : Nat} {s : Sched} {S : Inst}
    {L : List Inst} {all : Inst} (hnd : 0 < nd)
    (h : SchedInv nd inElems numCh used a s S L all) (t : Tab) (r : List Tab)
    (hf : Fits nd inElems numCh used a (t :: r)) :
    ∃ used' a' S' L', SchedInv nd inElems numCh used' a' (addTab nd s t) S' L'
      (all ++ tabSteps nd t) ∧ Fits nd inElems numCh used' a' r := by
  rw [fits_cons] at hf
  obtain ⟨h1, h2, h3, h4, hf⟩ := hf
  by_cases hw : nd < t.row.len
  · rw [if_pos hw] at hf
    obtain ⟨ha, hddr, hmod, hf⟩ := hf
    have hS := h.nil ha
    have hq : t.row.len / nd * nd = t.row.len := by
      have := Nat.div_add_mod t.row.len nd
      rw [Nat.mul_comm]; omega
    refine ⟨[], 0, [], L ++ (List.range (t.row.len / nd)).map
      (fun i => [part nd t (t.row.len / nd) i]), ?_, hf⟩
    have hadd : addTab nd s t = ⟨0, [], s.lines ++ (List.range (t.row.len / nd)).map fun i =>
          (if i = 0 then s.step else []) ++ partNums nd t (t.row.len / nd) i⟩ := by
      unfold addTab
      simp only [if_pos hw]
      rw [if_neg (by omega)]
    rw [hadd]
    refine ⟨rfl, ?_, rfl, rfl, hnd, fun _ => rfl, ?_, ?_, ?_, ?_, ?_, ?_, ?_⟩
    · dsimp only
      rw [h.lines, List.map_append, List.map_map]
      congr 1
      apply List.map_congr_left
      intro i hi
      have hst : s.step = [] := by rw [h.step, hS]; rfl
      rw [hst]
      simp [partNums, hddr, encode, part]
    · intro inst hi
      rcases List.mem_append.mp hi with hi | hi
      · exact h.sizeL inst hi
      · obtain ⟨i, -, rfl⟩ := List.mem_map.mp hi
        exact part_size nd t _ i hnd
    · rw [List.append_nil, List.flatten_append, flatten_singletons]
      have := h.flat
      rw [hS, List.append_nil] at this
      rw [this, tabSteps, if_pos hw]
    · intro st hst; cases hst
    · exact List.Pairwise.nil
    · intro inst hi
      rcases List.mem_append.mp hi with hi | hi
      · exact h.onceL inst hi
      · obtain ⟨i, -, rfl⟩ := List.mem_map.mp hi
        exact List.pairwise_singleton _ _
    · intro st hst; cases hst
    · intro inst hi st hst
      rcases List.mem_append.mp hi with hi | hi
      · exact h.okL inst hi st hst
      · obtain ⟨i, hi', rfl⟩ := List.mem_map.mp hi
        rw [List.mem_singleton.mp hst]
        refine ⟨h4, ?_⟩
        have hi'' := List.mem_range.mp hi'
        have hle : (i + 1) * nd ≤ t.row.len / nd * nd := Nat.mul_le_mul_right _ hi''
        rw [hq] at hle
        dsimp only [part]
        omega
  · rw [if_neg hw] at hf
    obtain ⟨hle, hnot, hf⟩ := hf
    have hsz : size (S ++ [⟨t.fifo, 0, t.row.len - 1, true⟩]) = a + t.row.len := by
      rw [size_append, h.sizeS]
      simp [size]
      omega
    have honce : (S ++ [(⟨t.fifo, 0, t.row.len - 1, true⟩ : Step)]).Pairwise
        fun x y => x.fifo ≠ 0 → x.pop = true → y.fifo ≠ x.fifo := by
      rw [List.pairwise_append]
      refine ⟨h.onceS, List.pairwise_singleton _ _, ?_⟩
      intro x hx y hy _ _
      rw [List.mem_singleton.mp hy]
      intro he
      apply hnot
      dsimp only at he
      rw [he]
      exact h.used x hx
    have hok : ∀ st ∈ S ++ [(⟨t.fifo, 0, t.row.len - 1, true⟩ : Step)],
        st.fifo ≤ numCh ∧ st.stop < inElems := by
      intro st hst
      rcases List.mem_append.mp hst with hst | hst
      · exact h.okS st hst
      · rw [List.mem_singleton.mp hst]
        exact ⟨h4, by dsimp only; omega⟩
    have henc : s.step ++ [t.fifo, 0, t.row.len - 1, 1] =
        encode (S ++ [⟨t.fifo, 0, t.row.len - 1, true⟩]) := by
      rw [encode_append, h.step]; rfl
    by_cases he : a + t.row.len = nd
    · rw [if_pos he] at hf
      refine ⟨[], 0, [], L ++ [S ++ [⟨t.fifo, 0, t.row.len - 1, true⟩]], ?_, hf⟩
      have hadd : addTab nd s t = ⟨0, [], s.lines ++ [s.step ++ [t.fifo, 0, t.row.len - 1, 1]]⟩ := by
        unfold addTab
        simp only [if_neg hw, h.running]
        rw [if_pos he]
      rw [hadd]
      refine ⟨rfl, ?_, rfl, rfl, hnd, fun _ => rfl, ?_, ?_, ?_, ?_, ?_, ?_, ?_⟩
      · dsimp only
        rw [h.lines, henc, List.map_append]
        rfl
      · intro inst hi
        rcases List.mem_append.mp hi with hi | hi
        · exact h.sizeL inst hi
        · rw [List.mem_singleton.mp hi, hsz, he]
      · rw [List.append_nil, List.flatten_append, ← h.flat, tabSteps, if_neg hw]
        simp
      · intro st hst; cases hst
      · exact List.Pairwise.nil
      · intro inst hi
        rcases List.mem_append.mp hi with hi | hi
        · exact h.onceL inst hi
        · rw [List.mem_singleton.mp hi]; exact honce
      · intro st hst; cases hst
      · intro inst hi st hst
        rcases List.mem_append.mp hi with hi | hi
        · exact h.okL inst hi st hst
        · rw [List.mem_singleton.mp hi] at hst
          exact hok st hst
    · rw [if_neg he] at hf
      refine ⟨t.fifo :: used, a + t.row.len, S ++ [⟨t.fifo, 0, t.row.len - 1, true⟩], L, ?_, hf⟩
      have hadd : addTab nd s t =
          ⟨s.running + t.row.len, s.step ++ [t.fifo, 0, t.row.len - 1, 1], s.lines⟩ := by
        unfold addTab
        simp only [if_neg hw]
        rw [if_neg (by rw [h.running]; exact he)]
      rw [hadd]
      refine ⟨henc, h.lines, by rw [h.running], hsz, by omega, fun h0 => by omega, h.sizeL, ?_, ?_,
        honce, h.onceL, hok, h.okL⟩
      · rw [← h.flat, tabSteps, if_neg hw, List.append_assoc]
      · intro st hst
        rcases List.mem_append.mp hst with hst | hst
        · exact List.mem_cons_of_mem _ (h.used st hst)
        · rw [List.mem_singleton.mp hst]; exact List.mem_cons_self

theorem fold_inv {nd inElems numCh : Nat} (hnd : 0 < nd) :
    ∀ (tabs : List Tab) (used : List Nat) (a : Nat) (s : Sched) (S : Inst) (L : List Inst)
      (all : Inst), SchedInv nd inElems numCh used a s S L all → Fits nd inElems numCh used a tabs →
      ∃ used' a' S' L', SchedInv nd inElems numCh used' a' (tabs.foldl (addTab nd) s) S' L'
        (all ++ tabs.flatMap (tabSteps nd)) := by
  intro tabs
  induction tabs with
  | nil => intro used a s S L all h _; exact ⟨used, a, S, L, by simpa using h⟩
  | cons t r ih =>
    intro used a s S L all h hf
    obtain ⟨u1, a1, S1, L1, h1, hf1⟩ := addTab_inv hnd h t r hf
    obtain ⟨u2, a2, S2, L2, h2⟩ := ih u1 a1 _ S1 L1 _ h1 hf1
    exact ⟨u2, a2, S2, L2, by simpa using h2⟩

theorem sched_init (nd inElems numCh : Nat) (hnd : 0 < nd) :
    SchedInv nd inElems numCh [] 0 ⟨0, [], []⟩ [] [] [] :=
  ⟨rfl, rfl, rfl, rfl, hnd, fun _ => rfl, by simp, rfl, by simp, List.Pairwise.nil, by simp,
    by simp, by simp⟩

theorem size_flatten {nd : Nat} : ∀ (L : List Inst), (∀ inst ∈ L, size inst = nd) →
    size L.flatten = L.length * nd := by
  intro L
  induction L with
  | nil => intro _; simp [size]
  | cons x xs ih =>
    intro h
    rw [List.flatten_cons, size_append, h x (by simp), ih (fun y hy => h y (by simp [hy])),
      List.length_cons, Nat.add_mul]
    omega

theorem size_parts (nd : Nat) (t : Tab) (q : Nat) (h : 0 < nd) :
    ∀ l : List Nat, size (l.map (part nd t q)) = l.length * nd := by
  intro l
  induction l with
  | nil => simp [size]
  | cons x xs ih =>
    have h1 : size ((x :: xs).map (part nd t q)) = size [part nd t q x] + size (xs.map (part nd t q)) := by
      rw [← size_append]; rfl
    rw [h1, part_size nd t q x h, ih, List.length_cons, Nat.add_mul]
    omega

theorem size_tabSteps {nd inElems numCh : Nat} (hnd : 0 < nd) :
    ∀ (tabs : List Tab) used a, Fits nd inElems numCh used a tabs →
      size (tabs.flatMap (tabSteps nd)) = (tabs.map fun t => t.row.len).sum := by
  intro tabs
  induction tabs with
  | nil => intro _ _ _; rfl
  | cons t r ih =>
    intro used a hf
    rw [fits_cons] at hf
    obtain ⟨h1, h2, h3, h4, hf⟩ := hf
    have hr : size (r.flatMap (tabSteps nd)) = (r.map fun t => t.row.len).sum := by
      split at hf
      · exact ih _ _ hf.2.2.2
      · obtain ⟨_, _, hf⟩ := hf
        split at hf
        · exact ih _ _ hf
        · exact ih _ _ hf
    rw [List.flatMap_cons, size_append, hr, List.map_cons, List.sum_cons]
    congr 1
    unfold tabSteps
    split
    · rename_i hw
      rw [if_pos hw] at hf
      rw [size_parts nd t _ hnd, List.length_range]
      have := Nat.div_add_mod t.row.len nd
      rw [Nat.mul_comm]; omega
    · simp [size]; omega

/-- What the compiler writes. -/
structure Compiled (nd mvms inElems numCh : Nat) (tabs : List Tab) (prog : List Inst) : Prop where
  size : ∀ inst ∈ prog, size inst = nd
  flat : ∃ zs : Inst, prog.flatten = tabs.flatMap (tabSteps nd) ++ zs ∧
    ∀ st ∈ zs, st.fifo = 0 ∧ st.pop = false
  once : ∀ inst ∈ prog, inst.Pairwise fun x y => x.fifo ≠ 0 → x.pop = true → y.fifo ≠ x.fifo
  ok : ∀ inst ∈ prog, ∀ st ∈ inst, st.fifo ≤ numCh ∧ (st.start ≤ st.stop → st.stop < inElems)
  len : prog.length * nd =
    ((tabs.map fun t => t.row.len).sum + nd * mvms - 1) / (nd * mvms) * (nd * mvms)

theorem round_up (x m : Nat) (h : 0 < m) : x ≤ (x + m - 1) / m * m := by
  have := Nat.div_add_mod (x + m - 1) m
  have := Nat.mod_lt (x + m - 1) h
  rw [Nat.mul_comm]
  omega

theorem compile_ok {nd mvms inElems numCh : Nat} (hnd : 0 < nd) (hm : 0 < mvms)
    (hni : nd ≤ inElems) (tabs : List Tab) (hf : Fits nd inElems numCh [] 0 tabs) :
    Compiled nd mvms inElems numCh tabs (compile nd mvms tabs) := by
  obtain ⟨used, a, S, L, h⟩ := fold_inv hnd tabs [] 0 _ [] [] [] (sched_init nd inElems numCh hnd) hf
  rw [List.nil_append] at h
  have htot := size_tabSteps hnd tabs [] 0 hf
  have hflat := congrArg size h.flat
  rw [size_append, h.sizeS, size_flatten L h.sizeL, htot] at hflat
  have hNd : 0 < nd * mvms := Nat.mul_pos hnd hm
  have hup := round_up (tabs.map fun t => t.row.len).sum (nd * mvms) hNd
  have hmul : ((tabs.map fun t => t.row.len).sum + nd * mvms - 1) / (nd * mvms) * (nd * mvms) =
      nd * (((tabs.map fun t => t.row.len).sum + nd * mvms - 1) / (nd * mvms) * mvms) := by
    rw [Nat.mul_comm nd mvms, ← Nat.mul_assoc, Nat.mul_comm nd]
  have hparseL : ∀ M : List Inst, (M.map encode).map parseLine = M := by
    intro M
    rw [List.map_map]
    conv => rhs; rw [← List.map_id M]
    apply List.map_congr_left
    intro x _
    exact parse_encode x
  have hz : parseLine [0, 0, nd - 1, 0] = [⟨0, 0, nd - 1, false⟩] := rfl
  have hzsize : size [⟨0, 0, nd - 1, false⟩] = nd := by simp [size]; omega
  have hL1 : ∀ inst ∈ L, ∀ st ∈ inst, st.fifo ≤ numCh ∧ (st.start ≤ st.stop → st.stop < inElems) :=
    fun inst hi st hst => ⟨(h.okL inst hi st hst).1, fun _ => (h.okL inst hi st hst).2⟩
  by_cases ha : 0 < a
  · have hlt := h.lt
    have hcomp : compile nd mvms tabs = L ++ [S ++ [⟨0, 0, nd - a - 1, false⟩]] ++
        List.replicate ((((tabs.map fun t => t.row.len).sum + nd * mvms - 1) / (nd * mvms) *
          (nd * mvms) - ((tabs.map fun t => t.row.len).sum + (nd - a))) / nd)
          [⟨0, 0, nd - 1, false⟩] := by
      unfold compile closeSched
      dsimp only
      rw [h.running, if_pos ⟨ha, hlt⟩, List.map_append, List.map_append, h.lines, hparseL,
        List.map_replicate, hz, h.step]
      congr 2
      have : encode S ++ [0, 0, nd - a - 1, 0] = encode (S ++ [⟨0, 0, nd - a - 1, false⟩]) := by
        rw [encode_append]; rfl
      rw [this]
      simp [parse_encode]
    have hsz : size (S ++ [⟨0, 0, nd - a - 1, false⟩]) = nd := by
      rw [size_append, h.sizeS]; simp [size]; omega
    rw [hcomp]
    refine ⟨?_, ⟨⟨0, 0, nd - a - 1, false⟩ :: List.replicate
      ((((tabs.map fun t => t.row.len).sum + nd * mvms - 1) / (nd * mvms) *
          (nd * mvms) - ((tabs.map fun t => t.row.len).sum + (nd - a))) / nd)
          ⟨0, 0, nd - 1, false⟩, ?_, ?_⟩, ?_, ?_, ?_⟩
    · intro inst hi
      rcases List.mem_append.mp hi with hi | hi
      · rcases List.mem_append.mp hi with hi | hi
        · exact h.sizeL inst hi
        · rw [List.mem_singleton.mp hi]; exact hsz
      · rw [(List.mem_replicate.mp hi).2]; exact hzsize
    · rw [List.flatten_append, List.flatten_append, List.flatten_replicate_singleton, ← h.flat]
      simp
    · intro st hst
      rcases List.mem_cons.mp hst with rfl | hst
      · exact ⟨rfl, rfl⟩
      · rw [(List.mem_replicate.mp hst).2]; exact ⟨rfl, rfl⟩
    · intro inst hi
      rcases List.mem_append.mp hi with hi | hi
      · rcases List.mem_append.mp hi with hi | hi
        · exact h.onceL inst hi
        · rw [List.mem_singleton.mp hi, List.pairwise_append]
          refine ⟨h.onceS, List.pairwise_singleton _ _, ?_⟩
          intro x _ y hy h0 _
          rw [List.mem_singleton.mp hy]
          exact fun e => h0 e.symm
      · rw [(List.mem_replicate.mp hi).2]; exact List.pairwise_singleton _ _
    · intro inst hi st hst
      rcases List.mem_append.mp hi with hi | hi
      · rcases List.mem_append.mp hi with hi | hi
        · exact hL1 inst hi st hst
        · rw [List.mem_singleton.mp hi] at hst
          rcases List.mem_append.mp hst with hst | hst
          · exact ⟨(h.okS st hst).1, fun _ => (h.okS st hst).2⟩
          · rw [List.mem_singleton.mp hst]
            exact ⟨Nat.zero_le _, fun _ => by dsimp only; omega⟩
      · rw [(List.mem_replicate.mp hi).2] at hst
        rw [List.mem_singleton.mp hst]
        exact ⟨Nat.zero_le _, fun _ => by dsimp only; omega⟩
    · rw [List.length_append, List.length_append, List.length_replicate, List.length_singleton, hmul]
      rw [hmul] at hup
      have hsum : (tabs.map fun t => t.row.len).sum + (nd - a) = nd * (L.length + 1) := by
        rw [← hflat, Nat.mul_add, Nat.mul_comm nd]
        omega
      rw [hsum]
      generalize ((tabs.map fun t => t.row.len).sum + nd * mvms - 1) / (nd * mvms) * mvms = Q at hup ⊢
      have hLQ : L.length + 1 ≤ Q := by
        have h1 : nd * L.length < nd * Q := by
          rw [Nat.mul_comm nd L.length]
          omega
        exact Nat.lt_of_mul_lt_mul_left h1
      rw [← Nat.mul_sub, Nat.mul_div_cancel_left _ hnd, Nat.mul_comm]
      congr 1
      omega
  · have ha0 : a = 0 := by omega
    have hS := h.nil ha0
    have hcomp : compile nd mvms tabs = L ++
        List.replicate ((((tabs.map fun t => t.row.len).sum + nd * mvms - 1) / (nd * mvms) *
          (nd * mvms) - (tabs.map fun t => t.row.len).sum) / nd)
          [⟨0, 0, nd - 1, false⟩] := by
      unfold compile closeSched
      dsimp only
      rw [h.running, if_neg (fun hh => ha hh.1), List.map_append, h.lines, hparseL,
        List.map_replicate, hz]
    rw [hcomp]
    refine ⟨?_, ⟨List.replicate
      ((((tabs.map fun t => t.row.len).sum + nd * mvms - 1) / (nd * mvms) *
          (nd * mvms) - (tabs.map fun t => t.row.len).sum) / nd)
          ⟨0, 0, nd - 1, false⟩, ?_, ?_⟩, ?_, ?_, ?_⟩
    · intro inst hi
      rcases List.mem_append.mp hi with hi | hi
      · exact h.sizeL inst hi
      · rw [(List.mem_replicate.mp hi).2]; exact hzsize
    · rw [List.flatten_append, List.flatten_replicate_singleton, ← h.flat, hS]
      simp
    · intro st hst
      rw [(List.mem_replicate.mp hst).2]; exact ⟨rfl, rfl⟩
    · intro inst hi
      rcases List.mem_append.mp hi with hi | hi
      · exact h.onceL inst hi
      · rw [(List.mem_replicate.mp hi).2]; exact List.pairwise_singleton _ _
    · intro inst hi st hst
      rcases List.mem_append.mp hi with hi | hi
      · exact hL1 inst hi st hst
      · rw [(List.mem_replicate.mp hi).2] at hst
        rw [List.mem_singleton.mp hst]
        exact ⟨Nat.zero_le _, fun _ => by dsimp only; omega⟩
    · rw [List.length_append, List.length_replicate, hmul]
      rw [hmul] at hup
      have hsum : (tabs.map fun t => t.row.len).sum = nd * L.length := by
        rw [← hflat, Nat.mul_comm nd]
        omega
      generalize ((tabs.map fun t => t.row.len).sum + nd * mvms - 1) / (nd * mvms) * mvms = Q at hup ⊢
      rw [hsum] at hup
      have hLQ : L.length ≤ Q := Nat.le_of_mul_le_mul_left hup hnd
      rw [hsum, ← Nat.mul_sub, Nat.mul_div_cancel_left _ hnd, Nat.mul_comm]
      congr 1
      omega

end RadSim.Dlrm
