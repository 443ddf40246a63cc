import Verif.Lemmas.MvmLive

/-! # The programs that the compiler of the mlp design writes -/

namespace RadSim.Mlp

/-- A list is a beginning of a sequence. -/
def Along {α : Type} (f : Nat → α) (l : List α) : Prop := ∀ i a, l[i]? = some a → a = f i

theorem Along.of_prefix {α : Type} {f : Nat → α} {l l' : List α} (h : Along f l) (hp : l' <+: l) : Along f l' := by
  obtain ⟨y, rfl⟩ := hp
  intro i a hi
  refine h i a ?_
  rw [List.getElem?_append_left]
  · exact hi
  · by_contra hge
    rw [List.getElem?_eq_none (by omega)] at hi
    simp at hi

theorem along_range {α : Type} (f : Nat → α) (n : Nat) : Along f ((List.range n).map f) := by
  intro i a hi
  rw [List.getElem?_map, Option.map_eq_some_iff] at hi
  obtain ⟨j, hj, rfl⟩ := hi
  rw [List.getElem?_eq_some_iff] at hj
  obtain ⟨h, hj⟩ := hj
  rw [List.getElem_range] at hj
  rw [hj]

/-- The program of one module: `Y` blocks of results from `X` blocks of inputs, over and over. -/
structure Job (c : Mvm) (X Y : Nat) (red : Bool) (dl dm : Nat → BitVec 5) : Prop where
  cols : 0 < X
  rows : 0 < Y
  depth : X * Y < c.memDepth
  prog : ∀ p < X * Y, c.prog p = ⟨true, false, red && decide (p / Y + 1 = X), p % Y, decide (0 < p / Y), decide (p / Y + 1 = X), p,
    decide (p % Y + 1 = Y), dl (p % Y), dm (p % Y)⟩
  jump : c.prog (X * Y) = ⟨true, true, false, 0, false, false, 0, false, 0, 0⟩

variable {c : Mvm} {X Y : Nat} {red : Bool} {dl dm : Nat → BitVec 5} {xs rs : Nat → Vec}

/-- The sum of the products of the first `i` blocks of input `k` for block `j` of the result. -/
def part (c : Mvm) (X Y : Nat) (xs : Nat → Vec) (k i j : Nat) : Vec :=
  (List.range c.lanes).map fun d => ∑ a ∈ Finset.range i, product c (a * Y + j) (xs (k * X + a)) d

/-- Result `t`. -/
def blockOut (c : Mvm) (X Y : Nat) (red : Bool) (dl dm : Nat → BitVec 5) (xs rs : Nat → Vec) (t : Nat) : Out where
  vec := (List.range c.lanes).map fun d =>
    ∑ a ∈ Finset.range X, product c (a * Y + t % Y) (xs (t / Y * X + a)) d + if red then (rs t).getD d 0 else 0
  layer := dl (t % Y)
  mvm := dm (t % Y)

/-- After `k` rounds and `p` instructions. -/
structure Round (c : Mvm) (X Y : Nat) (red : Bool) (dl dm : Nat → BitVec 5) (xs rs : Nat → Vec) (I R : List Vec) (k p : Nat)
    (r : Ref) : Prop where
  le : p ≤ X * Y
  pc : r.pc = p
  ins : r.ins = I.drop (k * X + p / Y)
  reds : r.reds = R.drop (if red then k * Y + (p - (X - 1) * Y) else 0)
  out : r.out = (List.range (k * Y + (p - (X - 1) * Y))).map (blockOut c X Y red dl dm xs rs)
  done : ∀ j < p % Y, p / Y + 1 < X → r.acc j = some (part c X Y xs k (p / Y + 1) j)
  todo : ∀ j < Y, p % Y ≤ j → 0 < p / Y → p / Y < X → r.acc j = some (part c X Y xs k (p / Y) j)
  fed : k * X ≤ I.length ∧ ((X - 1) * Y < p → (k + 1) * X ≤ I.length)

theorem Along.drop_cons {α : Type} {f : Nat → α} {l : List α} (h : Along f l) {n : Nat} {a : α} {as : List α} (hd : l.drop n = a :: as) :
    a = f n ∧ l.drop (n + 1) = as ∧ n < l.length := by
  refine ⟨h n a ?_, ?_, ?_⟩
  · have := congrArg (·[0]?) hd
    simpa using this
  · have := congrArg List.tail hd
    simpa using this
  · by_contra hge
    rw [List.drop_eq_nil_of_le (by omega)] at hd
    simp at hd

theorem round_start (ins reds : List Vec) :
    Round c X Y red dl dm xs rs ins reds 0 0 (Ref.start ins reds) := by
  refine ⟨Nat.zero_le _, rfl, by simp [Ref.start], ?_, by simp [Ref.start], ?_, ?_, ?_⟩
  · simp [Ref.start]
  · intro j hj
    simp at hj
  · intro j _ _ h
    simp at h
  · simp

theorem div_step {p Y : Nat} (hY : 0 < Y) : (p % Y + 1 = Y ∧ (p + 1) / Y = p / Y + 1 ∧ (p + 1) % Y = 0) ∨
    (p % Y + 1 < Y ∧ (p + 1) / Y = p / Y ∧ (p + 1) % Y = p % Y + 1) := by
  have hm := Nat.mod_lt p hY
  have hd := Nat.div_add_mod p Y
  by_cases h : p % Y + 1 = Y
  · left
    have hp : p + 1 = Y * (p / Y + 1) := by
      rw [Nat.mul_add, Nat.mul_one]
      omega
    refine ⟨h, ?_, ?_⟩
    · rw [hp, Nat.mul_div_cancel_left _ hY]
    · rw [hp, Nat.mul_mod_right]
  · right
    refine ⟨by omega, ?_, ?_⟩
    · have : p + 1 = (p % Y + 1) + Y * (p / Y) := by omega
      rw [this, Nat.add_mul_div_left _ _ hY, Nat.div_eq_of_lt (by omega), Nat.zero_add]
    · have : p + 1 = (p % Y + 1) + Y * (p / Y) := by omega
      rw [this, Nat.add_mul_mod_self_left, Nat.mod_eq_of_lt (by omega)]

theorem value_part {k p : Nat} {acc : Option Vec} {i : Inst} (hi : i.raddr = p)
    (he : i.accumEn = decide (0 < p / Y)) (hacc : 0 < p / Y → acc = some (part c X Y xs k (p / Y) (p % Y))) (rd : Option Vec) :
    value c i (xs (k * X + p / Y)) rd acc = (List.range c.lanes).map fun d =>
      ∑ a ∈ Finset.range (p / Y + 1), product c (a * Y + p % Y) (xs (k * X + a)) d + (rd.map (·.getD d 0)).getD 0 := by
  unfold value
  apply List.map_congr_left
  intro d hd
  rw [List.mem_range] at hd
  rw [Finset.sum_range_succ, hi, he]
  have hp : p / Y * Y + p % Y = p := by
    rw [Nat.mul_comm]
    exact Nat.div_add_mod p Y
  rw [hp]
  by_cases h0 : 0 < p / Y
  · rw [hacc h0]
    have : (part c X Y xs k (p / Y) (p % Y)).getD d 0 =
        ∑ a ∈ Finset.range (p / Y), product c (a * Y + p % Y) (xs (k * X + a)) d := by
      unfold part
      rw [List.getD_eq_getElem?_getD, List.getElem?_map, List.getElem?_range hd]
      rfl
    simp only [h0, decide_true, if_true, Option.map_some, Option.getD_some, this]
    rw [add_comm, ← add_assoc]
  · have h0' : p / Y = 0 := Nat.eq_zero_of_not_pos h0
    simp [h0']

/-- An instruction of a round. -/
theorem round_step (J : Job c X Y red dl dm) {I R : List Vec} (hI : Along xs I) (hR : red = true → Along rs R) {k p : Nat} {r r' : Ref}
    (S : Round c X Y red dl dm xs rs I R k p r) (hp : p < X * Y) (hn : r.next c = some r') :
    Round c X Y red dl dm xs rs I R k (p + 1) r' := by
  have hY := J.rows
  have hX := J.cols
  have hprog := J.prog p hp
  have hi : p / Y < X := by
    rw [Nat.div_lt_iff_lt_mul hY]
    exact hp
  have hj : p % Y < Y := Nat.mod_lt _ hY
  have hpe : Y * (p / Y) + p % Y = p := Nat.div_add_mod p Y
  have hXY : X * Y = (X - 1) * Y + Y := by
    conv_lhs => rw [show X = X - 1 + 1 by omega]
    rw [Nat.add_mul, Nat.one_mul]
  have hpc := S.pc
  have hacc : 0 < p / Y → r.acc (p % Y) = some (part c X Y xs k (p / Y) (p % Y)) := fun h => S.todo _ hj (Nat.le_refl _) h hi
  -- the input is there
  obtain ⟨x, as, hx⟩ : ∃ x as, r.ins = x :: as := by
    rcases Ref.next_cases hn with ⟨-, hjj, -⟩ | ⟨-, -, -, x, as, -, -, h, -⟩ | ⟨-, -, -, x, as, h, -⟩
    · rw [hpc, hprog] at hjj
      simp at hjj
    · exact ⟨x, as, h⟩
    · exact ⟨x, as, h⟩
  have hx' := hx
  rw [S.ins] at hx'
  obtain ⟨rfl, hdrop, hlen⟩ := hI.drop_cons hx'
  -- the state after it, in general
  have main : ∀ (v : Vec) (reds : List Vec), r' = r.put (c.prog p) v reds →
      (p / Y + 1 < X → v = part c X Y xs k (p / Y + 1) (p % Y)) →
      (p / Y + 1 = X → v = (blockOut c X Y red dl dm xs rs (k * Y + p % Y)).vec) →
      reds = R.drop (if red then k * Y + (p + 1 - (X - 1) * Y) else 0) →
      Round c X Y red dl dm xs rs I R k (p + 1) r' := by
    rintro v reds rfl hv hv' hreds
    rw [hprog]
    by_cases hlast : p / Y + 1 = X
    · -- the result is released
      have hXi : (X - 1) * Y = Y * (p / Y) := by
        rw [← hlast, Nat.add_sub_cancel, Nat.mul_comm]
      have hpj : p - (X - 1) * Y = p % Y := by omega
      have hpj' : p + 1 - (X - 1) * Y = p % Y + 1 := by omega
      have hdl : (k * Y + p % Y) % Y = p % Y := by
        rw [Nat.mul_comm, Nat.mul_add_mod, Nat.mod_mod]
      refine ⟨by omega, by simp [Ref.put, hpc], ?_, ?_, ?_, ?_, ?_, ?_⟩
      · simp only [Ref.put, hx]
        rcases div_step (p := p) hY with ⟨h1, h2, -⟩ | ⟨h1, h2, -⟩
        · rw [h2, ← Nat.add_assoc, hdrop]
          simp [h1]
        · rw [h2, hx']
          simp [Nat.ne_of_lt h1]
      · exact hreds
      · rw [hpj', ← Nat.add_assoc, List.range_succ, List.map_append]
        simp only [Ref.put, hlast, S.out, hpj, decide_true, if_true, List.map_cons, List.map_nil, hv' hlast]
        congr 2
        simp [blockOut, hdl]
      · intro j hj hlt
        rcases div_step (p := p) hY with ⟨h1, h2, h3⟩ | ⟨h1, h2, h3⟩
        · rw [h3] at hj
          omega
        · rw [h2] at hlt
          omega
      · intro j hj hle h0 hlt
        rcases div_step (p := p) hY with ⟨h1, h2, h3⟩ | ⟨h1, h2, h3⟩
        · rw [h2] at hlt
          omega
        · rw [h2]
          rw [h3] at hle
          rw [h2] at h0
          have := S.todo j hj (by omega) h0 hi
          simp only [Ref.put]
          rw [if_neg (by omega)]
          exact this
      · refine ⟨S.fed.1, fun _ => ?_⟩
        rw [Nat.add_mul, Nat.one_mul]
        omega
    · have hlt : p / Y + 1 < X := by omega
      have hpl : p + 1 ≤ (X - 1) * Y := by
        have : (p / Y + 1) * Y ≤ (X - 1) * Y := Nat.mul_le_mul_right _ (by omega)
        rw [Nat.add_mul, Nat.one_mul, Nat.mul_comm] at this
        omega
      have hpj : p - (X - 1) * Y = 0 := by omega
      have hpj' : p + 1 - (X - 1) * Y = 0 := by omega
      refine ⟨by omega, by simp [Ref.put, hpc], ?_, ?_, ?_, ?_, ?_, ?_⟩
      · simp only [Ref.put, hx]
        rcases div_step (p := p) hY with ⟨h1, h2, -⟩ | ⟨h1, h2, -⟩
        · rw [h2, ← Nat.add_assoc, hdrop]
          simp [h1]
        · rw [h2, hx']
          simp [Nat.ne_of_lt h1]
      · exact hreds
      · simp only [Ref.put, hlast, S.out, hpj, hpj', decide_false, Bool.false_eq_true, if_false, List.append_nil]
      · intro j hj hlt'
        simp only [Ref.put]
        rcases div_step (p := p) hY with ⟨h1, h2, h3⟩ | ⟨h1, h2, h3⟩
        · rw [h3] at hj
          omega
        · rw [h2]
          rw [h3] at hj
          by_cases hjj : j = p % Y
          · rw [if_pos hjj, hv hlt, hjj]
          · rw [if_neg hjj]
            exact S.done j (by omega) hlt
      · intro j hj hle h0 hlt'
        simp only [Ref.put]
        rcases div_step (p := p) hY with ⟨h1, h2, h3⟩ | ⟨h1, h2, h3⟩
        · rw [h2]
          by_cases hjj : j = p % Y
          · rw [if_pos hjj, hv hlt, hjj]
          · rw [if_neg hjj]
            exact S.done j (by omega) hlt
        · rw [h2]
          rw [h3] at hle
          rw [h2] at h0
          rw [if_neg (by omega)]
          exact S.todo j hj (by omega) h0 hi
      · exact ⟨S.fed.1, fun h => by omega⟩
  rcases Ref.next_cases hn with ⟨-, hjj, -⟩ | ⟨-, -, hrd, x, as', y, bs, hx2, hy, hr'⟩ | ⟨-, -, hrd, x, as', hx2, hr'⟩
  · rw [hpc, hprog] at hjj
    simp at hjj
  · rw [hpc] at hr' hrd
    rw [hx] at hx2
    obtain ⟨rfl, -⟩ := List.cons.inj hx2
    rw [hprog] at hrd
    simp only [Bool.and_eq_true, decide_eq_true_eq] at hrd
    obtain ⟨hred, hlast⟩ := hrd
    have hXi : (X - 1) * Y = Y * (p / Y) := by
      rw [← hlast, Nat.add_sub_cancel, Nat.mul_comm]
    have hy' := hy
    rw [S.reds, if_pos hred, show p - (X - 1) * Y = p % Y by omega] at hy'
    obtain ⟨rfl, hdropy, -⟩ := (hR hred).drop_cons hy'
    refine main _ _ hr' (fun h => by omega) (fun _ => ?_) ?_
    · rw [hprog, value_part (k := k) (p := p) rfl rfl hacc]
      have h1 : (k * Y + p % Y) % Y = p % Y := by
        rw [Nat.mul_comm, Nat.mul_add_mod, Nat.mod_mod]
      have h2 : (k * Y + p % Y) / Y = k := by
        rw [Nat.mul_comm, Nat.mul_add_div hY, Nat.div_eq_of_lt hj, Nat.add_zero]
      simp only [blockOut, h1, h2, hlast, hred, if_true, Option.map_some, Option.getD_some]
    · rw [if_pos hred, show p + 1 - (X - 1) * Y = p % Y + 1 by omega, ← Nat.add_assoc, hdropy]
  · rw [hpc] at hr' hrd
    rw [hx] at hx2
    obtain ⟨rfl, -⟩ := List.cons.inj hx2
    rw [hprog] at hrd
    refine main _ _ hr' (fun h => ?_) (fun hlast => ?_) ?_
    · rw [hprog, value_part (k := k) (p := p) rfl rfl hacc]
      simp [part]
    · have hred : red = false := by simpa [hlast] using hrd
      rw [hprog, value_part (k := k) (p := p) rfl rfl hacc]
      have h1 : (k * Y + p % Y) % Y = p % Y := by
        rw [Nat.mul_comm, Nat.mul_add_mod, Nat.mod_mod]
      have h2 : (k * Y + p % Y) / Y = k := by
        rw [Nat.mul_comm, Nat.mul_add_div hY, Nat.div_eq_of_lt hj, Nat.add_zero]
      simp only [blockOut, h1, h2, hlast, hred, Bool.false_eq_true, if_false, Option.map_none, Option.getD_none]
    · rw [S.reds]
      cases hred : red with
      | false => simp
      | true =>
        have hne : ¬ p / Y + 1 = X := by simpa [hred] using hrd
        have hpl : p + 1 ≤ (X - 1) * Y := by
          have : (p / Y + 1) * Y ≤ (X - 1) * Y := Nat.mul_le_mul_right _ (by omega)
          rw [Nat.add_mul, Nat.one_mul, Nat.mul_comm] at this
          omega
        rw [if_pos rfl, if_pos rfl, show p - (X - 1) * Y = 0 by omega, show p + 1 - (X - 1) * Y = 0 by omega]

/-- The jump at the end of a round. -/
theorem round_jump (J : Job c X Y red dl dm) {I R : List Vec} {k : Nat} {r r' : Ref}
    (S : Round c X Y red dl dm xs rs I R k (X * Y) r) (hn : r.next c = some r') :
    Round c X Y red dl dm xs rs I R (k + 1) 0 r' := by
  have hY := J.rows
  have hX := J.cols
  have hXY : X * Y - (X - 1) * Y = Y := by
    rw [← Nat.sub_mul, show X - (X - 1) = 1 by omega, Nat.one_mul]
  rw [Ref.next_jump (by rw [S.pc, J.jump]) (by rw [S.pc, J.jump])] at hn
  cases hn
  have hfed := S.fed.2 (by
    have : (X - 1) * Y < X * Y := Nat.mul_lt_mul_of_pos_right (by omega) hY
    exact this)
  refine ⟨Nat.zero_le _, ?_, ?_, ?_, ?_, ?_, ?_, ?_⟩
  · simp only [S.pc, J.jump]
  · simp only [S.ins, Nat.mul_div_cancel _ hY, Nat.zero_div, Nat.add_mul, Nat.one_mul, Nat.add_zero]
  · simp only [S.reds, hXY, Nat.zero_sub, Nat.add_mul, Nat.one_mul, Nat.add_zero]
  · simp only [S.out, hXY, Nat.zero_sub, Nat.add_mul, Nat.one_mul, Nat.add_zero]
  · intro j hj
    simp at hj
  · intro j _ _ h
    simp at h
  · exact ⟨hfed, fun h => by omega⟩

/-- All states of the program. -/
theorem round_all (J : Job c X Y red dl dm) {I R : List Vec} (hI : Along xs I) (hR : red = true → Along rs R) {r : Ref}
    (hr : Ref.Reach c (Ref.start I R) r) : ∃ k p, Round c X Y red dl dm xs rs I R k p r := by
  induction hr with
  | refl => exact ⟨0, 0, round_start I R⟩
  | tail _ hn ih =>
    obtain ⟨k, p, S⟩ := ih
    by_cases hp : p < X * Y
    · exact ⟨_, _, round_step J hI hR S hp hn⟩
    · obtain rfl : p = X * Y := by
        have := S.le
        omega
      exact ⟨_, _, round_jump J S hn⟩

theorem along_getD (l : List Vec) : Along (fun i => l.getD i []) l := by
  intro i a hi
  simp [List.getD_eq_getElem?_getD, hi]

/-- The program never faults. -/
theorem Job.sound (J : Job c X Y red dl dm) (I R : List Vec) : Sound c I R := by
  intro r hr
  obtain ⟨k, p, S⟩ := round_all J (along_getD I) (fun _ => along_getD R) hr
  have hd := J.depth
  have hY := J.rows
  have hX := J.cols
  unfold Ref.Fault
  rw [S.pc]
  by_cases hp : p < X * Y
  · rw [J.prog p hp]
    have hj : p % Y < Y := Nat.mod_lt _ hY
    have hYle : Y ≤ X * Y := Nat.le_mul_of_pos_left _ hX
    simp only [decide_eq_true_eq, true_and, not_or, not_le, not_and]
    refine ⟨by omega, by omega, by omega, fun h0 => ?_⟩
    rw [S.todo _ hj (Nat.le_refl _) h0 (by rw [Nat.div_lt_iff_lt_mul hY]; exact hp)]
    simp
  · obtain rfl : p = X * Y := by
      have := S.le
      omega
    rw [J.jump]
    simp
    omega

/-- The results of the program. -/
theorem Job.along (J : Job c X Y red dl dm) {I R : List Vec} (hI : Along xs I) (hR : red = true → Along rs R) {r : Ref}
    (hr : Ref.Reach c (Ref.start I R) r) :
    Along (blockOut c X Y red dl dm xs rs) r.out ∧ ∀ t < r.out.length, (t / Y + 1) * X ≤ I.length := by
  obtain ⟨k, p, S⟩ := round_all J hI hR hr
  have hY := J.rows
  have hX := J.cols
  rw [S.out]
  refine ⟨along_range _ _, fun t ht => ?_⟩
  rw [List.length_map, List.length_range] at ht
  have hle := S.le
  by_cases hk : t < k * Y
  · have : t / Y < k := by
      rw [Nat.div_lt_iff_lt_mul hY]
      exact hk
    exact (Nat.mul_le_mul_right X this).trans S.fed.1
  · have hXY : X * Y = (X - 1) * Y + Y := by
      conv_lhs => rw [show X = X - 1 + 1 by omega]
      rw [Nat.add_mul, Nat.one_mul]
    have : t / Y ≤ k := by
      rw [← Nat.lt_succ_iff, Nat.div_lt_iff_lt_mul hY, Nat.succ_mul]
      omega
    exact (Nat.mul_le_mul_right X (Nat.succ_le_succ this)).trans (S.fed.2 (by omega))

/-- With enough vectors the program gives all results. -/
theorem Job.reaches (J : Job c X Y red dl dm) {I R : List Vec} {K : Nat} (hI : K * X ≤ I.length) (hR : red = true → K * Y ≤ R.length) :
    ∃ r, Ref.Reach c (Ref.start I R) r ∧ r.out.length = K * Y := by
  have hY := J.rows
  have hX := J.cols
  suffices H : ∀ k ≤ K, ∃ r, Ref.Reach c (Ref.start I R) r ∧
      Round c X Y red dl dm (fun i => I.getD i []) (fun i => R.getD i []) I R k 0 r by
    obtain ⟨r, hr, S⟩ := H K (Nat.le_refl _)
    refine ⟨r, hr, ?_⟩
    rw [S.out]
    simp
  intro k
  induction k with
  | zero => exact fun _ => ⟨_, .refl, round_start I R⟩
  | succ k ih =>
    intro hk
    obtain ⟨r, hr, S⟩ := ih (by omega)
    have inner : ∀ p ≤ X * Y, ∃ r, Ref.Reach c (Ref.start I R) r ∧
        Round c X Y red dl dm (fun i => I.getD i []) (fun i => R.getD i []) I R k p r := by
      intro p
      induction p with
      | zero => exact fun _ => ⟨r, hr, S⟩
      | succ p ihp =>
        intro hp
        obtain ⟨r, hr, S⟩ := ihp (by omega)
        have hi : p / Y < X := by
          rw [Nat.div_lt_iff_lt_mul hY]
          omega
        have hpe : Y * (p / Y) + p % Y = p := Nat.div_add_mod p Y
        have hj : p % Y < Y := Nat.mod_lt _ hY
        have hprog := J.prog p (by omega)
        obtain ⟨x, as, hx⟩ : ∃ x as, r.ins = x :: as := by
          apply List.exists_cons_of_ne_nil
          rw [S.ins]
          intro h0
          rw [List.drop_eq_nil_iff] at h0
          have : (k + 1) * X ≤ K * X := Nat.mul_le_mul_right _ hk
          rw [Nat.add_mul, Nat.one_mul] at this
          omega
        have hne : r.next c ≠ none := by
          by_cases hrd : (c.prog r.pc).reduce = true
          · have hrd' := hrd
            rw [S.pc, hprog] at hrd'
            simp only [Bool.and_eq_true, decide_eq_true_eq] at hrd'
            obtain ⟨hred, hlast⟩ := hrd'
            obtain ⟨y, bs, hy⟩ : ∃ y bs, r.reds = y :: bs := by
              apply List.exists_cons_of_ne_nil
              rw [S.reds, if_pos hred]
              intro h0
              rw [List.drop_eq_nil_iff] at h0
              have h1 : (k + 1) * Y ≤ K * Y := Nat.mul_le_mul_right _ hk
              have h2 := hR hred
              have hXi : (X - 1) * Y = Y * (p / Y) := by
                rw [← hlast, Nat.add_sub_cancel, Nat.mul_comm]
              rw [Nat.add_mul, Nat.one_mul] at h1
              omega
            rw [Ref.next_reduce (by rw [S.pc, hprog]) (by rw [S.pc, hprog]) hrd hx hy]
            simp
          · rw [Ref.next_plain (by rw [S.pc, hprog]) (by rw [S.pc, hprog]) (by simpa using hrd) hx]
            simp
        obtain ⟨r', hr'⟩ := Option.ne_none_iff_exists'.1 hne
        exact ⟨r', .tail hr hr', round_step J (along_getD I) (fun _ => along_getD R) S (by omega) hr'⟩
    obtain ⟨r, hr, S⟩ := inner (X * Y) (Nat.le_refl _)
    have hn := Ref.next_jump (c := c) (s := r) (by rw [S.pc, J.jump]) (by rw [S.pc, J.jump])
    exact ⟨_, .tail hr hn, round_jump J S hn⟩

end RadSim.Mlp
