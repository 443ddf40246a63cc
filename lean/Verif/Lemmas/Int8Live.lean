import Verif.Lemmas.Int8Follow

/-! # Runs of a matrix vector multiplier of `mlp_int8`, and what comes out in the end -/

namespace RadSim.Int8

/-- State and history after `n` cycles. -/
def sigAt (c : Mvm) (t : Nat → Cycle) : Nat → Sig × Seen
  | 0 => (.init c, ⟨[], []⟩)
  | n + 1 => (nextSig c (sigAt c t n).1 (took c (sigAt c t n).1 (t n).rx) (t n).ready, (sigAt c t n).2.add c (sigAt c t n).1 (t n))

/-- The stages after `n` cycles. -/
def stagesAt (c : Mvm) (t : Nat → Cycle) : Nat → List Stage
  | 0 => List.replicate c.rdLat .idle
  | n + 1 => pipe (stageIn c (sigAt c t n).1) (stagesAt c t n)

/-- The stages behind the datapaths after `n` cycles. -/
def backsAt (c : Mvm) (t : Nat → Cycle) : Nat → List Back
  | 0 => List.replicate c.delay ⟨.default, false, List.replicate c.lanes 0⟩
  | n + 1 => pipe (backIn c (sigAt c t n).1) (backsAt c t n)

/-- The writes after `n` cycles. -/
def writesAt (c : Mvm) (t : Nat → Cycle) : Nat → List Write
  | 0 => List.replicate (c.wrLat + 1) .none
  | n + 1 => pipe (writeIn c (sigAt c t n).1 (took c (sigAt c t n).1 (t n).rx)) (writesAt c t n)

/-- The instructions begun within `n` cycles. -/
def pops (c : Mvm) (t : Nat → Cycle) : Nat → Nat
  | 0 => 0
  | n + 1 => pops c t n + if instPop c (sigAt c t n).1 then 1 else 0

theorem base_at {c : Mvm} (hc : c.Fits) (t : Nat → Cycle) (n : Nat) :
    Base c (sigAt c t n).1 (stagesAt c t n) (backsAt c t n) (writesAt c t n) := by
  induction n with
  | zero => exact init_base hc
  | succ n ih => exact base_next hc ih _ _

theorem run_at {c : Mvm} (hc : c.Fits) (t : Nat → Cycle) (n : Nat) : run c t n = .ok (sigAt c t n) := by
  induction n with
  | zero => rfl
  | succ n ih =>
    have h := edge_next hc (base_at hc t n) (t n).rx (t n).ready
    rw [run, ih]
    simp only [h]
    rfl

theorem follows_at {c : Mvm} (hc : c.Fits) (t : Nat → Cycle) (n : Nat) (ho : Ordered (sigAt c t n).2.taken) :
    ∃ r gone q f, r.pc = pops c t n ∧
      Follows c (sigAt c t n).1 (stagesAt c t n) (backsAt c t n) (writesAt c t n) (sigAt c t n).2 r gone q f := by
  induction n with
  | zero => exact ⟨_, _, _, _, rfl, init_follows c⟩
  | succ n ih =>
    obtain ⟨r, gone, q, f, hpc, F⟩ := ih (Ordered.prefix (b := (took c (sigAt c t n).1 (t n).rx).toList) ho)
    obtain ⟨r', gone', q', f', h1, F'⟩ := follows_next hc (base_at hc t n) F (t n) ho
    exact ⟨r', gone', q', f', by rw [h1, hpc]; rfl, F'⟩

theorem computes {c : Mvm} (hc : c.Fits) {t : Nat → Cycle} {n : Nat} {s : Sig} {h : Seen} (hr : run c t n = .ok (s, h))
    (ho : Ordered h.taken) : ∃ r, Ref.After c h.taken r ∧ List.Forall₂ (Carries c) h.sent (r.out.take h.sent.length) := by
  rw [run_at hc, Except.ok.injEq] at hr
  have he : h = (sigAt c t n).2 := by rw [hr]
  subst he
  obtain ⟨r, gone, q, f, -, F⟩ := follows_at hc t n ho
  refine ⟨r, F.reach, ?_⟩
  have hl := F.sent.length_eq
  rw [F.out, List.append_assoc, List.append_assoc, hl, List.take_left]
  exact F.sent

/-! ## what was taken stays taken -/

theorem taken_prefix (c : Mvm) (t : Nat → Cycle) {n m : Nat} (h : n ≤ m) :
    ∃ l, (sigAt c t m).2.taken = (sigAt c t n).2.taken ++ l := by
  induction m, h using Nat.le_induction with
  | base => exact ⟨[], by simp⟩
  | succ m _ ih =>
    obtain ⟨l, hl⟩ := ih
    refine ⟨l ++ (took c (sigAt c t m).1 (t m).rx).toList, ?_⟩
    rw [← List.append_assoc, ← hl]
    rfl

theorem pops_le (c : Mvm) (t : Nat → Cycle) {n m : Nat} (h : n ≤ m) : pops c t n ≤ pops c t m := by
  induction m, h using Nat.le_induction with
  | base => exact Nat.le_refl _
  | succ m _ ih => exact Nat.le_trans ih (Nat.le_add_right _ _)

/-! ## the reference is deterministic -/

theorem Ref.next_pc {c : Mvm} {p : List Inst} {w : Nat → BitVec 9 → Vec} {s s' : Ref} (h : s.next c p w = some s') :
    s'.pc = s.pc + 1 := by
  obtain ⟨i, x, xs, -, -, ⟨-, y, ys, -, rfl⟩ | ⟨-, rfl⟩⟩ := Ref.next_cases h <;> rfl

theorem Ref.next_out {c : Mvm} {p : List Inst} {w : Nat → BitVec 9 → Vec} {s s' : Ref} (h : s.next c p w = some s') :
    s.out <+: s'.out := by
  obtain ⟨i, x, xs, -, -, ⟨-, y, ys, -, rfl⟩ | ⟨-, rfl⟩⟩ := Ref.next_cases h <;> exact List.prefix_append _ _

theorem Ref.Reach.pc {c : Mvm} {p : List Inst} {w : Nat → BitVec 9 → Vec} {s s' : Ref} (h : Ref.Reach c p w s s') :
    s.pc ≤ s'.pc ∧ s.out <+: s'.out := by
  induction h with
  | refl => exact ⟨Nat.le_refl _, List.prefix_refl _⟩
  | tail _ hn ih => exact ⟨by rw [Ref.next_pc hn]; omega, ih.2.trans (Ref.next_out hn)⟩

theorem Ref.Reach.total {c : Mvm} {p : List Inst} {w : Nat → BitVec 9 → Vec} {s a b : Ref} (ha : Ref.Reach c p w s a)
    (hb : Ref.Reach c p w s b) : Ref.Reach c p w a b ∨ Ref.Reach c p w b a :=
  Relation.ReflTransGen.total_of_right_unique (fun _ _ _ h1 h2 => Option.some.inj (h1.symm.trans h2)) ha hb

/-- The same state with more beats, when an instruction has begun. -/
theorem Ref.After.more {c : Mvm} {a l : List Beat} {r : Ref} (h : Ref.After c a r) (ho : Ordered (a ++ l)) (hr : 0 < r.pc) :
    programOf (a ++ l) = programOf a ∧ weights c (a ++ l) = weights c a ∧
      Ref.After c (a ++ l) (r.more (inputsOf c l) (addsOf c l)) := by
  have hin : ¬∀ b ∈ a, b.kind ≠ 2 := by
    intro hk
    have : inputsOf c a = [] := by
      simp only [inputsOf, List.map_eq_nil_iff, List.filter_eq_nil_iff, decide_eq_true_eq]
      exact hk
    unfold Ref.After at h
    rw [this] at h
    rw [h.still] at hr
    exact absurd hr (by simp [Ref.start])
  have hl : ∀ b ∈ l, b.kind = 1 ∨ b.kind = 2 := by
    clear h hr
    induction l using List.reverseRecOn with
    | nil => simp
    | append_singleton l x ih =>
      rw [← List.append_assoc] at ho
      intro b hb
      rw [List.mem_append, List.mem_singleton] at hb
      rcases hb with hb | rfl
      · exact ih ho.snoc.1 b hb
      · rcases ho.snoc.2 with h | h
        · exact h
        · exact absurd (fun y hy => h y (by simp [hy])) hin
  have h1 : programOf (a ++ l) = programOf a := by
    rw [programOf_append]
    have : programOf l = [] := by
      simp only [programOf, List.map_eq_nil_iff, List.filter_eq_nil_iff, decide_eq_true_eq]
      intro b hb
      have := hl b hb
      omega
    rw [this, List.append_nil]
  have h2 : weights c (a ++ l) = weights c a := by
    clear h hr ho h1
    induction l using List.reverseRecOn with
    | nil => simp
    | append_singleton l x ih =>
      rw [← List.append_assoc, ← ih fun b hb => hl b (by simp [hb])]
      funext d n
      rw [weights_append, if_neg]
      unfold Beat.loads
      rcases hl x (by simp) with h | h <;> simp [h]
  refine ⟨h1, h2, ?_⟩
  unfold Ref.After
  rw [h1, h2, inputsOf_append, addsOf_append]
  exact Ref.Reach.more _ _ h

/-! ## the pipelines drain -/

/-- Which stages hold a result, oldest first. -/
def holds (c : Mvm) (t : Nat → Cycle) (n : Nat) : List Bool :=
  (backsAt c t n).reverse.map (·.valid) ++ (stagesAt c t n).reverse.map fun f => f.valid && f.i.release

/-- Results handed over or in the output FIFO. -/
def level (c : Mvm) (t : Nat → Cycle) (n : Nat) : Nat := (sigAt c t n).2.sent.length + (sigAt c t n).1.out.mem.length

theorem holds_length {c : Mvm} (hc : c.Fits) (t : Nat → Cycle) (n : Nat) : (holds c t n).length = c.delay + c.rdLat := by
  have B := base_at hc t n
  simp [holds, B.bsLen, B.fsLen]

theorem holds_next {c : Mvm} (hc : c.Fits) (t : Nat → Cycle) (n : Nat) :
    ∃ b, holds c t (n + 1) = (holds c t n).tail ++ [b] := by
  have B := base_at hc t n
  refine ⟨(stageIn c (sigAt c t n).1).valid && (stageIn c (sigAt c t n).1).i.release, ?_⟩
  unfold holds
  rw [backsAt, stagesAt, pipe_reverse _ (B.bs_ne hc), pipe_reverse _ (B.fs_ne hc)]
  have h1 := reverse_cons .idle (B.bs_ne hc)
  have h2 := reverse_cons .idle (B.fs_ne hc)
  conv_rhs => rw [h1, h2]
  simp only [List.map_append, List.map_cons, List.map_nil, List.cons_append, List.tail_cons, List.append_assoc,
    List.nil_append]
  have h3 : (backIn c (sigAt c t n).1).valid =
      (((stagesAt c t n).getLastD .idle).valid && ((stagesAt c t n).getLastD .idle).i.release) := by
    simp only [backIn, B.validLast, B.instLast]
  rw [h3]

theorem outPop_tx {c : Mvm} {s : Sig} {fs : List Stage} {bs : List Back} {W : List Write} (B : Base c s fs bs W) (ready : Bool) :
    (txValid s && ready) = outPop s ready := by
  unfold outPop txValid Fifo.empty
  cases hm : s.out.mem with
  | nil => simp
  | cons o l =>
    have h1 := B.outWide o (by simp [hm])
    rw [B.out.cons hm, h1]
    simp

theorem sent_next {c : Mvm} (hc : c.Fits) (t : Nat → Cycle) (n : Nat) : (sigAt c t (n + 1)).2.sent.length =
    (sigAt c t n).2.sent.length + if outPop (sigAt c t n).1 (t n).ready then 1 else 0 := by
  show ((sigAt c t n).2.sent ++ if txValid (sigAt c t n).1 && (t n).ready then _ else []).length = _
  rw [outPop_tx (base_at hc t n), List.length_append]
  split <;> rfl

theorem out_next {c : Mvm} (hc : c.Fits) (t : Nat → Cycle) (n : Nat) : (sigAt c t (n + 1)).1.out.mem.length +
    (if outPop (sigAt c t n).1 (t n).ready then 1 else 0) =
    (sigAt c t n).1.out.mem.length + if (holds c t n).headD false then 1 else 0 := by
  have B := base_at hc t n
  have h1 := reverse_cons .idle (B.bs_ne hc)
  have h2 : (holds c t n).headD false = ((backsAt c t n).getLastD .idle).valid := by
    unfold holds
    rw [h1]
    rfl
  show ((sigAt c t n).1.out.after _ _ _).mem.length + _ = _
  rw [h2, B.dpvLast hc]
  have h0 : outPop (sigAt c t n).1 (t n).ready = true → (sigAt c t n).1.out.mem.length ≠ 0 :=
    fun h h0 => outPop_ne h (List.length_eq_zero_iff.1 h0)
  simp only [Fifo.after, List.length_append]
  have h3 : ∀ b : Bool, ∀ x : Vec, (if b = true then [x] else []).length = if b then 1 else 0 := by
    intro b x; cases b <;> rfl
  rw [h3]
  cases hp : outPop (sigAt c t n).1 (t n).ready with
  | false => simp
  | true =>
    have := h0 hp
    simp only [if_true, List.length_tail]
    omega

theorem level_next {c : Mvm} (hc : c.Fits) (t : Nat → Cycle) (n : Nat) :
    level c t (n + 1) = level c t n + if (holds c t n).headD false then 1 else 0 := by
  have h1 := sent_next hc t n
  have h2 := out_next hc t n
  unfold level
  omega

theorem level_le {c : Mvm} (hc : c.Fits) (t : Nat → Cycle) {n m : Nat} (h : n ≤ m) : level c t n ≤ level c t m := by
  induction m, h using Nat.le_induction with
  | base => exact Nat.le_refl _
  | succ m _ ih => rw [level_next hc]; omega

theorem sent_le {c : Mvm} (hc : c.Fits) (t : Nat → Cycle) {n m : Nat} (h : n ≤ m) :
    (sigAt c t n).2.sent.length ≤ (sigAt c t m).2.sent.length := by
  induction m, h using Nat.le_induction with
  | base => exact Nat.le_refl _
  | succ m _ ih => rw [sent_next hc]; omega

theorem holds_drop {c : Mvm} (hc : c.Fits) (t : Nat → Cycle) (n j : Nat) (hj : j ≤ c.delay + c.rdLat) :
    (holds c t n).drop j <+: holds c t (n + j) ∧ level c t (n + j) = level c t n + ((holds c t n).take j).countP id := by
  induction j with
  | zero => simp
  | succ j ih =>
    obtain ⟨h1, h2⟩ := ih (by omega)
    have hl := holds_length hc t n
    obtain ⟨b, hb⟩ := holds_next hc t (n + j)
    have hd : (holds c t n).drop j = (holds c t n)[j] :: (holds c t n).drop (j + 1) := List.drop_eq_getElem_cons (by omega)
    obtain ⟨u, hu⟩ := h1
    rw [hd] at hu
    constructor
    · rw [show n + (j + 1) = (n + j) + 1 by omega, hb, ← hu]
      exact ⟨u ++ [b], by rw [List.cons_append, List.tail_cons, List.append_assoc]⟩
    · rw [show n + (j + 1) = (n + j) + 1 by omega, level_next hc, h2, ← hu]
      rw [List.take_succ_eq_append_getElem (by omega), List.countP_append]
      simp only [List.cons_append, List.headD_cons, List.countP_cons, List.countP_nil, id]
      rw [Nat.zero_add, Nat.add_assoc]
      rfl

theorem level_full {c : Mvm} (hc : c.Fits) (t : Nat → Cycle) (n : Nat) :
    level c t (n + (c.delay + c.rdLat)) = level c t n + (holds c t n).countP id := by
  rw [(holds_drop hc t n _ (Nat.le_refl _)).2, List.take_of_length_le (by rw [holds_length hc])]

theorem backs_length (c : Mvm) (bs : List Back) : (backs c bs).length = bs.countP (·.valid) := by
  induction bs with
  | nil => rfl
  | cons b bs ih =>
    rw [List.countP_cons, ← ih]
    simp only [backs, List.flatMap_cons, List.length_append]
    split <;> simp [Nat.add_comm]

theorem flow_length (c : Mvm) (w : Nat → BitVec 9 → Vec) (A : BitVec 9 → Nat → BitVec 8) (l : List Stage) :
    (flow c w A l).2.length = l.countP fun f => f.valid && f.i.release := by
  induction l generalizing A with
  | nil => rfl
  | cons f l ih =>
    rw [flow, List.countP_cons]
    cases hv : f.valid with
    | false => simp [ih]
    | true =>
      simp only [if_true, List.length_append, ih, outs, Bool.true_and]
      split <;> simp [Nat.add_comm]

/-- All results so far are handed over, in the FIFO, or in a stage. -/
theorem out_length {c : Mvm} {t : Nat → Cycle} {n : Nat} {r : Ref} {gone q f : List Out}
    (F : Follows c (sigAt c t n).1 (stagesAt c t n) (backsAt c t n) (writesAt c t n) (sigAt c t n).2 r gone q f) :
    r.out.length = level c t n + (holds c t n).countP id := by
  have h1 := F.sent.length_eq
  have h2 := congrArg List.length F.fifo
  have h3 : f.length = (stagesAt c t n).reverse.countP fun f => f.valid && f.i.release := by
    rw [show f = (flow c (weights c (sigAt c t n).2.taken) (low (sigAt c t n).1.acc) (stagesAt c t n).reverse).2 by rw [F.flow],
      flow_length]
  rw [List.length_map] at h2
  rw [F.out]
  simp only [List.length_append, backs_length, h3, level, holds, List.countP_append, List.countP_map, h1, h2]
  have e1 : (id ∘ fun b : Back => b.valid) = fun b => b.valid := rfl
  have e2 : (id ∘ fun f : Stage => f.valid && f.i.release) = fun f => f.valid && f.i.release := rfl
  rw [e1, e2]
  omega

theorem sent_reaches {c : Mvm} (hc : c.Fits) {t : Nat → Cycle} (hd : Drains t) (n L : Nat) (h : L ≤ level c t n) :
    ∃ m ≥ n, L ≤ (sigAt c t m).2.sent.length := by
  induction hk : L - (sigAt c t n).2.sent.length using Nat.strongRecOn generalizing n with
  | _ k ih =>
    by_cases hL : L ≤ (sigAt c t n).2.sent.length
    · exact ⟨n, Nat.le_refl _, hL⟩
    obtain ⟨m, hm, hr⟩ := hd n
    have h1 := sent_le hc t hm
    by_cases hL2 : L ≤ (sigAt c t m).2.sent.length
    · exact ⟨m, hm, hL2⟩
    have h2 := level_le hc t hm
    have h3 : (sigAt c t m).1.out.mem ≠ [] := by
      intro h0
      have : level c t m = (sigAt c t m).2.sent.length := by unfold level; rw [h0]; rfl
      omega
    have h4 : outPop (sigAt c t m).1 (t m).ready = true := by
      unfold outPop Fifo.empty
      rw [hr]
      cases hx : (sigAt c t m).1.out.mem with
      | nil => exact absurd hx h3
      | cons a l => rfl
    have h5 := sent_next hc t m
    rw [if_pos h4] at h5
    obtain ⟨m', hm', h6⟩ := ih (L - (sigAt c t (m + 1)).2.sent.length) (by omega) (m + 1)
      (by have := level_le hc t (show m ≤ m + 1 by omega); omega) rfl
    exact ⟨m', by omega, h6⟩

/-! ## instructions begin -/

/-- What is in the module or its output FIFO. -/
def busy (c : Mvm) (t : Nat → Cycle) (n : Nat) : Nat :=
  (sigAt c t n).1.out.mem.length + (holds c t n).countP id

theorem busy_next {c : Mvm} (hc : c.Fits) (t : Nat → Cycle) (n : Nat) (hp : instPop c (sigAt c t n).1 = false) :
    busy c t (n + 1) + (if outPop (sigAt c t n).1 (t n).ready then 1 else 0) = busy c t n := by
  have B := base_at hc t n
  have h1 := out_next hc t n
  have h2 : holds c t (n + 1) = (holds c t n).tail ++ [false] := by
    obtain ⟨b, hb⟩ := holds_next hc t n
    have h3 : (holds c t (n + 1)).getLastD false = b := by rw [hb]; simp
    have h4 : (holds c t (n + 1)).getLastD false = false := by
      unfold holds
      rw [stagesAt, pipe_reverse _ (B.fs_ne hc)]
      rw [List.map_append, ← List.append_assoc]
      simp only [List.map_cons, List.map_nil]
      have : (stageIn c (sigAt c t n).1).valid = false := hp
      rw [this]
      simp
    rw [hb, ← h3, h4]
  have h3 : (holds c t n).countP id = (if (holds c t n).headD false then 1 else 0) + (holds c t n).tail.countP id := by
    have hl := holds_length hc t n
    have := hc.read
    cases hh : holds c t n with
    | nil => rw [hh, List.length_nil] at hl; omega
    | cons a l => simp [List.countP_cons, Nat.add_comm]
  unfold busy
  rw [h2, List.countP_append, h3]
  have h4 : [false].countP id = 0 := rfl
  rw [h4]
  omega

/-- With instructions that have what they need, one begins. -/
theorem pop_comes {c : Mvm} (hc : c.Fits) {t : Nat → Cycle} (hd : Drains t) (n : Nat)
    (h : ∀ m > n, pops c t m = pops c t n → (sigAt c t m).1.inst.mem ≠ [] ∧ (sigAt c t m).1.input.mem ≠ [] ∧
      ((sigAt c t m).1.inst.odata.reduce = true → (sigAt c t m).1.red.mem ≠ [])) :
    ∃ m > n, pops c t n < pops c t m := by
  by_contra hno
  have hsame : ∀ m > n, pops c t m = pops c t n := by
    intro m hm
    have h1 := pops_le c t (show n ≤ m by omega)
    have h2 : ¬pops c t n < pops c t m := fun h => hno ⟨m, hm, h⟩
    omega
  have hpop : ∀ m > n, instPop c (sigAt c t m).1 = false := by
    intro m hm
    have h1 := hsame m hm
    have h2 := hsame (m + 1) (by omega)
    rw [pops, h1] at h2
    cases hp : instPop c (sigAt c t m).1
    · rfl
    · rw [hp, if_pos rfl] at h2; omega
  have hne : ∀ m > n, (sigAt c t m).1.out.mem ≠ [] := by
    intro m hm h0
    obtain ⟨h1, h2, h3⟩ := h m hm (hsame m hm)
    have : instPop c (sigAt c t m).1 = true := by
      rw [instPop_iff]
      refine ⟨h1, h2, ?_, h3⟩
      have := hc.fifo
      simp only [h0, List.length_nil, Mvm.outCfg]
      omega
    rw [hpop m hm] at this
    cases this
  have hfall : ∀ k, ∀ m > n, busy c t m ≤ k → False := by
    intro k
    induction k with
    | zero =>
      intro m hm hk
      have := hne m hm
      have h1 : (sigAt c t m).1.out.mem.length ≠ 0 := fun h0 => this (List.length_eq_zero_iff.1 h0)
      unfold busy at hk
      omega
    | succ k ih =>
      intro m hm hk
      obtain ⟨m', hm', hr⟩ := hd m
      have hle : ∀ j ≥ m, busy c t j ≤ busy c t m := by
        intro j hj
        induction j, hj using Nat.le_induction with
        | base => exact Nat.le_refl _
        | succ j hj ih2 =>
          have := busy_next hc t j (hpop j (by omega))
          omega
      have h1 := busy_next hc t m' (hpop m' (by omega))
      have h2 : outPop (sigAt c t m').1 (t m').ready = true := by
        unfold outPop Fifo.empty
        rw [hr]
        cases hx : (sigAt c t m').1.out.mem with
        | nil => exact absurd hx (hne m' (by omega))
        | cons a l => rfl
      rw [if_pos h2] at h1
      have h3 := hle m' hm'
      exact ih (m' + 1) (by omega) (by omega)
  exact hfall _ (n + 1) (by omega) (Nat.le_refl _)

theorem needs {c : Mvm} (hc : c.Fits) {t : Nat → Cycle} (ho : ∀ n, Ordered (sigAt c t n).2.taken) {n m : Nat} (hm : n ≤ m) {R : Ref}
    (hR : Ref.After c (sigAt c t n).2.taken R) (hpc : pops c t m < R.pc) :
    ∃ i, (programOf (sigAt c t n).2.taken)[pops c t m % (programOf (sigAt c t n).2.taken).length]? = some i ∧
      (sigAt c t m).1.inst.mem ++ pendI (sigAt c t m).1 = (programOf (sigAt c t n).2.taken).rotate (pops c t m) ∧
      (sigAt c t m).1.input.mem ++ pendX (sigAt c t m).1 ≠ [] ∧
      (i.reduce = true → (sigAt c t m).1.red.mem ++ pendR (sigAt c t m).1 ≠ []) := by
  obtain ⟨r, gone, q, f, hrp, F⟩ := follows_at hc t m (ho m)
  obtain ⟨l, hl⟩ := taken_prefix c t hm
  obtain ⟨h1, h2, h3⟩ := Ref.After.more (l := l) hR (by rw [← hl]; exact ho m) (by omega)
  rw [← hl] at h1 h2 h3
  have hnext : ∃ r', r.next c (programOf (sigAt c t m).2.taken) (weights c (sigAt c t m).2.taken) = some r' := by
    rcases Ref.Reach.total F.reach h3 with h | h
    · rcases Relation.ReflTransGen.cases_head h with h | ⟨r', h, -⟩
      · exfalso
        rw [h] at hrp
        have : (R.more (inputsOf c l) (addsOf c l)).pc = R.pc := rfl
        omega
      · exact ⟨r', h⟩
    · exfalso
      have := h.pc.1
      have h5 : (R.more (inputsOf c l) (addsOf c l)).pc = R.pc := rfl
      omega
  obtain ⟨r', hn⟩ := hnext
  obtain ⟨i, x, xs, hp, hx, hy⟩ := Ref.next_cases hn
  rw [h1, hrp] at hp
  refine ⟨i, hp, ?_, ?_, ?_⟩
  · rw [F.ring, h1, hrp]
  · rw [F.ins, hx]; simp
  · intro hi
    rw [F.reds]
    rcases hy with ⟨-, y, ys, hy, -⟩ | ⟨hy, -⟩
    · rw [hy]; simp
    · rw [hi] at hy; cases hy

theorem pops_reach {c : Mvm} (hc : c.Fits) {t : Nat → Cycle} (hd : Drains t) (ho : ∀ n, Ordered (sigAt c t n).2.taken) {n : Nat}
    {R : Ref} (hR : Ref.After c (sigAt c t n).2.taken R) : ∃ m ≥ n, R.pc ≤ pops c t m := by
  have key : ∀ k, ∀ m ≥ n, R.pc ≤ pops c t m + k → ∃ m ≥ n, R.pc ≤ pops c t m := by
    intro k
    induction k with
    | zero => intro m hm h; exact ⟨m, hm, h⟩
    | succ k ih =>
      intro m hm h
      by_cases hlt : R.pc ≤ pops c t m
      · exact ⟨m, hm, hlt⟩
      obtain ⟨m', hm', hp⟩ := pop_comes hc hd m (by
        intro j hj hsame
        -- the cycle before
        obtain ⟨j, rfl⟩ : ∃ j', j = j' + 1 := ⟨j - 1, by omega⟩
        have hle := pops_le c t (show m ≤ j by omega)
        have hle2 := pops_le c t (show j ≤ j + 1 by omega)
        have hj0 : pops c t j = pops c t m := by omega
        have hnp : instPop c (sigAt c t j).1 = false := by
          have : pops c t (j + 1) = pops c t j + if instPop c (sigAt c t j).1 then 1 else 0 := rfl
          cases hp : instPop c (sigAt c t j).1
          · rfl
          · rw [hp, if_pos rfl] at this; omega
        obtain ⟨i, hi, h1, h2, h3⟩ := needs hc ho (show n ≤ j by omega) hR (by omega)
        obtain ⟨i', hi', h1', -, -⟩ := needs hc ho (show n ≤ j + 1 by omega) hR (by omega)
        have e1 : (sigAt c t (j + 1)).1.inst.mem = (sigAt c t j).1.inst.mem ++ pendI (sigAt c t j).1 := by
          show (if instPop c (sigAt c t j).1 then _ else _) ++ _ = _
          rw [hnp]; rfl
        have e2 : (sigAt c t (j + 1)).1.input.mem = (sigAt c t j).1.input.mem ++ pendX (sigAt c t j).1 := by
          show (if inputPop c (sigAt c t j).1 then _ else _) ++ _ = _
          rw [inputPop_eq, hnp]; rfl
        have e3 : (sigAt c t (j + 1)).1.red.mem = (sigAt c t j).1.red.mem ++ pendR (sigAt c t j).1 := by
          show (if redPop c (sigAt c t j).1 then _ else _) ++ _ = _
          rw [redPop_eq, hnp]; rfl
        have hne : programOf (sigAt c t n).2.taken ≠ [] := by
          intro h0
          rw [h0] at hi
          simp at hi
        have hmem : (sigAt c t (j + 1)).1.inst.mem ≠ [] := by
          rw [e1, h1]
          intro h0
          exact hne (by simpa using h0)
        refine ⟨hmem, by rw [e2]; exact h2, ?_⟩
        rw [e3]
        obtain ⟨y, ys, hy⟩ := List.exists_cons_of_ne_nil hmem
        rw [(base_at hc t (j + 1)).inst.cons hy]
        intro hr
        apply h3
        have h4 := congrArg (·[0]?) (e1.symm.trans hy |>.symm.trans h1)
        simp only [List.getElem?_cons_zero] at h4
        rw [List.getElem?_rotate (List.length_pos_iff.2 hne)] at h4
        rw [Nat.zero_add, hi, Option.some.injEq] at h4
        rw [← h4]
        exact hr)
      exact ih m' (by omega) (by omega)
  exact key R.pc n (Nat.le_refl _) (by omega)

/-- Whatever the reference gets out of the beats taken is handed over in the end. -/
theorem delivers {c : Mvm} (hc : c.Fits) {t : Nat → Cycle} (hd : Drains t) (ho : ∀ n, Ordered (sigAt c t n).2.taken) {n : Nat}
    {R : Ref} (hR : Ref.After c (sigAt c t n).2.taken R) :
    ∃ m ≥ n, List.Forall₂ (Carries c) ((sigAt c t m).2.sent.take R.out.length) R.out := by
  obtain ⟨m, hm, hp⟩ := pops_reach hc hd ho hR
  obtain ⟨r, gone, q, f, hrp, F⟩ := follows_at hc t m (ho m)
  have hlev : r.out.length ≤ level c t (m + (c.delay + c.rdLat)) := by rw [out_length F, level_full hc]
  obtain ⟨m', hm', hs⟩ := sent_reaches hc hd _ _ hlev
  obtain ⟨r', gone', q', f', hrp', F'⟩ := follows_at hc t m' (ho m')
  have hpre : ∀ j ≥ n, ∀ r, Ref.After c (sigAt c t j).2.taken r → R.pc ≤ r.pc → R.out <+: r.out := by
    intro j hj r hr hle
    by_cases h0 : R.pc = 0
    · have : R.out = [] := by
        rcases Relation.ReflTransGen.cases_tail hR with h | ⟨R', -, h⟩
        · rw [h]; rfl
        · have := Ref.next_pc h; omega
      rw [this]
      exact List.nil_prefix
    · obtain ⟨l, hl⟩ := taken_prefix c t hj
      obtain ⟨-, -, h3⟩ := Ref.After.more (l := l) hR (by rw [← hl]; exact ho j) (by omega)
      rw [← hl] at h3
      have e : (R.more (inputsOf c l) (addsOf c l)).out = R.out := rfl
      rcases Ref.Reach.total h3 hr with h | h
      · exact e ▸ h.pc.2
      · rcases Relation.ReflTransGen.cases_head h with h | ⟨r', h5, h6⟩
        · rw [h, e]
        · exfalso
          have h7 := Ref.next_pc h5
          have h8 := (Ref.Reach.pc h6).1
          have h9 : (R.more (inputsOf c l) (addsOf c l)).pc = R.pc := rfl
          omega
  have h1 := (hpre m hm r F.reach (by omega)).length_le
  have h2 := hpre m' (by omega) r' F'.reach (by rw [hrp']; have := pops_le c t (show m ≤ m' by omega); omega)
  refine ⟨m', by omega, ?_⟩
  have hl := F'.sent.length_eq
  have h3 : gone' <+: r'.out := by rw [F'.out, List.append_assoc, List.append_assoc]; exact List.prefix_append _ _
  have h4 : gone'.take R.out.length = R.out := by
    have : R.out <+: gone' := List.prefix_of_prefix_length_le h2 h3 (by omega)
    exact (List.prefix_iff_eq_take.1 this).symm
  have h5 := List.forall₂_take R.out.length F'.sent
  rw [h4] at h5
  exact h5

end RadSim.Int8
