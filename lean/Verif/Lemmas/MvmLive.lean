import Verif.Lemmas.MvmRun

/-! # Runs of a matrix vector multiplier -/

namespace RadSim.Mlp

/-- After `n` cycles. -/
structure At (c : Mvm) (t : Nat → Cycle) (n : Nat) (s : Sig) (h : Seen) (r : Ref) (d q f : List Out) : Prop where
  run : run c t n = .ok (s, h)
  follows : Follows c h s r d q f

/-- The cycle after it. -/
theorem At.step {c : Mvm} (hc : c.Fits) {t : Nat → Cycle} (hr : c.Runs t) (hs : c.Shows t) {n : Nat} {s : Sig} {h : Seen} {r : Ref}
    {d q f : List Out} (A : At c t n s h r d q f) : ∃ s' r' f', At c t (n + 1) s' (h.add s (t n)) r'
        (d ++ if s.txReady then q.take 1 else []) ((if s.txReady then q.tail else q) ++ backOuts [lastBack s.reg.back]) f' ∧
      (∃ x y, (h.add s (t n)).ins = h.ins ++ x ∧ (h.add s (t n)).reds = h.reds ++ y ∧ ((r.more x y).next c = some r' ∨
        (r' = r.more x y ∧ s'.reg.ififo.mem = r.ins ∧ s'.reg.rfifo.mem = r.reds ∧
          ¬ (q.length < c.outCfg.almostFull ∧ Able c s r)))) ∧
      s'.txReady = (s'.wire.txValid && (t n).open) ∧
      (∃ b, b.valid = ((s.reg.front.getLastD .idle).valid && (s.reg.front.getLastD .idle).release) ∧
        s'.reg.back = shift b s.reg.back) ∧
      ∃ a, s'.reg.front = shift a s.reg.front := by
  obtain ⟨s', r', f', h1, h2, h3⟩ := cycle_follows hc A.follows (t n) (hr n s h A.run) (hs n s h A.run)
  refine ⟨s', r', f', ⟨?_, h2⟩, h3⟩
  simp only [Mlp.run, A.run, h1]

theorem at_all {c : Mvm} (hc : c.Fits) {t : Nat → Cycle} (hr : c.Runs t) (hs : c.Shows t) (n : Nat) :
    ∃ s h r d q f, At c t n s h r d q f := by
  induction n with
  | zero => exact ⟨_, _, _, _, _, _, rfl, init_follows hc⟩
  | succ n ih =>
    obtain ⟨s, h, r, d, q, f, A⟩ := ih
    obtain ⟨s', r', f', A', -⟩ := A.step hc hr hs
    exact ⟨_, _, _, _, _, _, A'⟩

theorem Ref.more_nil (r : Ref) : r.more [] [] = r := by
  simp [Ref.more]

theorem Ref.more_more (r : Ref) (x y x' y' : List Vec) : (r.more x y).more x' y' = r.more (x ++ x') (y ++ y') := by
  simp [Ref.more]

/-- As long as the next instruction does not begin, it could. -/
theorem At.wait {c : Mvm} (hc : c.Fits) {t : Nat → Cycle} (hr : c.Runs t) (hs : c.Shows t) {n : Nat} {s : Sig} {h : Seen} {r r1 : Ref}
    {d q f : List Out} (A : At c t n s h r d q f) (hn : r.next c = some r1) :
    (∃ s' h' d' q' f' x y, At c t (n + 1) s' h' (r1.more x y) d' q' f') ∨
    (¬ (q.length < c.outCfg.almostFull ∧ Able c s r) ∧ ∃ s' h' r' f', At c t (n + 1) s' h' r' (d ++ if s.txReady then q.take 1 else [])
      ((if s.txReady then q.tail else q) ++ backOuts [lastBack s.reg.back]) f' ∧ (∃ x y, r' = r.more x y) ∧ Able c s' r' ∧
      s'.txReady = (s'.wire.txValid && (t n).open)) := by
  obtain ⟨s', r', f', A', ⟨x, y, -, -, hx⟩, h1, -, -⟩ := A.step hc hr hs
  rcases hx with hx | ⟨rfl, hi, hd, hq⟩
  · rw [Ref.next_more x y hn] at hx
    cases hx
    exact .inl ⟨_, _, _, _, _, _, _, A'⟩
  · refine .inr ⟨hq, _, _, _, _, A', ⟨x, y, rfl⟩, ?_, h1⟩
    unfold Able
    rw [hi, hd]
    have : ({ r.more x y with ins := r.ins, reds := r.reds } : Ref) = r := rfl
    rw [this, hn]
    simp

/-- The next instruction begins at some time. -/
theorem At.begins {c : Mvm} (hc : c.Fits) {t : Nat → Cycle} (hr : c.Runs t) (hs : c.Shows t) (hf : Drains t) (K : Nat) :
    ∀ {n : Nat} {s : Sig} {h : Seen} {r r1 : Ref} {d q f : List Out}, At c t n s h r d q f → Able c s r → r.next c = some r1 →
      r.out.length ≤ d.length + K → ∃ m s' h' d' q' f' x y, n ≤ m ∧ At c t m s' h' (r1.more x y) d' q' f' := by
  have hthr : 0 < c.outCfg.almostFull := by
    have := hc.fifo
    simp only [Mvm.outCfg]
    omega
  -- up to a cycle before which the adapter has room
  have hold : ∀ j, ∀ {n : Nat} {s : Sig} {h : Seen} {r r1 : Ref} {d q f : List Out}, At c t n s h r d q f → Able c s r →
      r.next c = some r1 → (t (n + j)).open = true →
      (∃ m s' h' d' q' f' x y, n ≤ m ∧ At c t m s' h' (r1.more x y) d' q' f') ∨
      ∃ s' h' r' d' q' f' x y, At c t (n + j + 1) s' h' r' d' q' f' ∧ r' = r.more x y ∧ Able c s' r' ∧ d.length ≤ d'.length ∧
        s'.txReady = s'.wire.txValid := by
    intro j
    induction j with
    | zero =>
      intro n s h r r1 d q f A ha hn ho
      rcases A.wait hc hr hs hn with ⟨s', h', d', q', f', x, y, A'⟩ | ⟨-, s', h', r', f', A', ⟨x, y, hx⟩, ha', hrd⟩
      · exact .inl ⟨_, _, _, _, _, _, _, _, Nat.le_succ _, A'⟩
      · refine .inr ⟨_, _, _, _, _, _, x, y, A', hx, ha', by simp, ?_⟩
        have ho : (t n).open = true := ho
        rw [hrd, ho, Bool.and_true]
    | succ j ih =>
      intro n s h r r1 d q f A ha hn ho
      rcases A.wait hc hr hs hn with ⟨s', h', d', q', f', x, y, A'⟩ | ⟨-, s', h', r', f', A', ⟨x, y, rfl⟩, ha', hrd⟩
      · exact .inl ⟨_, _, _, _, _, _, _, _, Nat.le_succ _, A'⟩
      · rcases ih A' ha' (Ref.next_more x y hn) (by rw [show n + 1 + j = n + (j + 1) by omega]; exact ho) with
          ⟨m, s', h', d', q', f', x', y', hm, B⟩ | ⟨s', h', r', d', q', f', x', y', B, rfl, hb, hd, hrd⟩
        · rw [Ref.more_more] at B
          exact .inl ⟨m, _, _, _, _, _, _, _, by omega, B⟩
        · refine .inr ⟨_, _, _, _, _, _, _, _, by rw [show n + (j + 1) + 1 = n + 1 + j + 1 by omega]; exact B, Ref.more_more .., hb, ?_, hrd⟩
          rw [List.length_append] at hd
          omega
  -- one more cycle
  have last : ∀ {n : Nat} {s : Sig} {h : Seen} {r r1 : Ref} {d q f : List Out}, At c t n s h r d q f → Able c s r →
      r.next c = some r1 → s.txReady = s.wire.txValid →
      (∃ m s' h' d' q' f' x y, n ≤ m ∧ At c t m s' h' (r1.more x y) d' q' f') ∨
      ∃ s' h' r' d' q' f' x y, At c t (n + 1) s' h' r' d' q' f' ∧ r' = r.more x y ∧ Able c s' r' ∧ d.length < d'.length := by
    intro n s h r r1 d q f A ha hn ht
    rcases A.wait hc hr hs hn with ⟨s', h', d', q', f', x, y, A'⟩ | ⟨hq, s', h', r', f', A', ⟨x, y, rfl⟩, ha', hrd⟩
    · exact .inl ⟨_, _, _, _, _, _, _, _, Nat.le_succ _, A'⟩
    · refine .inr ⟨_, _, _, _, _, _, _, _, A', rfl, ha', ?_⟩
      have hne : q ≠ [] := by
        rintro rfl
        exact hq ⟨hthr, ha⟩
      obtain ⟨o, q', rfl⟩ := List.exists_cons_of_ne_nil hne
      have := (A.follows.shows hc).1
      rw [ht, this]
      simp
  induction K with
  | zero =>
    intro n s h r r1 d q f A ha hn hl
    rcases A.wait hc hr hs hn with ⟨s', h', d', q', f', x, y, A'⟩ | ⟨hq, -⟩
    · exact ⟨_, _, _, _, _, _, _, _, Nat.le_succ _, A'⟩
    · exfalso
      apply hq
      refine ⟨?_, ha⟩
      have := congrArg List.length A.follows.out
      simp only [List.length_append] at this
      omega
  | succ K ih =>
    intro n s h r r1 d q f A ha hn hl
    obtain ⟨m, hm, ho⟩ := hf n
    obtain ⟨j, rfl⟩ := Nat.exists_eq_add_of_le hm
    rcases hold j A ha hn ho with hh | ⟨s', h', r', d', q', f', x, y, A', rfl, ha', hd, ht⟩
    · exact hh
    · rcases last A' ha' (Ref.next_more x y hn) ht with ⟨m, s2, h2, d2, q2, f2, x', y', hm, B⟩ |
        ⟨s2, h2, r2, d2, q2, f2, x', y', B, rfl, hb, hd'⟩
      · rw [Ref.more_more] at B
        exact ⟨m, _, _, _, _, _, _, _, by omega, B⟩
      · obtain ⟨m, s3, h3, d3, q3, f3, x3, y3, hm, C⟩ := ih B hb (Ref.next_more x' y' (Ref.next_more x y hn)) (by
          simp only [Ref.more]
          omega)
        rw [Ref.more_more, Ref.more_more] at C
        exact ⟨m, _, _, _, _, _, _, _, by omega, C⟩

/-- The program comes as far as it can on the vectors so far. -/
theorem At.comes {c : Mvm} (hc : c.Fits) {t : Nat → Cycle} (hr : c.Runs t) (hs : c.Shows t) (hf : Drains t) {r r0 : Ref}
    (hreach : Ref.Reach c r r0) : ∀ {n : Nat} {s : Sig} {h : Seen} {d q f : List Out} {x y : List Vec},
      At c t n s h (r.more x y) d q f → ∃ m s' h' d' q' f' x' y', n ≤ m ∧ At c t m s' h' (r0.more x' y') d' q' f' := by
  induction hreach using Relation.ReflTransGen.head_induction_on with
  | refl => exact fun A => ⟨_, _, _, _, _, _, _, _, Nat.le_refl _, A⟩
  | head hn _ ih =>
    intro n s h d q f x y A
    rcases A.wait hc hr hs (Ref.next_more x y hn) with ⟨s', h', d', q', f', x, y, A'⟩ | ⟨-, s', h', r', f', A', ⟨x', y', rfl⟩, ha', -⟩
    · rw [Ref.more_more] at A'
      obtain ⟨m, s2, h2, d2, q2, f2, x2, y2, hm, B⟩ := ih A'
      exact ⟨m, _, _, _, _, _, _, _, by omega, B⟩
    · obtain ⟨m, s2, h2, d2, q2, f2, x2, y2, hm, B⟩ := A'.begins hc hr hs hf _ ha' (Ref.next_more x' y' (Ref.next_more x y hn))
        (Nat.le_add_left _ _)
      rw [Ref.more_more, Ref.more_more] at B
      obtain ⟨m', s2, h2, d2, q2, f2, x2, y2, hm', B'⟩ := ih B
      exact ⟨m', _, _, _, _, _, _, _, by omega, B'⟩

theorem shift_get {α : Type} (x : α) (l : List α) {i : Nat} (h : i + 1 < l.length) : (shift x l)[i + 1]? = l[i]? := by
  unfold shift
  rw [List.getElem?_take, if_pos h, List.getElem?_cons_succ]

theorem shift_zero {α : Type} (x : α) {l : List α} (h : 0 < l.length) : (shift x l)[0]? = some x := by
  unfold shift
  rw [List.getElem?_take, if_pos h, List.getElem?_cons_zero]

theorem getLastD_get {α : Type} {l : List α} {i : Nat} {a z : α} (h : l[i]? = some a) (hi : i + 1 = l.length) : l.getLastD z = a := by
  rw [List.getLastD_eq_getLast?, List.getLast?_eq_getElem?, ← hi]
  simp [h]

/-- A stage of the back pipeline that holds a result. -/
theorem backOuts_stage {l : List Back} (h : backOuts l.reverse ≠ []) : ∃ (i : Nat) (b : Back), l[i]? = some b ∧ b.valid = true := by
  obtain ⟨o, ho⟩ := List.exists_mem_of_ne_nil _ h
  unfold backOuts at ho
  rw [List.mem_filterMap] at ho
  obtain ⟨b, hb, ho⟩ := ho
  rw [List.mem_reverse] at hb
  obtain ⟨i, hi⟩ := List.getElem?_of_mem hb
  refine ⟨i, b, hi, ?_⟩
  by_contra hv
  simp [hv] at ho

/-- A stage of the front pipeline that leads to a result. -/
theorem flow_stage {c : Mvm} {l : List (Front × Nat)} : ∀ {a a' : Nat → Option Vec} {f : List Out}, flow c a l = some (a', f) →
    f ≠ [] → ∃ p ∈ l, p.1.valid = true ∧ p.1.release = true := by
  induction l with
  | nil =>
    intro a a' f h hf
    simp only [flow, Option.some.injEq, Prod.mk.injEq] at h
    exact absurd h.2.symm hf
  | cons p l ih =>
    intro a a' f h hf
    by_cases hp : p.1.valid = true ∧ p.1.release = true
    · exact ⟨p, by simp, hp⟩
    · obtain ⟨p, n⟩ := p
      rw [flow] at h
      by_cases hv : p.valid = true
      · rw [if_pos hv] at h
        have hr : p.release = false := by
          simpa [hv] using hp
        split at h
        · simp at h
        · rw [Option.map_eq_some_iff] at h
          obtain ⟨y, hy, he⟩ := h
          simp only [Front.outs, hr, Bool.false_eq_true, if_false, List.nil_append, Prod.mk.injEq] at he
          obtain ⟨q, hq, hq'⟩ := ih (a' := y.1) (f := y.2) hy (by rw [he.2]; exact hf)
          exact ⟨q, by simp [hq], hq'⟩
      · rw [if_neg hv] at h
        obtain ⟨q, hq, hq'⟩ := ih h hf
        exact ⟨q, by simp [hq], hq'⟩

theorem Ref.next_out {c : Mvm} {r r' : Ref} (h : r.next c = some r') : r.out <+: r'.out := by
  rcases Ref.next_cases h with ⟨-, -, rfl⟩ | ⟨-, -, -, a, as, b, bs, -, -, rfl⟩ | ⟨-, -, -, a, as, -, rfl⟩
  · exact List.prefix_refl _
  · exact List.prefix_append _ _
  · exact List.prefix_append _ _

/-- The next cycle, for the results up to some. -/
theorem At.goes {c : Mvm} (hc : c.Fits) {t : Nat → Cycle} (hr : c.Runs t) (hs : c.Shows t) {n : Nat} {s : Sig} {h : Seen} {r : Ref}
    {d q f T : List Out} (A : At c t n s h r d q f) (hT : T <+: r.out) : ∃ s' h' r' f', At c t (n + 1) s' h' r'
        (d ++ if s.txReady then q.take 1 else []) ((if s.txReady then q.tail else q) ++ backOuts [lastBack s.reg.back]) f' ∧
      T <+: r'.out ∧ s'.txReady = (s'.wire.txValid && (t n).open) ∧
      (∃ b, b.valid = ((s.reg.front.getLastD .idle).valid && (s.reg.front.getLastD .idle).release) ∧
        s'.reg.back = shift b s.reg.back) ∧
      ∃ a, s'.reg.front = shift a s.reg.front := by
  obtain ⟨s', r', f', A', ⟨x, y, -, -, hx⟩, h1⟩ := A.step hc hr hs
  refine ⟨s', _, r', f', A', ?_, h1⟩
  rcases hx with hx | ⟨rfl, -⟩
  · exact hT.trans (Ref.next_out (r := r.more x y) hx)
  · exact hT

/-- What is behind the dot products comes to the FIFO. -/
theorem At.back {c : Mvm} (hc : c.Fits) {t : Nat → Cycle} (hr : c.Runs t) (hs : c.Shows t) {T : List Out} (k : Nat) :
    ∀ {n : Nat} {s : Sig} {h : Seen} {r : Ref} {d q f : List Out} {i : Nat} {b : Back}, At c t n s h r d q f → T <+: r.out →
      s.reg.back[i]? = some b → b.valid = true → i + k + 1 = c.computeLatency →
      ∃ m s' h' r' d' q' f', n ≤ m ∧ At c t m s' h' r' d' q' f' ∧ T <+: r'.out ∧ d.length ≤ d'.length ∧ q' ≠ [] := by
  induction k with
  | zero =>
    intro n s h r d q f i b A hT hb hv hi
    obtain ⟨s', h', r', f', A', hT', -⟩ := A.goes hc hr hs hT
    refine ⟨_, _, _, _, _, _, _, Nat.le_succ _, A', hT', by simp, ?_⟩
    have : lastBack s.reg.back = b := getLastD_get hb (by rw [A.follows.back]; omega)
    rw [this]
    simp [backOuts, hv]
  | succ k ih =>
    intro n s h r d q f i b A hT hb hv hi
    obtain ⟨s', h', r', f', A', hT', -, ⟨b', -, hb'⟩, -⟩ := A.goes hc hr hs hT
    obtain ⟨m, s2, h2, r2, d2, q2, f2, hm, B, hT2, hd, hq⟩ := ih (i := i + 1) (b := b) A' hT' (by
      rw [hb', shift_get _ _ (by rw [A.follows.back]; omega), hb]) hv (by omega)
    rw [List.length_append] at hd
    exact ⟨m, _, _, _, _, _, _, by omega, B, hT2, by omega, hq⟩

/-- What is in front of the dot products comes to the FIFO. -/
theorem At.front {c : Mvm} (hc : c.Fits) {t : Nat → Cycle} (hr : c.Runs t) (hs : c.Shows t) {T : List Out} (k : Nat) :
    ∀ {n : Nat} {s : Sig} {h : Seen} {r : Ref} {d q f : List Out} {i : Nat} {a : Front}, At c t n s h r d q f → T <+: r.out →
      s.reg.front[i]? = some a → a.valid = true → a.release = true → i + k + 1 = c.rfLatency →
      ∃ m s' h' r' d' q' f', n ≤ m ∧ At c t m s' h' r' d' q' f' ∧ T <+: r'.out ∧ d.length ≤ d'.length ∧ q' ≠ [] := by
  induction k with
  | zero =>
    intro n s h r d q f i a A hT ha hv hl hi
    obtain ⟨s', h', r', f', A', hT', -, ⟨b', hbv, hb'⟩, -⟩ := A.goes hc hr hs hT
    have : s.reg.front.getLastD .idle = a := getLastD_get ha (by rw [A.follows.front]; omega)
    rw [this, hv, hl] at hbv
    have hpos := hc.compute
    obtain ⟨m, s2, h2, r2, d2, q2, f2, hm, B, hT2, hd, hq⟩ := A'.back hc hr hs (c.computeLatency - 1) (i := 0) (b := b') hT' (by
      rw [hb', shift_zero _ (by rw [A.follows.back]; omega)]) hbv (by omega)
    rw [List.length_append] at hd
    exact ⟨m, _, _, _, _, _, _, by omega, B, hT2, by omega, hq⟩
  | succ k ih =>
    intro n s h r d q f i a A hT ha hv hl hi
    obtain ⟨s', h', r', f', A', hT', -, -, ⟨a', ha'⟩⟩ := A.goes hc hr hs hT
    obtain ⟨m, s2, h2, r2, d2, q2, f2, hm, B, hT2, hd, hq⟩ := ih (i := i + 1) (a := a) A' hT' (by
      rw [ha', shift_get _ _ (by rw [A.follows.front]; omega), ha]) hv hl (by omega)
    rw [List.length_append] at hd
    exact ⟨m, _, _, _, _, _, _, by omega, B, hT2, by omega, hq⟩

/-- What is in the FIFO is sent. -/
theorem At.sends {c : Mvm} (hc : c.Fits) {t : Nat → Cycle} (hr : c.Runs t) (hs : c.Shows t) (hf : Drains t) {T : List Out}
    {n : Nat} {s : Sig} {h : Seen} {r : Ref} {d q f : List Out} (A : At c t n s h r d q f) (hT : T <+: r.out) (hq : q ≠ []) :
    ∃ m s' h' r' d' q' f', n ≤ m ∧ At c t m s' h' r' d' q' f' ∧ T <+: r'.out ∧ d.length < d'.length := by
  have one : ∀ {n : Nat} {s : Sig} {h : Seen} {r : Ref} {d q f : List Out}, At c t n s h r d q f → T <+: r.out → q ≠ [] →
      (∃ s' h' r' d' q' f', At c t (n + 1) s' h' r' d' q' f' ∧ T <+: r'.out ∧ d.length < d'.length) ∨
      (s.txReady = false ∧ ∃ s' h' r' q' f', At c t (n + 1) s' h' r' d q' f' ∧ T <+: r'.out ∧ q' ≠ [] ∧
        s'.txReady = (s'.wire.txValid && (t n).open)) := by
    intro n s h r d q f A hT hq
    obtain ⟨s', h', r', f', A', hT', ho, -⟩ := A.goes hc hr hs hT
    cases hrd : s.txReady with
    | true =>
      rw [hrd] at A'
      obtain ⟨o, q', rfl⟩ := List.exists_cons_of_ne_nil hq
      exact .inl ⟨_, _, _, _, _, _, A', hT', by simp⟩
    | false =>
      rw [hrd] at A'
      simp only [Bool.false_eq_true, if_false, List.append_nil] at A'
      exact .inr ⟨rfl, _, _, _, _, _, A', hT', by simp [hq], ho⟩
  obtain ⟨m, hm, ho⟩ := hf n
  obtain ⟨j, rfl⟩ := Nat.exists_eq_add_of_le hm
  clear hm
  induction j generalizing n s h r q f with
  | zero =>
    rcases one A hT hq with ⟨s', h', r', d', q', f', A', hT', hd⟩ | ⟨-, s', h', r', q', f', A', hT', hq', hrd⟩
    · exact ⟨_, _, _, _, _, _, _, Nat.le_succ _, A', hT', hd⟩
    · rcases one A' hT' hq' with ⟨s2, h2, r2, d2, q2, f2, A2, hT2, hd⟩ | ⟨hno, -⟩
      · exact ⟨_, _, _, _, _, _, _, by omega, A2, hT2, hd⟩
      · exfalso
        have ho : (t n).open = true := ho
        rw [hno, (A'.follows.shows hc).1, ho] at hrd
        simp [hq'] at hrd
  | succ j ih =>
    rcases one A hT hq with ⟨s', h', r', d', q', f', A', hT', hd⟩ | ⟨-, s', h', r', q', f', A', hT', hq', hrd⟩
    · exact ⟨_, _, _, _, _, _, _, Nat.le_succ _, A', hT', hd⟩
    · obtain ⟨m, s2, h2, r2, d2, q2, f2, hm, B, hT2, hd⟩ := ih A' hT' hq' (by
        rw [show n + 1 + j = n + (j + 1) by omega]
        exact ho)
      exact ⟨m, _, _, _, _, _, _, by omega, B, hT2, hd⟩

/-- All results are sent. -/
theorem At.all {c : Mvm} (hc : c.Fits) {t : Nat → Cycle} (hr : c.Runs t) (hs : c.Shows t) (hf : Drains t) {T : List Out} (K : Nat) :
    ∀ {n : Nat} {s : Sig} {h : Seen} {r : Ref} {d q f : List Out}, At c t n s h r d q f → T <+: r.out → T.length ≤ d.length + K →
      ∃ m s' h' r' d' q' f', n ≤ m ∧ At c t m s' h' r' d' q' f' ∧ T <+: r'.out ∧ T.length ≤ d'.length := by
  induction K with
  | zero => exact fun A hT hl => ⟨_, _, _, _, _, _, _, Nat.le_refl _, A, hT, hl⟩
  | succ K ih =>
    intro n s h r d q f A hT hl
    by_cases hl' : T.length ≤ d.length
    · exact ⟨_, _, _, _, _, _, _, Nat.le_refl _, A, hT, hl'⟩
    have hmore : q ≠ [] ∨ backOuts s.reg.back.reverse ≠ [] ∨ f ≠ [] := by
      by_contra hno
      simp only [not_or, not_not] at hno
      have := A.follows.out
      rw [hno.1, hno.2.1, hno.2.2] at this
      have hle := hT.length_le
      rw [this] at hle
      simp only [List.append_nil] at hle
      exact hl' hle
    have hq : ∃ m s' h' r' d' q' f', n ≤ m ∧ At c t m s' h' r' d' q' f' ∧ T <+: r'.out ∧ d.length ≤ d'.length ∧ q' ≠ [] := by
      rcases hmore with hq | hb | hf
      · exact ⟨_, _, _, _, _, _, _, Nat.le_refl _, A, hT, Nat.le_refl _, hq⟩
      · obtain ⟨i, b, hi, hv⟩ := backOuts_stage hb
        have hlt : i < s.reg.back.length := by
          by_contra hge
          rw [List.getElem?_eq_none (by omega)] at hi
          simp at hi
        rw [A.follows.back] at hlt
        exact A.back hc hr hs (c.computeLatency - 1 - i) hT hi hv (by omega)
      · obtain ⟨p, hp, hv, hl⟩ := flow_stage A.follows.flow hf
        rw [List.mem_reverse] at hp
        have hp : p.1 ∈ s.reg.front := (List.of_mem_zip (a := p.1) (b := p.2) hp).1
        obtain ⟨i, hi⟩ := List.getElem?_of_mem hp
        have hlt : i < s.reg.front.length := by
          by_contra hge
          rw [List.getElem?_eq_none (by omega)] at hi
          simp at hi
        rw [A.follows.front] at hlt
        exact A.front hc hr hs (c.rfLatency - 1 - i) hT hi hv hl (by omega)
    obtain ⟨m, s', h', r', d', q', f', hm, A', hT', hd, hq⟩ := hq
    obtain ⟨m', s2, h2, r2, d2, q2, f2, hm', B, hT2, hd2⟩ := A'.sends hc hr hs hf hT' hq
    obtain ⟨m3, s3, h3, r3, d3, q3, f3, hm3, C, hT3, hd3⟩ := ih B hT2 (by omega)
    exact ⟨m3, _, _, _, _, _, _, by omega, C, hT3, hd3⟩

theorem At.prefix {c : Mvm} {t : Nat → Cycle} {n : Nat} {s : Sig} {h : Seen} {r : Ref} {d q f : List Out} (A : At c t n s h r d q f) :
    d <+: r.out := by
  rw [A.follows.out, List.append_assoc, List.append_assoc]
  exact List.prefix_append _ _

/-- What the program gives on the vectors so far is sent. -/
theorem run_sends {c : Mvm} (hc : c.Fits) {t : Nat → Cycle} (hr : c.Runs t) (hs : c.Shows t) (hf : Drains t) {n : Nat} {s : Sig}
    {h : Seen} (hrun : run c t n = .ok (s, h)) {r : Ref} (hreach : Ref.Reach c (Ref.start h.ins h.reds) r) :
    ∃ m s' h', n ≤ m ∧ run c t m = .ok (s', h') ∧ r.out.map c.wire <+: h'.sent := by
  obtain ⟨s1, h1, r1, d, q, f, A⟩ := at_all hc hr hs n
  have := A.run
  rw [hrun] at this
  cases this
  have key : ∃ m s' h' r' d' q' f', n ≤ m ∧ At c t m s' h' r' d' q' f' ∧ r.out <+: r'.out := by
    rcases Relation.ReflTransGen.total_of_right_unique (fun a b d h1 h2 => by rw [h1] at h2; exact Option.some.inj h2)
      hreach A.follows.reach with h1 | h1
    · have : r.out <+: r1.out := by
        clear A hreach
        induction h1 with
        | refl => exact List.prefix_refl _
        | tail _ hn ih => exact ih.trans (Ref.next_out hn)
      exact ⟨_, _, _, _, _, _, _, Nat.le_refl _, A, this⟩
    · obtain ⟨m, s', h', d', q', f', x, y, hm, B⟩ := At.comes hc hr hs hf h1 (x := []) (y := []) (by rw [Ref.more_nil]; exact A)
      exact ⟨_, _, _, _, _, _, _, hm, B, List.prefix_refl _⟩
  obtain ⟨m, s', h', r', d', q', f', hm, B, hp⟩ := key
  obtain ⟨m', s2, h2, r2, d2, q2, f2, hm', C, hT, hl⟩ := B.all hc hr hs hf _ hp (Nat.le_add_left _ _)
  refine ⟨m', s2, h2, by omega, C.run, ?_⟩
  rw [C.follows.sent]
  exact List.IsPrefix.map _ (List.prefix_of_prefix_length_le hT C.prefix hl)

end RadSim.Mlp
