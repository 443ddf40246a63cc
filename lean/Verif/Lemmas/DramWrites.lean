import Verif.Lemmas.DramTick

/-! # The controller of a DRAM channel: the order of the writes -/

namespace RadSim.DramSim

open Chan Ctrl

/-- The accepted writes are those returned and then those to return, in this order. -/
structure WOrd (m : Mem) : Prop where
  order : (m.accepted.filter (·.2)).reverse =
    (m.returned.filter (·.2)).reverse ++ (m.ctrl.returnQ.filter (·.write)).map fun t => (t.addr, t.write)
  sorted : (m.ctrl.returnQ.filter (·.write)).Pairwise fun t u => t.complete ≤ u.complete
  soon : ∀ t ∈ m.ctrl.returnQ, t.write = true → t.complete ≤ m.ctrl.sim.clk + 1

theorem WOrd.init : WOrd .init := by constructor <;> simp [Mem.init, Ctrl.init]

theorem WOrd.loop {n : Nat} {m : Mem} (h : WOrd m) : WOrd (Mem.returnLoop n m) := by
  induction n generalizing m with
  | zero => exact h
  | succ n ih =>
    unfold Mem.returnLoop
    cases hd : m.ctrl.returnDone m.ctrl.sim.clk with
    | none => exact h
    | some x =>
      obtain ⟨t, s'⟩ := x
      apply ih
      have hfirst : ∃ l1 l2, m.ctrl.returnQ = l1 ++ t :: l2 ∧ s' = { m.ctrl with returnQ := l1 ++ l2 } ∧
          t.complete ≤ m.ctrl.sim.clk ∧ ∀ u ∈ l1, ¬ u.complete ≤ m.ctrl.sim.clk := by
        unfold returnDone at hd
        cases hf : m.ctrl.returnQ.find? fun t => decide (t.complete ≤ m.ctrl.sim.clk) with
        | none => rw [hf] at hd; cases hd
        | some u =>
          rw [hf] at hd
          simp only [Option.some.injEq, Prod.mk.injEq] at hd
          obtain ⟨rfl, rfl⟩ := hd
          obtain ⟨hp, l1, l2, e, hl⟩ := List.find?_eq_some_iff_append.1 hf
          refine ⟨l1, l2, e, ?_, by simpa using hp, fun b hb => by simpa using hl b hb⟩
          rw [e, List.eraseP_append_right _ (by intro b hb; simpa using hl b hb), List.eraseP_cons_of_pos (by exact hp)]
      obtain ⟨l1, l2, e, rfl, ht, hl⟩ := hfirst
      have hs := h.sorted
      have ho := h.order
      rw [e] at hs ho
      have hsub : (l1 ++ l2).Sublist (l1 ++ t :: l2) := List.Sublist.append_left (List.sublist_cons_self ..) _
      refine ⟨?_, hs.sublist (hsub.filter _), fun u hu => h.soon u (by rw [e]; exact hsub.subset hu)⟩
      dsimp only
      rw [ho]
      cases hw : t.write with
      | false => simp [List.filter_append, hw]
      | true =>
        have hn : l1.filter (·.write) = [] := by
          rw [List.filter_eq_nil_iff]
          intro u hu huw
          rw [List.filter_append, List.filter_cons_of_pos (by exact hw), List.pairwise_append] at hs
          have := hs.2.2 u (by simp [hu, huw]) t (by simp)
          exact hl u hu (by omega)
        simp [List.filter_append, hw, hn]

theorem WOrd.step {c : Cfg} (hm : ∀ a, Exists c.p (c.map a)) {m m' : Mem} (hi : MInv c m) (h : WOrd m) {u : Use}
    (hs : m.step c u = .ok m') (hclk : m'.ctrl.sim.clk < 18446744073709551615) : WOrd m' := by
  cases u with
  | offer a w =>
    simp only [Mem.step, Except.ok.injEq] at hs
    subst hs
    split
    · rename_i hacc
      rw [if_pos hacc] at hclk
      obtain ⟨hsim, -⟩ := add_sim c m.ctrl a w
      dsimp only at hclk
      rw [hsim] at hclk
      cases w with
      | true =>
        have hq : (m.ctrl.add c a true).returnQ = m.ctrl.returnQ ++ [⟨a, true, later m.ctrl.sim.clk 1⟩] := by
          unfold add
          simp only [if_true]
          split
          · split <;> rfl
          · rfl
        have hl : later m.ctrl.sim.clk 1 = m.ctrl.sim.clk + 1 := by unfold later; omega
        rw [hl] at hq
        refine ⟨?_, ?_, fun t ht hw => ?_⟩
        · dsimp only
          rw [hq]
          simp [List.filter_append, h.order]
        · dsimp only
          rw [hq, List.filter_append, List.pairwise_append]
          refine ⟨h.sorted, by simp, fun t ht v hv => ?_⟩
          simp only [List.filter_cons_of_pos, List.filter_nil, List.mem_singleton] at hv
          subst hv
          simp only [List.mem_filter] at ht
          exact h.soon t ht.1 ht.2
        · dsimp only at ht ⊢
          rw [hsim]
          rw [hq] at ht
          rcases List.mem_append.1 ht with ht | ht
          · exact h.soon t ht hw
          · rw [List.mem_singleton.1 ht]
      | false =>
        obtain ⟨hq, -, -⟩ := add_lists (c := c) (s := m.ctrl) a false
        have hf : ((m.ctrl.add c a false).returnQ.filter (·.write)) = m.ctrl.returnQ.filter (·.write) := by
          rcases hq with hq | hq
          · rw [hq]
          · rw [hq]; simp [List.filter_append]
        refine ⟨?_, ?_, fun t ht hw => ?_⟩
        · dsimp only
          rw [hf]
          simpa using h.order
        · dsimp only
          rw [hf]; exact h.sorted
        · dsimp only at ht ⊢
          rw [hsim]
          have : t ∈ (m.ctrl.add c a false).returnQ.filter (·.write) := List.mem_filter.2 ⟨ht, hw⟩
          rw [hf] at this
          exact h.soon t (List.mem_filter.1 this).1 hw
    · exact h
  | tick =>
    obtain ⟨q, h1, -, -, -, -⟩ := returnLoop_spec (m := m) (Nat.le_refl _)
    have hl := h.loop (n := m.ctrl.returnQ.length)
    have sb : SameBook m.ctrl { m.ctrl with returnQ := q } := ⟨rfl, rfl, rfl, rfl, rfl, rfl⟩
    have hrun : Run c { m.ctrl with returnQ := q } := ⟨hi.run.reach, sb.book hi.run.book, hi.run.refq, hi.run.awake⟩
    simp only [Mem.step, bind, Except.bind, pure, Except.pure] at hs
    rcases tick_spec hm hrun hi.ref with ⟨s', e, hc⟩ | ⟨e, he, hE⟩
    · rw [← h1] at e
      rw [e] at hs
      simp only [Except.ok.injEq] at hs
      subst hs
      obtain ⟨q', hq1, hq2⟩ := hc.ret
      have hf : s'.returnQ.filter (·.write) =
          (Mem.returnLoop m.ctrl.returnQ.length m).ctrl.returnQ.filter (·.write) := by
        rw [hq1, h1, List.filter_append]
        have : q'.filter (·.write) = [] := by
          rw [List.filter_eq_nil_iff]
          intro t ht hw
          rw [hq2 t ht] at hw; cases hw
        rw [this, List.append_nil]
      refine ⟨?_, ?_, fun t ht hw => ?_⟩
      · dsimp only
        rw [hf]; exact hl.order
      · dsimp only
        rw [hf]; exact hl.sorted
      · have : t ∈ s'.returnQ.filter (·.write) := List.mem_filter.2 ⟨ht, hw⟩
        rw [hf] at this
        have := hl.soon t (List.mem_filter.1 this).1 hw
        have hclk' := hc.clk
        rw [h1] at this
        dsimp only at this hclk' ⊢
        omega
    · rw [← h1] at he
      rw [he] at hs; cases hs

theorem worder {c : Cfg} (hm : ∀ a, Exists c.p (c.map a)) {m m' : Mem} (hi : MInv c m) (h : WOrd m) {l : List Use}
    (hs : m.exec c l = .ok m') (hclk : m'.ctrl.sim.clk < 18446744073709551615) : WOrd m' := by
  induction l generalizing m with
  | nil => cases hs; exact h
  | cons u l ih =>
    simp only [Mem.exec, bind, Except.bind] at hs
    rcases step_spec hm hi u with ⟨m1, e, hr, -⟩ | ⟨e, he, hE⟩
    · rw [e] at hs
      dsimp only at hs
      refine ih hr.inv (h.step hm hi e ?_) hs
      rcases exec_spec hm hr.inv l with ⟨m2, e2, hr2, -⟩ | ⟨e2, he2, -⟩
      · rw [e2] at hs
        cases hs
        have := hr2.clk
        omega
      · rw [he2] at hs; cases hs
    · rw [he] at hs; cases hs

end RadSim.DramSim
