import Verif.Lemmas.DramWrites
import Verif.Spec.DramRefresh

/-! # Lemmas on the refresh generator -/

namespace RadSim.DramSim

open Chan Ctrl

/-- What the generator schedules as refresh number `k`. -/
def slot (c : Cfg) (k : Nat) : Cmd × Addr :=
  match c.policy with
  | .simultaneous => (.refresh, ⟨0, 0, 0, 0, 0⟩)
  | _ => planned c k

/-- The generator after `k` refreshes. -/
def refAt (c : Cfg) (clk k : Nat) : Refresh :=
  match c.policy with
  | .simultaneous => ⟨clk, 0, 0, 0⟩
  | .staggered => ⟨clk, k % c.p.ranks, 0, 0⟩
  | .bankStaggered => ⟨clk, k / (c.p.groups * c.p.banksPerGroup) % c.p.ranks, k % c.p.groups,
      k / c.p.groups % c.p.banksPerGroup⟩

theorem mod_succ (k n : Nat) : (k % n + 1) % n = (k + 1) % n := by
  rw [Nat.add_mod, Nat.mod_mod, ← Nat.add_mod]

theorem div_succ_of_mod {k n : Nat} (h : (k + 1) % n = 0) : (k + 1) / n = k / n + 1 := by
  rw [Nat.succ_div, if_pos (Nat.dvd_of_mod_eq_zero h)]

theorem div_same_of_mod {k n : Nat} (h : (k + 1) % n ≠ 0) : (k + 1) / n = k / n := by
  rw [Nat.succ_div, if_neg (fun hd => h (Nat.mod_eq_zero_of_dvd hd)), Nat.add_zero]

theorem next_refAt (c : Cfg) (clk k : Nat) (hp : c.policy ≠ .simultaneous) :
    (refAt c clk k).next c = refAt c clk (k + 1) := by
  unfold Refresh.next refAt
  cases hc : c.policy with
  | simultaneous => exact absurd hc hp
  | staggered => simp only [mod_succ]
  | bankStaggered =>
    simp only [mod_succ]
    by_cases h1 : (k + 1) % c.p.groups = 0
    · rw [if_pos h1]
      have h1' := div_succ_of_mod h1
      by_cases h2 : (k / c.p.groups + 1) % c.p.banksPerGroup = 0
      · rw [if_pos h2]
        have h2' := div_succ_of_mod h2
        have h3 : (k + 1) / (c.p.groups * c.p.banksPerGroup) = k / (c.p.groups * c.p.banksPerGroup) + 1 := by
          rw [← Nat.div_div_eq_div_mul, ← Nat.div_div_eq_div_mul, h1', h2']
        rw [h1', h3]
      · rw [if_neg h2]
        have h2' := div_same_of_mod h2
        have h3 : (k + 1) / (c.p.groups * c.p.banksPerGroup) = k / (c.p.groups * c.p.banksPerGroup) := by
          rw [← Nat.div_div_eq_div_mul, ← Nat.div_div_eq_div_mul, h1', h2']
        rw [h1', h3]
    · rw [if_neg h1]
      have h1' := div_same_of_mod h1
      rw [h1']
      rw [← Nat.div_div_eq_div_mul, ← Nat.div_div_eq_div_mul, h1']

theorem insert_refAt (c : Cfg) (clk k : Nat) (hr : 0 < c.p.ranks) {asleep : Nat → Bool} (ha : ∀ r, asleep r = false) :
    ∃ l, (refAt c clk k).insert c asleep = (l, refAt c clk (k + 1)) ∧ l.map (fun q => (q.cmd, q.addr)) = [slot c k] := by
  cases hc : c.policy with
  | simultaneous =>
    refine ⟨[refreshOf .refresh 0 0 0], ?_, by simp [slot, hc, refreshOf]⟩
    have : (List.range c.p.ranks).find? (fun i => !asleep i) = some 0 := by
      obtain ⟨n, hn⟩ : ∃ n, c.p.ranks = n + 1 := ⟨c.p.ranks - 1, by omega⟩
      rw [hn, List.range_succ_eq_map, List.find?_cons_of_pos (by simp [ha])]
    simp only [Refresh.insert, hc, this]
    simp [refAt, hc]
  | staggered =>
    refine ⟨[refreshOf .refresh (refAt c clk k).rank 0 0], ?_, by simp [slot, planned, hc, refreshOf, refAt]⟩
    simp only [Refresh.insert, hc, ha, Bool.false_eq_true, if_false]
    rw [next_refAt c clk k (by rw [hc]; simp)]
  | bankStaggered =>
    refine ⟨[refreshOf .refBank (refAt c clk k).rank (refAt c clk k).group (refAt c clk k).bank], ?_,
      by simp [slot, planned, hc, refreshOf, refAt]⟩
    simp only [Refresh.insert, hc, ha, Bool.false_eq_true, if_false]
    rw [next_refAt c clk k (by rw [hc]; simp)]

/-- The refreshes scheduled before a cycle. -/
def slotsBefore (c : Cfg) (clk : Nat) : Nat := (clk - 1) / (later 0 c.interval)

theorem refTick_refAt {c : Cfg} {clk : Nat} (hr : 0 < c.p.ranks) {asleep : Nat → Bool} (ha : ∀ r, asleep r = false)
    {l : List Command} {r' : Refresh} (h : (refAt c clk (slotsBefore c clk)).tick c asleep = .ok (l, r')) :
    r' = refAt c (clk + 1) (slotsBefore c (clk + 1)) ∧
      (List.range (slotsBefore c clk)).map (slot c) ++ l.map (fun q => (q.cmd, q.addr)) =
        (List.range (slotsBefore c (clk + 1))).map (slot c) := by
  have hc : ∀ k, (refAt c clk k).clk = clk := by intro k; unfold refAt; split <;> rfl
  have hc' : ∀ k, { refAt c clk k with clk := clk + 1 } = refAt c (clk + 1) k := by intro k; unfold refAt; split <;> rfl
  unfold Refresh.tick at h
  dsimp only at h
  rw [hc] at h
  by_cases hi : later 0 c.interval = 0
  · rw [if_pos hi] at h; cases h
  · rw [if_neg hi] at h
    by_cases hn : clk % later 0 c.interval = 0 ∧ 0 < clk
    · rw [if_pos hn] at h
      obtain ⟨l0, e, hl⟩ := insert_refAt c clk (slotsBefore c clk) hr ha
      rw [e] at h
      dsimp only at h
      rw [hc'] at h
      cases h
      have : slotsBefore c (clk + 1) = slotsBefore c clk + 1 := by
        unfold slotsBefore
        obtain ⟨n, rfl⟩ : ∃ n, clk = n + 1 := ⟨clk - 1, by omega⟩
        exact div_succ_of_mod hn.1
      rw [this, List.range_succ, List.map_append, hl]
      exact ⟨rfl, rfl⟩
    · rw [if_neg hn, hc'] at h
      cases h
      have : slotsBefore c (clk + 1) = slotsBefore c clk := by
        unfold slotsBefore
        by_cases h0 : clk = 0
        · subst h0; rfl
        · obtain ⟨n, rfl⟩ : ∃ n, clk = n + 1 := ⟨clk - 1, by omega⟩
          exact div_same_of_mod (fun h => hn ⟨h, by omega⟩)
      rw [this]
      exact ⟨rfl, by simp⟩

/-- What is known of the refreshes between cycles. -/
structure RInv (c : Cfg) (m : Mem) : Prop where
  ref : m.ctrl.ref = refAt c m.ctrl.sim.clk (slotsBefore c m.ctrl.sim.clk)
  line : Line m.ctrl = (List.range (slotsBefore c m.ctrl.sim.clk)).map (slot c)

theorem RInv.init (c : Cfg) : RInv c .init := by
  have : slotsBefore c 0 = 0 := by simp [slotsBefore]
  refine ⟨?_, ?_⟩
  · show (⟨0, 0, 0, 0⟩ : Refresh) = refAt c 0 (slotsBefore c 0)
    rw [this]
    unfold refAt
    split <;> simp
  · show Line Ctrl.init = (List.range (slotsBefore c 0)).map (slot c)
    rw [this]; rfl

theorem RInv.step {c : Cfg} (hm : ∀ a, Exists c.p (c.map a)) (hsr : c.selfRefresh = false) {m m' : Mem} (hi : MInv c m)
    (h : RInv c m) {u : Use} (hs : m.step c u = .ok m') : RInv c m' := by
  cases u with
  | offer a w =>
    simp only [Mem.step, Except.ok.injEq] at hs
    subst hs
    split
    · obtain ⟨hsim, href⟩ := add_sim c m.ctrl a w
      refine ⟨?_, ?_⟩
      · dsimp only
        rw [href, hsim]; exact h.ref
      · have := h.line
        unfold Line at this ⊢
        dsimp only
        rw [hsim]; exact this
    · exact h
  | tick =>
    obtain ⟨q, h1, -, -, -, -⟩ := returnLoop_spec (m := m) (Nat.le_refl _)
    have sb : SameBook m.ctrl { m.ctrl with returnQ := q } := ⟨rfl, rfl, rfl, rfl, rfl, rfl⟩
    have hrun : Run c { m.ctrl with returnQ := q } := ⟨hi.run.reach, sb.book hi.run.book, hi.run.refq, hi.run.awake⟩
    simp only [Mem.step, bind, Except.bind, pure, Except.pure] at hs
    rcases tick_spec hm hrun hi.ref with ⟨s', e, hc⟩ | ⟨e, he, hE⟩
    · rw [← h1] at e
      rw [e] at hs
      simp only [Except.ok.injEq] at hs
      subst hs
      obtain ⟨l, new, h2, h3, -, -⟩ := hc.hist
      have hclk := hc.clk
      dsimp only at h2 hclk
      rw [h.ref] at h2
      obtain ⟨h4, h5⟩ := refTick_refAt (Nat.lt_of_le_of_lt (Nat.zero_le _) hi.ref.1)
        (fun r => by rw [hi.run.reach.inv.sref]; exact hi.run.awake hsr r) h2
      refine ⟨?_, ?_⟩
      · dsimp only
        rw [hclk]; exact h4
      · dsimp only
        rw [hclk, h3, ← h5, ← h.line]
        rfl
    · rw [h1] at hs
      rw [he] at hs; cases hs

theorem rexec {c : Cfg} (hm : ∀ a, Exists c.p (c.map a)) (hsr : c.selfRefresh = false) {m m' : Mem} (hi : MInv c m)
    (h : RInv c m) {l : List Use} (hs : m.exec c l = .ok m') : RInv c m' := by
  induction l generalizing m with
  | nil => cases hs; exact h
  | cons u l ih =>
    simp only [Mem.exec, bind, Except.bind] at hs
    rcases step_spec hm hi u with ⟨m1, e1, hr, -⟩ | ⟨e, he, -⟩
    · rw [e1] at hs
      exact ih hr.inv (h.step hm hsr hi e1) hs
    · rw [he] at hs; cases hs

end RadSim.DramSim
