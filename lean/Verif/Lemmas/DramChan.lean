import Verif.Model.DramChan
import Mathlib.Data.List.Nodup
import Mathlib.Data.List.Range
import Mathlib.Data.List.Perm.Basic
import Mathlib.Data.List.ProdSigma

/-! # DRAM channels: what an issued command does to the banks -/

namespace RadSim.DramSim

namespace Bank

theorem delay_state (b : Bank) (clk : Nat) (l : List (Cmd × Int)) :
    (b.delay clk l).state = b.state ∧ (b.delay clk l).row = b.row ∧ (b.delay clk l).hits = b.hits := by
  induction l generalizing b with
  | nil => exact ⟨rfl, rfl, rfl⟩
  | cons x l ih => exact ih (b.updateTiming x.1 (later clk x.2))

theorem timing_update (b : Bank) (c : Cmd) (t : Nat) (x : Cmd) : b.timing x ≤ (b.updateTiming c t).timing x := by
  simp only [updateTiming]; split
  · subst_vars; exact Nat.le_max_left ..
  · exact Nat.le_refl _

theorem timing_delay (b : Bank) (clk : Nat) (l : List (Cmd × Int)) (x : Cmd) :
    b.timing x ≤ (b.delay clk l).timing x := by
  induction l generalizing b with
  | nil => exact Nat.le_refl _
  | cons y l ih => exact Nat.le_trans (timing_update b y.1 _ x) (ih _)

theorem delay_mem (b : Bank) (clk : Nat) (l : List (Cmd × Int)) {x : Cmd × Int} (h : x ∈ l) :
    later clk x.2 ≤ (b.delay clk l).timing x.1 := by
  induction l generalizing b with
  | nil => cases h
  | cons y l ih =>
    rcases List.mem_cons.1 h with rfl | h
    · refine Nat.le_trans ?_ (timing_delay (b.updateTiming x.1 (later clk x.2)) clk l x.1)
      simp only [updateTiming, if_true]; exact Nat.le_max_right ..
    · exact ih _ h

/-- How late a delayed bank can be. -/
theorem delay_le (b : Bank) (clk : Nat) (l : List (Cmd × Int)) (x : Cmd) (m : Nat) (hb : b.timing x ≤ m)
    (h : ∀ y ∈ l, y.1 = x → later clk y.2 ≤ m) : (b.delay clk l).timing x ≤ m := by
  induction l generalizing b with
  | nil => exact hb
  | cons y l ih =>
    refine ih (b.updateTiming y.1 (later clk y.2)) ?_ fun z hz => h z (List.mem_cons_of_mem _ hz)
    simp only [updateTiming]; split
    · rename_i he; subst he
      exact Nat.max_le.2 ⟨hb, h y (List.mem_cons_self ..) rfl⟩
    · exact hb

/-- The answers of a bank. -/
theorem getReady_some {b : Bank} {c x : Command} {clk : Nat} :
    b.getReady c clk = .ok (some x) ↔ ∃ t, b.required c = .ok t ∧ b.timing t ≤ clk ∧ x = { c with cmd := t } := by
  unfold getReady
  cases h : b.required c with
  | error =>
    constructor
    · intro h; cases h
    · rintro ⟨t, h, _⟩; cases h
  | ok t =>
    by_cases ht : b.timing t ≤ clk
    · simp only [bind, Except.bind, pure, Except.pure, if_pos ht]
      constructor
      · intro h; cases h; exact ⟨t, rfl, ht, rfl⟩
      · rintro ⟨t', h, _, rfl⟩; cases h; rfl
    · simp only [bind, Except.bind, pure, Except.pure, if_neg ht]
      constructor
      · intro h; cases h
      · rintro ⟨t', h, h', rfl⟩; cases h; exact absurd h' ht

theorem getReady_none {b : Bank} {c : Command} {clk : Nat} :
    b.getReady c clk = .ok none ↔ ∃ t, b.required c = .ok t ∧ clk < b.timing t := by
  unfold getReady
  cases h : b.required c with
  | error =>
    constructor
    · intro h; cases h
    · rintro ⟨t, h, _⟩; cases h
  | ok t =>
    by_cases ht : b.timing t ≤ clk
    · simp only [bind, Except.bind, pure, Except.pure, if_pos ht]
      constructor
      · intro h; cases h
      · rintro ⟨t', h, h'⟩; cases h; omega
    · simp only [bind, Except.bind, pure, Except.pure, if_neg ht]
      exact ⟨fun _ => ⟨t, rfl, by omega⟩, fun _ => trivial⟩

theorem getReady_error {b : Bank} {c : Command} {clk : Nat} {e : Stop} :
    b.getReady c clk = .error e ↔ b.required c = .error e := by
  unfold getReady
  cases h : b.required c with
  | error => simp [bind, Except.bind]
  | ok t => simp [bind, Except.bind, pure, Except.pure]

end Bank

namespace Chan

theorem mem_places {p : Times} {x : Nat × Nat} : x ∈ places p ↔ x.1 < p.groups ∧ x.2 < p.banksPerGroup := by
  obtain ⟨j, k⟩ := x
  simp only [places, List.mem_flatMap, List.mem_range, List.mem_map, Prod.mk.injEq]
  constructor
  · rintro ⟨a, ha, b, hb, rfl, rfl⟩; exact ⟨ha, hb⟩
  · rintro ⟨ha, hb⟩; exact ⟨j, ha, k, hb, rfl, rfl⟩

theorem places_nodup (p : Times) : (places p).Nodup := by
  have : places p = (List.range p.groups) ×ˢ (List.range p.banksPerGroup) := rfl
  rw [this]
  exact List.Nodup.product List.nodup_range List.nodup_range

theorem places_length (p : Times) : (places p).length = p.groups * p.banksPerGroup := by
  have : places p = (List.range p.groups) ×ˢ (List.range p.banksPerGroup) := rfl
  rw [this, List.length_product, List.length_range, List.length_range]

/-- The answer of a rank: a bank needs something else first, or all banks are ready. -/
theorem rankReady_some {p : Times} {s : Chan} {c x : Command} {clk : Nat} {l : List (Nat × Nat)} {n : Nat}
    {last : Option Command} (hn : n + l.length ≤ p.groups * p.banksPerGroup)
    (h : rankReady p s c clk l n last = .ok (some x)) :
    (∃ y ∈ l, ∃ t, (s.bank c.addr.rank y.1 y.2).required c = .ok t ∧ t ≠ c.cmd ∧
      (s.bank c.addr.rank y.1 y.2).timing t ≤ clk ∧
      x = { cmd := t, addr := { rank := c.addr.rank, group := y.1, bank := y.2, row := 0, col := 0 }, hex := c.hex }) ∨
    ((∀ y ∈ l, (s.bank c.addr.rank y.1 y.2).required c = .ok c.cmd ∧
        (s.bank c.addr.rank y.1 y.2).timing c.cmd ≤ clk) ∧
      n + l.length = p.groups * p.banksPerGroup ∧ (x = c ∨ l = [] ∧ last = some x)) := by
  induction l generalizing n last with
  | nil =>
    simp only [rankReady] at h
    split at h
    · cases h
      exact .inr ⟨fun y hy => by simp at hy, by simpa using ‹n = _›, .inr ⟨rfl, rfl⟩⟩
    · cases h
  | cons y l ih =>
    obtain ⟨j, k⟩ := y
    simp only [rankReady, bind, Except.bind] at h
    simp only [List.length_cons] at hn
    cases hg : (s.bank c.addr.rank j k).getReady c clk with
    | error e => rw [hg] at h; cases h
    | ok o =>
      rw [hg] at h
      cases o with
      | none =>
        rcases ih (n := n) (last := none) (by omega) h with ⟨y, hy, h⟩ | ⟨_, h, _⟩
        · exact .inl ⟨y, List.mem_cons_of_mem _ hy, h⟩
        · exact absurd h (by omega)
      | some z =>
        obtain ⟨t, ht, htc, rfl⟩ := Bank.getReady_some.1 hg
        dsimp only at h
        by_cases he : t = c.cmd
        · subst he
          simp only [ne_eq, not_true_eq_false, if_false] at h
          rcases ih (n := n + 1) (by omega) h with ⟨y, hy, h⟩ | ⟨hall, h, hx⟩
          · exact .inl ⟨y, List.mem_cons_of_mem _ hy, h⟩
          · refine .inr ⟨?_, by simp only [List.length_cons]; omega, ?_⟩
            · intro y hy
              rcases List.mem_cons.1 hy with rfl | hy
              · exact ⟨ht, htc⟩
              · exact hall y hy
            · rcases hx with rfl | ⟨_, hx⟩
              · exact .inl rfl
              · cases hx; exact .inl rfl
        · simp only [ne_eq, he, not_false_eq_true, if_true, pure, Except.pure] at h
          cases h
          exact .inl ⟨(j, k), List.mem_cons_self .., t, ht, he, htc, rfl⟩

theorem rankReady_error {p : Times} {s : Chan} {c : Command} {clk : Nat} {l : List (Nat × Nat)} {n : Nat}
    {last : Option Command} {e : Stop} (h : rankReady p s c clk l n last = .error e) :
    ∃ y ∈ l, (s.bank c.addr.rank y.1 y.2).required c = .error e := by
  induction l generalizing n last with
  | nil => simp [rankReady] at h
  | cons y l ih =>
    obtain ⟨j, k⟩ := y
    simp only [rankReady, bind, Except.bind] at h
    cases hg : (s.bank c.addr.rank j k).getReady c clk with
    | error e' =>
      rw [hg] at h; cases h
      exact ⟨(j, k), List.mem_cons_self .., Bank.getReady_error.1 hg⟩
    | ok o =>
      rw [hg] at h
      cases o with
      | none => obtain ⟨y, hy, h⟩ := ih h; exact ⟨y, List.mem_cons_of_mem _ hy, h⟩
      | some z =>
        dsimp only at h
        split at h
        · cases h
        · obtain ⟨y, hy, h⟩ := ih h; exact ⟨y, List.mem_cons_of_mem _ hy, h⟩

/-- The loop over the banks of a rank. -/
theorem rankState_ok {s : Chan} {c : Command} {l : List (Nat × Nat)} {g : Bank → Bank} (hl : l.Nodup)
    (h : ∀ y ∈ l, (s.bank c.addr.rank y.1 y.2).updateState c = .ok (g (s.bank c.addr.rank y.1 y.2))) :
    ∃ s', rankState s c l = .ok s' ∧ s'.sref = s.sref ∧ s'.refreshQ = s.refreshQ ∧ s'.fourAw = s.fourAw ∧
      s'.thirtyTwoAw = s.thirtyTwoAw ∧
      ∀ r j k, s'.bank r j k = if r = c.addr.rank ∧ (j, k) ∈ l then g (s.bank r j k) else s.bank r j k := by
  induction l generalizing s with
  | nil => exact ⟨s, rfl, rfl, rfl, rfl, rfl, fun r j k => by simp⟩
  | cons y l ih =>
    obtain ⟨j, k⟩ := y
    obtain ⟨hy, hl⟩ := List.nodup_cons.1 hl
    have h0 := h (j, k) (List.mem_cons_self ..)
    have hkeep : ∀ y ∈ l, (s.setBank c.addr.rank j k (g (s.bank c.addr.rank j k))).bank c.addr.rank y.1 y.2 =
        s.bank c.addr.rank y.1 y.2 := by
      intro y hy'
      simp only [setBank]
      rw [if_neg]
      rintro ⟨_, h1, h2⟩
      exact hy (by rw [← h1, ← h2]; exact hy')
    obtain ⟨s', hs, h1, h2, h3, h4, h5⟩ := ih (s := s.setBank c.addr.rank j k (g (s.bank c.addr.rank j k))) hl
      fun y hy' => by rw [hkeep y hy']; exact h y (List.mem_cons_of_mem _ hy')
    refine ⟨s', ?_, h1, h2, h3, h4, ?_⟩
    · simp only [rankState, h0, bind, Except.bind]; exact hs
    · intro r j' k'
      rw [h5]
      by_cases hr : r = c.addr.rank
      · subst hr
        by_cases hm : (j', k') ∈ l
        · rw [if_pos ⟨rfl, hm⟩, if_pos ⟨rfl, List.mem_cons_of_mem _ hm⟩, hkeep _ hm]
        · rw [if_neg (by simp [hm])]
          simp only [setBank, true_and, List.mem_cons, Prod.mk.injEq, hm, or_false]
          by_cases he : j' = j ∧ k' = k
          · obtain ⟨rfl, rfl⟩ := he; simp
          · simp [he]
      · simp [setBank, hr]

/-- The commands that a command for a bank or for a rank changes the state of. -/
def touches (c : Command) (a : Addr) : Prop := if c.cmd.isRank then c.addr.rank = a.rank else SameBank c.addr a

instance (c : Command) (a : Addr) : Decidable (touches c a) := by unfold touches; infer_instance

/-- The bank at a place. -/
def at' (s : Chan) (a : Addr) : Bank := s.bank a.rank a.group a.bank

/-- A place of a channel. -/
def Exists (p : Times) (a : Addr) : Prop := a.rank < p.ranks ∧ a.group < p.groups ∧ a.bank < p.banksPerGroup

/-- The distances that a command prescribes for a bank. -/
def bound (p : Times) (c : Cmd) (a b : Addr) : List (Cmd × Int) :=
  if c.isRank then if a.rank = b.rank then p.sameRank c else []
  else if a.rank = b.rank then
    if a.group = b.group then if a.bank = b.bank then p.sameBank c else p.otherBanks c else p.otherGroups c
  else p.otherRanks c

theorem delay_at (s : Chan) (clk : Nat) (f : Nat → Nat → Nat → Bool) (l : List (Cmd × Int)) (a : Addr) :
    ((s.delay clk f l).at' a).state = (s.at' a).state ∧ ((s.delay clk f l).at' a).row = (s.at' a).row ∧
      ((s.delay clk f l).at' a).hits = (s.at' a).hits := by
  simp only [at', delay]; split
  · exact Bank.delay_state ..
  · exact ⟨rfl, rfl, rfl⟩

theorem delay_timing (s : Chan) (clk : Nat) (f : Nat → Nat → Nat → Bool) (l : List (Cmd × Int)) (a : Addr) (x : Cmd) :
    (s.at' a).timing x ≤ ((s.delay clk f l).at' a).timing x := by
  simp only [at', delay]; split
  · exact Bank.timing_delay ..
  · exact Nat.le_refl _

theorem delay_hit (s : Chan) (clk : Nat) (f : Nat → Nat → Nat → Bool) (l : List (Cmd × Int)) (a : Addr)
    (h : f a.rank a.group a.bank) {x : Cmd × Int} (hx : x ∈ l) :
    later clk x.2 ≤ ((s.delay clk f l).at' a).timing x.1 := by
  simp only [at', delay, if_pos h]; exact Bank.delay_mem _ _ _ hx

/-- The timing update leaves the states alone. -/
theorem updateTiming_state (p : Times) (s : Chan) (c : Command) (clk : Nat) (a : Addr) :
    ((updateTiming p s c clk).at' a).state = (s.at' a).state ∧
    ((updateTiming p s c clk).at' a).row = (s.at' a).row ∧
    ((updateTiming p s c clk).at' a).hits = (s.at' a).hits := by
  have hb : ∀ s : Chan, ((bankTiming p s c clk).at' a).state = (s.at' a).state ∧
      ((bankTiming p s c clk).at' a).row = (s.at' a).row ∧ ((bankTiming p s c clk).at' a).hits = (s.at' a).hits := by
    intro s
    simp only [bankTiming]
    exact ⟨by simp only [(delay_at _ clk _ _ a).1], by simp only [(delay_at _ clk _ _ a).2.1],
      by simp only [(delay_at _ clk _ _ a).2.2]⟩
  unfold updateTiming
  split
  · exact hb _
  all_goals first | exact hb _ | exact delay_at _ _ _ _ _

theorem updateTiming_le (p : Times) (s : Chan) (c : Command) (clk : Nat) (a : Addr) (x : Cmd) :
    (s.at' a).timing x ≤ ((updateTiming p s c clk).at' a).timing x := by
  have hb : ∀ s : Chan, (s.at' a).timing x ≤ ((bankTiming p s c clk).at' a).timing x := by
    intro s
    simp only [bankTiming]
    exact Nat.le_trans (delay_timing _ _ _ _ _ _) (Nat.le_trans (delay_timing _ _ _ _ _ _)
      (Nat.le_trans (delay_timing _ _ _ _ _ _) (delay_timing _ _ _ _ _ _)))
  unfold updateTiming
  split
  · exact hb (updateActivation p s c.addr.rank clk)
  all_goals first | exact hb _ | exact delay_timing _ _ _ _ _ _

/-- The timing update delays every bank as prescribed. -/
theorem updateTiming_bound (p : Times) (s : Chan) (c : Command) (clk : Nat) (a : Addr) (ha : Exists p a)
    {x : Cmd × Int} (hx : x ∈ bound p c.cmd c.addr a) :
    later clk x.2 ≤ ((updateTiming p s c clk).at' a).timing x.1 := by
  obtain ⟨h1, h2, h3⟩ := ha
  have he : exist p a.rank a.group a.bank = true := by simp [exist, h1, h2, h3]
  have hb : ∀ s : Chan, c.cmd.isRank = false → later clk x.2 ≤ ((bankTiming p s c clk).at' a).timing x.1 := by
    intro s hr
    simp only [bound, hr, Bool.false_eq_true, if_false] at hx
    simp only [bankTiming]
    by_cases hrk : c.addr.rank = a.rank
    · rw [if_pos hrk] at hx
      refine Nat.le_trans ?_ (delay_timing _ _ _ _ _ _)
      by_cases hg : c.addr.group = a.group
      · rw [if_pos hg] at hx
        refine Nat.le_trans ?_ (delay_timing _ _ _ _ _ _)
        by_cases hk : c.addr.bank = a.bank
        · rw [if_pos hk] at hx
          refine Nat.le_trans ?_ (delay_timing _ _ _ _ _ _)
          exact delay_hit _ _ _ _ _ (by simp [hrk, hg, hk]) hx
        · rw [if_neg hk] at hx
          exact delay_hit _ _ _ _ _ (by simp [he, hrk, hg, Ne.symm hk]) hx
      · rw [if_neg hg] at hx
        exact delay_hit _ _ _ _ _ (by simp [he, hrk, Ne.symm hg]) hx
    · rw [if_neg hrk] at hx
      exact delay_hit _ _ _ _ _ (by simp [he, Ne.symm hrk]) hx
  have hr : c.cmd.isRank = true → later clk x.2 ≤
      ((s.delay clk (fun r j k => exist p r j k && r = c.addr.rank) (p.sameRank c.cmd)).at' a).timing x.1 := by
    intro hr
    simp only [bound, hr, if_true] at hx
    by_cases hrk : c.addr.rank = a.rank
    · rw [if_pos hrk] at hx
      exact delay_hit _ _ _ _ _ (by simp [he, hrk]) hx
    · rw [if_neg hrk] at hx; cases hx
  unfold updateTiming
  split
  · exact hb _ (by simp [*, Cmd.isRank])
  all_goals first
    | exact hb _ (by simp [*, Cmd.isRank])
    | exact hr (by simp [*, Cmd.isRank])

theorem updateTiming_rest (p : Times) (s : Chan) (c : Command) (clk : Nat) :
    (updateTiming p s c clk).sref = s.sref ∧ (updateTiming p s c clk).refreshQ = s.refreshQ ∧
    (updateTiming p s c clk).fourAw =
      (if c.cmd = .act then (updateActivation p s c.addr.rank clk).fourAw else s.fourAw) ∧
    (updateTiming p s c clk).thirtyTwoAw =
      (if c.cmd = .act then (updateActivation p s c.addr.rank clk).thirtyTwoAw else s.thirtyTwoAw) := by
  unfold updateTiming
  split <;> simp [*, bankTiming, delay, updateActivation]

/-- What `UpdateState` does when every bank it concerns accepts the command. -/
theorem updateState_ok {p : Times} {s : Chan} {c : Command} (hc : c.addr.rank < p.ranks)
    (hb : c.cmd.isRank = false → Exists p c.addr)
    {g : Bank → Bank} (h : ∀ a, Exists p a → touches c a → (s.at' a).updateState c = .ok (g (s.at' a))) :
    ∃ s', updateState p s c = .ok s' ∧ s'.fourAw = s.fourAw ∧ s'.thirtyTwoAw = s.thirtyTwoAw ∧
      (∀ r, s'.sref r = if r = c.addr.rank then (if c.cmd = .srefIn then true else
        if c.cmd = .srefOut then false else s.sref r) else s.sref r) ∧
      (s'.refreshQ = if c.cmd = .refresh then s.refreshQ.eraseP fun q => q.addr.rank = c.addr.rank
        else if c.cmd = .refBank then s.refreshQ.eraseP fun q => SameBank q.addr c.addr else s.refreshQ) ∧
      ∀ a, Exists p a → s'.at' a = if touches c a then g (s.at' a) else s.at' a := by
  by_cases hr : c.cmd.isRank
  · have hm : ∀ a : Addr, a.rank = c.addr.rank → (Exists p a ↔ (a.group, a.bank) ∈ places p) := fun a ha => by
      rw [mem_places]; exact ⟨fun h => h.2, fun h => ⟨ha ▸ hc, h⟩⟩
    obtain ⟨s', h0, h1, h2, h3, h4, h5⟩ := rankState_ok (s := s) (c := c) (g := g) (places_nodup p) fun y hy =>
      h ⟨c.addr.rank, y.1, y.2, 0, 0⟩ ⟨hc, mem_places.1 hy⟩ (by simp [touches, hr])
    have hat : ∀ a, Exists p a → s'.at' a = if touches c a then g (s.at' a) else s.at' a := by
      intro a ha
      simp only [at', h5, touches, hr, if_true]
      by_cases hk : a.rank = c.addr.rank
      · rw [if_pos ⟨hk, (hm a hk).1 ha⟩, if_pos hk.symm]
      · rw [if_neg (fun h => hk h.1), if_neg (fun h => hk h.symm)]
    unfold updateState
    simp only [hr, if_true, h0, bind, Except.bind, pure, Except.pure]
    refine ⟨_, rfl, ?_⟩
    obtain ⟨cc, ca, ch⟩ := c
    cases cc <;> simp [Cmd.isRank] at hr <;> simp only [unqueue] <;>
      refine ⟨h3, h4, fun r => ?_, ?_, hat⟩ <;> simp [h1, h2]
  · have hr' : c.cmd.isRank = false := by simpa using hr
    have h0 := h c.addr (hb hr') (by simp [touches, hr', SameBank])
    unfold updateState
    have h0' : (s.bank c.addr.rank c.addr.group c.addr.bank).updateState c = .ok (g (s.at' c.addr)) := h0
    simp only [hr', Bool.false_eq_true, if_false, h0', bind, Except.bind, pure, Except.pure]
    refine ⟨_, rfl, ?_⟩
    have hat : ∀ a, (s.setBank c.addr.rank c.addr.group c.addr.bank (g (s.at' c.addr))).at' a =
        if touches c a then g (s.at' a) else s.at' a := by
      intro a
      simp only [at', setBank, touches, hr', Bool.false_eq_true, if_false, SameBank]
      by_cases hk : c.addr.rank = a.rank ∧ c.addr.group = a.group ∧ c.addr.bank = a.bank
      · rw [if_pos ⟨hk.1.symm, hk.2.1.symm, hk.2.2.symm⟩, if_pos hk, hk.1, hk.2.1, hk.2.2]
      · rw [if_neg (fun h => hk ⟨h.1.symm, h.2.1.symm, h.2.2.symm⟩), if_neg hk]
    have hne : c.cmd ≠ .srefIn ∧ c.cmd ≠ .srefOut ∧ c.cmd ≠ .refresh := by
      refine ⟨?_, ?_, ?_⟩ <;> intro h <;> simp [h, Cmd.isRank] at hr'
    by_cases hf : c.cmd = .refBank
    · rw [if_pos hf]
      refine ⟨rfl, rfl, fun r => ?_, ?_, fun a _ => hat a⟩
      · simp [unqueue, setBank, hne.1, hne.2.1]
      · simp only [unqueue, setBank, hf, if_true]; simp
    · rw [if_neg hf]
      refine ⟨rfl, rfl, fun r => ?_, ?_, fun a _ => hat a⟩
      · simp [setBank, hne.1, hne.2.1]
      · simp [setBank, hf, hne.2.2]

end Chan
end RadSim.DramSim
