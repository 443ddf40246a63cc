import Verif.Lemmas.DramRefresh

/-! # How long a refresh waits: lemmas -/

namespace RadSim.DramSim

open Chan Ctrl

/-! ## upper bounds of the times -/

theorem Bank.delay_upper {b : Bank} {clk : Nat} {l : List (Cmd × Int)} {k : Cmd} {B : Nat} (h0 : b.timing k ≤ B)
    (h : ∀ y ∈ l, y.1 = k → later clk y.2 ≤ B) : (b.delay clk l).timing k ≤ B := by
  unfold Bank.delay
  induction l generalizing b with
  | nil => exact h0
  | cons y l ih =>
    simp only [List.foldl_cons]
    refine ih ?_ fun z hz => h z (List.mem_cons_of_mem _ hz)
    unfold Bank.updateTiming
    dsimp only
    split
    · rename_i hk
      have := h y (List.mem_cons_self ..) hk.symm
      rw [← hk]
      omega
    · exact h0

theorem delay_upper {s : Chan} {clk : Nat} {f : Nat → Nat → Nat → Bool} {l : List (Cmd × Int)} {a : Addr} {k : Cmd}
    {B : Nat} (h0 : (s.at' a).timing k ≤ B) (h : f a.rank a.group a.bank = true → ∀ y ∈ l, y.1 = k → later clk y.2 ≤ B) :
    ((s.delay clk f l).at' a).timing k ≤ B := by
  simp only [at', Chan.delay]
  split
  · exact Bank.delay_upper h0 (h ‹_›)
  · exact h0

theorem updateTiming_upper {p : Times} {s : Chan} {c : Command} {clk : Nat} {a : Addr} {k : Cmd} {B : Nat}
    (h0 : (s.at' a).timing k ≤ B) (h : ∀ y ∈ bound p c.cmd c.addr a, y.1 = k → later clk y.2 ≤ B) :
    ((updateTiming p s c clk).at' a).timing k ≤ B := by
  have hb : ∀ s : Chan, (s.at' a).timing k ≤ B → c.cmd.isRank = false → ((bankTiming p s c clk).at' a).timing k ≤ B := by
    intro s h0 hr
    simp only [bound, hr, Bool.false_eq_true, if_false] at h
    simp only [bankTiming]
    refine delay_upper (delay_upper (delay_upper (delay_upper h0 ?_) ?_) ?_) ?_
    all_goals
      intro hf
      simp only [Bool.and_eq_true, decide_eq_true_eq] at hf
    · rw [if_pos hf.1.1.symm, if_pos hf.1.2.symm, if_pos hf.2.symm] at h
      exact h
    · rw [if_pos hf.1.1.2.symm, if_pos hf.1.2.symm, if_neg (Ne.symm hf.2)] at h
      exact h
    · rw [if_pos hf.1.2.symm, if_neg (Ne.symm hf.2)] at h
      exact h
    · rw [if_neg (Ne.symm hf.2)] at h
      exact h
  have hr : c.cmd.isRank = true → ((s.delay clk (fun r j k => exist p r j k && r = c.addr.rank)
      (p.sameRank c.cmd)).at' a).timing k ≤ B := by
    intro hr
    simp only [bound, hr, if_true] at h
    refine delay_upper h0 fun hf => ?_
    simp only [Bool.and_eq_true, decide_eq_true_eq] at hf
    rw [if_pos hf.2.symm] at h
    exact h
  unfold updateTiming
  split
  · exact hb (updateActivation p s c.addr.rank clk) h0 (by simp [*, Cmd.isRank])
  all_goals first
    | exact hb _ h0 (by simp [*, Cmd.isRank])
    | exact hr (by simp [*, Cmd.isRank])

theorem update_upper {p : Times} {s : Sim} (hi : Inv p s) {x : Command} (hx : Ready p s.chan s.clk x) {ch : Chan}
    (hu : s.chan.update p x s.clk = .ok ch) {a : Addr} (ha : Exists p a) {k : Cmd} {B : Nat}
    (h0 : (s.chan.at' a).timing k ≤ B) (h : ∀ y ∈ bound p x.cmd x.addr a, y.1 = k → later s.clk y.2 ≤ B) :
    (ch.at' a).timing k ≤ B := by
  obtain ⟨s1, h1, h2, h3, h4, h5, h6⟩ := updateState_ok (p := p) (s := s.chan) (c := x) (g := Bank.after x) hx.rank
    (fun h => hx.here ⟨fun h' => by simp [h', Cmd.isRank] at h, fun h' => by simp [h', Cmd.isRank] at h⟩)
    (fun a ha ht => Bank.updateState_of (accepted hi hx a ha ht))
  have : ch = updateTiming p s1 x s.clk := by
    simp only [Chan.update, h1, bind, Except.bind, pure, Except.pure, Except.ok.injEq] at hu
    exact hu.symm
  subst this
  refine updateTiming_upper ?_ h
  rw [h6 a ha]
  split
  · rw [Bank.after_timing]; exact h0
  · exact h0

theorem bound_pre {p : Times} (hp : Sane p) {c : Cmd} {a b : Addr} {y : Cmd × Int} (hy : y ∈ bound p c a b)
    (hk : y.1 = .pre) : a.rank = b.rank ∧ 0 ≤ y.2 ∧ y.2 ≤ longestPre p ∧ (c = .pre → y.2 ≤ p.tPPD) := by
  have hf := hp.fields
  obtain ⟨k, d⟩ := y
  dsimp only at hk
  subst hk
  have hl : (longestPre p : Int) = max (max p.tRAS p.tPPD) (max (p.AL + p.tRTP) (p.AL + p.CWL + p.burst + p.tWR)) := by
    unfold longestPre
    omega
  unfold bound at hy
  have hWL : p.WL = p.AL + p.CWL := rfl
  cases c <;> simp only [Cmd.isRank, Bool.false_eq_true, if_false, if_true, Times.sameBank, Times.otherBanks,
    Times.otherGroups, Times.otherRanks, Times.sameRank, Times.columns, Times.readToPre, Times.writeToPre] at hy <;>
    repeat' split at hy
  all_goals simp at hy
  all_goals (try subst hy)
  all_goals (refine ⟨‹_›, ?_, ?_, ?_⟩ <;> (try intro hc; cases hc) <;> omega)

theorem bound_ref {p : Times} (hp : Sane p) {c : Cmd} {a b : Addr} {y : Cmd × Int} (hy : y ∈ bound p c a b)
    (hk : y.1 = .refresh) : a.rank = b.rank ∧ 0 ≤ y.2 ∧ y.2 ≤ longestRef p := by
  have hf := hp.fields
  obtain ⟨k, d⟩ := y
  dsimp only at hk
  subst hk
  have hl : (longestRef p : Int) =
      max (max p.tRP (max p.tRFC p.tXS)) (max (p.AL + p.tRTP + p.tRP) (p.AL + p.CWL + p.burst + p.tWR + p.tRP)) := by
    unfold longestRef
    omega
  unfold bound at hy
  have hWL : p.WL = p.AL + p.CWL := rfl
  cases c <;> simp only [Cmd.isRank, Bool.false_eq_true, if_false, if_true, Times.sameBank, Times.otherBanks,
    Times.otherGroups, Times.otherRanks, Times.sameRank, Times.columns, Times.readToAct, Times.writeToAct,
    Times.readToPre, Times.writeToPre] at hy <;>
    repeat' split at hy
  all_goals simp at hy
  all_goals (try subst hy)
  all_goals (refine ⟨‹_›, ?_, ?_⟩ <;> omega)

theorem later_small {clk : Nat} {d : Int} {B : Nat} (hclk : clk < 9223372036854775808) (h0 : 0 ≤ d) (h1 : d ≤ B)
    (hB : B < 9223372036854775808) : later clk d ≤ clk + B := by
  unfold later; omega

theorem longest_lt {p : Times} (hp : Sane p) : longestPre p < 8388608 ∧ longestRef p < 8388608 ∧ p.tPPD.toNat < 8388608 := by
  have hf := hp.fields
  unfold longestPre longestRef
  omega

/-- No time lies too far ahead. -/
def Near (p : Times) (s : Sim) : Prop :=
  ∀ a, Exists p a → (s.chan.at' a).timing .pre ≤ s.clk + longestPre p ∧
    (s.chan.at' a).timing .refresh ≤ s.clk + longestRef p

theorem near_step {p : Times} (hp : Sane p) {s s' : Sim} {o : Op} (hi : Inv p s) (ht : Near p s) (ho : o.Fits p)
    (hclk : s.clk < 9223372036854775808) (h : s.step p o = .ok s') : Near p s' := by
  cases o with
  | wait n =>
    cases h
    intro a ha
    obtain ⟨h1, h2⟩ := ht a ha
    exact ⟨by dsimp only; omega, by dsimp only; omega⟩
  | note c => cases h; exact ht
  | ask c =>
    rcases step_ask h with ⟨_, rfl⟩ | ⟨x, ch, h1, h2, rfl⟩
    · exact ht
    · intro a ha
      obtain ⟨h3, h4⟩ := ht a ha
      have hl := longest_lt hp
      refine ⟨update_upper hi (ready_of ho h1) h2 ha h3 fun y hy hk => ?_,
        update_upper hi (ready_of ho h1) h2 ha h4 fun y hy hk => ?_⟩
      · obtain ⟨-, h5, h6, -⟩ := bound_pre hp hy hk
        exact later_small hclk h5 h6 (by omega)
      · obtain ⟨-, h5, h6⟩ := bound_ref hp hy hk
        exact later_small hclk h5 h6 (by omega)

theorem near_exec {p : Times} (hp : Sane p) {l : List Op} {s s' : Sim} (hi : Inv p s) (ht : Near p s)
    (ho : ∀ o ∈ l, o.Fits p) (h : s.exec p l = .ok s') (hclk : s'.clk < 9223372036854775808) : Near p s' := by
  induction l generalizing s with
  | nil => cases h; exact ht
  | cons o l ih =>
    have hc := exec_clk h
    simp only [Sim.exec, bind, Except.bind] at h
    cases hs : s.step p o with
    | error e => rw [hs] at h; cases h
    | ok s1 =>
      rw [hs] at h
      have ho0 := ho o (List.mem_cons_self ..)
      exact ih (inv_step hi ho0 hs) (near_step hp hi ht ho0 (by omega) hs)
        (fun o h => ho o (List.mem_cons_of_mem _ h)) h

theorem Reach.near {p : Times} (hp : Sane p) {s : Sim} (h : Reach p s) (hclk : s.clk < 9223372036854775808) :
    Near p s := by
  obtain ⟨ops, h1, h2⟩ := h
  exact near_exec hp (inv_init p) (fun a _ => ⟨Nat.zero_le _, Nat.zero_le _⟩) h1 h2 hclk

/-! ## asking for the refresh of a rank -/

/-- The number of open banks of a rank. -/
def openIn (p : Times) (ch : Chan) (r : Nat) : Nat := (places p).countP fun y => (ch.bank r y.1 y.2).state = .opened

theorem rankReady_none {p : Times} {s : Chan} {c : Command} {clk : Nat} (hc : c.cmd = .refresh) {l : List (Nat × Nat)} :
    ∀ {n : Nat} {last : Option Command}, rankReady p s c clk l n last = .ok none →
    (∀ y ∈ l, (s.bank c.addr.rank y.1 y.2).state = .opened → clk < (s.bank c.addr.rank y.1 y.2).timing .pre) ∧
      (n + l.length = p.groups * p.banksPerGroup → (l = [] → last ≠ none) →
        ∃ y ∈ l, (s.bank c.addr.rank y.1 y.2).state = .opened ∨ clk < (s.bank c.addr.rank y.1 y.2).timing .refresh) := by
  induction l with
  | nil =>
    intro n last h
    refine ⟨fun y hy => by simp at hy, fun hn hl => ?_⟩
    simp only [rankReady] at h
    rw [if_pos (by simpa using hn)] at h
    cases h
    exact absurd rfl (hl rfl)
  | cons y l ih =>
    intro n last h
    obtain ⟨j, k⟩ := y
    simp only [rankReady, bind, Except.bind, pure, Except.pure] at h
    cases hg : (s.bank c.addr.rank j k).getReady c clk with
    | error e => rw [hg] at h; cases h
    | ok o =>
      rw [hg] at h
      have hg' := hg
      cases hst : (s.bank c.addr.rank j k).state with
      | sref =>
        simp [Bank.getReady, Bank.required, hst, hc, bind, Except.bind] at hg
      | opened =>
        simp only [Bank.getReady, Bank.required, hst, hc, bind, Except.bind, pure, Except.pure] at hg
        by_cases ht : (s.bank c.addr.rank j k).timing .pre ≤ clk
        · simp only [ht, if_true, Except.ok.injEq] at hg
          subst hg
          simp [hc] at h
        · simp only [ht, if_false, Except.ok.injEq] at hg
          subst hg
          refine ⟨fun y hy ho => ?_, fun _ _ => ⟨(j, k), List.mem_cons_self .., .inl hst⟩⟩
          rcases List.mem_cons.1 hy with rfl | hy
          · exact Nat.lt_of_not_le ht
          · exact (ih h).1 y hy ho
      | closed =>
        simp only [Bank.getReady, Bank.required, hst, hc, bind, Except.bind, pure, Except.pure] at hg
        by_cases ht : (s.bank c.addr.rank j k).timing .refresh ≤ clk
        · simp only [ht, if_true, Except.ok.injEq] at hg
          subst hg
          simp only [hc, ne_eq, not_true_eq_false, if_false] at h
          obtain ⟨h1, h2⟩ := ih h
          refine ⟨fun y hy ho => ?_, fun hn _ => ?_⟩
          · rcases List.mem_cons.1 hy with rfl | hy
            · rw [hst] at ho; cases ho
            · exact h1 y hy ho
          · obtain ⟨y, hy, h3⟩ := h2 (by simp only [List.length_cons] at hn; omega) (fun _ => by simp)
            exact ⟨y, List.mem_cons_of_mem _ hy, h3⟩
        · simp only [ht, if_false, Except.ok.injEq] at hg
          subst hg
          refine ⟨fun y hy ho => ?_, fun _ _ => ⟨(j, k), List.mem_cons_self .., .inr (Nat.lt_of_not_le ht)⟩⟩
          rcases List.mem_cons.1 hy with rfl | hy
          · rw [hst] at ho; cases ho
          · exact (ih h).1 y hy ho

theorem countP_less {α : Type} {l : List α} {f g : α → Bool} (h : ∀ x ∈ l, g x = true → f x = true) :
    l.countP g ≤ l.countP f ∧ ((∃ x ∈ l, f x = true ∧ g x = false) → l.countP g < l.countP f) := by
  induction l with
  | nil => simp
  | cons y l ih =>
    obtain ⟨h1, h2⟩ := ih fun x hx => h x (List.mem_cons_of_mem _ hx)
    have h3 := h y (List.mem_cons_self ..)
    simp only [List.countP_cons]
    refine ⟨?_, ?_⟩
    · split <;> split <;> simp_all; omega
    · rintro ⟨x, hx, h4, h5⟩
      rcases List.mem_cons.1 hx with rfl | hx
      · simp [h4, h5]; omega
      · have := h2 ⟨x, hx, h4, h5⟩
        split <;> split <;> simp_all; omega

/-! ## commands for other ranks -/

/-- Nothing about the refreshes changes. -/
structure Steady (s s' : Ctrl) : Prop where
  clk : s'.sim.clk = s.sim.clk
  q : s'.sim.chan.refreshQ = s.sim.chan.refreshQ
  inR : s'.inRef = s.inRef
  qs : s'.refQs = s.refQs
  hist : ∃ new, s'.sim.hist = new ++ s.sim.hist ∧ ∀ e ∈ new, isRef e.cmd = false

/-- Nothing about a rank changes that a refresh depends on. -/
def Calm (p : Times) (r : Nat) (s s' : Chan) : Prop :=
  ∀ a, Exists p a → a.rank = r → (s'.at' a).state = (s.at' a).state ∧
    (s'.at' a).timing .pre = (s.at' a).timing .pre ∧ (s'.at' a).timing .refresh = (s.at' a).timing .refresh

/-- What the queues may do while a rank is to be refreshed. -/
def Rest (c : Cfg) (s s' : Ctrl) : Prop :=
  Steady s s' ∧ ∀ r : Command, r.cmd = .refresh → s.inRef = true → s.refQs = refIndices c r →
    Calm c.p r.addr.rank s.sim.chan s'.sim.chan

theorem Rest.same {c : Cfg} {s s' : Ctrl} (h1 : s'.sim = s.sim) (h2 : s'.inRef = s.inRef) (h3 : s'.refQs = s.refQs) :
    Rest c s s' :=
  ⟨⟨by rw [h1], by rw [h1], h2, h3, [], by rw [h1]; rfl, by simp⟩, fun _ _ _ _ a _ _ => by rw [h1]; exact ⟨rfl, rfl, rfl⟩⟩

theorem Rest.trans {c : Cfg} {s1 s2 s3 : Ctrl} (h : Rest c s1 s2) (h' : Rest c s2 s3) : Rest c s1 s3 := by
  obtain ⟨⟨a1, a2, a3, a4, n1, e1, w1⟩, a6⟩ := h
  obtain ⟨⟨b1, b2, b3, b4, n2, e2, w2⟩, b6⟩ := h'
  refine ⟨⟨b1.trans a1, b2.trans a2, b3.trans a3, b4.trans a4, n2 ++ n1, by rw [e2, e1, List.append_assoc], ?_⟩, ?_⟩
  · intro e he
    rcases List.mem_append.1 he with he | he
    · exact w2 e he
    · exact w1 e he
  · intro r hr hi hq a ha har
    obtain ⟨x1, x2, x3⟩ := a6 r hr hi hq a ha har
    obtain ⟨y1, y2, y3⟩ := b6 r hr (a3.trans hi) (a4.trans hq) a ha har
    exact ⟨y1.trans x1, y2.trans x2, y3.trans x3⟩

theorem blocked {c : Cfg} {r : Command} (hr : r.cmd = .refresh) {a : Addr} (ha : Exists c.p a)
    (h : (refIndices c r).contains (queueIndex c a) = false) : a.rank ≠ r.addr.rank := by
  intro e
  obtain ⟨h1, h2, h3⟩ := ha
  unfold refIndices queueIndex at h
  rw [if_pos hr] at h
  by_cases hp : c.perRank = true
  · simp [hp, e] at h
  · have hb : a.group * c.p.banksPerGroup + a.bank < banks c := by
      unfold banks
      calc a.group * c.p.banksPerGroup + a.bank < (a.group + 1) * c.p.banksPerGroup := by rw [Nat.add_one_mul]; omega
        _ ≤ _ := Nat.mul_le_mul_right _ h2
    have hlt : a.rank * banks c + a.group * c.p.banksPerGroup + a.bank < numQueues c := by
      unfold numQueues
      rw [if_neg hp, Nat.mul_comm (banks c)]
      calc a.rank * banks c + a.group * c.p.banksPerGroup + a.bank < (a.rank + 1) * banks c := by
            rw [Nat.add_one_mul]; omega
        _ ≤ _ := Nat.mul_le_mul_right _ h1
    have hdiv : (a.rank * banks c + a.group * c.p.banksPerGroup + a.bank) / banks c = r.addr.rank := by
      rw [Nat.add_assoc, Nat.mul_comm, Nat.mul_add_div (by omega), Nat.div_eq_of_lt hb, e, Nat.add_zero]
    rw [if_neg hp, if_neg hp] at h
    have : (a.rank * banks c + a.group * c.p.banksPerGroup + a.bank) ∈
        (List.range (numQueues c)).filter fun i => i / banks c = r.addr.rank :=
      List.mem_filter.2 ⟨List.mem_range.2 hlt, by simpa using hdiv⟩
    have := List.contains_iff_mem.2 this
    rw [h] at this; cases this

theorem rest_took {c : Cfg} (hp : Sane c.p) {s s1 : Ctrl} (h : Run c s) {x : Command} (ht : Took c s s1 x) {ch : Chan}
    (hu : s1.sim.chan.update c.p x s1.sim.clk = .ok ch) : Rest c s (issued c s1 x ch) := by
  have e := ht.same
  have hsim : s1.sim = s.sim := by rw [e]
  have hin : s1.inRef = s.inRef := by rw [e]
  have hqs : s1.refQs = s.refQs := by rw [e]
  obtain ⟨q, hq, hx⟩ := ht.ready
  have hnr : isRef x.cmd = false := by unfold isRef; simp [ht.kind.1, ht.kind.2.2]
  rw [hsim] at hu
  refine ⟨⟨by show s1.sim.clk = _; rw [hsim], ?_, hin, hqs, [⟨s1.sim.clk, x.cmd, x.addr⟩], ?_, ?_⟩, ?_⟩
  · show ch.refreshQ = _
    rw [update_queue hu (fun h => by rw [hnr] at h; cases h), hnr]; rfl
  · show _ :: s1.sim.hist = _
    rw [hsim]; rfl
  · intro e he
    rw [List.mem_singleton.1 he]; exact hnr
  · intro r hr hi hrq a ha har
    have hR := ready_of hq hx
    have hne : x.addr.rank ≠ r.addr.rank :=
      blocked hr (hR.here ⟨ht.kind.1, ht.kind.2.1⟩) (by rw [← hrq]; exact ht.free hi)
    have hne' : x.addr.rank ≠ a.rank := by rw [har]; exact hne
    obtain ⟨ch', hu', -, h2, h3, -⟩ := update_ok h.reach.inv hR
    rw [hu] at hu'
    cases hu'
    have hnt : ¬ touches x a := by
      unfold touches SameBank
      split
      · exact hne'
      · exact fun h => hne' h.1
    refine ⟨?_, ?_, ?_⟩
    · show (ch.at' a).state = _
      rw [(h2 a ha).1, if_neg hnt]
    · refine Nat.le_antisymm ?_ (h3 a ha .pre)
      exact update_upper h.reach.inv hR hu ha (Nat.le_refl _) fun y hy hk => absurd (bound_pre hp hy hk).1 hne'
    · refine Nat.le_antisymm ?_ (h3 a ha .refresh)
      exact update_upper h.reach.inv hR hu ha (Nat.le_refl _) fun y hy hk => absurd (bound_ref hp hy hk).1 hne'

/-- The second half of the choice and issue of commands. -/
theorem rest_second {c : Cfg} (hm : ∀ a, Exists c.p (c.map a)) (hp : Sane c.p) {s1 : Ctrl} (h1 : Run c s1) {x : Command} :
    ∃ s', (if c.dual then (do
      match ← s1.getCommand c with
      | (none, s) => return (true, s)
      | (some y, s) =>
        if (y.cmd.isRead || y.cmd.isWrite) ≠ (x.cmd.isRead || x.cmd.isWrite) then return (true, ← s.issue c y)
        else return (true, s))
      else return (true, s1) : Except Fault (Bool × Ctrl)) = .ok (true, s') ∧ Rest c s1 s' := by
  split
  · obtain ⟨o, s2, e, ho⟩ := loop_spec hm (numQueues c) h1.book
    have e' : s1.getCommand c = .ok (o, s2) := e
    simp only [e', bind, Except.bind, pure, Except.pure]
    cases o with
    | none => exact ⟨s2, rfl, .same (by rw [ho]) (by rw [ho]) (by rw [ho])⟩
    | some y =>
      dsimp only at ho ⊢
      obtain ⟨ch, hi, hu, -⟩ := kept_took h1 ho
      split
      · rw [hi]; exact ⟨_, rfl, rest_took hp h1 ho hu⟩
      · exact ⟨s2, rfl, .same (by rw [ho.same]) (by rw [ho.same]) (by rw [ho.same])⟩
  · exact ⟨s1, rfl, .same rfl rfl rfl⟩

/-- A command from the queues. -/
theorem rest_queue {c : Cfg} (hm : ∀ a, Exists c.p (c.map a)) (hp : Sane c.p) {s0 : Ctrl} (h0 : Run c s0) :
    ∃ b s', (do
      let (x, s) ← s0.getCommand c
      match x with
      | none => return (false, s)
      | some x =>
        let s ← s.issue c x
        if c.dual then
          match ← s.getCommand c with
          | (none, s) => return (true, s)
          | (some y, s) =>
            if (y.cmd.isRead || y.cmd.isWrite) ≠ (x.cmd.isRead || x.cmd.isWrite) then return (true, ← s.issue c y)
            else return (true, s)
        else return (true, s) : Except Fault (Bool × Ctrl)) = .ok (b, s') ∧ Rest c s0 s' := by
  obtain ⟨o, s1, e, ho⟩ := loop_spec hm (numQueues c) h0.book
  have e' : s0.getCommand c = .ok (o, s1) := e
  simp only [e', bind, Except.bind]
  cases o with
  | none => exact ⟨false, s1, rfl, .same (by rw [ho]) (by rw [ho]) (by rw [ho])⟩
  | some x =>
    dsimp only at ho ⊢
    obtain ⟨ch, hi, hu, hk⟩ := kept_took h0 ho
    rw [hi]
    obtain ⟨s', h1, h2⟩ := rest_second hm hp hk.run (x := x)
    exact ⟨true, s', h1, (rest_took hp h0 ho hu).trans h2⟩

/-! ## one cycle of waiting -/

/-- Upper bounds of the times of a rank. -/
def Late (p : Times) (ch : Chan) (r b1 b2 : Nat) : Prop :=
  ∀ a, Exists p a → a.rank = r → (ch.at' a).timing .pre ≤ b1 ∧ (ch.at' a).timing .refresh ≤ b2

/-- When the refresh must have been issued. -/
def deadline (p : Times) (n b1 b2 t : Nat) : Nat :=
  if n = 0 then b2 else max (max b1 t + (n - 1) * (p.tPPD.toNat + 1) + longestRef p + 1) b2

theorem Calm.late {p : Times} {r : Nat} {s s' : Chan} (h : Calm p r s s') {b1 b2 : Nat} (hl : Late p s r b1 b2) :
    Late p s' r b1 b2 := by
  intro a ha har
  obtain ⟨-, h1, h2⟩ := h a ha har
  rw [h1, h2]
  exact hl a ha har

theorem Calm.openIn {p : Times} {r : Nat} (hr : r < p.ranks) {s s' : Chan} (h : Calm p r s s') :
    openIn p s' r = openIn p s r := by
  unfold DramSim.openIn
  refine List.countP_congr fun y hy => ?_
  have := (h ⟨r, y.1, y.2, 0, 0⟩ ⟨hr, mem_places.1 hy⟩ rfl).1
  simp only [at'] at this
  simp only [this]

theorem deadline_none {p : Times} {n b1 b2 t : Nat} (h : (0 < n → t < b1) ∧ (n = 0 → t < b2)) :
    deadline p n b1 b2 (t + 1) ≤ deadline p n b1 b2 t ∧ t < deadline p n b1 b2 t := by
  unfold deadline
  by_cases h0 : n = 0
  · rw [if_pos h0, if_pos h0]
    exact ⟨Nat.le_refl _, h.2 h0⟩
  · rw [if_neg h0, if_neg h0]
    have := h.1 (by omega)
    have h1 : max b1 (t + 1) = b1 := by omega
    have h2 : max b1 t = b1 := by omega
    rw [h1, h2]
    exact ⟨Nat.le_refl _, by omega⟩

theorem deadline_pre {p : Times} {n n' b1 b2 t : Nat} (h : n' < n) :
    deadline p n' (max b1 (t + p.tPPD.toNat)) (max b2 (t + longestRef p)) (t + 1) ≤ deadline p n b1 b2 t ∧
      t < deadline p n b1 b2 t := by
  unfold deadline
  rw [if_neg (show n ≠ 0 by omega)]
  generalize p.tPPD.toNat = q
  generalize longestRef p = f
  refine ⟨?_, by omega⟩
  split
  · omega
  · have h1 : (n' - 1) * (q + 1) + (q + 1) ≤ (n - 1) * (q + 1) := by
      rw [← Nat.add_one_mul]
      exact Nat.mul_le_mul_right _ (by omega)
    generalize (n' - 1) * (q + 1) = z at *
    generalize (n - 1) * (q + 1) = w at *
    omega

/-- The choice and the issue of commands, when the refresh of a rank is next. -/
theorem issue_wait {c : Cfg} (hm : ∀ a, Exists c.p (c.map a)) (hp : Sane c.p) {s : Ctrl} (h : Run c s)
    (hsr : c.selfRefresh = false) {r : Command} {l : List Command} (hq : s.sim.chan.refreshQ = r :: l)
    (hrk : r.cmd = .refresh) (hin : s.inRef = true ∧ s.refQs = refIndices c r ∨ s.inRef = false ∧ s.refQs = [])
    (hclk : s.sim.clk < 9223372036854775808) :
    ∃ b s', s.issuePart c = .ok (b, s') ∧ s'.sim.clk = s.sim.clk ∧
      ((s'.sim.chan.refreshQ = l ∧ s'.inRef = false ∧ s'.refQs = [] ∧
        ∃ new, s'.sim.hist = new ++ ⟨s.sim.clk, .refresh, r.addr⟩ :: s.sim.hist ∧ ∀ e ∈ new, isRef e.cmd = false) ∨
      (s'.sim.chan.refreshQ = r :: l ∧ s'.inRef = true ∧ s'.refQs = refIndices c r ∧
        (∃ new, s'.sim.hist = new ++ s.sim.hist ∧ ∀ e ∈ new, isRef e.cmd = false) ∧
        ∀ b1 b2, Late c.p s.sim.chan r.addr.rank b1 b2 → ∃ b1' b2', Late c.p s'.sim.chan r.addr.rank b1' b2' ∧
          deadline c.p (openIn c.p s'.sim.chan r.addr.rank) b1' b2' (s.sim.clk + 1) ≤
            deadline c.p (openIn c.p s.sim.chan r.addr.rank) b1 b2 s.sim.clk ∧
          s.sim.clk < deadline c.p (openIn c.p s.sim.chan r.addr.rank) b1 b2 s.sim.clk)) := by
  have hr := h.refq r (by rw [hq]; exact List.mem_cons_self ..)
  have hrank := hr.1.1
  have hplaces : places c.p ≠ [] := by
    obtain ⟨-, h1, h2⟩ := hm 0
    exact List.ne_nil_of_mem (mem_places (p := c.p) (x := ((c.map 0).group, (c.map 0).bank)) |>.2 ⟨h1, h2⟩)
  unfold issuePart
  rw [hq]
  dsimp only
  set s0 : Ctrl := if s.inRef then s else { s with inRef := true, refQs := s.refQs ++ refIndices c r } with hs0
  have hrun0 : Run c s0 := by
    rw [hs0]
    split
    · exact h
    · have sb : SameBook s { s with inRef := true, refQs := s.refQs ++ refIndices c r } :=
        ⟨rfl, rfl, rfl, rfl, rfl, rfl⟩
      exact ⟨h.reach, sb.book h.book, h.refq, h.awake⟩
  have hsim : s0.sim = s.sim := by rw [hs0]; split <;> rfl
  have hin0 : s0.inRef = true ∧ s0.refQs = refIndices c r := by
    rw [hs0]
    rcases hin with ⟨h1, h2⟩ | ⟨h1, h2⟩
    · rw [if_pos h1]; exact ⟨h1, h2⟩
    · rw [if_neg (by simp [h1])]; simp [h2]
  unfold finishRefresh
  rw [← hs0]
  obtain ⟨o, hg⟩ := refresh_total h.reach.inv hr.1 hr.2 (h.awake hsr _)
  have hg0 : s0.sim.chan.getReady c.p r s0.sim.clk = .ok o := by rw [hsim]; exact hg
  have hl := lift_ok.2 hg0
  have hrr : rankReady c.p s.sim.chan r s.sim.clk (places c.p) 0 none = .ok o := by
    unfold getReady at hg
    rwa [if_pos (by rw [hrk]; rfl)] at hg
  clear_value s0
  cases o with
  | none =>
    simp only [hl, bind, Except.bind, pure, Except.pure]
    obtain ⟨b, s', e, ⟨h1, h2, h3, h4, h5⟩, h6⟩ := rest_queue hm hp hrun0
    refine ⟨b, s', e, by rw [h1, hsim], .inr ⟨by rw [h2, hsim, hq], by rw [h3, hin0.1], by rw [h4, hin0.2],
      by rw [← hsim]; exact h5, fun b1 b2 hlate => ⟨b1, b2, ?_⟩⟩⟩
    have hcalm := h6 r hrk hin0.1 hin0.2
    rw [hsim] at hcalm
    refine ⟨hcalm.late hlate, ?_⟩
    rw [hcalm.openIn hrank]
    obtain ⟨h7, h8⟩ := rankReady_none hrk hrr
    apply deadline_none
    refine ⟨fun hpos => ?_, fun h0 => ?_⟩
    · obtain ⟨y, hy, ho⟩ := List.countP_pos_iff.1 hpos
      have := (hlate ⟨r.addr.rank, y.1, y.2, 0, 0⟩ ⟨hrank, mem_places.1 hy⟩ rfl).1
      exact Nat.lt_of_lt_of_le (h7 y hy (by simpa using ho)) this
    · obtain ⟨y, hy, ho⟩ := h8 (by rw [places_length]; omega) (fun h => absurd h hplaces)
      have := (hlate ⟨r.addr.rank, y.1, y.2, 0, 0⟩ ⟨hrank, mem_places.1 hy⟩ rfl).2
      refine Nat.lt_of_lt_of_le (ho.resolve_left fun ho => ?_) this
      have : 0 < openIn c.p s.sim.chan r.addr.rank := List.countP_pos_iff.2 ⟨y, hy, by simpa using ho⟩
      omega
  | some x =>
    have hR : Ready c.p s.sim.chan s.sim.clk x := ready_of hr.1 hg
    have hsh := refresh_shape (by simp [hrk]) hg
    have hx1 : x.cmd.isRead = false ∧ x.cmd.isWrite = false := by
      rcases hsh with ⟨h, -⟩ | h <;> simp [h, hrk, Cmd.isRead, Cmd.isWrite]
    have hnext : Next s.sim.chan x := by
      intro hk
      refine ⟨r, l, hq, ?_⟩
      rcases hsh with ⟨h1, h2⟩ | h
      · exact ⟨h1.symm, h2.symm⟩
      · rw [h] at hk; cases hk
    have fin : ∀ s1 : Ctrl, Run c s1 → s1.sim = s.sim → ∃ ch s', (do
        let s ← s1.issue c x
        if c.dual then
          match ← s.getCommand c with
          | (none, s) => return (true, s)
          | (some y, s) =>
            if (y.cmd.isRead || y.cmd.isWrite) ≠ (x.cmd.isRead || x.cmd.isWrite) then return (true, ← s.issue c y)
            else return (true, s)
        else return (true, s) : Except Fault (Bool × Ctrl)) = .ok (true, s') ∧
          s.sim.chan.update c.p x s.sim.clk = .ok ch ∧ Rest c (issued c s1 x ch) s' := by
      intro s1 hk1 hs1
      obtain ⟨s2, e2, hk2⟩ := kept_other (x := x) hk1 hr.1 (by rw [hs1]; exact hg) hx1.1 hx1.2
        (fun _ h => by rcases hsh with ⟨h', -⟩ | h' <;> simp [h', hrk] at h) (by rw [hs1]; exact hnext)
      obtain ⟨ch, e, -, -, hu⟩ := issue_spec hk1.reach hr.1 (by rw [hs1]; exact hg) (by simp [hx1.1]) (by simp [hx1.2])
      rw [e] at e2
      cases e2
      obtain ⟨s', e3, h3⟩ := rest_second hm hp hk2.run (x := x)
      refine ⟨ch, s', ?_, by rw [← hs1]; exact hu, h3⟩
      simp only [e, bind, Except.bind]
      exact e3
    by_cases hx : x.cmd = .refresh
    · have hxa : x.addr = r.addr := by
        rcases hsh with ⟨-, h⟩ | h
        · exact h
        · rw [hx] at h; cases h
      simp only [hl, bind, Except.bind, pure, Except.pure, hx, decide_true, Bool.true_or, if_true]
      have sb : SameBook s0 { s0 with inRef := false, refQs := [] } := ⟨rfl, rfl, rfl, rfl, rfl, rfl⟩
      obtain ⟨ch, s', e, hu, ⟨h1, h2, h3, h4, new, h5, h6⟩, -⟩ := fin { s0 with inRef := false, refQs := [] }
        ⟨hrun0.reach, sb.book hrun0.book, hrun0.refq, hrun0.awake⟩ hsim
      simp only [bind, Except.bind, pure, Except.pure, hx] at e
      refine ⟨true, s', e, by rw [h1]; show s0.sim.clk = _; rw [hsim], .inl ⟨?_, h3, h4, new, ?_, h6⟩⟩
      · rw [h2]
        show ch.refreshQ = _
        rw [update_queue hu hnext, hx, hq]; rfl
      · rw [h5]
        show new ++ ⟨s0.sim.clk, x.cmd, x.addr⟩ :: s0.sim.hist = _
        rw [hsim, hx, hxa]
    · have hxp : x.cmd = .pre := by
        rcases hsh with ⟨h, -⟩ | h
        · rw [hrk] at h; exact absurd h hx
        · exact h
      simp only [hl, bind, Except.bind, pure, Except.pure, hxp, reduceCtorEq, decide_false, Bool.or_self, Bool.false_eq_true,
        if_false]
      obtain ⟨ch, s', e, hu, ⟨h1, h2, h3, h4, new, h5, h6⟩, h7⟩ := fin s0 hrun0 hsim
      simp only [bind, Except.bind, pure, Except.pure, hxp] at e
      refine ⟨true, s', e, by rw [h1]; show s0.sim.clk = _; rw [hsim], .inr ⟨?_, h3.trans hin0.1, h4.trans hin0.2,
        ⟨new ++ [⟨s0.sim.clk, x.cmd, x.addr⟩], ?_, ?_⟩, fun b1 b2 hlate => ?_⟩⟩
      · rw [h2]
        show ch.refreshQ = _
        rw [update_queue hu hnext, hxp, hq]; rfl
      · rw [h5]
        show new ++ _ :: s0.sim.hist = _
        rw [hsim]; simp
      · intro e he
        rcases List.mem_append.1 he with he | he
        · exact h6 e he
        · rw [List.mem_singleton.1 he, hxp]; rfl
      · have hcalm : Calm c.p r.addr.rank ch s'.sim.chan := h7 r hrk hin0.1 hin0.2
        obtain ⟨y, hy, t, -, -, -, hxx⟩ | ⟨-, -, hxx⟩ := rankReady_some (by rw [places_length]; omega) hrr
        · have hxr : x.addr = ⟨r.addr.rank, y.1, y.2, 0, 0⟩ := by rw [hxx]
          obtain ⟨ch', hu', -, g1, -⟩ := update_ok h.reach.inv hR
          rw [hu] at hu'
          cases hu'
          have hlg := longest_lt hp
          refine ⟨max b1 (s.sim.clk + c.p.tPPD.toNat), max b2 (s.sim.clk + longestRef c.p), hcalm.late ?_, ?_⟩
          · intro a ha har
            obtain ⟨l1, l2⟩ := hlate a ha har
            refine ⟨update_upper h.reach.inv hR hu ha (by omega) fun z hz hk => ?_,
              update_upper h.reach.inv hR hu ha (by omega) fun z hz hk => ?_⟩
            · obtain ⟨-, k1, -, k2⟩ := bound_pre hp hz hk
              have := later_small hclk k1 (B := c.p.tPPD.toNat) (by have := k2 hxp; omega) (by omega)
              omega
            · obtain ⟨-, k1, k2⟩ := bound_ref hp hz hk
              have := later_small hclk k1 k2 (by omega)
              omega
          · rw [hcalm.openIn hrank]
            apply deadline_pre
            refine (countP_less fun z hz hzo => ?_).2 ⟨y, hy, ?_, ?_⟩
            · simp only [decide_eq_true_eq] at hzo ⊢
              have := (g1 ⟨r.addr.rank, z.1, z.2, 0, 0⟩ ⟨hrank, mem_places.1 hz⟩).1
              simp only [at'] at this
              rw [this] at hzo
              split at hzo
              · simp [Bank.after, hxp] at hzo
              · exact hzo
            · have := hR.accepts x.addr (hR.here (by simp [hxp])) (by simp [checks, hxp, SameBank])
              rw [hxp, hxr] at this
              simpa [Bank.accepts, at'] using this
            · have := (g1 ⟨r.addr.rank, y.1, y.2, 0, 0⟩ ⟨hrank, mem_places.1 hy⟩).1
              simp only [at'] at this
              rw [if_pos (by simp [touches, hxp, Cmd.isRank, SameBank, hxr])] at this
              simp [this, Bank.after, hxp]
        · exfalso
          rcases hxx with rfl | ⟨h, -⟩
          · exact hx hrk
          · exact hplaces h

/-! ## runs -/

theorem schedule_ref {c : Cfg} {s : Ctrl} : (s.schedule c).inRef = s.inRef ∧ (s.schedule c).refQs = s.refQs := by
  have ha : ∀ (s : Ctrl) (x : Command), (s.addCommand c x).inRef = s.inRef ∧ (s.addCommand c x).refQs = s.refQs := by
    intro s x
    unfold addCommand
    dsimp only
    split <;> exact ⟨rfl, rfl⟩
  unfold Ctrl.schedule
  dsimp only
  repeat' split
  all_goals first | exact ⟨rfl, rfl⟩ | (refine ⟨?_, ?_⟩ <;> first | exact (ha _ _).1 | exact (ha _ _).2)

theorem tick_parts {c : Cfg} (hm : ∀ a, Exists c.p (c.map a)) (hsr : c.selfRefresh = false) {s s' : Ctrl} (h : Run c s)
    (hr : RefOk c s.ref) (ht : s.tick c = .ok s') :
    ∃ l r' s0 b s1, s.ref.tick c s.sim.chan.sref = .ok (l, r') ∧ Run c s0 ∧
      s0.sim = { s.sim with chan := { s.sim.chan with refreshQ := s.sim.chan.refreshQ ++ l } } ∧
      s0.inRef = s.inRef ∧ s0.refQs = s.refQs ∧ s0.issuePart c = .ok (b, s1) ∧
      s'.sim = { s1.sim with clk := s1.sim.clk + 1 } ∧ s'.inRef = s1.inRef ∧ s'.refQs = s1.refQs := by
  unfold Ctrl.tick at ht
  rcases refTick_spec (asleep := s.sim.chan.sref) hr with ⟨l, r', e1, hr', hl⟩ | ⟨e1, h0⟩
  · simp only [e1, bind, Except.bind] at ht
    set s0 : Ctrl := { s with
      ref := r', sim := { s.sim with chan := { s.sim.chan with refreshQ := s.sim.chan.refreshQ ++ l } } } with hs0
    have sb : SameBook s s0 := ⟨rfl, rfl, rfl, rfl, rfl, rfl⟩
    have hrun : Run c s0 := ⟨h.reach.note l, sb.book h.book, fun q hq => by
      rcases List.mem_append.1 hq with h' | h'
      · exact h.refq q h'
      · exact hl q h', h.awake⟩
    have g1 : s0.sim = { s.sim with chan := { s.sim.chan with refreshQ := s.sim.chan.refreshQ ++ l } } := rfl
    have g2 : s0.inRef = s.inRef := rfl
    have g3 : s0.refQs = s.refQs := rfl
    clear_value s0
    rcases issuePart_spec hm hrun with ⟨b, s1, e2, hk1⟩ | ⟨e2, hse⟩
    · simp only [e2, hsr, Bool.false_and, Bool.false_eq_true, if_false, pure, Except.pure, Except.ok.injEq] at ht
      refine ⟨l, r', s0, b, s1, e1, hrun, g1, g2, g3, e2, ?_⟩
      subst ht
      have hb : Book c (s1.countIdle c) := SameBook.book (s := s1) ⟨rfl, rfl, rfl, rfl, rfl, rfl⟩ hk1.run.book
      refine ⟨?_, ?_, ?_⟩
      · dsimp only
        rw [(moved_schedule hb).sim]; rfl
      · exact schedule_ref.1
      · exact schedule_ref.2
    · rw [hsr] at hse; cases hse
  · rw [e1] at ht; cases ht

theorem slots_step {c : Cfg} (clk : Nat) :
    slotsBefore c (clk + 1) = slotsBefore c clk ∨
      (slotsBefore c (clk + 1) = slotsBefore c clk + 1 ∧ clk = (slotsBefore c clk + 1) * later 0 c.interval) := by
  unfold slotsBefore
  rcases clk with - | n
  · exact .inl rfl
  · simp only [Nat.add_sub_cancel]
    by_cases hd : (n + 1) % later 0 c.interval = 0
    · have := div_succ_of_mod hd
      refine .inr ⟨this, ?_⟩
      rw [← this]
      exact (Nat.div_mul_cancel (Nat.dvd_of_mod_eq_zero hd)).symm
    · exact .inl (div_same_of_mod hd)

theorem slots_le {c : Cfg} {clk : Nat} : slotsBefore c clk * later 0 c.interval ≤ clk := by
  unfold slotsBefore
  exact Nat.le_trans (Nat.div_mul_le_self _ _) (Nat.sub_le _ _)

theorem deadline_start {p : Times} {n t : Nat} (hn : n ≤ p.groups * p.banksPerGroup) :
    deadline p n (t + longestPre p) (t + longestRef p) t ≤ t + refreshWait p := by
  unfold deadline refreshWait
  split
  · omega
  · have h1 : (n - 1) * (p.tPPD.toNat + 1) ≤ (p.groups * p.banksPerGroup - 1) * (p.tPPD.toNat + 1) :=
      Nat.mul_le_mul_right _ (by omega)
    generalize (n - 1) * (p.tPPD.toNat + 1) = z at *
    generalize (p.groups * p.banksPerGroup - 1) * (p.tPPD.toNat + 1) = w at *
    omega

theorem refreshes_append {new h : List Event} (hn : ∀ e ∈ new, isRef e.cmd = false) :
    refreshes (new ++ h) = refreshes h := by
  unfold refreshes
  rw [List.filter_append, List.filter_eq_nil_iff.2 (fun e he => by
    have := hn e he
    unfold isRef at this
    rw [this]; simp), List.nil_append]

theorem refreshes_cons {e : Event} {h : List Event} (he : e.cmd = .refresh) : refreshes (e :: h) = refreshes h ++ [e] := by
  unfold refreshes
  rw [List.filter_cons_of_pos (by simp [he]), List.reverse_cons]

theorem line_eq (s : Ctrl) : Line s = (refreshes s.sim.hist).map (fun e => (e.cmd, e.addr)) ++
    s.sim.chan.refreshQ.map fun q => (q.cmd, q.addr) := by
  unfold Line refreshes isRef
  rw [List.map_reverse]

/-- What is known of the times of the refreshes between cycles. -/
structure WInv (c : Cfg) (s : Ctrl) : Prop where
  idle : s.sim.chan.refreshQ = [] → s.inRef = false ∧ s.refQs = []
  wait : s.sim.chan.refreshQ ≠ [] → ∃ r, s.sim.chan.refreshQ = [r] ∧ r.cmd = .refresh ∧ s.inRef = true ∧
    s.refQs = refIndices c r ∧
    (∃ b1 b2, Late c.p s.sim.chan r.addr.rank b1 b2 ∧
      deadline c.p (openIn c.p s.sim.chan r.addr.rank) b1 b2 s.sim.clk ≤
        slotsBefore c s.sim.clk * later 0 c.interval + refreshWait c.p) ∧
    s.sim.clk ≤ slotsBefore c s.sim.clk * later 0 c.interval + refreshWait c.p
  times : ∀ k e, (refreshes s.sim.hist)[k]? = some e →
    (k + 1) * later 0 c.interval ≤ e.time ∧ e.time ≤ (k + 1) * later 0 c.interval + refreshWait c.p

theorem WInv.tick {c : Cfg} (hm : ∀ a, Exists c.p (c.map a)) (hp : Sane c.p) (hsr : c.selfRefresh = false)
    (hpol : c.policy ≠ .bankStaggered) (hw : refreshWait c.p < later 0 c.interval) {s s' : Ctrl} (h : Run c s)
    (hr : RefOk c s.ref) (href : s.ref = refAt c s.sim.clk (slotsBefore c s.sim.clk))
    (hline : Line s = (List.range (slotsBefore c s.sim.clk)).map (slot c)) (hi : WInv c s)
    (ht : s.tick c = .ok s') (hclk : s.sim.clk < 9223372036854775808) : WInv c s' := by
  obtain ⟨l, r', s0, b, s1, e1, hrun, hsim0, hin0, hqs0, e2, hsim', hin', hqs'⟩ := tick_parts hm hsr h hr ht
  rw [href] at e1
  obtain ⟨-, h5⟩ := refTick_refAt (Nat.lt_of_le_of_lt (Nat.zero_le _) hr.1)
    (fun r => by rw [h.reach.inv.sref]; exact h.awake hsr r) e1
  have hclk0 : s0.sim.clk = s.sim.clk := by rw [hsim0]
  have hhist0 : s0.sim.hist = s.sim.hist := by rw [hsim0]
  have hq0 : s0.sim.chan.refreshQ = s.sim.chan.refreshQ ++ l := by rw [hsim0]
  have hbank0 : s0.sim.chan.bank = s.sim.chan.bank := by rw [hsim0]
  have hcnt : (refreshes s.sim.hist).length + s.sim.chan.refreshQ.length = slotsBefore c s.sim.clk := by
    have := congrArg List.length hline
    rw [line_eq] at this
    simpa using this
  have hslot : ∀ k, (slot c k).1 = .refresh := by
    intro k
    unfold slot planned
    cases hc : c.policy with
    | bankStaggered => exact absurd hc hpol
    | _ => rfl
  -- the result of the issue part is enough
  have done : ∀ s1 : Ctrl, s1.sim.clk = s.sim.clk →
      (s1.sim.chan.refreshQ = [] → s1.inRef = false ∧ s1.refQs = []) →
      (s1.sim.chan.refreshQ ≠ [] → ∃ r, s1.sim.chan.refreshQ = [r] ∧ r.cmd = .refresh ∧ s1.inRef = true ∧
        s1.refQs = refIndices c r ∧
        (∃ b1 b2, Late c.p s1.sim.chan r.addr.rank b1 b2 ∧
          deadline c.p (openIn c.p s1.sim.chan r.addr.rank) b1 b2 (s.sim.clk + 1) ≤
            slotsBefore c (s.sim.clk + 1) * later 0 c.interval + refreshWait c.p) ∧
        s.sim.clk + 1 ≤ slotsBefore c (s.sim.clk + 1) * later 0 c.interval + refreshWait c.p) →
      (∀ k e, (refreshes s1.sim.hist)[k]? = some e →
        (k + 1) * later 0 c.interval ≤ e.time ∧ e.time ≤ (k + 1) * later 0 c.interval + refreshWait c.p) →
      s'.sim = { s1.sim with clk := s1.sim.clk + 1 } → s'.inRef = s1.inRef → s'.refQs = s1.refQs → WInv c s' := by
    intro s1 g1 g2 g3 g4 g5 g6 g7
    have k1 : s'.sim.clk = s.sim.clk + 1 := by rw [g5, ← g1]
    have k2 : s'.sim.chan = s1.sim.chan := by rw [g5]
    have k3 : s'.sim.hist = s1.sim.hist := by rw [g5]
    refine ⟨?_, ?_, ?_⟩
    · rw [k2, g6, g7]; exact g2
    · rw [k1, k2, g6, g7]; exact g3
    · rw [k3]; exact g4
  -- a refresh is next
  have next : ∀ r : Command, s0.sim.chan.refreshQ = [r] → r.cmd = .refresh →
      (s0.inRef = true ∧ s0.refQs = refIndices c r ∨ s0.inRef = false ∧ s0.refQs = []) →
      slotsBefore c (s.sim.clk + 1) * later 0 c.interval ≤ s.sim.clk →
      s.sim.clk ≤ slotsBefore c (s.sim.clk + 1) * later 0 c.interval + refreshWait c.p →
      (refreshes s.sim.hist).length + 1 = slotsBefore c (s.sim.clk + 1) →
      (∃ b1 b2, Late c.p s0.sim.chan r.addr.rank b1 b2 ∧
        deadline c.p (openIn c.p s0.sim.chan r.addr.rank) b1 b2 s.sim.clk ≤
          slotsBefore c (s.sim.clk + 1) * later 0 c.interval + refreshWait c.p) → WInv c s' := by
    intro r g1 g2 g3 g4 g5 g6 ⟨b1, b2, g7, g8⟩
    obtain ⟨b', s2, e3, k1, k2⟩ := issue_wait hm hp hrun hsr g1 g2 g3 (by rw [hclk0]; exact hclk)
    rw [e2] at e3
    cases e3
    rw [hclk0] at k1
    refine done s1 k1 ?_ ?_ ?_ hsim' hin' hqs'
    · rcases k2 with ⟨m1, m2, m3, -⟩ | ⟨m1, -⟩
      · exact fun _ => ⟨m2, m3⟩
      · intro h; rw [m1] at h; cases h
    · rcases k2 with ⟨m1, -⟩ | ⟨m1, m2, m3, -, m4⟩
      · intro h; exact absurd m1 h
      · intro _
        obtain ⟨b1', b2', n1, n2, n3⟩ := m4 b1 b2 g7
        rw [hclk0] at n2 n3
        exact ⟨r, m1, g2, m2, m3, ⟨b1', b2', n1, Nat.le_trans n2 g8⟩, by omega⟩
    · rcases k2 with ⟨-, -, -, new, m1, m2⟩ | ⟨-, -, -, ⟨new, m1, m2⟩, -⟩
      · rw [m1, refreshes_append m2, refreshes_cons rfl, hhist0, hclk0]
        intro k e he
        by_cases hk : k < (refreshes s.sim.hist).length
        · rw [List.getElem?_append_left hk] at he
          exact hi.times k e he
        · rw [List.getElem?_append_right (by omega)] at he
          have hk0 : k - (refreshes s.sim.hist).length = 0 := by
            by_contra hne
            obtain ⟨j, hj⟩ := Nat.exists_eq_succ_of_ne_zero hne
            rw [hj] at he
            simp at he
          rw [hk0] at he
          simp only [List.getElem?_cons_zero, Option.some.injEq] at he
          subst he
          have : k + 1 = slotsBefore c (s.sim.clk + 1) := by omega
          rw [this]
          exact ⟨g4, g5⟩
      · rw [m1, refreshes_append m2, hhist0]; exact hi.times
  rcases slots_step (c := c) s.sim.clk with hs | ⟨hs, hs2⟩
  · -- nothing is scheduled
    rw [hs] at h5
    have hl : l = [] := by
      have := congrArg List.length h5
      simpa using this
    subst hl
    rw [List.append_nil] at hq0
    by_cases hq : s.sim.chan.refreshQ = []
    · have hqn : s0.sim.chan.refreshQ = [] := by rw [hq0, hq]
      obtain ⟨b', s2, e3, ⟨k1, k2, k3, k4, new, k5, k6⟩, -⟩ := rest_queue hm hp hrun
      have e3' : s0.issuePart c = .ok (b', s2) := by
        unfold issuePart
        rw [hqn]
        exact e3
      rw [e2] at e3'
      cases e3'
      refine done s1 (by rw [k1, hclk0]) (fun _ => ?_) (fun h => absurd (by rw [k2, hqn]) h) ?_ hsim' hin' hqs'
      · rw [k3, k4, hin0, hqs0]; exact hi.idle hq
      · rw [k5, refreshes_append k6, hhist0]; exact hi.times
    · obtain ⟨r, w1, w2, w3, w4, ⟨b1, b2, w5, w6⟩, w7⟩ := hi.wait hq
      rw [w1] at hcnt
      refine next r (by rw [hq0, w1]) w2 (.inl ⟨by rw [hin0, w3], by rw [hqs0, w4]⟩) (by rw [hs]; exact slots_le)
        (by rw [hs]; exact w7) (by rw [hs]; exact hcnt) ⟨b1, b2, ?_, ?_⟩
      · intro a ha har
        simp only [at', hbank0]; exact w5 a ha har
      · rw [hs]; simp only [openIn, hbank0]; exact w6
  · -- a refresh is scheduled
    rw [hs, List.range_succ, List.map_append] at h5
    have hl := List.append_cancel_left h5
    obtain ⟨r, rfl, hr1⟩ : ∃ r, l = [r] ∧ r.cmd = .refresh := by
      rcases l with - | ⟨r, - | ⟨r2, l⟩⟩
      · simp at hl
      · simp only [List.map_cons, List.map_nil, List.cons.injEq, and_true] at hl
        exact ⟨r, rfl, by rw [← hslot (slotsBefore c s.sim.clk), ← hl]⟩
      · simp at hl
    by_cases hq : s.sim.chan.refreshQ = []
    · rw [hq] at hcnt hq0
      obtain ⟨i1, i2⟩ := hi.idle hq
      have hnear := h.reach.near hp hclk
      have hr2 := (hrun.refq r (by rw [hq0]; simp)).1
      refine next r hq0 hr1 (.inr ⟨by rw [hin0, i1], by rw [hqs0, i2]⟩) (by rw [hs, ← hs2]) (by rw [hs, ← hs2]; omega)
        (by rw [hs]; simpa using hcnt) ⟨s.sim.clk + longestPre c.p, s.sim.clk + longestRef c.p, ?_, ?_⟩
      · intro a ha har
        simp only [at', hbank0]; exact hnear a ha
      · rw [hs, ← hs2]
        apply deadline_start
        rw [← places_length]
        exact List.countP_le_length
    · exfalso
      obtain ⟨r, -, -, -, -, -, w7⟩ := hi.wait hq
      rw [Nat.add_one_mul] at hs2
      omega

theorem WInv.init (c : Cfg) : WInv c Ctrl.init :=
  ⟨fun _ => ⟨rfl, rfl⟩, fun h => absurd rfl h, fun k e h => by simp [refreshes, Ctrl.init, Sim.init] at h⟩

theorem WInv.step {c : Cfg} (hm : ∀ a, Exists c.p (c.map a)) (hp : Sane c.p) (hsr : c.selfRefresh = false)
    (hpol : c.policy ≠ .bankStaggered) (hw : refreshWait c.p < later 0 c.interval) {m m' : Mem} (hi : MInv c m)
    (h : RInv c m) (hW : WInv c m.ctrl) {u : Use} (hs : m.step c u = .ok m')
    (hclk : m'.ctrl.sim.clk < 9223372036854775808) : WInv c m'.ctrl := by
  have hran := step_spec hm hi u
  rcases hran with ⟨m1, e1, hr, -⟩ | ⟨e, he, -⟩
  swap
  · rw [he] at hs; cases hs
  rw [hs] at e1
  cases e1
  have hck := hr.clk
  cases u with
  | offer a w =>
    simp only [Mem.step, Except.ok.injEq] at hs
    subst hs
    split
    · obtain ⟨hsim, href⟩ := add_sim c m.ctrl a w
      have h1 : (m.ctrl.add c a w).inRef = m.ctrl.inRef ∧ (m.ctrl.add c a w).refQs = m.ctrl.refQs := by
        unfold Ctrl.add
        dsimp only
        repeat' split
        all_goals exact ⟨rfl, rfl⟩
      refine ⟨?_, ?_, ?_⟩ <;> dsimp only <;> rw [hsim]
      · rw [h1.1, h1.2]; exact hW.idle
      · rw [h1.1, h1.2]; exact hW.wait
      · exact hW.times
    · exact hW
  | tick =>
    obtain ⟨q, h1, -, -, -, -⟩ := returnLoop_spec (m := m) (Nat.le_refl _)
    have sb : SameBook m.ctrl { m.ctrl with returnQ := q } := ⟨rfl, rfl, rfl, rfl, rfl, rfl⟩
    have hrun : Run c { m.ctrl with returnQ := q } := ⟨hi.run.reach, sb.book hi.run.book, hi.run.refq, hi.run.awake⟩
    simp only [Mem.step, bind, Except.bind, pure, Except.pure] at hs
    rw [h1] at hs
    cases ht : Ctrl.tick c { m.ctrl with returnQ := q } with
    | error e => rw [ht] at hs; cases hs
    | ok s' =>
      rw [ht] at hs
      cases hs
      exact WInv.tick hm hp hsr hpol hw hrun hi.ref h.ref h.line ⟨hW.idle, hW.wait, hW.times⟩ ht
        (by dsimp only at hck hclk ⊢; omega)

theorem wexec {c : Cfg} (hm : ∀ a, Exists c.p (c.map a)) (hp : Sane c.p) (hsr : c.selfRefresh = false)
    (hpol : c.policy ≠ .bankStaggered) (hw : refreshWait c.p < later 0 c.interval) {m m' : Mem} (hi : MInv c m)
    (h : RInv c m) (hW : WInv c m.ctrl) {l : List Use} (hs : m.exec c l = .ok m')
    (hclk : m'.ctrl.sim.clk < 9223372036854775808) : WInv c m'.ctrl := by
  induction l generalizing m with
  | nil => cases hs; exact hW
  | cons u l ih =>
    simp only [Mem.exec, bind, Except.bind] at hs
    rcases step_spec hm hi u with ⟨m1, e1, hr, -⟩ | ⟨e, he, -⟩
    · rw [e1] at hs
      dsimp only at hs
      have hck : m1.ctrl.sim.clk ≤ m'.ctrl.sim.clk := by
        rcases exec_spec hm hr.inv l with ⟨m2, e2, hr2, -⟩ | ⟨e, he, -⟩
        · rw [e2] at hs; cases hs
          have := hr2.clk; omega
        · rw [he] at hs; cases hs
      exact ih hr.inv (h.step hm hsr hi e1) (hW.step hm hp hsr hpol hw hi h e1 (by omega)) hs
    · rw [he] at hs; cases hs

end RadSim.DramSim
