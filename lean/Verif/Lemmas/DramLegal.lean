import Verif.Lemmas.DramChan

/-! # DRAM channels: the states of the banks follow the history -/

namespace RadSim.DramSim

open Chan

/-- The bank after a command it accepts. -/
def Bank.after (c : Command) (b : Bank) : Bank :=
  match c.cmd with
  | .read | .write => { b with hits := b.hits + 1 }
  | .readPre | .writePre | .pre => { b with state := .closed, row := none, hits := 0 }
  | .act => { b with state := .opened, row := some c.addr.row }
  | .srefIn => { b with state := .sref }
  | .srefOut => { b with state := .closed }
  | .refresh | .refBank => b

theorem Bank.after_timing (c : Command) (b : Bank) : (b.after c).timing = b.timing := by
  unfold Bank.after; split <;> rfl

/-- The state a command needs. -/
def Bank.accepts (c : Cmd) (b : Bank) : Prop :=
  match c with
  | .read | .write | .readPre | .writePre | .pre => b.state = .opened
  | .act | .refresh | .refBank | .srefIn => b.state = .closed
  | .srefOut => b.state = .sref

theorem Bank.updateState_of {c : Command} {b : Bank} (h : b.accepts c.cmd) : b.updateState c = .ok (b.after c) := by
  obtain ⟨cc, ca, ch⟩ := c
  cases cc <;> simp only [Bank.accepts] at h <;> simp [Bank.updateState, Bank.after, h]

/-- The banks whose timing `GetReadyCommand` has looked at. -/
def checks (c : Cmd) (a b : Addr) : Prop := if c = .refresh ∨ c = .srefIn then a.rank = b.rank else SameBank a b

/-- What is known of a command declared ready. -/
structure Ready (p : Times) (s : Chan) (clk : Nat) (x : Command) : Prop where
  rank : x.addr.rank < p.ranks
  here : (x.cmd ≠ .refresh ∧ x.cmd ≠ .srefIn) → Exists p x.addr
  one : ∃ a, Exists p a ∧ checks x.cmd x.addr a
  accepts : ∀ a, Exists p a → checks x.cmd x.addr a → (s.at' a).accepts x.cmd
  row : (x.cmd.isRead ∨ x.cmd.isWrite) → (s.at' x.addr).row = some x.addr.row
  due : ∀ a, Exists p a → checks x.cmd x.addr a → (s.at' a).timing x.cmd ≤ clk
  window : x.cmd = .act → activationOk p s x.addr.rank clk

/-- A request that fits the channel. -/
def Fits (p : Times) (c : Command) : Prop :=
  c.addr.rank < p.ranks ∧ (c.cmd.isRank = false → Exists p c.addr)

/-- The cases of `required_type`. -/
theorem Bank.required_ok {b : Bank} {c : Command} {t : Cmd} (h : b.required c = .ok t) :
    b.accepts t ∧ ((t.isRead ∨ t.isWrite) → b.row = some c.addr.row) ∧
      (c.cmd.isRank → (c.cmd = .refresh ∨ c.cmd = .srefIn) ∧ (t = c.cmd ∨ t = .pre)) ∧
      (c.cmd.isRank = false → t ≠ .refresh ∧ t ≠ .srefIn) := by
  obtain ⟨st, tm, row, hits⟩ := b
  obtain ⟨cc, ca, chx⟩ := c
  cases st <;> cases cc <;> simp only [Bank.required, reduceCtorEq] at h <;>
    first
    | (split at h <;> cases h <;> simp [Bank.accepts, Cmd.isRead, Cmd.isWrite, Cmd.isRank, *])
    | (cases h; simp [Bank.accepts, Cmd.isRead, Cmd.isWrite, Cmd.isRank])

theorem ready_of {p : Times} {s : Chan} {c x : Command} {clk : Nat} (hc : Fits p c)
    (h : s.getReady p c clk = .ok (some x)) : Ready p s clk x := by
  unfold getReady at h
  by_cases hr : c.cmd.isRank
  · rw [if_pos hr] at h
    rcases rankReady_some (by rw [places_length]; omega) h with ⟨y, hy, t, ht, hne, htm, rfl⟩ | ⟨hall, hn, hx⟩
    · obtain ⟨h1, h2, h3, h4⟩ := Bank.required_ok ht
      obtain ⟨h5, h6⟩ := h3 hr
      have ht : t = .pre := h6.resolve_left hne
      subst ht
      have he : Exists p { rank := c.addr.rank, group := y.1, bank := y.2, row := 0, col := 0 } :=
        ⟨hc.1, mem_places.1 hy⟩
      have hs : ∀ a : Addr, checks .pre { rank := c.addr.rank, group := y.1, bank := y.2, row := 0, col := 0 } a →
          s.at' a = s.bank c.addr.rank y.1 y.2 := by
        intro a ha
        simp only [checks, reduceCtorEq, or_self, if_false, SameBank] at ha
        simp only [at', ← ha.1, ← ha.2.1, ← ha.2.2]
      exact
        { rank := hc.1
          here := fun _ => he
          one := ⟨_, he, by simp [checks, SameBank]⟩
          accepts := fun a _ ha => by rw [hs a ha]; exact h1
          row := fun h => by simp [Cmd.isRead, Cmd.isWrite] at h
          due := fun a _ ha => by rw [hs a ha]; exact htm
          window := fun h => by cases h }
    · have hne : places p ≠ [] := by
        intro h0
        rcases hx with rfl | ⟨_, hx⟩
        · rw [h0] at h; simp only [rankReady] at h; split at h <;> cases h
        · cases hx
      have hx : x = c := by
        rcases hx with hx | ⟨hx, _⟩
        · exact hx
        · exact absurd hx hne
      subst hx
      obtain ⟨y0, hy0⟩ := List.exists_mem_of_ne_nil _ hne
      have hk : x.cmd = .refresh ∨ x.cmd = .srefIn := ((Bank.required_ok (hall y0 hy0).1).2.2.1 hr).1
      have hs : ∀ a : Addr, checks x.cmd x.addr a → x.addr.rank = a.rank := by
        intro a ha; rw [checks, if_pos hk] at ha; exact ha
      have hp : ∀ a : Addr, Exists p a → (a.group, a.bank) ∈ places p := fun a ha => mem_places.2 ha.2
      refine
        { rank := hc.1
          here := fun h => absurd hk (by simp [h.1, h.2])
          one := ⟨⟨x.addr.rank, y0.1, y0.2, 0, 0⟩, ⟨hc.1, mem_places.1 hy0⟩, by rw [checks, if_pos hk]⟩
          accepts := fun a he ha => ?_
          row := fun h => by rcases hk with hk | hk <;> simp [hk, Cmd.isRead, Cmd.isWrite] at h
          due := fun a he ha => ?_
          window := fun h => by rcases hk with hk | hk <;> rw [hk] at h <;> cases h }
      · have := (Bank.required_ok (hall _ (hp a he)).1).1
        rw [hs a ha] at this; exact this
      · have := (hall _ (hp a he)).2
        rw [hs a ha] at this; exact this
  · rw [if_neg hr] at h
    have hr : c.cmd.isRank = false := by simpa using hr
    simp only [bind, Except.bind, pure, Except.pure] at h
    cases hg : (s.bank c.addr.rank c.addr.group c.addr.bank).getReady c clk with
    | error e => rw [hg] at h; cases h
    | ok o =>
      rw [hg] at h
      cases o with
      | none => cases h
      | some z =>
        obtain ⟨t, ht, htm, rfl⟩ := Bank.getReady_some.1 hg
        obtain ⟨h1, h2, h3, h4⟩ := Bank.required_ok ht
        have h4 := h4 hr
        dsimp only at h
        split at h
        · cases h
        · rename_i hw
          cases h
          have hs : ∀ a : Addr, checks t c.addr a → s.at' a = s.bank c.addr.rank c.addr.group c.addr.bank := by
            intro a ha
            simp only [checks, h4.1, h4.2, or_self, if_false, SameBank] at ha
            simp only [at', ← ha.1, ← ha.2.1, ← ha.2.2]
          exact
            { rank := hc.1
              here := fun _ => hc.2 hr
              one := ⟨c.addr, hc.2 hr, by simp [checks, h4.1, h4.2, SameBank]⟩
              accepts := fun a _ ha => by rw [hs a ha]; exact h1
              row := h2
              due := fun a _ ha => by rw [hs a ha]; exact htm
              window := fun h => by simp at hw; exact hw h }

/-- The state of a bank agrees with the history. -/
def BankOk (h : List Event) (b : Bank) (a : Addr) : Prop :=
  if asleep a.rank h then b.state = .sref ∧ openRow a h = none
  else match openRow a h with
    | none => b.state = .closed
    | some r => b.state = .opened ∧ b.row = some r

/-- The states of the banks, the self-refresh flags and the history agree, and the history is legal. -/
structure Inv (p : Times) (s : Sim) : Prop where
  past : ∀ e ∈ s.hist, e.time ≤ s.clk
  order : s.hist.Pairwise fun a b => b.time ≤ a.time
  rank : ∀ e ∈ s.hist, e.addr.rank < p.ranks
  here : ∀ e ∈ s.hist, e.cmd ≠ .refresh ∧ e.cmd ≠ .srefIn → Exists p e.addr
  one : ∀ e ∈ s.hist, ∃ a, Exists p a ∧ e.addr.rank = a.rank
  banks : ∀ a, Exists p a → BankOk s.hist (s.chan.at' a) a
  sref : ∀ r, s.chan.sref r = asleep r s.hist
  legal : Legal s.hist

theorem inv_init (p : Times) : Inv p .init :=
  { past := by simp [Sim.init]
    order := by simp [Sim.init]
    rank := by simp [Sim.init]
    here := by simp [Sim.init]
    one := by simp [Sim.init]
    banks := fun a _ => by simp [Sim.init, BankOk, asleep, openRow, at', Chan.init, Bank.init]
    sref := fun r => by simp [Sim.init, asleep, Chan.init]
    legal := trivial }

theorem openRow_none {p : Times} {h : List Event}
    (hh : ∀ e ∈ h, e.cmd ≠ .refresh ∧ e.cmd ≠ .srefIn → Exists p e.addr) {a : Addr} (ha : ¬ Exists p a) : openRow a h = none := by
  induction h with
  | nil => rfl
  | cons e h ih =>
    have ih := ih fun d hd => hh d (List.mem_cons_of_mem _ hd)
    simp only [openRow]
    split
    · rename_i hs
      have hr : e.cmd.isRank = true := by
        by_contra hr
        have he := hh e (List.mem_cons_self ..)
          ⟨fun h => hr (by rw [h]; rfl), fun h => hr (by rw [h]; rfl)⟩
        exact ha ⟨hs.1 ▸ he.1, hs.2.1 ▸ he.2.1, hs.2.2 ▸ he.2.2⟩
      cases hc : e.cmd <;> simp [hc, Cmd.isRank] at hr <;> exact ih
    · exact ih

/-- The event of an issued command. -/
def eventOf (clk : Nat) (x : Command) : Event := { time := clk, cmd := x.cmd, addr := x.addr }

theorem asleep_cons (clk : Nat) (x : Command) (r : Nat) (h : List Event) :
    asleep r (eventOf clk x :: h) =
      if r = x.addr.rank then (if x.cmd = .srefIn then true else if x.cmd = .srefOut then false else asleep r h)
      else asleep r h := by
  by_cases hr : x.addr.rank = r
  · simp only [asleep, eventOf, hr, if_true]
    cases x.cmd <;> simp
  · simp [asleep, eventOf, hr, Ne.symm hr]

/-- A rank that is asleep has all its banks in self-refresh. -/
theorem Inv.of_sref {p : Times} {s : Sim} (hi : Inv p s) {a : Addr} (ha : Exists p a)
    (h : (s.chan.at' a).state = .sref) : asleep a.rank s.hist = true := by
  have := hi.banks a ha
  unfold BankOk at this
  split at this
  · assumption
  · split at this
    · rw [h] at this; cases this
    · rw [h] at this; cases this.1

theorem Inv.awake {p : Times} {s : Sim} (hi : Inv p s) {a : Addr} (ha : Exists p a)
    (h : (s.chan.at' a).state ≠ .sref) : asleep a.rank s.hist = false := by
  by_contra hb
  have := hi.banks a ha
  rw [BankOk, if_pos (by simpa using hb)] at this
  exact h this.1

theorem Inv.closed {p : Times} {s : Sim} (hi : Inv p s) {a : Addr} (ha : Exists p a)
    (h : (s.chan.at' a).state = .closed) : openRow a s.hist = none := by
  have := hi.banks a ha
  rw [BankOk, if_neg (by simp [hi.awake ha (by simp [h])])] at this
  split at this
  · assumption
  · rw [h] at this; cases this.1

theorem Inv.opened {p : Times} {s : Sim} (hi : Inv p s) {a : Addr} (ha : Exists p a)
    (h : (s.chan.at' a).state = .opened) : ∃ r, openRow a s.hist = some r ∧ (s.chan.at' a).row = some r := by
  have := hi.banks a ha
  rw [BankOk, if_neg (by simp [hi.awake ha (by simp [h])])] at this
  split at this
  · rw [h] at this; cases this
  · exact ⟨_, by assumption, this.2⟩

/-- A command declared ready is accepted by every bank it goes to. -/
theorem accepted {p : Times} {s : Sim} (hi : Inv p s) {x : Command} (hx : Ready p s.chan s.clk x) (a : Addr)
    (ha : Exists p a) (ht : touches x a) : (s.chan.at' a).accepts x.cmd := by
  by_cases ho : x.cmd = .srefOut
  · have he := hx.here (by simp [ho])
    have h1 := hx.accepts x.addr he (by simp [checks, ho, SameBank])
    rw [ho] at h1 ⊢
    simp only [Bank.accepts] at h1 ⊢
    have := hi.of_sref he h1
    have hr : x.addr.rank = a.rank := by simpa [touches, ho, Cmd.isRank] using ht
    have hb := hi.banks a ha
    rw [BankOk, if_pos (hr ▸ this)] at hb
    exact hb.1
  · refine hx.accepts a ha ?_
    unfold touches at ht
    unfold checks
    cases hc : x.cmd <;> simp [hc, Cmd.isRank] at ht ho ⊢ <;> exact ht

/-- **A command declared ready can be applied.** -/
theorem update_ok {p : Times} {s : Sim} (hi : Inv p s) {x : Command} (hx : Ready p s.chan s.clk x) :
    ∃ ch, s.chan.update p x s.clk = .ok ch ∧
      (∀ r, ch.sref r = asleep r (eventOf s.clk x :: s.hist)) ∧
      (∀ a, Exists p a → (ch.at' a).state = (if touches x a then (s.chan.at' a).after x else s.chan.at' a).state ∧
        (ch.at' a).row = (if touches x a then (s.chan.at' a).after x else s.chan.at' a).row) ∧
      (∀ a, Exists p a → ∀ c, (s.chan.at' a).timing c ≤ (ch.at' a).timing c) ∧
      (∀ a, Exists p a → ∀ y ∈ bound p x.cmd x.addr a, later s.clk y.2 ≤ (ch.at' a).timing y.1) ∧
      ch.fourAw = (if x.cmd = .act then (updateActivation p s.chan x.addr.rank s.clk).fourAw else s.chan.fourAw) ∧
      ch.thirtyTwoAw =
        (if x.cmd = .act then (updateActivation p s.chan x.addr.rank s.clk).thirtyTwoAw else s.chan.thirtyTwoAw) ∧
      ch.refreshQ = (if x.cmd = .refresh then s.chan.refreshQ.eraseP fun q => q.addr.rank = x.addr.rank
        else if x.cmd = .refBank then s.chan.refreshQ.eraseP fun q => SameBank q.addr x.addr
        else s.chan.refreshQ) := by
  obtain ⟨s1, h1, h2, h3, h4, h5, h6⟩ := updateState_ok (p := p) (s := s.chan) (c := x) (g := Bank.after x) hx.rank
    (fun h => hx.here ⟨fun h' => by simp [h', Cmd.isRank] at h, fun h' => by simp [h', Cmd.isRank] at h⟩)
    (fun a ha ht => Bank.updateState_of (accepted hi hx a ha ht))
  obtain ⟨u1, u2, u3, u4⟩ := updateTiming_rest p s1 x s.clk
  refine ⟨updateTiming p s1 x s.clk, by simp [Chan.update, h1, bind, Except.bind, pure, Except.pure], ?_, ?_, ?_, ?_, ?_,
    ?_, ?_⟩
  · intro r; rw [u1, h4, asleep_cons, hi.sref]
  · intro a ha
    obtain ⟨t1, t2, _⟩ := updateTiming_state p s1 x s.clk a
    rw [t1, t2, h6 a ha]; exact ⟨rfl, rfl⟩
  · intro a ha c
    refine Nat.le_trans ?_ (updateTiming_le p s1 x s.clk a c)
    rw [h6 a ha]; split
    · rw [Bank.after_timing]
    · exact Nat.le_refl _
  · intro a ha y hy; exact updateTiming_bound p s1 x s.clk a ha hy
  · rw [u3]; split
    · simp only [updateActivation, h2]
    · exact h2
  · rw [u4]; split
    · simp only [updateActivation, h3]
    · exact h3
  · rw [u2, h5]

theorem allowed {p : Times} {s : Sim} (hi : Inv p s) {x : Command} (hx : Ready p s.chan s.clk x) :
    Allowed s.hist (eventOf s.clk x) := by
  have hb : (x.cmd ≠ .refresh ∧ x.cmd ≠ .srefIn) → Exists p x.addr ∧ (s.chan.at' x.addr).accepts x.cmd := fun h =>
    ⟨hx.here h, hx.accepts _ (hx.here h) (by simp [checks, h.1, h.2, SameBank])⟩
  have hall : (x.cmd = .refresh ∨ x.cmd = .srefIn) → asleep x.addr.rank s.hist = false ∧
      ∀ a : Addr, a.rank = x.addr.rank → openRow a s.hist = none := by
    intro hk
    have hc : ∀ a, Exists p a → x.addr.rank = a.rank → (s.chan.at' a).state = .closed := by
      intro a ha hr
      have := hx.accepts a ha (by rw [checks, if_pos hk]; exact hr)
      rcases hk with hk | hk <;> rw [hk] at this <;> exact this
    obtain ⟨a, ha, hca⟩ := hx.one
    rw [checks, if_pos hk] at hca
    refine ⟨hca ▸ hi.awake ha (by simp [hc a ha hca]), fun b hb => ?_⟩
    by_cases he : Exists p b
    · exact hi.closed he (hc b he hb.symm)
    · exact openRow_none hi.here he
  have hrw : (x.cmd.isRead ∨ x.cmd.isWrite) → asleep x.addr.rank s.hist = false ∧
      openRow x.addr s.hist = some x.addr.row := by
    intro hk
    have hne : x.cmd ≠ .refresh ∧ x.cmd ≠ .srefIn := by
      constructor <;> intro h <;> simp [h, Cmd.isRead, Cmd.isWrite] at hk
    obtain ⟨he, ho⟩ := hb hne
    have ho : (s.chan.at' x.addr).state = .opened := by
      cases hc : x.cmd <;> simp [hc, Cmd.isRead, Cmd.isWrite] at hk <;> rw [hc] at ho <;> exact ho
    obtain ⟨r, h1, h2⟩ := hi.opened he ho
    have := hx.row hk
    rw [h2] at this
    exact ⟨hi.awake he (by simp [ho]), h1.trans this⟩
  cases hc : x.cmd <;> simp only [Allowed, eventOf, hc]
  case read => exact hrw (by simp [hc, Cmd.isRead])
  case readPre => exact hrw (by simp [hc, Cmd.isRead])
  case write => exact hrw (by simp [hc, Cmd.isWrite])
  case writePre => exact hrw (by simp [hc, Cmd.isWrite])
  case act =>
    obtain ⟨he, ho⟩ := hb (by simp [hc])
    rw [hc] at ho
    exact ⟨hi.awake he (by rw [show (s.chan.at' x.addr).state = .closed from ho]; simp), hi.closed he ho⟩
  case pre =>
    obtain ⟨he, ho⟩ := hb (by simp [hc])
    rw [hc] at ho
    obtain ⟨r, h1, _⟩ := hi.opened he ho
    exact ⟨hi.awake he (by rw [show (s.chan.at' x.addr).state = .opened from ho]; simp), by simp [h1]⟩
  case refBank =>
    obtain ⟨he, ho⟩ := hb (by simp [hc])
    rw [hc] at ho
    exact ⟨hi.awake he (by rw [show (s.chan.at' x.addr).state = .closed from ho]; simp), hi.closed he ho⟩
  case refresh => exact hall (.inl hc)
  case srefIn => exact hall (.inr hc)
  case srefOut =>
    obtain ⟨he, ho⟩ := hb (by simp [hc])
    rw [hc] at ho
    exact hi.of_sref he ho

/-- Only the commands of a bank, and those for a rank, change its row. -/
theorem openRow_cons (clk : Nat) (x : Command) (a : Addr) (h : List Event) :
    openRow a (eventOf clk x :: h) =
      if SameBank x.addr a then (if x.cmd = .act then some x.addr.row
        else if x.cmd = .pre ∨ x.cmd = .readPre ∨ x.cmd = .writePre then none else openRow a h)
      else openRow a h := by
  by_cases hs : SameBank x.addr a
  · simp only [openRow, eventOf, hs, if_true]
    cases x.cmd <;> simp
  · simp [openRow, eventOf, hs]

theorem banks_next {p : Times} {s : Sim} (hi : Inv p s) {x : Command} (hx : Ready p s.chan s.clk x) {ch : Chan}
    (hst : ∀ a, Exists p a → (ch.at' a).state = (if touches x a then (s.chan.at' a).after x else s.chan.at' a).state ∧
        (ch.at' a).row = (if touches x a then (s.chan.at' a).after x else s.chan.at' a).row) (a : Addr)
    (ha : Exists p a) : BankOk (eventOf s.clk x :: s.hist) (ch.at' a) a := by
  obtain ⟨h1, h2⟩ := hst a ha
  have hb := hi.banks a ha
  by_cases ht : touches x a
  · rw [if_pos ht] at h1 h2
    have hacc := accepted hi hx a ha ht
    unfold BankOk
    rw [asleep_cons, openRow_cons, h1, h2]
    cases hc : x.cmd <;> simp only [hc, touches, Cmd.isRank, Bool.false_eq_true, if_false, if_true] at ht <;>
      simp only [hc, Bank.accepts] at hacc <;> simp only [Bank.after, hc]
    case read | write =>
      have := hi.awake ha (by simp [hacc])
      obtain ⟨r, h3, h4⟩ := hi.opened ha hacc
      simp [this, h3, hacc, h4, ht]
    case readPre | writePre | pre =>
      have := hi.awake ha (by simp [hacc])
      simp [this, ht]
    case act =>
      have := hi.awake ha (by simp [hacc])
      simp [this, ht]
    case refBank =>
      have := hi.awake ha (by simp [hacc])
      simp [this, ht, hi.closed ha hacc, hacc]
    case refresh =>
      have := hi.awake ha (by simp [hacc])
      simp [this, hi.closed ha hacc, hacc]
    case srefIn => simp [ht, hi.closed ha hacc]
    case srefOut =>
      have h5 := hi.of_sref ha hacc
      rw [BankOk, if_pos h5] at hb
      simp [ht, hb.2]
  · rw [if_neg ht] at h1 h2
    have hk : ¬ (SameBank x.addr a ∧ x.cmd.isRank = false) ∧ ¬ (x.addr.rank = a.rank ∧ x.cmd.isRank = true) := by
      unfold touches at ht
      cases hr : x.cmd.isRank <;> simp [hr] at ht ⊢ <;> exact ht
    have h3 : asleep a.rank (eventOf s.clk x :: s.hist) = asleep a.rank s.hist := by
      rw [asleep_cons]
      by_cases hr : a.rank = x.addr.rank
      · have : x.cmd.isRank = false := by
          cases hc : x.cmd.isRank
          · rfl
          · exact absurd ⟨hr.symm, hc⟩ hk.2
        rw [if_pos hr, if_neg (by intro h; simp [h, Cmd.isRank] at this),
          if_neg (by intro h; simp [h, Cmd.isRank] at this)]
      · rw [if_neg hr]
    have h4 : openRow a (eventOf s.clk x :: s.hist) = openRow a s.hist := by
      rw [openRow_cons]
      by_cases hs : SameBank x.addr a
      · have : x.cmd.isRank = true := by
          cases hc : x.cmd.isRank
          · exact absurd ⟨hs, hc⟩ hk.1
          · rfl
        rw [if_pos hs]
        cases hc : x.cmd <;> simp [hc, Cmd.isRank] at this ⊢
      · rw [if_neg hs]
    unfold BankOk at hb ⊢
    rw [h3, h4, h1, h2]; exact hb

/-- The requests of an operation fit the channel. -/
def Op.Fits (p : Times) : Op → Prop
  | .ask c => DramSim.Fits p c
  | _ => True

theorem inv_issue {p : Times} {s : Sim} (hi : Inv p s) {x : Command} (hx : Ready p s.chan s.clk x) {ch : Chan}
    (h : s.chan.update p x s.clk = .ok ch) :
    Inv p { s with chan := ch, hist := eventOf s.clk x :: s.hist } := by
  obtain ⟨ch', h0, h1, h2, _⟩ := update_ok hi hx
  rw [h0] at h; cases h
  exact
    { past := fun e he => by
        rcases List.mem_cons.1 he with rfl | he
        · exact Nat.le_refl _
        · exact hi.past e he
      order := List.pairwise_cons.2 ⟨fun e he => hi.past e he, hi.order⟩
      rank := fun e he => by
        rcases List.mem_cons.1 he with rfl | he
        · exact hx.rank
        · exact hi.rank e he
      here := fun e he hr => by
        rcases List.mem_cons.1 he with rfl | he
        · exact hx.here hr
        · exact hi.here e he hr
      one := fun e he => by
        rcases List.mem_cons.1 he with rfl | he
        · obtain ⟨a, ha, hc⟩ := hx.one
          refine ⟨a, ha, ?_⟩
          unfold checks at hc
          split at hc
          · exact hc
          · exact hc.1
        · exact hi.one e he
      banks := banks_next hi hx h2
      sref := h1
      legal := ⟨allowed hi hx, hi.legal⟩ }

theorem step_ask {p : Times} {s s' : Sim} {c : Command} (h : s.step p (.ask c) = .ok s') :
    (s.chan.getReady p c s.clk = .ok none ∧ s' = s) ∨
    ∃ x ch, s.chan.getReady p c s.clk = .ok (some x) ∧ s.chan.update p x s.clk = .ok ch ∧
      s' = { s with chan := ch, hist := eventOf s.clk x :: s.hist } := by
  simp only [Sim.step, bind, Except.bind, pure, Except.pure] at h
  cases hg : s.chan.getReady p c s.clk with
  | error e => rw [hg] at h; cases h
  | ok o =>
    rw [hg] at h
    cases o with
    | none => cases h; exact .inl ⟨rfl, rfl⟩
    | some x =>
      dsimp only at h
      cases hu : s.chan.update p x s.clk with
      | error e => rw [hu] at h; cases h
      | ok ch => rw [hu] at h; cases h; exact .inr ⟨x, ch, rfl, hu, rfl⟩

theorem inv_step {p : Times} {s s' : Sim} {o : Op} (hi : Inv p s) (ho : o.Fits p) (h : s.step p o = .ok s') :
    Inv p s' := by
  cases o with
  | wait n =>
    cases h
    exact { hi with past := fun e he => Nat.le_trans (hi.past e he) (Nat.le_add_right ..) }
  | note c =>
    cases h
    exact { hi with }
  | ask c =>
    rcases step_ask h with ⟨_, rfl⟩ | ⟨x, ch, h1, h2, rfl⟩
    · exact hi
    · exact inv_issue hi (ready_of ho h1) h2

theorem inv_exec {p : Times} {l : List Op} {s s' : Sim} (hi : Inv p s) (ho : ∀ o ∈ l, o.Fits p)
    (h : s.exec p l = .ok s') : Inv p s' := by
  induction l generalizing s with
  | nil => cases h; exact hi
  | cons o l ih =>
    simp only [Sim.exec, bind, Except.bind] at h
    cases hs : s.step p o with
    | error e => rw [hs] at h; cases h
    | ok s1 =>
      rw [hs] at h
      exact ih (inv_step hi (ho o (List.mem_cons_self ..)) hs) (fun o h => ho o (List.mem_cons_of_mem _ h)) h

end RadSim.DramSim
