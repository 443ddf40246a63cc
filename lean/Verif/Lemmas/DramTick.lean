import Verif.Lemmas.DramOrd
import Verif.Props.DramChan

/-! # The controller of a DRAM channel: one cycle -/

namespace RadSim.DramSim

open Chan Ctrl

/-! ## refreshes -/

theorem refresh_shape {p : Times} {ch : Chan} {clk : Nat} {q x : Command}
    (hq : q.cmd = .refresh ∨ q.cmd = .refBank ∨ q.cmd = .srefIn ∨ q.cmd = .srefOut)
    (h : ch.getReady p q clk = .ok (some x)) : (x.cmd = q.cmd ∧ x.addr = q.addr) ∨ x.cmd = .pre := by
  unfold getReady at h
  split at h
  · rename_i hr
    rcases rankReady_some (by rw [places_length]; omega) h with ⟨y, _, t, ht, hne, _, rfl⟩ | ⟨_, _, hx⟩
    · exact .inr ((((Bank.required_ok ht).2.2.1 hr).2).resolve_left hne)
    · rcases hx with rfl | ⟨_, h⟩
      · exact .inl ⟨rfl, rfl⟩
      · cases h
  · rename_i hr
    have hb : q.cmd = .refBank := by rcases hq with h | h | h | h <;> simp [h, Cmd.isRank] at hr ⊢
    simp only [bind, Except.bind, pure, Except.pure] at h
    cases hg : (ch.bank q.addr.rank q.addr.group q.addr.bank).getReady q clk with
    | error e => rw [hg] at h; cases h
    | ok o =>
      rw [hg] at h
      cases o with
      | none => cases h
      | some z =>
        obtain ⟨t, ht, _, rfl⟩ := Bank.getReady_some.1 hg
        dsimp only at h
        split at h
        · cases h
        · cases h
          generalize ch.bank q.addr.rank q.addr.group q.addr.bank = b at ht
          cases hs : b.state <;> simp [Bank.required, hs, hb] at ht <;> simp [← ht, hb]

theorem refresh_total {p : Times} {s : Sim} (hi : Inv p s) {q : Command} (hq : Fits p q)
    (hk : q.cmd = .refresh ∨ q.cmd = .refBank) (ha : asleep q.addr.rank s.hist = false) :
    ∃ o, s.chan.getReady p q s.clk = .ok o := by
  cases hg : s.chan.getReady p q s.clk with
  | ok o => exact ⟨o, rfl⟩
  | error e =>
    exfalso
    have key : ∀ a, Exists p a → a.rank = q.addr.rank → (s.chan.at' a).required q = .error e → False := by
      intro a h1 h2 h3
      have hs : (s.chan.at' a).state ≠ .sref := by
        intro h
        have := hi.of_sref h1 h
        rw [h2, ha] at this; cases this
      rcases hk with hk | hk <;> cases hst : (s.chan.at' a).state <;> simp [Bank.required, hst, hk] at h3 hs
    unfold getReady at hg
    split at hg
    · obtain ⟨y, hy, hr⟩ := rankReady_error hg
      exact key ⟨q.addr.rank, y.1, y.2, 0, 0⟩ ⟨hq.1, mem_places.1 hy⟩ rfl hr
    · rename_i hr
      simp only [bind, Except.bind, pure, Except.pure] at hg
      cases hb : (s.chan.bank q.addr.rank q.addr.group q.addr.bank).getReady q s.clk with
      | ok o => rw [hb] at hg; cases o <;> cases hg
      | error e' =>
        rw [hb] at hg; cases hg
        exact key q.addr (hq.2 (by simpa using hr)) rfl (Bank.getReady_error.1 hb)

/-! ## two commands in one cycle -/

/-- The timing parameters never allow two reads or writes in the same cycle. -/
structure Separate (p : Times) : Prop where
  sane : Sane p
  ap : p.CL + p.tRTRS ≤ p.CWL + p.AL + p.tRTP + p.tRP + p.toWrite
  burst : 0 < p.burst
  rw : p.WL < p.RL + p.burst + p.tRTRS
  wr : p.ranks ≤ 1 ∨ p.RL < p.WL + p.burst + p.tRTRS

theorem no_clash {p : Times} (hp : Separate p) {s : Sim} (hr : Reach p s) {q x r y : Command} (hq : Fits p q)
    (hx : s.chan.getReady p q s.clk = .ok (some x)) {ch : Chan} (hu : s.chan.update p x s.clk = .ok ch)
    (hfr : Fits p r) (hy : ch.getReady p r s.clk = .ok (some y)) (hclk : s.clk < 9223372036854775808)
    (hxrw : (x.cmd.isRead || x.cmd.isWrite) = true) (hyrw : (y.cmd.isRead || y.cmd.isWrite) = true) : False := by
  have h1 := hr.issue hq hx hu
  obtain ⟨ch2, hu2⟩ := h1.ready hfr hy
  have h2 := h1.issue hfr hy hu2
  dsimp only at h2
  obtain ⟨ops, ho, he⟩ := h2
  have hbus := C48_bus p hp.sane ops ho _ he hclk hp.ap
  have hsp := C48_spaced_partial p hp.sane ops ho _ he hclk
  have hleg := C48_legal p ops ho _ he
  have hrank := (inv_exec (inv_init p) ho he).rank
  dsimp only at hbus hsp hleg hrank
  have haft : After (⟨s.clk, y.cmd, y.addr⟩ :: ⟨s.clk, x.cmd, x.addr⟩ :: s.hist) ⟨s.clk, y.cmd, y.addr⟩
      ⟨s.clk, x.cmd, x.addr⟩ := ⟨[], [], s.hist, rfl⟩
  have hb := hbus _ _ haft hxrw hyrw
  have hbu := hp.burst
  have hrw := hp.rw
  have hwr := hp.wr
  have hf := hp.sane.fields
  have excl : ∀ c : Cmd, c.isRead = true → c.isWrite = false := by intro c; cases c <;> simp [Cmd.isRead, Cmd.isWrite]
  simp only [dataStart] at hb
  cases hxr : x.cmd.isRead with
  | true =>
    cases hyr : y.cmd.isRead with
    | true =>
      simp only [hxr, hyr, if_true, excl _ hyr] at hb
      split at hb <;> omega
    | false =>
      have hyw : y.cmd.isWrite = true := by simpa [hyr] using hyrw
      simp only [hxr, hyr, hyw, if_true] at hb
      simp at hb
      omega
  | false =>
    have hxw : x.cmd.isWrite = true := by simpa [hxr] using hxrw
    cases hyr : y.cmd.isRead with
    | false =>
      simp [hxr, hyr] at hb
      omega
    | true =>
      by_cases hrk : x.addr.rank = y.addr.rank
      · have hsp' : ∀ rel g, Related rel x.addr y.addr → Rule p rel x.cmd y.cmd g → g ≤ 0 := by
          intro rel g h1 h2
          have := hsp _ _ rel g haft h1 h2
          dsimp only at this
          omega
        have hWL : p.WL = p.AL + p.CWL := rfl
        by_cases hg : x.addr.group = y.addr.group
        · have hin : 0 ≤ p.inGroup p.tWTR_L p.tWTR_S := by unfold Times.inGroup; split <;> omega
          by_cases hk : x.addr.bank = y.addr.bank
          · by_cases hw : x.cmd = .write
            · have := hsp' .sameBank _ ⟨hrk, hg, hk⟩ (by rw [hw]; exact .tWTR_bank hyr)
              omega
            · have hwp : x.cmd = .writePre := by
                cases hc : x.cmd <;> simp [hc, Cmd.isWrite] at hxw hw ⊢
              have hall := hleg.1
              have hopen : openRow y.addr (⟨s.clk, x.cmd, x.addr⟩ :: s.hist) = some y.addr.row := by
                unfold Allowed at hall
                cases hc : y.cmd <;> simp [hc, Cmd.isRead] at hyr <;> simp only [hc] at hall <;> exact hall.2
              simp [openRow, SameBank, hrk, hg, hk, hwp] at hopen
          · have := hsp' .sameGroup _ ⟨hrk, hg, hk⟩ (.tWTR_L hxw hyr)
            omega
        · have := hsp' .sameRank _ ⟨hrk, hg⟩ (.tWTR_S hxw hyr)
          omega
      · have h3 := hrank ⟨s.clk, y.cmd, y.addr⟩ (by simp)
        have h4 := hrank ⟨s.clk, x.cmd, x.addr⟩ (by simp)
        dsimp only at h3 h4
        simp only [hxr, hyr, ne_eq, hrk, not_false_eq_true, and_self, or_true, if_true] at hb
        simp at hb
        omega

/-! ## the invariant of a run -/

/-- What is known of a controller between cycles. -/
structure Run (c : Cfg) (s : Ctrl) : Prop where
  reach : Reach c.p s.sim
  book : Book c s
  refq : ∀ r ∈ s.sim.chan.refreshQ, Fits c.p r ∧ (r.cmd = .refresh ∨ r.cmd = .refBank)
  awake : c.selfRefresh = false → ∀ r, asleep r s.sim.hist = false

/-- What is still owed to the user for an address: the transactions to return and the pending reads. -/
def owed (s : Ctrl) (a : Nat) (w : Bool) : Nat :=
  (s.returnQ.countP fun t => decide (t.addr = a) && decide (t.write = w)) + if w then 0 else nRd s a

/-- No command is lost. -/
def Clean (c : Cfg) (s : Ctrl) : Prop := c.dual = false ∨ (Separate c.p ∧ s.sim.clk < 9223372036854775808)

/-- A read of the place of an address. -/
def ReadAt (c : Cfg) (a : Nat) (e : Event) : Prop := e.cmd.isRead ∧ e.addr = c.map a
/-- A write of the place of an address. -/
def WriteAt (c : Cfg) (a : Nat) (e : Event) : Prop := e.cmd.isWrite ∧ e.addr = c.map a

/-- Every write of the place comes behind a read of it; the newest command is the first of the list. -/
def Before (c : Cfg) (a : Nat) (l : List Event) : Prop :=
  ∀ l1 e l2, l = l1 ++ e :: l2 → WriteAt c a e → ∃ r ∈ l2, ReadAt c a r

/-- No other address with a pending write has the same place. -/
def Uniq (c : Cfg) (s : Ctrl) (a : Nat) : Prop := ∀ t ∈ s.pendWr, c.map t.addr = c.map a → t.addr = a

/-- All the refreshes: those issued, and those that wait. -/
def Line (s : Ctrl) : List (Cmd × Addr) :=
  ((s.sim.hist.filter fun e => isRef e.cmd).map fun e => (e.cmd, e.addr)).reverse ++
    s.sim.chan.refreshQ.map fun q => (q.cmd, q.addr)

theorem line_issued {c : Cfg} {s : Ctrl} {x : Command} {ch : Chan} (h : s.sim.chan.update c.p x s.sim.clk = .ok ch)
    (hn : Next s.sim.chan x) : Line (issued c s x ch) = Line s := by
  have hq := update_queue h hn
  unfold Line
  simp only [issued]
  cases hx : isRef x.cmd with
  | false => simp [hq, hx]
  | true =>
    obtain ⟨r, l, h2, h3, h4⟩ := hn hx
    simp [hq, hx, h2, h3, h4]

/-- What the choice and the issue of commands leave as it is. -/
structure Frame (c : Cfg) (s s' : Ctrl) : Prop where
  line : Line s' = Line s
  rq : s'.readQ = s.readQ
  wb : s'.writeBuf = s.writeBuf
  dr : s'.draining = s.draining
  uq : s'.unifiedQ = s.unifiedQ
  sub : ∀ i x, x ∈ s'.queues i → x ∈ s.queues i
  keep : ∀ a, (∀ y ∈ s.queues (queueIndex c (c.map a)), y.hex = a → y.cmd.isRead = false) → nRd s' a = nRd s a
  pw : ∀ t ∈ s'.pendWr, t ∈ s.pendWr
  ret : ∃ q, s'.returnQ = s.returnQ ++ q ∧ ∀ t ∈ q, t.write = false
  ord : Clean c s → Full c s → Ord c s → Ord c s'
  hist : ∃ new, s'.sim.hist = new ++ s.sim.hist ∧ ∀ a, 0 < nRd s a →
    (nRd s' a = 0 → ∃ e ∈ new, ReadAt c a e) ∧ (Clean c s → Full c s → Ord c s → Uniq c s a → Before c a new)

theorem Before.append {c : Cfg} {a : Nat} {l2 l1 : List Event} (h2 : (∃ r ∈ l1, ReadAt c a r) ∨ Before c a l2)
    (h1 : Before c a l1) : Before c a (l2 ++ l1) := by
  intro m1 e m2 h hw
  rw [List.append_eq_append_iff] at h
  rcases h with ⟨as, e1, e2⟩ | ⟨as, e1, e2⟩
  · exact h1 as e m2 e2 hw
  · cases as with
    | nil => exact h1 [] e m2 (by simpa using e2.symm) hw
    | cons b bs =>
      simp only [List.cons_append, List.cons.injEq] at e2
      obtain ⟨rfl, rfl⟩ := e2
      rcases h2 with ⟨r, hr, hr'⟩ | h2
      · exact ⟨r, List.mem_append_right _ hr, hr'⟩
      · obtain ⟨r, hr, hr'⟩ := h2 m1 e bs e1 hw
        exact ⟨r, List.mem_append_left _ hr, hr'⟩

/-- The parts of the state that reads and writes depend on are the same. -/
theorem Frame.same {c : Cfg} {s s' : Ctrl} (h : SameBook s s') (hd : s'.draining = s.draining)
    (hr : s'.returnQ = s.returnQ) (hq : Line s' = Line s)
    (hh : ∃ new, s'.sim.hist = new ++ s.sim.hist ∧ ∀ e ∈ new, e.cmd.isWrite = false) :
    Frame c s s' := by
  refine ⟨hq, h.readQ, h.writeBuf, hd, h.unifiedQ, by rw [h.queues]; exact fun _ _ h => h, fun a _ => ?_,
    by rw [h.pendWr]; exact fun _ h => h, ⟨[], by rw [hr]; simp, by simp⟩, fun _ _ => h.ord, ?_⟩
  · unfold nRd; rw [h.pendRd]
  · obtain ⟨new, h1, h2⟩ := hh
    refine ⟨new, h1, fun a ha => ⟨fun h0 => ?_, fun _ _ _ _ m1 e m2 hm hw => ?_⟩⟩
    · unfold nRd at h0 ha
      rw [h.pendRd] at h0
      omega
    · have := h2 e (by rw [hm]; simp)
      rw [hw.1] at this; cases this

/-- Part of a cycle. -/
structure Kept (c : Cfg) (s s' : Ctrl) : Prop where
  run : Run c s'
  clk : s'.sim.clk = s.sim.clk
  ref : s'.ref = s.ref
  owed : ∀ a w, owed s' a w = owed s a w
  full : Clean c s → Full c s → Full c s'
  frame : Frame c s s'

theorem nRd_kept {c : Cfg} {s s' : Ctrl} (h : Frame c s s') (ho : ∀ a w, DramSim.owed s' a w = DramSim.owed s a w)
    (a : Nat) : nRd s' a ≤ nRd s a := by
  obtain ⟨q, hq, _⟩ := h.ret
  have := ho a false
  unfold DramSim.owed at this
  rw [hq, List.countP_append] at this
  simp only [Bool.false_eq_true, if_false] at this
  omega

theorem Kept.trans {c : Cfg} {s1 s2 s3 : Ctrl} (h : Kept c s1 s2) (h' : Kept c s2 s3) : Kept c s1 s3 := by
  have hcl : Clean c s1 → Clean c s2 := fun hc => by unfold Clean at *; rw [h.clk]; exact hc
  refine ⟨h'.run, h'.clk.trans h.clk, h'.ref.trans h.ref, fun a w => (h'.owed a w).trans (h.owed a w), fun hc hf =>
    h'.full (hcl hc) (h.full hc hf), h'.frame.line.trans h.frame.line, h'.frame.rq.trans h.frame.rq, h'.frame.wb.trans h.frame.wb,
    h'.frame.dr.trans h.frame.dr, h'.frame.uq.trans h.frame.uq, fun i x hx => h.frame.sub i x (h'.frame.sub i x hx),
    fun a ha => ?_, fun t ht => h.frame.pw t (h'.frame.pw t ht), ?_,
    fun hc hf ho => h'.frame.ord (hcl hc) (h.full hc hf) (h.frame.ord hc hf ho), ?_⟩
  · rw [h'.frame.keep a fun y hy => ha y (h.frame.sub _ y hy), h.frame.keep a ha]
  · obtain ⟨q1, e1, w1⟩ := h.frame.ret
    obtain ⟨q2, e2, w2⟩ := h'.frame.ret
    refine ⟨q1 ++ q2, by rw [e2, e1, List.append_assoc], fun t ht => ?_⟩
    rcases List.mem_append.1 ht with ht | ht
    · exact w1 t ht
    · exact w2 t ht
  · obtain ⟨n1, e1, w1⟩ := h.frame.hist
    obtain ⟨n2, e2, w2⟩ := h'.frame.hist
    refine ⟨n2 ++ n1, by rw [e2, e1, List.append_assoc], fun a ha => ⟨fun h0 => ?_, fun hc hf ho hu => ?_⟩⟩
    · rcases Nat.eq_zero_or_pos (nRd s2 a) with h2 | h2
      · obtain ⟨e, he, he'⟩ := (w1 a ha).1 h2
        exact ⟨e, List.mem_append_right _ he, he'⟩
      · obtain ⟨e, he, he'⟩ := (w2 a h2).1 h0
        exact ⟨e, List.mem_append_left _ he, he'⟩
    · refine Before.append ?_ ((w1 a ha).2 hc hf ho hu)
      rcases Nat.eq_zero_or_pos (nRd s2 a) with h2 | h2
      · exact .inl ((w1 a ha).1 h2)
      · exact .inr ((w2 a h2).2 (hcl hc) (h.full hc hf) (h.frame.ord hc hf ho) fun t ht => hu t (h.frame.pw t ht))

/-- A read that no queue knows stays pending. -/
theorem Kept.lost {c : Cfg} {s s' : Ctrl} (h : Kept c s s') {a : Nat} (hl : Lost c s a) : Lost c s' a := by
  obtain ⟨h1, h2⟩ := hl
  simp only [rIn, Nat.add_eq_zero_iff, List.countP_eq_zero] at h2
  have h3 : ∀ y ∈ s.queues (queueIndex c (c.map a)), y.hex = a → y.cmd.isRead = false := by
    intro y hy hya
    have := h2.1.1 y hy
    simpa [hya] using this
  refine ⟨by rw [h.frame.keep a h3]; exact h1, ?_⟩
  simp only [rIn, Nat.add_eq_zero_iff, List.countP_eq_zero, h.frame.rq, h.frame.uq]
  exact ⟨⟨fun y hy => h2.1.1 y (h.frame.sub _ y hy), h2.1.2⟩, h2.2⟩

/-- Nothing happens. -/
theorem Kept.refl {c : Cfg} {s : Ctrl} (h : Run c s) : Kept c s s :=
  ⟨h, rfl, rfl, fun _ _ => rfl, fun _ h => h,
    .same ⟨rfl, rfl, rfl, rfl, rfl, rfl⟩ rfl rfl rfl ⟨[], by simp, by simp⟩⟩

theorem issued_owed {c : Cfg} {s : Ctrl} {x : Command} {ch : Chan} (hp : ∀ t ∈ s.pendRd, t.write = false) (a : Nat)
    (w : Bool) : owed (issued c s x ch) a w = owed s a w := by
  unfold owed
  rw [issued_nRd]
  cases hr : x.cmd.isRead with
  | false => simp [issued, hr]
  | true =>
    simp only [issued, hr, if_true, List.countP_append, List.countP_map, List.countP_filter, true_and]
    cases w with
    | true =>
      have : (s.pendRd.countP fun t => ((fun t : Trans => decide (t.addr = a) && decide (t.write = true)) ∘
          fun t => { t with complete := later s.sim.clk c.p.readDelay }) t && decide (t.addr = x.hex)) = 0 := by
        rw [List.countP_eq_zero]
        intro t ht
        simp [hp t ht]
      simp only [this, if_true]
    | false =>
      by_cases ha : x.hex = a
      · subst ha
        have : (s.pendRd.countP fun t => ((fun t : Trans => decide (t.addr = x.hex) && decide (t.write = false)) ∘
            fun t => { t with complete := later s.sim.clk c.p.readDelay }) t && decide (t.addr = x.hex)) =
            nRd s x.hex := by
          unfold nRd
          apply List.countP_congr
          intro t ht
          simp [hp t ht]
        simp only [this, if_true, Bool.false_eq_true, if_false]; omega
      · have : (s.pendRd.countP fun t => ((fun t : Trans => decide (t.addr = a) && decide (t.write = false)) ∘
            fun t => { t with complete := later s.sim.clk c.p.readDelay }) t && decide (t.addr = x.hex)) = 0 := by
          rw [List.countP_eq_zero]
          intro t ht
          simp only [Function.comp, Bool.and_eq_true, decide_eq_true_eq, not_and]
          intro h1 h2
          exact ha (h2.symm.trans h1.1)
        simp only [this, ha, Bool.false_eq_true, if_false]; omega

/-- A command that is no read or write is issued. -/
theorem kept_other {c : Cfg} {s : Ctrl} (h : Run c s) {q x : Command} (hq : Fits c.p q)
    (hx : s.sim.chan.getReady c.p q s.sim.clk = .ok (some x)) (h1 : x.cmd.isRead = false) (h2 : x.cmd.isWrite = false)
    (h3 : c.selfRefresh = false → x.cmd ≠ .srefIn) (h4 : Next s.sim.chan x) :
    ∃ s', s.issue c x = .ok s' ∧ Kept c s s' := by
  obtain ⟨ch, e, hr, hs, hu⟩ := issue_spec h.reach hq hx (by simp [h1]) (by simp [h2])
  have sb : SameBook s (issued c s x ch) := by constructor <;> simp [issued, h1, h2]
  refine ⟨_, e, ⟨hr, sb.book h.book, fun r hr => h.refq r (hs r hr), ?_⟩, rfl, rfl,
    fun a w => issued_owed h.book.pr a w, fun _ hf => sb.full hf,
    .same sb rfl (by simp [issued, h1]) (line_issued hu h4) ⟨[⟨s.sim.clk, x.cmd, x.addr⟩], rfl, by simp [h2]⟩⟩
  intro hsr r
  show asleep r (eventOf s.sim.clk x :: s.sim.hist) = false
  rw [asleep_cons, if_neg (h3 hsr), h.awake hsr]
  split
  · split <;> rfl
  · rfl

/-- A command is taken from a queue and issued. -/
theorem kept_took {c : Cfg} {s s1 : Ctrl} (h : Run c s) {x : Command} (ht : Took c s s1 x) :
    ∃ ch, s1.issue c x = .ok (issued c s1 x ch) ∧ s1.sim.chan.update c.p x s1.sim.clk = .ok ch ∧
      Kept c s (issued c s1 x ch) := by
  obtain ⟨q, hq, hx⟩ := ht.ready
  have e := ht.same
  have hsim : s1.sim = s.sim := by rw [e]
  have href : s1.ref = s.ref := by rw [e]
  have hret : s1.returnQ = s.returnQ := by rw [e]
  have hpr : s1.pendRd = s.pendRd := by rw [e]
  obtain ⟨ch, e', hr, hs, hu⟩ := issue_spec (s := s1) (by rw [hsim]; exact h.reach) hq (by rw [hsim]; exact hx)
    (ht.issued h.book (ch := s.sim.chan)).1 (ht.issued h.book (ch := s.sim.chan)).2.1
  obtain ⟨-, -, hb, hf⟩ := ht.issued h.book (ch := ch)
  have hn : ∀ a, nRd s1 a = nRd s a := by intro a; unfold nRd; rw [hpr]
  have hin : ∀ i l1 l2, s.queues i = l1 ++ x :: l2 → i = queueIndex c (c.map x.hex) ∧ x.addr = c.map x.hex := by
    intro i l1 l2 he
    obtain ⟨h1, w, h2⟩ := h.book.cmds i x (by rw [he]; simp)
    have h3 : x.addr = c.map x.hex := by rw [h2]; rfl
    exact ⟨by rw [h1, h3], h3⟩
  refine ⟨ch, e', hu, ⟨hr, hb, fun r hr => ?_, ?_⟩, ?_, href, fun a w => ?_, fun _ => hf, ?_⟩
  · have := hs r hr
    rw [hsim] at this
    exact h.refq r this
  · intro hsr r
    show asleep r (eventOf s1.sim.clk x :: s1.sim.hist) = false
    rw [asleep_cons, if_neg ht.kind.2.1, hsim, h.awake hsr]
    split
    · split <;> rfl
    · rfl
  · show s1.sim.clk = _
    rw [hsim]
  · rw [issued_owed (by rw [hpr]; exact h.book.pr)]
    unfold owed nRd
    rw [hret, hpr]
  · refine ⟨?_, ?_, ?_, ?_, ?_, ht.sub, fun a ha => ?_, fun t htm => ?_, ?_,
      fun _ _ ho => ht.ord ho, ⟨[⟨s1.sim.clk, x.cmd, x.addr⟩], ?_, fun a ha => ⟨fun h0 => ?_, fun _ _ ho hq m1 e m2 hm hw => ?_⟩⟩⟩
    · rw [line_issued hu]
      · unfold Line; rw [hsim]
      · intro hk
        unfold isRef at hk
        simp [ht.kind.1, ht.kind.2.2] at hk
    · show s1.readQ = _
      rw [e]
    · show s1.writeBuf = _
      rw [e]
    · show s1.draining = _
      rw [e]
    · show s1.unifiedQ = _
      rw [e]
    · rw [issued_nRd, hn]
      split
      · rename_i hc
        obtain ⟨i, l1, l2, he, -⟩ := ht.gone (.inl hc.1)
        have := ha x (by rw [← hc.2, ← (hin i l1 l2 he).1, he]; simp) hc.2
        rw [hc.1] at this; cases this
      · rfl
    · have hpw : s1.pendWr = s.pendWr := by rw [e]
      simp only [issued] at htm
      rw [hpw] at htm
      split at htm
      · exact List.mem_of_mem_eraseP htm
      · exact htm
    · refine ⟨_, by simp only [issued, hret]; rfl, fun t ht => ?_⟩
      split at ht
      · simp only [List.mem_map, List.mem_filter] at ht
        obtain ⟨u, ⟨hu1, -⟩, rfl⟩ := ht
        exact h.book.pr u (by rw [← hpr]; exact hu1)
      · cases ht
    · simp only [issued, hsim]; rfl
    · rw [issued_nRd, hn] at h0
      split at h0
      · rename_i hc
        obtain ⟨i, l1, l2, he, -⟩ := ht.gone (.inl hc.1)
        exact ⟨_, List.mem_singleton.2 rfl, hc.1, by rw [← hc.2]; exact (hin i l1 l2 he).2⟩
      · omega
    · exfalso
      have he : e = ⟨s1.sim.clk, x.cmd, x.addr⟩ := by
        have : e ∈ [(⟨s1.sim.clk, x.cmd, x.addr⟩ : Event)] := by rw [hm]; simp
        exact List.mem_singleton.1 this
      rw [he] at hw
      obtain ⟨hw1, hw2⟩ := hw
      dsimp only at hw1 hw2
      obtain ⟨h3, h4⟩ := ht.first h.book ho hw1
      have h5 : 0 < nWr s x.hex := by
        have := (ht.issued h.book (ch := s.sim.chan)).2.1 hw1
        unfold nWr at this ⊢
        rw [‹s1 = _›] at this
        exact this
      obtain ⟨t, ht1, ht2⟩ := List.countP_pos_iff.1 h5
      simp only [decide_eq_true_eq] at ht2
      have := hq t ht1 (by rw [ht2, ← h4, hw2])
      rw [ht2] at this
      rw [this] at h3
      omega

/-- The queues are searched without a result. -/
theorem kept_index {c : Cfg} {s s' : Ctrl} (h : Run c s) (e : s' = { s with index := s'.index }) : Kept c s s' := by
  rw [e]
  have sb : SameBook s { s with index := s'.index } := ⟨rfl, rfl, rfl, rfl, rfl, rfl⟩
  exact ⟨⟨h.reach, sb.book h.book, h.refq, h.awake⟩, rfl, rfl, fun _ _ => rfl, fun _ => sb.full,
    .same sb rfl rfl rfl ⟨[], rfl, by simp⟩⟩

/-- A command is taken from a queue and dropped. -/
theorem run_dropped {c : Cfg} {s s1 : Ctrl} (h : Run c s) {x : Command} (ht : Took c s s1 x) :
    Run c s1 ∧ s1.sim.clk = s.sim.clk ∧ s1.ref = s.ref ∧ (∀ a w, owed s1 a w = owed s a w) ∧
      ((Clean c s → Full c s → Ord c s → Ord c s1) → Frame c s s1) := by
  have e := ht.same
  have hsim : s1.sim = s.sim := by rw [e]
  refine ⟨⟨hsim ▸ h.reach, ht.book h.book, hsim ▸ h.refq, hsim ▸ h.awake⟩, by rw [hsim], by rw [e], fun a w => ?_,
    fun hord => ⟨by unfold Line; rw [hsim], by rw [e], by rw [e], by rw [e], by rw [e], ht.sub, fun a _ => ?_, ?_,
      ⟨[], ?_, by simp⟩, hord, [], by rw [hsim]; rfl, fun a ha => ⟨fun h0 => ?_, fun _ _ _ _ m1 e m2 hm => ?_⟩⟩⟩
  · unfold owed nRd
    rw [e]
  · unfold nRd; rw [e]
  · rw [e]; exact fun _ h => h
  · rw [e]; simp
  · have : nRd s1 a = nRd s a := by unfold nRd; rw [e]
    omega
  · simp at hm

/-- A command that is no read or write stays in its queue. -/
theorem full_dropped {c : Cfg} {s s1 : Ctrl} {x : Command} (ht : Took c s s1 x)
    (h1 : x.cmd.isRead = false) (h2 : x.cmd.isWrite = false) (hf : Full c s) : Full c s1 := by
  have e := ht.same
  have hp : ∀ a, nRd s1 a = nRd s a := by intro a; unfold nRd; rw [e]
  have hw : ∀ a, nWr s1 a = nWr s a := by intro a; unfold nWr; rw [e]
  refine ⟨fun a ha => ?_, fun a ha => ?_⟩
  · have := ht.rd a
    rw [hp] at ha
    have := hf.rd a ha
    simp [h1] at *
    omega
  · have := ht.wr a
    rw [hw] at ha
    have := hf.wr a ha
    simp [h2] at *
    omega

/-- What a part of a cycle may do: end the program, but only with self-refresh, or keep the invariant. -/
def Safe (c : Cfg) (s : Ctrl) : Except Fault Ctrl → Prop
  | .ok s' => Kept c s s'
  | .error e => e = .abort ∧ c.selfRefresh = true

/-- The second half of the choice and issue of commands. -/
theorem second_spec {c : Cfg} (hm : ∀ a, Exists c.p (c.map a)) {s s1 : Ctrl} (h1 : Kept c s s1) {x : Command}
    (hno : Clean c s → c.dual = true → ∀ s2 y, Took c s1 s2 y → (x.cmd.isRead || x.cmd.isWrite) = true →
      (y.cmd.isRead || y.cmd.isWrite) = false) :
    ∃ s', (if c.dual then (do
      match ← s1.getCommand c with
      | (none, s) => return (true, s)
      | (some y, s) =>
        if (y.cmd.isRead || y.cmd.isWrite) ≠ (x.cmd.isRead || x.cmd.isWrite) then return (true, ← s.issue c y)
        else return (true, s))
      else return (true, s1) : Except Fault (Bool × Ctrl)) = .ok (true, s') ∧ Kept c s s' := by
  split
  · rename_i hd
    obtain ⟨o, s2, e, ho⟩ := loop_spec hm (numQueues c) h1.run.book
    have e' : s1.getCommand c = .ok (o, s2) := e
    simp only [e', bind, Except.bind, pure, Except.pure]
    cases o with
    | none => exact ⟨s2, rfl, h1.trans (kept_index h1.run ho)⟩
    | some y =>
      dsimp only at ho ⊢
      obtain ⟨ch, hi, -, hk⟩ := kept_took h1.run ho
      split
      · rw [hi]; exact ⟨_, rfl, h1.trans hk⟩
      · rename_i hne
        simp only [ne_eq, not_not] at hne
        obtain ⟨a1, a2, a3, a4, a5⟩ := run_dropped h1.run ho
        have hy : Clean c s → y.cmd.isRead = false ∧ y.cmd.isWrite = false := fun hc => by
          rw [← Bool.or_eq_false_iff]
          cases hx : (x.cmd.isRead || x.cmd.isWrite) with
          | true => exact hno hc hd s2 y ho hx
          | false => rw [hne, hx]
        have hcl : Clean c s1 → Clean c s := fun hc => by unfold Clean at *; rw [← h1.clk]; exact hc
        refine ⟨s2, rfl, h1.trans ⟨a1, a2, a3, a4, fun hc hf => ?_, a5 fun hc hf hord => ?_⟩⟩
        · exact full_dropped ho (hy (hcl hc)).1 (hy (hcl hc)).2 hf
        · have hst := ho.stay (hy (hcl hc)).1 (hy (hcl hc)).2
          have e := ho.same
          exact SameBook.ord (s := s1) ⟨hst, by rw [e], by rw [e], by rw [e], by rw [e], by rw [e]⟩ hord
  · exact ⟨s1, rfl, h1⟩

theorem issuePart_spec {c : Cfg} (hm : ∀ a, Exists c.p (c.map a)) {s : Ctrl} (h : Run c s) :
    (∃ b s', s.issuePart c = .ok (b, s') ∧ Kept c s s') ∨ (s.issuePart c = .error .abort ∧ c.selfRefresh = true) := by
  -- a command from the queues
  have queue : ∀ s0 : Ctrl, Kept c s s0 → ∃ b s', (do
      let (x, s) ← s0.getCommand c
      match x with
      | none => return (false, s)
      | some x =>
        let s ← s.issue c x
        if c.dual then
          match ← s.getCommand c with
          | (none, s) => return (true, s)
          | (some y, s) =>
            if (y.cmd.isRead || y.cmd.isWrite) ≠ (x.cmd.isRead || x.cmd.isWrite) then return (true, ← s.issue c y)
            else return (true, s)
        else return (true, s) : Except Fault (Bool × Ctrl)) = .ok (b, s') ∧ Kept c s s' := by
    intro s0 h0
    obtain ⟨o, s1, e, ho⟩ := loop_spec hm (numQueues c) h0.run.book
    have e' : s0.getCommand c = .ok (o, s1) := e
    simp only [e', bind, Except.bind]
    cases o with
    | none => exact ⟨false, s1, rfl, h0.trans (kept_index h0.run ho)⟩
    | some x =>
      dsimp only at ho ⊢
      obtain ⟨ch, hi, hu0, hk⟩ := kept_took h0.run ho
      rw [hi]
      obtain ⟨s', h1, h2⟩ := second_spec hm (s1 := issued c s1 x ch) (x := x) (h0.trans hk) (by
        intro hc hd s2 y hy hx
        rcases hc with hc | ⟨hsep, hclk⟩
        · rw [hc] at hd; cases hd
        · cases hyy : (y.cmd.isRead || y.cmd.isWrite) with
          | false => rfl
          | true =>
            exfalso
            obtain ⟨q, hq, hqx⟩ := ho.ready
            obtain ⟨r, hr, hry⟩ := hy.ready
            have hsim : s1.sim = s0.sim := by rw [ho.same]
            have hu : s0.sim.chan.update c.p x s0.sim.clk = .ok ch := by
              rw [← hsim]; exact hu0
            have hclk0 : (issued c s1 x ch).sim.clk = s0.sim.clk := by show s1.sim.clk = _; rw [hsim]
            rw [hclk0] at hry
            exact no_clash hsep h0.run.reach hq hqx hu hr hry (by rw [h0.clk]; exact hclk) hx hyy)
      exact ⟨true, s', h1, h2⟩
  unfold issuePart
  cases hq : s.sim.chan.refreshQ with
  | nil =>
    left
    exact queue s (.refl h)
  | cons r l =>
    dsimp only
    have hr := h.refq r (by rw [hq]; exact List.mem_cons_self ..)
    set s0 : Ctrl := if s.inRef then s else { s with inRef := true, refQs := s.refQs ++ refIndices c r } with hs0
    have hk0 : Kept c s s0 := by
      rw [hs0]
      split
      · exact .refl h
      · have sb : SameBook s { s with inRef := true, refQs := s.refQs ++ refIndices c r } :=
          ⟨rfl, rfl, rfl, rfl, rfl, rfl⟩
        exact ⟨⟨h.reach, sb.book h.book, h.refq, h.awake⟩, rfl, rfl, fun _ _ => rfl, fun _ => sb.full,
          .same sb rfl rfl rfl ⟨[], rfl, by simp⟩⟩
    have hsim : s0.sim = s.sim := by rw [hs0]; split <;> rfl
    unfold finishRefresh
    rw [← hs0]
    cases hg : s0.sim.chan.getReady c.p r s0.sim.clk with
    | error e =>
      right
      cases e
      refine ⟨by simp only [lift_error.2 ⟨hg, rfl⟩, bind, Except.bind], ?_⟩
      cases hsr : c.selfRefresh with
      | true => rfl
      | false =>
        exfalso
        obtain ⟨o, ho⟩ := refresh_total h.reach.inv hr.1 hr.2 (h.awake hsr _)
        rw [hsim] at hg
        rw [hg] at ho; cases ho
    | ok o =>
      left
      have hl := lift_ok.2 hg
      cases o with
      | none =>
        simp only [hl, bind, Except.bind, pure, Except.pure]
        exact queue s0 hk0
      | some x =>
        have hsh := refresh_shape (by rcases hr.2 with h | h <;> simp [h]) hg
        have hx1 : x.cmd.isRead = false ∧ x.cmd.isWrite = false ∧ x.cmd ≠ .srefIn := by
          rcases hsh with ⟨h, -⟩ | h <;> rcases hr.2 with h' | h' <;> simp [h, h', Cmd.isRead, Cmd.isWrite]
        have fin : ∀ s1 : Ctrl, Kept c s s1 → s1.sim = s.sim → ∃ b s', (do
            let s ← s1.issue c x
            if c.dual then
              match ← s.getCommand c with
              | (none, s) => return (true, s)
              | (some y, s) =>
                if (y.cmd.isRead || y.cmd.isWrite) ≠ (x.cmd.isRead || x.cmd.isWrite) then return (true, ← s.issue c y)
                else return (true, s)
            else return (true, s) : Except Fault (Bool × Ctrl)) = .ok (b, s') ∧ Kept c s s' := by
          intro s1 hk1 hs1
          obtain ⟨s2, e2, hk2⟩ := kept_other (x := x) hk1.run hr.1 (by rw [hs1, ← hsim]; exact hg) hx1.1 hx1.2.1
            (fun _ => hx1.2.2) (by
              intro hk
              refine ⟨r, l, by rw [hs1, hq], ?_⟩
              rcases hsh with ⟨h1, h2⟩ | h
              · exact ⟨h1.symm, h2.symm⟩
              · rw [h] at hk; cases hk)
          obtain ⟨s3, e3, hk3⟩ := second_spec hm (s1 := s2) (x := x) (hk1.trans hk2) (by
            intro _ _ _ _ _ h
            rw [hx1.1, hx1.2.1] at h; cases h)
          refine ⟨true, s3, ?_, hk3⟩
          simp only [e2, bind, Except.bind]
          exact e3
        simp only [hl, bind, Except.bind, pure, Except.pure]
        by_cases hxr : (decide (x.cmd = .refresh) || decide (x.cmd = .refBank)) = true
        · rw [if_pos hxr]
          have sb : SameBook s0 { s0 with inRef := false, refQs := [] } := ⟨rfl, rfl, rfl, rfl, rfl, rfl⟩
          exact fin { s0 with inRef := false, refQs := [] }
            (hk0.trans ⟨⟨hk0.run.reach, sb.book hk0.run.book, hk0.run.refq, hk0.run.awake⟩, rfl, rfl, fun _ _ => rfl,
              fun _ => sb.full, .same sb rfl rfl rfl ⟨[], rfl, by simp⟩⟩) hsim
        · rw [if_neg hxr]
          exact fin s0 hk0 hsim

/-! ## power -/

theorem powerLoop_spec {c : Cfg} (hs : c.selfRefresh = true) {l : List Nat} (hl : ∀ r ∈ l, r < c.p.ranks) {s : Ctrl}
    (h : Run c s) : Safe c s (powerLoop c l s) := by
  induction l with
  | nil => exact .refl h
  | cons r l ih =>
    have ih := ih (fun r h => hl r (List.mem_cons_of_mem _ h))
    have ask : ∀ k : Cmd, k = .srefOut ∨ k = .srefIn → Safe c s (do
        match ← lift (s.sim.chan.getReady c.p (refreshOf k r 0 0) s.sim.clk) with
        | some x => s.issue c x
        | none => powerLoop c l s) := by
      intro k hk
      cases hg : s.sim.chan.getReady c.p (refreshOf k r 0 0) s.sim.clk with
      | error e =>
        cases e
        simp only [lift_error.2 ⟨rfl, rfl⟩, bind, Except.bind]
        exact ⟨rfl, hs⟩
      | ok o =>
        simp only [lift_ok.2 rfl, bind, Except.bind]
        cases o with
        | none => exact ih
        | some x =>
          have hsh := refresh_shape (by rcases hk with rfl | rfl <;> simp [refreshOf]) hg
          have hx : x.cmd.isRead = false ∧ x.cmd.isWrite = false := by
            rcases hsh with ⟨h, -⟩ | h <;> rcases hk with rfl | rfl <;> rw [h] <;> exact ⟨rfl, rfl⟩
          have hfit : Fits c.p (refreshOf k r 0 0) :=
            ⟨hl r (List.mem_cons_self ..), by rcases hk with rfl | rfl <;> simp [refreshOf, Cmd.isRank]⟩
          obtain ⟨s', e, hk⟩ := kept_other h hfit hg hx.1 hx.2 (by rw [hs]; intro h; cases h) (by
            intro h'
            exfalso
            rcases hsh with ⟨h, -⟩ | h <;> rcases hk with rfl | rfl <;> rw [h] at h' <;> simp [refreshOf, isRef] at h')
          dsimp only
          rw [e]; exact hk
    unfold powerLoop
    dsimp only
    split
    · split
      · exact ask .srefOut (.inl rfl)
      · exact ih
    · split
      · exact ask .srefIn (.inr rfl)
      · exact ih

/-! ## a cycle -/

/-- The refresh generator points to a place that exists. -/
def RefOk (c : Cfg) (r : Refresh) : Prop := r.rank < c.p.ranks ∧ r.group < c.p.groups ∧ r.bank < c.p.banksPerGroup

theorem refTick_spec {c : Cfg} {asleep : Nat → Bool} {r : Refresh} (h : RefOk c r) :
    (∃ l r', r.tick c asleep = .ok (l, r') ∧ RefOk c r' ∧
        ∀ q ∈ l, Fits c.p q ∧ (q.cmd = .refresh ∨ q.cmd = .refBank)) ∨
      (r.tick c asleep = .error .divide ∧ later 0 c.interval = 0) := by
  have hnext : RefOk c (r.next c) := by
    obtain ⟨h1, h2, h3⟩ := h
    have m1 : (r.rank + 1) % c.p.ranks < c.p.ranks := Nat.mod_lt _ (by omega)
    have m2 : (r.group + 1) % c.p.groups < c.p.groups := Nat.mod_lt _ (by omega)
    have m3 : (r.bank + 1) % c.p.banksPerGroup < c.p.banksPerGroup := Nat.mod_lt _ (by omega)
    unfold Refresh.next
    split
    · dsimp only
      split
      · split
        · exact ⟨m1, m2, m3⟩
        · exact ⟨h1, m2, m3⟩
      · exact ⟨h1, m2, h3⟩
    · exact ⟨m1, h2, h3⟩
  unfold Refresh.tick
  dsimp only
  split
  · exact .inr ⟨rfl, by assumption⟩
  · left
    split
    · refine ⟨_, _, rfl, ?_, ?_⟩
      · unfold Refresh.insert
        cases c.policy <;> first | exact h | exact hnext
      · intro q hq
        unfold Refresh.insert at hq
        cases hp : c.policy with
        | simultaneous =>
          rw [hp] at hq
          cases hf : (List.range c.p.ranks).find? fun i => !asleep i with
          | none => simp [hf] at hq
          | some i =>
            simp only [hf, List.mem_singleton] at hq
            subst hq
            have := List.mem_of_find?_eq_some hf
            exact ⟨⟨List.mem_range.1 this, by simp [refreshOf, Cmd.isRank]⟩, .inl rfl⟩
        | staggered =>
          rw [hp] at hq
          dsimp only at hq
          split at hq
          · cases hq
          · rw [List.mem_singleton.1 hq]
            exact ⟨⟨h.1, by simp [refreshOf, Cmd.isRank]⟩, .inl rfl⟩
        | bankStaggered =>
          rw [hp] at hq
          dsimp only at hq
          split at hq
          · cases hq
          · rw [List.mem_singleton.1 hq]
            exact ⟨⟨h.1, fun _ => h⟩, .inr rfl⟩
    · exact ⟨_, _, rfl, h, by simp⟩

/-- The writes cannot be drained, because the first of them has to wait for a read, and the reads cannot be served,
because the writes are to be drained; the reads `r` wait. -/
structure Stuck (c : Cfg) (a : Nat) (r : List Trans) (s : Ctrl) : Prop where
  uni : c.unified = false
  full : c.transSize ≤ s.writeBuf.length
  drain : 0 ≤ s.draining
  same : ∀ t ∈ s.writeBuf, queueIndex c (c.map t.addr) = queueIndex c (c.map a)
  head : ∃ l, s.writeBuf = ⟨a, true, 0⟩ :: l
  wait : 0 < nRd s a
  out : ∀ y ∈ s.queues (queueIndex c (c.map a)), y.hex = a → y.cmd.isRead = false
  reads : ∃ l, s.readQ = r ++ l

theorem Stuck.kept {c : Cfg} {a : Nat} {r : List Trans} {s s' : Ctrl} (h : Stuck c a r s) (f : Frame c s s') :
    Stuck c a r s' :=
  ⟨h.uni, by rw [f.wb]; exact h.full, by rw [f.dr]; exact h.drain, by rw [f.wb]; exact h.same,
    by rw [f.wb]; exact h.head, by rw [f.keep a h.out]; exact h.wait, fun y hy => h.out y (f.sub _ y hy),
    by rw [f.rq]; exact h.reads⟩

theorem Stuck.schedule {c : Cfg} {a : Nat} {r : List Trans} {s : Ctrl} (h : Stuck c a r s) :
    Stuck c a r (s.schedule c) := by
  have put : ∀ d : Int, 0 ≤ d → Stuck c a r { s with draining := d } := fun d hd =>
    ⟨h.uni, h.full, hd, h.same, h.head, h.wait, h.out, h.reads⟩
  obtain ⟨l, hl⟩ := h.head
  have key : ∀ d : Int, 0 < d → Stuck c a r (match pick c { s with draining := d } s.writeBuf with
      | none => { s with draining := d }
      | some (t, l) =>
        if 0 < s.pendRd.countP fun x => x.addr = t.addr then { s with draining := 0 }
        else { addCommand c { s with draining := d } (toCommand c t) with writeBuf := l, draining := d - 1 }) := by
    intro d hd
    cases hp : pick c { s with draining := d } s.writeBuf with
    | none => exact put d (by omega)
    | some x =>
      obtain ⟨t, m⟩ := x
      obtain ⟨l1, l2, e1, -, e3, e4⟩ := pick_before hp
      have ht : t = ⟨a, true, 0⟩ := by
        cases l1 with
        | nil =>
          rw [hl] at e1
          simp only [List.nil_append, List.cons.injEq] at e1
          exact e1.1.symm
        | cons y l1 =>
          have h1 := e4 y (List.mem_cons_self ..)
          have h2 := h.same y (by rw [e1]; simp)
          have h3 := h.same t (by rw [e1]; simp)
          have h4 : acceptsCommand c { s with draining := d } (toCommand c y).addr =
              acceptsCommand c { s with draining := d } (toCommand c t).addr := by
            unfold acceptsCommand
            rw [toCommand_addr, toCommand_addr, h2, h3]
          rw [h4, e3] at h1
          cases h1
      subst ht
      dsimp only
      rw [if_pos (show 0 < s.pendRd.countP fun x => x.addr = a from h.wait)]
      exact put 0 (by omega)
  have hlen : 0 < s.writeBuf.length := by rw [hl]; simp
  unfold Ctrl.schedule
  simp only [h.uni, Bool.not_false, and_true, Bool.false_eq_true, if_false]
  by_cases hd : s.draining = 0
  · have hi : (if s.draining = 0 then
        if c.transSize ≤ s.writeBuf.length ∨ (8 < s.writeBuf.length ∧ s.queueEmpty c) then
          { s with draining := (s.writeBuf.length : Int) } else s
      else s) = { s with draining := (s.writeBuf.length : Int) } := by
      rw [if_pos hd, if_pos (Or.inl h.full)]
    rw [hi, if_pos (show (0 : Int) < s.writeBuf.length by omega)]
    exact key s.writeBuf.length (by omega)
  · rw [if_neg hd]
    have h0 := h.drain
    rw [if_pos (by omega)]
    exact key s.draining (by omega)

theorem Stuck.add {c : Cfg} {a : Nat} {r : List Trans} {s : Ctrl} (h : Stuck c a r s) (b : Nat) :
    Stuck c a r (s.add c b false) := by
  unfold Ctrl.add
  simp only [Bool.false_eq_true, if_false]
  have hw : 0 < (s.pendRd ++ [(⟨b, false, 0⟩ : Trans)]).countP fun t => t.addr = a := by
    have := h.wait
    unfold nRd at this
    rw [List.countP_append]; omega
  obtain ⟨l, hl⟩ := h.reads
  split
  · exact ⟨h.uni, h.full, h.drain, h.same, h.head, h.wait, h.out, h.reads⟩
  · split
    · simp only [h.uni, Bool.false_eq_true, if_false]
      exact ⟨h.uni, h.full, h.drain, h.same, h.head, hw, h.out, ⟨l ++ [⟨b, false, 0⟩], by simp [hl]⟩⟩
    · exact ⟨h.uni, h.full, h.drain, h.same, h.head, hw, h.out, h.reads⟩

theorem schedule_sub {c : Cfg} {s : Ctrl} : (s.schedule c).pendWr = s.pendWr ∧ (s.schedule c).pendRd = s.pendRd := by
  have ha : ∀ (s : Ctrl) (x : Command), (s.addCommand c x).pendWr = s.pendWr ∧ (s.addCommand c x).pendRd = s.pendRd := by
    intro s x
    unfold addCommand
    dsimp only
    split <;> exact ⟨rfl, rfl⟩
  unfold Ctrl.schedule
  dsimp only
  repeat' split
  all_goals first | exact ⟨rfl, rfl⟩ | (refine ⟨?_, ?_⟩ <;> first | exact (ha _ _).1 | exact (ha _ _).2)

/-- The result of a cycle. -/
structure Cycle (c : Cfg) (s s' : Ctrl) : Prop where
  run : Run c s'
  ref : RefOk c s'.ref
  clk : s'.sim.clk = s.sim.clk + 1
  owed : ∀ a w, owed s' a w = owed s a w
  full : Clean c s → Full c s → Full c s'
  lost : ∀ a, Lost c s a → Lost c s' a
  stuck : ∀ a r, Stuck c a r s → Stuck c a r s'
  pw : ∀ t ∈ s'.pendWr, t ∈ s.pendWr
  ret : ∃ q, s'.returnQ = s.returnQ ++ q ∧ ∀ t ∈ q, t.write = false
  ord : Clean c s → Full c s → Ord c s → Ord c s'
  hist : ∃ l new, s.ref.tick c s.sim.chan.sref = .ok (l, s'.ref) ∧
    Line s' = Line s ++ l.map (fun q => (q.cmd, q.addr)) ∧ s'.sim.hist = new ++ s.sim.hist ∧ ∀ a, 0 < nRd s a →
    (nRd s' a = 0 → ∃ e ∈ new, ReadAt c a e) ∧ (Clean c s → Full c s → Ord c s → Uniq c s a → Before c a new)

/-- How a program may end: never with `exit`. -/
def Ends (c : Cfg) (e : Fault) : Prop :=
  (e = .abort ∧ c.selfRefresh = true) ∨ (e = .divide ∧ later 0 c.interval = 0)

theorem tick_spec {c : Cfg} (hm : ∀ a, Exists c.p (c.map a)) {s : Ctrl} (h : Run c s) (hr : RefOk c s.ref) :
    (∃ s', s.tick c = .ok s' ∧ Cycle c s s') ∨ ∃ e, s.tick c = .error e ∧ Ends c e := by
  unfold Ctrl.tick
  rcases refTick_spec (asleep := s.sim.chan.sref) hr with ⟨l, r', e1, hr', hl⟩ | ⟨e1, h0⟩
  · simp only [e1, bind, Except.bind]
    set s0 : Ctrl := { s with
      ref := r', sim := { s.sim with chan := { s.sim.chan with refreshQ := s.sim.chan.refreshQ ++ l } } } with hs0
    have sb : SameBook s s0 := ⟨rfl, rfl, rfl, rfl, rfl, rfl⟩
    have hrun : Run c s0 := ⟨h.reach.note l, sb.book h.book, fun q hq => by
      rcases List.mem_append.1 hq with h' | h'
      · exact h.refq q h'
      · exact hl q h', h.awake⟩
    have hclk : s0.sim.clk = s.sim.clk := rfl
    have howed : ∀ a w, owed s0 a w = owed s a w := fun _ _ => rfl
    have hfull0 : Full c s → Full c s0 := sb.full
    have hlost0 : ∀ a, Lost c s a → Lost c s0 a := fun _ => sb.lost
    have hpw0 : s0.pendWr = s.pendWr := rfl
    have hret0 : s0.returnQ = s.returnQ := rfl
    have hord0 : Ord c s → Ord c s0 := sb.ord
    have hst0 : ∀ a r, Stuck c a r s → Stuck c a r s0 := fun a r h =>
      ⟨h.uni, h.full, h.drain, h.same, h.head, h.wait, h.out, h.reads⟩
    have hline : Line s0 = Line s ++ l.map (fun q => (q.cmd, q.addr)) := by
      unfold Line
      rw [hs0]
      simp
    have hhist : s0.sim.hist = s.sim.hist := rfl
    have hn0 : ∀ a, nRd s0 a = nRd s a := fun _ => rfl
    have href : s0.ref = r' := rfl
    clear_value s0
    rcases issuePart_spec hm hrun with ⟨b, s1, e2, hk1⟩ | ⟨e2, hse⟩
    · simp only [e2]
      set s2 := s1.countIdle c with hs2
      have sb2 : SameBook s1 s2 := ⟨rfl, rfl, rfl, rfl, rfl, rfl⟩
      have hk2 : Kept c s1 s2 :=
        ⟨⟨hk1.run.reach, sb2.book hk1.run.book, hk1.run.refq, hk1.run.awake⟩, rfl, rfl, fun _ _ => rfl,
          fun _ => sb2.full, .same sb2 rfl rfl rfl ⟨[], rfl, by simp⟩⟩
      clear_value s2
      have hk := hk1.trans hk2
      have fin : ∀ s3, Kept c s0 s3 → Cycle c s { s3.schedule c with
          sim := { (s3.schedule c).sim with clk := (s3.schedule c).sim.clk + 1 } } := by
        intro s3 hk3
        have hmv := moved_schedule hk3.run.book
        have hcl : Clean c s → Clean c s0 := fun hc => by unfold Clean at *; rw [hclk]; exact hc
        refine ⟨⟨?_, ?_, ?_, ?_⟩, ?_, ?_, fun a w => ?_, fun hc hf => ?_, fun a ha => ?_, fun a r hst => ?_, fun t ht => ?_,
          ?_, fun hc hf ho => ?_, ?_⟩
        · have := hk3.run.reach.wait 1
          rw [← hmv.sim] at this
          exact this
        · have sb4 : SameBook (s3.schedule c) { s3.schedule c with
              sim := { (s3.schedule c).sim with clk := (s3.schedule c).sim.clk + 1 } } := ⟨rfl, rfl, rfl, rfl, rfl, rfl⟩
          exact sb4.book (hmv.book hk3.run.book)
        · dsimp only
          rw [hmv.sim]; exact hk3.run.refq
        · dsimp only
          rw [hmv.sim]; exact hk3.run.awake
        · dsimp only
          rw [hmv.ref, hk3.ref, href]; exact hr'
        · dsimp only
          rw [hmv.sim, hk3.clk, hclk]
        · have h1 := hk3.owed a w
          rw [howed] at h1
          rw [← h1]
          unfold owed nRd
          dsimp only
          rw [hmv.back, hmv.pr]
        · have sb4 : SameBook (s3.schedule c) { s3.schedule c with
              sim := { (s3.schedule c).sim with clk := (s3.schedule c).sim.clk + 1 } } := ⟨rfl, rfl, rfl, rfl, rfl, rfl⟩
          exact sb4.full (hmv.full (hk3.full (by unfold Clean at *; rw [hclk]; exact hc) (hfull0 hf)))
        · have hl := hk3.lost (hlost0 a ha)
          have h1 := hmv.rd a
          refine ⟨?_, ?_⟩
          · show 0 < nRd (s3.schedule c) a
            unfold nRd; rw [hmv.pr]; exact hl.1
          · show rIn c (s3.schedule c) a = 0
            rw [h1]; exact hl.2
        · have := ((hst0 a r hst).kept hk3.frame).schedule
          exact ⟨this.uni, this.full, this.drain, this.same, this.head, this.wait, this.out, this.reads⟩
        · change t ∈ (s3.schedule c).pendWr at ht
          rw [hmv.pw] at ht
          rw [← hpw0]
          exact hk3.frame.pw t ht
        · obtain ⟨q, hq, hq'⟩ := hk3.frame.ret
          refine ⟨q, ?_, hq'⟩
          show (s3.schedule c).returnQ = _
          rw [hmv.back, hq, hret0]
        · have := ord_schedule hk3.run.book (hk3.frame.ord (hcl hc) (hfull0 hf) (hord0 ho))
          exact SameBook.ord (s := s3.schedule c) ⟨rfl, rfl, rfl, rfl, rfl, rfl⟩ this
        · obtain ⟨new, hn, hn'⟩ := hk3.frame.hist
          have hh0 : s0.sim.hist = s.sim.hist := hhist
          refine ⟨l, new, by dsimp only; rw [hmv.ref, hk3.ref, href]; exact e1, ?_, ?_, fun a ha => ?_⟩
          · rw [← hline]
            refine Eq.trans ?_ hk3.frame.line
            unfold Line
            dsimp only
            rw [hmv.sim]
          · show (s3.schedule c).sim.hist = _
            rw [hmv.sim, hn, hh0]
          · obtain ⟨h1, h2⟩ := hn' a (by rw [hn0]; exact ha)
            refine ⟨fun h0 => h1 ?_, fun hc hf ho hu => h2 (hcl hc) (hfull0 hf) (hord0 ho) ?_⟩
            · have : nRd (s3.schedule c) a = 0 := h0
              unfold nRd at this ⊢
              rw [hmv.pr] at this
              exact this
            · exact fun t ht => hu t (hpw0 ▸ ht)
      by_cases hc : (c.selfRefresh && !b) = true
      · rw [if_pos hc]
        simp only [Bool.and_eq_true] at hc
        have hpow := powerLoop_spec hc.1 (fun r h => List.mem_range.1 h) hk.run
        cases hp : powerLoop c (List.range c.p.ranks) s2 with
        | error e =>
          rw [hp] at hpow
          exact .inr ⟨e, rfl, .inl hpow⟩
        | ok s3 =>
          rw [hp] at hpow
          exact .inl ⟨_, rfl, fin s3 (hk.trans hpow)⟩
      · rw [if_neg hc]
        exact .inl ⟨_, rfl, fin s2 hk⟩
    · simp only [e2]
      exact .inr ⟨_, rfl, .inl ⟨rfl, hse⟩⟩
  · simp only [e1, bind, Except.bind]
    exact .inr ⟨_, rfl, .inr ⟨rfl, h0⟩⟩

/-! ## runs -/

theorem owed_add {c : Cfg} {s : Ctrl} (a : Nat) (w : Bool) (b : Nat) (v : Bool) :
    owed (s.add c a w) b v = owed s b v + if (a, w) = (b, v) then 1 else 0 := by
  unfold add owed nRd
  cases w with
  | true =>
    simp only [if_true]
    split
    · split <;> (simp only [List.countP_append, List.countP_cons, List.countP_nil, Prod.mk.injEq]
                 by_cases hab : a = b <;> cases v <;> simp [hab])
    · simp only [List.countP_append, List.countP_cons, List.countP_nil, Prod.mk.injEq]
      by_cases hab : a = b <;> cases v <;> simp [hab]
  | false =>
    simp only [Bool.false_eq_true, if_false]
    split
    · simp only [List.countP_append, List.countP_cons, List.countP_nil, Prod.mk.injEq]
      by_cases hab : a = b <;> cases v <;> simp [hab]
      omega
    · split
      · split <;> (simp only [List.countP_append, List.countP_cons, List.countP_nil, Prod.mk.injEq]
                   by_cases hab : a = b <;> cases v <;> simp [hab]) <;> omega
      · simp only [List.countP_append, List.countP_cons, List.countP_nil, Prod.mk.injEq]
        by_cases hab : a = b <;> cases v <;> simp [hab]
        omega

theorem lost_add {c : Cfg} {s : Ctrl} {b : Nat} (h : Lost c s b) (a : Nat) (w : Bool) : Lost c (s.add c a w) b := by
  obtain ⟨h1, h2⟩ := h
  unfold nRd at h1
  simp only [rIn, Nat.add_eq_zero_iff] at h2
  unfold Lost nRd rIn add
  cases w with
  | true =>
    simp only [if_true]
    split
    · split <;> refine ⟨h1, ?_⟩ <;> simp only [List.countP_append, List.countP_cons, List.countP_nil, h2] <;> simp
    · exact ⟨h1, by simp only [h2]⟩
  | false =>
    simp only [Bool.false_eq_true, if_false]
    split
    · exact ⟨h1, by simp only [h2]⟩
    · have h3 : 0 < (s.pendRd ++ [(⟨a, false, 0⟩ : Trans)]).countP fun t => t.addr = b := by
        rw [List.countP_append]; omega
      split
      · rename_i hc
        have hab : a ≠ b := by
          rintro rfl
          rw [List.countP_append] at hc
          simp only [List.countP_cons, List.countP_nil, decide_true, if_true] at hc
          omega
        split <;> refine ⟨h3, ?_⟩ <;> simp only [List.countP_append, List.countP_cons, List.countP_nil, h2] <;> simp [hab]
      · exact ⟨h3, by simp only [h2]⟩

theorem add_sim (c : Cfg) (s : Ctrl) (a : Nat) (w : Bool) :
    (s.add c a w).sim = s.sim ∧ (s.add c a w).ref = s.ref := by
  unfold add
  cases w <;> simp only [Bool.false_eq_true, if_false, if_true] <;> split <;> (try split) <;> (try split) <;>
    exact ⟨rfl, rfl⟩

/-- What is known of a memory system. -/
structure MInv (c : Cfg) (m : Mem) : Prop where
  run : Run c m.ctrl
  ref : RefOk c m.ctrl.ref
  sum : ∀ a w, m.accepted.count (a, w) = m.returned.count (a, w) + owed m.ctrl a w
  soon : ∀ t ∈ m.ctrl.returnQ, t.write = true → t.complete ≤ m.ctrl.sim.clk + 1
  known : ∀ t ∈ m.ctrl.pendWr, (t.addr, true) ∈ m.accepted

/-- One transaction is returned. -/
theorem returnDone_some {s s' : Ctrl} {clk : Nat} {t : Trans} (h : s.returnDone clk = some (t, s')) :
    ∃ l1 l2, s.returnQ = l1 ++ t :: l2 ∧ s' = { s with returnQ := l1 ++ l2 } ∧ t.complete ≤ clk := by
  unfold returnDone at h
  cases hf : s.returnQ.find? fun t => decide (t.complete ≤ clk) with
  | none => rw [hf] at h; cases h
  | some u =>
    rw [hf] at h
    simp only [Option.some.injEq, Prod.mk.injEq] at h
    obtain ⟨rfl, rfl⟩ := h
    obtain ⟨hp, l1, l2, e, hl⟩ := List.find?_eq_some_iff_append.1 hf
    refine ⟨l1, l2, e, ?_, by simpa using hp⟩
    rw [e, List.eraseP_append_right _ (by intro b hb; simpa using hl b hb), List.eraseP_cons_of_pos (by exact hp)]

theorem returnDone_none {s : Ctrl} {clk : Nat} (h : s.returnDone clk = none) : ∀ t ∈ s.returnQ, clk < t.complete := by
  unfold returnDone at h
  cases hf : s.returnQ.find? fun t => decide (t.complete ≤ clk) with
  | some u => rw [hf] at h; cases h
  | none =>
    rw [List.find?_eq_none] at hf
    intro t ht
    have := hf t ht
    simp only [decide_eq_true_eq] at this
    omega

/-- The loop that returns what is done. -/
theorem returnLoop_spec {n : Nat} {m : Mem} (hn : m.ctrl.returnQ.length ≤ n) :
    ∃ q, (Mem.returnLoop n m).ctrl = { m.ctrl with returnQ := q } ∧ (∀ t ∈ q, m.ctrl.sim.clk < t.complete) ∧
      q.Sublist m.ctrl.returnQ ∧ (Mem.returnLoop n m).accepted = m.accepted ∧
      (∀ a w, m.returned.count (a, w) + (m.ctrl.returnQ.countP fun t => decide (t.addr = a) && decide (t.write = w)) =
        (Mem.returnLoop n m).returned.count (a, w) +
          q.countP fun t => decide (t.addr = a) && decide (t.write = w)) := by
  induction n generalizing m with
  | zero =>
    have : m.ctrl.returnQ = [] := List.length_eq_zero_iff.1 (by omega)
    exact ⟨m.ctrl.returnQ, rfl, by simp [this], List.Sublist.refl _, rfl, fun _ _ => rfl⟩
  | succ n ih =>
    unfold Mem.returnLoop
    cases hd : m.ctrl.returnDone m.ctrl.sim.clk with
    | none => exact ⟨m.ctrl.returnQ, rfl, returnDone_none hd, List.Sublist.refl _, rfl, fun _ _ => rfl⟩
    | some x =>
      obtain ⟨t, s'⟩ := x
      obtain ⟨l1, l2, e, rfl, _⟩ := returnDone_some hd
      obtain ⟨q, h1, h2, h3, h4, h5⟩ := ih (m := { m with
        ctrl := { m.ctrl with returnQ := l1 ++ l2 }, returned := (t.addr, t.write) :: m.returned }) (by
          rw [e] at hn; simp at hn ⊢; omega)
      refine ⟨q, h1, h2, h3.trans ?_, h4, fun a w => ?_⟩
      · rw [e]
        exact List.Sublist.append_left (List.sublist_cons_self ..) _
      · rw [← h5 a w, e]
        simp only [List.count_cons, List.countP_append, List.countP_cons]
        have : ((t.addr, t.write) == (a, w)) = (decide (t.addr = a) && decide (t.write = w)) := by
          rw [Bool.eq_iff_iff]; simp
        rw [this]; omega

theorem MInv.init {c : Cfg} (hm : ∀ a, Exists c.p (c.map a)) : MInv c .init := by
  have h0 := hm 0
  refine ⟨⟨Reach.init c.p, Book.init c, ?_, fun _ _ => rfl⟩, ⟨?_, ?_, ?_⟩, fun a w => ?_, ?_, ?_⟩
  · simp [Mem.init, Ctrl.init, Sim.init, Chan.init]
  · exact Nat.lt_of_le_of_lt (Nat.zero_le _) h0.1
  · exact Nat.lt_of_le_of_lt (Nat.zero_le _) h0.2.1
  · exact Nat.lt_of_le_of_lt (Nat.zero_le _) h0.2.2
  · cases w <;> simp [Mem.init, Ctrl.init, owed, nRd]
  · simp [Mem.init, Ctrl.init]
  · simp [Mem.init, Ctrl.init]

theorem later_one (n : Nat) : later n 1 ≤ n + 1 := by
  unfold later
  omega

/-- What `add` does with the return queue and the pending writes. -/
theorem add_lists {c : Cfg} {s : Ctrl} (a : Nat) (w : Bool) :
    ((s.add c a w).returnQ = s.returnQ ∨ (s.add c a w).returnQ = s.returnQ ++ [⟨a, w, later s.sim.clk 1⟩]) ∧
      ((s.add c a w).pendWr = s.pendWr ∨ (w = true ∧ (s.add c a w).pendWr = s.pendWr ++ [⟨a, w, 0⟩])) ∧
      ∀ b, nRd s b ≤ nRd (s.add c a w) b := by
  unfold add
  cases w with
  | true =>
    simp only [if_true]
    split
    · split
      · exact ⟨.inr rfl, .inr ⟨trivial, rfl⟩, fun _ => Nat.le_refl _⟩
      · exact ⟨.inr rfl, .inr ⟨trivial, rfl⟩, fun _ => Nat.le_refl _⟩
    · exact ⟨.inr rfl, .inl rfl, fun _ => Nat.le_refl _⟩
  | false =>
    simp only [Bool.false_eq_true, if_false]
    have hn : ∀ b, nRd s b ≤ (s.pendRd ++ [(⟨a, false, 0⟩ : Trans)]).countP fun t => t.addr = b := by
      intro b
      rw [List.countP_append]
      exact Nat.le_add_right ..
    split
    · exact ⟨.inr rfl, .inl rfl, fun _ => Nat.le_refl _⟩
    · split
      · split <;> exact ⟨.inl rfl, .inl rfl, hn⟩
      · exact ⟨.inl rfl, .inl rfl, hn⟩

/-- The transactions of an address that are returned or will be at the time `d`. -/
def due (m : Mem) (a : Nat) (w : Bool) (d : Nat) : Nat :=
  m.returned.count (a, w) +
    m.ctrl.returnQ.countP fun t => (decide (t.addr = a) && decide (t.write = w)) && decide (t.complete ≤ d)

/-- The accepted writes have no other address for the place. -/
def Only (c : Cfg) (m : Mem) (a : Nat) : Prop := ∀ b, (b, true) ∈ m.accepted → c.map b = c.map a → b = a

/-- A part of a run. -/
structure Ran (c : Cfg) (m m' : Mem) (ticks : Nat) : Prop where
  inv : MInv c m'
  clk : m'.ctrl.sim.clk = m.ctrl.sim.clk + ticks
  full : Clean c m'.ctrl → Full c m.ctrl → Full c m'.ctrl
  lost : ∀ a, Lost c m.ctrl a → Lost c m'.ctrl a
  stuck : ∀ a r, Stuck c a r m.ctrl → Stuck c a r m'.ctrl ∧ ∀ b, m'.accepted.count (b, true) = m.accepted.count (b, true)
  more : ∀ x ∈ m.accepted, x ∈ m'.accepted
  due : ∀ a w d, due m a w d ≤ due m' a w d
  back : ∀ x, m.returned.count x ≤ m'.returned.count x
  ord : Clean c m'.ctrl → Full c m.ctrl → Ord c m.ctrl → Ord c m'.ctrl
  hist : ∃ new, m'.ctrl.sim.hist = new ++ m.ctrl.sim.hist ∧ ∀ a, 0 < nRd m.ctrl a →
    (nRd m'.ctrl a = 0 → ∃ e ∈ new, ReadAt c a e) ∧
      (Clean c m'.ctrl → Full c m.ctrl → Ord c m.ctrl → Only c m' a → Before c a new)

theorem Ran.clean {c : Cfg} {m m' : Mem} {n : Nat} (h : Ran c m m' n) (hc : Clean c m'.ctrl) : Clean c m.ctrl := by
  rcases hc with hc | ⟨hc, hlt⟩
  · exact .inl hc
  · have := h.clk
    exact .inr ⟨hc, by omega⟩

theorem Ran.refl {c : Cfg} {m : Mem} (h : MInv c m) : Ran c m m 0 :=
  ⟨h, rfl, fun _ h => h, fun _ h => h, fun _ _ h => ⟨h, fun _ => rfl⟩, fun _ h => h, fun _ _ _ => Nat.le_refl _,
    fun _ => Nat.le_refl _, fun _ _ h => h, [], rfl, fun a ha => ⟨fun h0 => by omega, fun _ _ _ _ l1 e l2 h => by simp at h⟩⟩

theorem Ran.trans {c : Cfg} {m1 m2 m3 : Mem} {n k : Nat} (h : Ran c m1 m2 n) (h' : Ran c m2 m3 k) :
    Ran c m1 m3 (n + k) := by
  refine ⟨h'.inv, by rw [h'.clk, h.clk]; omega, fun hc hf => h'.full hc (h.full (h'.clean hc) hf),
    fun a ha => h'.lost a (h.lost a ha), fun a r hs => ?_, fun x hx => h'.more x (h.more x hx),
    fun a w d => Nat.le_trans (h.due a w d) (h'.due a w d),
    fun x => Nat.le_trans (h.back x) (h'.back x), fun hc hf ho =>
      h'.ord hc (h.full (h'.clean hc) hf) (h.ord (h'.clean hc) hf ho), ?_⟩
  · obtain ⟨h1, h2⟩ := h.stuck a r hs
    obtain ⟨h3, h4⟩ := h'.stuck a r h1
    exact ⟨h3, fun b => (h4 b).trans (h2 b)⟩
  · obtain ⟨n1, e1, w1⟩ := h.hist
    obtain ⟨n2, e2, w2⟩ := h'.hist
    refine ⟨n2 ++ n1, by rw [e2, e1, List.append_assoc], fun a ha => ⟨fun h0 => ?_, fun hc hf ho hu => ?_⟩⟩
    · rcases Nat.eq_zero_or_pos (nRd m2.ctrl a) with h2 | h2
      · obtain ⟨e, he, he'⟩ := (w1 a ha).1 h2
        exact ⟨e, List.mem_append_right _ he, he'⟩
      · obtain ⟨e, he, he'⟩ := (w2 a h2).1 h0
        exact ⟨e, List.mem_append_left _ he, he'⟩
    · have hc1 := h'.clean hc
      refine Before.append ?_ ((w1 a ha).2 hc1 hf ho fun b hb => hu b (h'.more _ hb))
      rcases Nat.eq_zero_or_pos (nRd m2.ctrl a) with h2 | h2
      · exact .inl ((w1 a ha).1 h2)
      · exact .inr ((w2 a h2).2 hc (h.full hc1 hf) (h.ord hc1 hf ho) hu)

theorem step_spec {c : Cfg} (hm : ∀ a, Exists c.p (c.map a)) {m : Mem} (h : MInv c m) (u : Use) :
    (∃ m', m.step c u = .ok m' ∧ Ran c m m' (if u = .tick then 1 else 0) ∧
      (u = .tick → ∀ a w, due m a w m.ctrl.sim.clk ≤ m'.returned.count (a, w))) ∨
    ∃ e, m.step c u = .error e ∧ Ends c e := by
  cases u with
  | offer a w =>
    left
    refine ⟨_, rfl, ?_, by intro h; cases h⟩
    rw [if_neg (show ¬ Use.offer a w = .tick by simp)]
    split
    · rename_i hacc
      obtain ⟨h1, h2⟩ := add_sim c m.ctrl a w
      obtain ⟨hq, hp, hnr⟩ := add_lists (c := c) (s := m.ctrl) a w
      refine ⟨⟨⟨by rw [h1]; exact h.run.reach, book_add h.run.book a w, by rw [h1]; exact h.run.refq,
        by rw [h1]; exact h.run.awake⟩, by rw [h2]; exact h.ref, fun b v => ?_, ?_, ?_⟩, by simp [h1],
        fun _ hf => full_add hf a w, fun _ hl => lost_add hl a w, fun b r hs => ?_,
        fun x hx => List.mem_cons_of_mem _ hx, fun b v d => ?_,
        fun _ => Nat.le_refl _, fun _ hf ho => ord_add h.run.book hf ho a w,
        [], by rw [h1]; rfl, fun b hb => ⟨fun h0 => ?_, fun _ _ _ _ l1 e l2 h => by simp at h⟩⟩
      · dsimp only
        rw [owed_add, List.count_cons, h.sum b v]
        have : (((a, w) : Nat × Bool) == (b, v)) = decide ((a, w) = (b, v)) := by rw [Bool.eq_iff_iff]; simp
        rw [this]
        simp only [decide_eq_true_eq]
        omega
      · intro t ht htw
        dsimp only at ht ⊢
        rw [h1]
        rcases hq with hq | hq
        · rw [hq] at ht; exact h.soon t ht htw
        · rw [hq] at ht
          rcases List.mem_append.1 ht with ht | ht
          · exact h.soon t ht htw
          · rw [List.mem_singleton.1 ht]; exact later_one _
      · intro t ht
        dsimp only at ht ⊢
        rcases hp with hp | ⟨hw, hp⟩
        · rw [hp] at ht; exact List.mem_cons_of_mem _ (h.known t ht)
        · rw [hp] at ht
          rcases List.mem_append.1 ht with ht | ht
          · exact List.mem_cons_of_mem _ (h.known t ht)
          · rw [List.mem_singleton.1 ht, hw]; exact List.mem_cons_self ..
      · cases w with
        | true =>
          exfalso
          have hf := hs.full
          simp only [accepts, hs.uni, Bool.false_eq_true, if_false, if_true, decide_eq_true_eq] at hacc
          omega
        | false =>
          exact ⟨hs.add a, fun b => by simp ⟩
      · unfold due
        dsimp only
        rcases hq with hq | hq
        · rw [hq]
        · rw [hq, List.countP_append]; omega
      · have := hnr b
        dsimp only at h0
        omega
    · exact .refl h
  | tick =>
    obtain ⟨q, h1, h2, h3, h4, h5⟩ := returnLoop_spec (m := m) (Nat.le_refl _)
    have sb : SameBook m.ctrl { m.ctrl with returnQ := q } := ⟨rfl, rfl, rfl, rfl, rfl, rfl⟩
    have hrun : Run c { m.ctrl with returnQ := q } := ⟨h.run.reach, sb.book h.run.book, h.run.refq, h.run.awake⟩
    have hdue : ∀ a w d, due m a w d ≤ (Mem.returnLoop m.ctrl.returnQ.length m).returned.count (a, w) +
        q.countP fun t => (decide (t.addr = a) && decide (t.write = w)) && decide (t.complete ≤ d) := by
      intro a w d
      have h6 := h5 a w
      have split : ∀ l : List Trans, (l.countP fun t => decide (t.addr = a) && decide (t.write = w)) =
          (l.countP fun t => (decide (t.addr = a) && decide (t.write = w)) && decide (t.complete ≤ d)) +
          l.countP fun t => (decide (t.addr = a) && decide (t.write = w)) && !decide (t.complete ≤ d) := by
        intro l
        induction l with
        | nil => rfl
        | cons t l ih =>
          simp only [List.countP_cons, ih]
          cases decide (t.addr = a) && decide (t.write = w) <;> cases decide (t.complete ≤ d) <;> simp <;> omega
      have h7 := h3.countP_le (p := fun t => (decide (t.addr = a) && decide (t.write = w)) && !decide (t.complete ≤ d))
      have h8 := split m.ctrl.returnQ
      have h9 := split q
      unfold due
      omega
    simp only [Mem.step, bind, Except.bind, pure, Except.pure]
    rw [h1]
    rcases tick_spec hm hrun h.ref with ⟨s', e, hc⟩ | ⟨e, he, hE⟩
    · left
      rw [e]
      obtain ⟨q', hq1, hq2⟩ := hc.ret
      refine ⟨_, rfl, ⟨⟨hc.run, hc.ref, fun a w => ?_, fun t ht hw => ?_, fun t ht => ?_⟩, by simpa using hc.clk,
        fun hcl hf => hc.full ?_ (sb.full hf), fun a ha => hc.lost a (sb.lost ha), fun a r hs => ⟨hc.stuck a r ?_, ?_⟩,
        by rw [h4]; exact fun _ h => h, fun a w d => ?_, fun x => ?_, fun hcl hf ho => hc.ord ?_ (sb.full hf) (sb.ord ho), ?_⟩,
        fun _ a w => ?_⟩
      · dsimp only
        rw [h4, h.sum, hc.owed]
        have := h5 a w
        unfold owed
        have hn : nRd { m.ctrl with returnQ := q } a = nRd m.ctrl a := rfl
        rw [hn]
        dsimp only
        omega
      · dsimp only at ht ⊢
        rw [hq1] at ht
        rw [hc.clk]
        rcases List.mem_append.1 ht with ht | ht
        · have := h.soon t (h3.subset ht) hw
          dsimp only
          omega
        · rw [hq2 t ht] at hw; cases hw
      · rw [h4]; exact h.known t (hc.pw t ht)
      · rcases hcl with hcl | ⟨hcl, hlt⟩
        · exact .inl hcl
        · have := hc.clk
          dsimp only at hlt this
          exact .inr ⟨hcl, by dsimp only; omega⟩
      · exact ⟨hs.uni, hs.full, hs.drain, hs.same, hs.head, hs.wait, hs.out, hs.reads⟩
      · intro b; rw [h4]
      · refine Nat.le_trans (hdue a w d) ?_
        unfold due
        dsimp only
        rw [hq1, List.countP_append]
        dsimp only
        omega
      · have h6 := h5 x.1 x.2
        have h7 := h3.countP_le (p := fun t => decide (t.addr = x.1) && decide (t.write = x.2))
        dsimp only
        change m.returned.count (x.1, x.2) ≤ (Mem.returnLoop m.ctrl.returnQ.length m).returned.count (x.1, x.2)
        omega
      · rcases hcl with hcl | ⟨hcl, hlt⟩
        · exact .inl hcl
        · have := hc.clk
          dsimp only at hlt this
          exact .inr ⟨hcl, by dsimp only; omega⟩
      · obtain ⟨l, new, -, -, hn, hn'⟩ := hc.hist
        refine ⟨new, hn, fun a ha => ⟨fun h0 => (hn' a ha).1 h0, fun hcl hf ho hu => (hn' a ha).2 ?_ (sb.full hf)
          (sb.ord ho) fun t ht hta => hu t.addr ?_ hta⟩⟩
        · rcases hcl with hcl | ⟨hcl, hlt⟩
          · exact .inl hcl
          · have := hc.clk
            dsimp only at hlt this
            exact .inr ⟨hcl, by dsimp only; omega⟩
        · rw [h4]; exact h.known t ht
      · refine Nat.le_trans (hdue a w _) (Nat.le_of_eq ?_)
        dsimp only
        rw [Nat.add_eq_left, List.countP_eq_zero]
        intro t ht
        have := h2 t ht
        simp only [Bool.and_eq_true, decide_eq_true_eq, not_and]
        intro _
        omega
    · right
      rw [he]
      exact ⟨e, rfl, hE⟩

theorem exec_spec {c : Cfg} (hm : ∀ a, Exists c.p (c.map a)) {m : Mem} (h : MInv c m) (l : List Use) :
    (∃ m', m.exec c l = .ok m' ∧ Ran c m m' (l.count .tick) ∧
      ∀ a w d, m.ctrl.sim.clk ≤ d → d < m.ctrl.sim.clk + l.count .tick → due m a w d ≤ m'.returned.count (a, w)) ∨
    ∃ e, m.exec c l = .error e ∧ Ends c e := by
  induction l generalizing m with
  | nil => exact .inl ⟨m, rfl, .refl h, fun a w d h1 h2 => by simp at h2; omega⟩
  | cons u l ih =>
    simp only [Mem.exec, bind, Except.bind]
    rcases step_spec hm h u with ⟨m1, e, hs, hd1⟩ | ⟨e, he, hE⟩
    · rw [e]
      dsimp only
      have hcount : (u :: l).count .tick = (if u = .tick then 1 else 0) + l.count .tick := by
        rw [List.count_cons]
        by_cases hu : u = .tick
        · simp [hu]; omega
        · simp [hu]
      rcases ih hs.inv with ⟨m', e', h1, h2⟩ | ⟨e', he, hE⟩
      · refine .inl ⟨m', e', ?_, fun a w d hd0 hd => ?_⟩
        · rw [hcount]; exact hs.trans h1
        · rw [hcount] at hd
          have hclk := hs.clk
          by_cases hd2 : m1.ctrl.sim.clk ≤ d
          · exact Nat.le_trans (hs.due a w d) (h2 a w d hd2 (by omega))
          · by_cases hu : u = .tick
            · rw [if_pos hu] at hclk
              have hd' : d = m.ctrl.sim.clk := by omega
              have h4 := hd1 hu a w
              rw [← hd'] at h4
              exact Nat.le_trans h4 (h1.back _)
            · rw [if_neg hu] at hclk; omega
      · exact .inr ⟨e', he, hE⟩
    · rw [he]
      exact .inr ⟨e, rfl, hE⟩

end RadSim.DramSim
