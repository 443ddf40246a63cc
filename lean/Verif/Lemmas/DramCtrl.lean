import Verif.Model.DramCtrl
import Verif.Lemmas.DramTime

/-! # The controller of a DRAM channel: invariants -/

namespace RadSim.DramSim

open Chan Ctrl

theorem lift_ok {α : Type} {x : Except Stop α} {y : α} : lift x = .ok y ↔ x = .ok y := by
  cases x with
  | ok z => simp [lift]
  | error e => cases e; simp [lift]

theorem lift_error {α : Type} {x : Except Stop α} {e : Fault} : lift x = .error e ↔ x = .error .abort ∧ e = .abort := by
  cases x with
  | ok z => simp [lift]
  | error e' => cases e'; simp [lift, eq_comm]

/-- A state of the channel that requests lead to. -/
def Reach (p : Times) (s : Sim) : Prop := ∃ ops : List Op, (∀ o ∈ ops, o.Fits p) ∧ Sim.init.exec p ops = .ok s

theorem exec_snoc {p : Times} {s s1 s2 : Sim} {l : List Op} {o : Op} (h : s.exec p l = .ok s1)
    (ho : s1.step p o = .ok s2) : s.exec p (l ++ [o]) = .ok s2 := by
  induction l generalizing s with
  | nil => cases h; simp [Sim.exec, ho, bind, Except.bind]
  | cons q l ih =>
    simp only [List.cons_append, Sim.exec, bind, Except.bind] at h ⊢
    cases hq : s.step p q with
    | error e => rw [hq] at h; cases h
    | ok s' => rw [hq] at h; exact ih h

theorem Reach.step {p : Times} {s s' : Sim} {o : Op} (h : Reach p s) (ho : o.Fits p) (hs : s.step p o = .ok s') :
    Reach p s' := by
  obtain ⟨ops, h1, h2⟩ := h
  refine ⟨ops ++ [o], fun q hq => ?_, exec_snoc h2 hs⟩
  rcases List.mem_append.1 hq with h | h
  · exact h1 q h
  · rw [List.mem_singleton.1 h]; exact ho

theorem Reach.inv {p : Times} {s : Sim} (h : Reach p s) : Inv p s := by
  obtain ⟨ops, h1, h2⟩ := h
  exact inv_exec (inv_init p) h1 h2

theorem Reach.init (p : Times) : Reach p .init := ⟨[], by simp, rfl⟩

theorem Reach.note {p : Times} {s : Sim} (h : Reach p s) (l : List Command) :
    Reach p { s with chan := { s.chan with refreshQ := s.chan.refreshQ ++ l } } := by
  induction l generalizing s with
  | nil => simpa using h
  | cons c l ih =>
    have := ih (h.step (o := .note c) (s' := { s with chan := { s.chan with refreshQ := s.chan.refreshQ ++ [c] } })
      trivial rfl)
    simpa using this

theorem Reach.wait {p : Times} {s : Sim} (h : Reach p s) (n : Nat) : Reach p { s with clk := s.clk + n } :=
  h.step (o := .wait n) trivial rfl

/-- A command asked for and ready can be issued. -/
theorem Reach.ready {p : Times} {s : Sim} (h : Reach p s) {q x : Command} (hq : Fits p q)
    (hx : s.chan.getReady p q s.clk = .ok (some x)) : ∃ ch, s.chan.update p x s.clk = .ok ch := by
  obtain ⟨ch, h, _⟩ := update_ok h.inv (ready_of hq hx)
  exact ⟨ch, h⟩

theorem Reach.issue {p : Times} {s : Sim} (h : Reach p s) {q x : Command} (hq : Fits p q)
    (hx : s.chan.getReady p q s.clk = .ok (some x)) {ch : Chan} (hu : s.chan.update p x s.clk = .ok ch) :
    Reach p { s with chan := ch, hist := ⟨s.clk, x.cmd, x.addr⟩ :: s.hist } :=
  h.step (o := .ask q) hq (by simp [Sim.step, hx, hu, bind, Except.bind, pure, Except.pure])

/-! ## queues -/

theorem firstReady_some {c : Cfg} {ch : Chan} {clk : Nat} {l pre : List Command} {y : Command}
    (h : firstReady c ch clk pre l = .ok (some y)) : ∃ x ∈ l, ch.getReady c.p x clk = .ok (some y) := by
  induction l generalizing pre with
  | nil => cases h
  | cons x l ih =>
    have next : firstReady c ch clk (pre ++ [x]) l = .ok (some y) → ∃ z ∈ x :: l, ch.getReady c.p z clk = .ok (some y) :=
      fun h => by
        obtain ⟨z, hz, hr⟩ := ih h
        exact ⟨z, List.mem_cons_of_mem _ hz, hr⟩
    simp only [firstReady, bind, Except.bind, pure, Except.pure] at h
    cases hg : ch.getReady c.p x clk with
    | error e => rw [hg] at h; cases h
    | ok o =>
      rw [hg] at h
      cases o with
      | none => exact next h
      | some z =>
        simp only at h
        split at h
        · split at h
          · cases h; exact ⟨x, List.mem_cons_self .., hg⟩
          · exact next h
        · split at h
          · exact next h
          · cases h; exact ⟨x, List.mem_cons_self .., hg⟩

/-- A write is chosen only if no read of its place is before it. -/
theorem firstReady_dep {c : Cfg} {ch : Chan} {clk : Nat} {l pre : List Command} {y : Command}
    (h : firstReady c ch clk pre l = .ok (some y)) (hy : y.cmd.isWrite) :
    ∃ l1 x l2, l = l1 ++ x :: l2 ∧ ch.getReady c.p x clk = .ok (some y) ∧
      ∀ z ∈ pre ++ l1, z.cmd.isRead → z.addr ≠ x.addr := by
  induction l generalizing pre with
  | nil => cases h
  | cons x l ih =>
    have next : firstReady c ch clk (pre ++ [x]) l = .ok (some y) → ∃ l1 z l2, x :: l = l1 ++ z :: l2 ∧
        ch.getReady c.p z clk = .ok (some y) ∧ ∀ w ∈ pre ++ l1, w.cmd.isRead → w.addr ≠ z.addr := fun h => by
      obtain ⟨l1, z, l2, e, hr, hd⟩ := ih h
      exact ⟨x :: l1, z, l2, by rw [e]; rfl, hr, by simpa using hd⟩
    simp only [firstReady, bind, Except.bind, pure, Except.pure] at h
    cases hg : ch.getReady c.p x clk with
    | error e => rw [hg] at h; cases h
    | ok o =>
      rw [hg] at h
      cases o with
      | none => exact next h
      | some z =>
        simp only at h
        split at h
        · rename_i hz
          split at h
          · cases h; rw [hz] at hy; cases hy
          · exact next h
        · split at h
          · exact next h
          · rename_i hd
            cases h
            refine ⟨[], x, l, rfl, hg, fun w hw hr he => hd ?_⟩
            rw [hy, Bool.true_and]
            unfold hasDependency
            rw [List.any_eq_true]
            exact ⟨w, by simpa using hw, by simp [hr, he]⟩

theorem firstReady_error {c : Cfg} {ch : Chan} {clk : Nat} {l pre : List Command} {e : Stop}
    (h : firstReady c ch clk pre l = .error e) : ∃ x ∈ l, ch.getReady c.p x clk = .error e := by
  induction l generalizing pre with
  | nil => cases h
  | cons x l ih =>
    have next : firstReady c ch clk (pre ++ [x]) l = .error e → ∃ z ∈ x :: l, ch.getReady c.p z clk = .error e :=
      fun h => by
        obtain ⟨z, hz, hr⟩ := ih h
        exact ⟨z, List.mem_cons_of_mem _ hz, hr⟩
    simp only [firstReady, bind, Except.bind, pure, Except.pure] at h
    cases hg : ch.getReady c.p x clk with
    | error e' => rw [hg] at h; cases h; exact ⟨x, List.mem_cons_self .., hg⟩
    | ok o =>
      rw [hg] at h
      cases o with
      | none => exact next h
      | some z =>
        simp only at h
        split at h
        · split at h
          · cases h
          · exact next h
        · split at h
          · exact next h
          · cases h

/-- A command of a queue becomes a command for the same place, and a read or write only if nothing else is needed. -/
theorem getReady_shape {p : Times} {ch : Chan} {clk : Nat} {q x : Command} (hq : q.cmd.isRead ∨ q.cmd.isWrite)
    (h : ch.getReady p q clk = .ok (some x)) :
    x.addr = q.addr ∧ x.hex = q.hex ∧ ((x.cmd.isRead ∨ x.cmd.isWrite) → x = q) ∧ x.cmd ≠ .refresh ∧ x.cmd ≠ .srefIn ∧
      x.cmd ≠ .refBank := by
  have hr : q.cmd.isRank = false := by
    cases hc : q.cmd <;> simp [hc, Cmd.isRead, Cmd.isWrite] at hq <;> rfl
  unfold getReady at h
  rw [if_neg (by simp [hr])] at h
  simp only [bind, Except.bind, pure, Except.pure] at h
  cases hb : (ch.bank q.addr.rank q.addr.group q.addr.bank).getReady q clk with
  | error e => rw [hb] at h; cases h
  | ok o =>
    rw [hb] at h
    cases o with
    | none => cases h
    | some y =>
      simp only at h
      have hxy : y = x := by split at h <;> cases h; rfl
      subst hxy
      obtain ⟨t, ht, -, hy⟩ := Bank.getReady_some.1 hb
      subst hy
      refine ⟨rfl, rfl, ?_, ?_⟩
      · intro hrw
        obtain ⟨qc, qa, qh⟩ := q
        generalize ch.bank qa.rank qa.group qa.bank = b at ht
        obtain ⟨st, tm, row, hits⟩ := b
        simp only [Command.mk.injEq, and_true]
        cases st <;> cases qc <;> simp only [Bank.required, reduceCtorEq, Except.ok.injEq] at ht <;>
          first
          | (simp [Cmd.isRead, Cmd.isWrite] at hq; done)
          | (subst ht; simp [Cmd.isRead, Cmd.isWrite] at hrw; done)
          | (split at ht <;> (subst ht; first | rfl | (simp [Cmd.isRead, Cmd.isWrite] at hrw)))
      · obtain ⟨qc, qa, qh⟩ := q
        generalize ch.bank qa.rank qa.group qa.bank = b at ht
        obtain ⟨st, tm, row, hits⟩ := b
        cases st <;> cases qc <;> simp only [Bank.required, reduceCtorEq, Except.ok.injEq] at ht <;>
          first
          | (simp [Cmd.isRead, Cmd.isWrite] at hq; done)
          | (subst ht; simp; done)
          | (split at ht <;> (subst ht; simp))

/-! ## bookkeeping -/

/-- The pending reads of an address. -/
def nRd (s : Ctrl) (a : Nat) : Nat := s.pendRd.countP fun t => t.addr = a
/-- The pending writes of an address. -/
def nWr (s : Ctrl) (a : Nat) : Nat := s.pendWr.countP fun t => t.addr = a

/-- The entries for reads of an address, in all queues. -/
def rIn (c : Cfg) (s : Ctrl) (a : Nat) : Nat :=
  ((s.queues (queueIndex c (c.map a))).countP fun x => decide (x.hex = a) && x.cmd.isRead) +
    (s.readQ.countP fun t => t.addr = a) + s.unifiedQ.countP fun t => decide (t.addr = a) && !t.write

/-- The entries for writes of an address, in all queues. -/
def wIn (c : Cfg) (s : Ctrl) (a : Nat) : Nat :=
  ((s.queues (queueIndex c (c.map a))).countP fun x => decide (x.hex = a) && x.cmd.isWrite) +
    (s.writeBuf.countP fun t => t.addr = a) + s.unifiedQ.countP fun t => decide (t.addr = a) && t.write

/-- What holds in the queues of a controller: an entry for a read is one of a pending read, and there is at most one for
an address; the same for writes. -/
structure Book (c : Cfg) (s : Ctrl) : Prop where
  cmds : ∀ i x, x ∈ s.queues i → i = queueIndex c x.addr ∧ ∃ w, x = toCommand c ⟨x.hex, w, 0⟩
  rq : ∀ t ∈ s.readQ, t.write = false
  wb : ∀ t ∈ s.writeBuf, t.write = true
  pr : ∀ t ∈ s.pendRd, t.write = false
  rd : ∀ a, rIn c s a ≤ nRd s a ∧ rIn c s a ≤ 1
  wr : ∀ a, wIn c s a ≤ nWr s a ∧ nWr s a ≤ 1

/-- Every pending transaction has an entry in a queue. -/
structure Full (c : Cfg) (s : Ctrl) : Prop where
  rd : ∀ a, 0 < nRd s a → 0 < rIn c s a
  wr : ∀ a, 0 < nWr s a → 0 < wIn c s a

theorem toCommand_hex (c : Cfg) (t : Trans) : (toCommand c t).hex = t.addr := rfl
theorem toCommand_addr (c : Cfg) (t : Trans) : (toCommand c t).addr = c.map t.addr := rfl
theorem toCommand_read (c : Cfg) (t : Trans) : (toCommand c t).cmd.isRead = !t.write := by
  unfold toCommand; cases c.closePage <;> cases t.write <;> rfl
theorem toCommand_write (c : Cfg) (t : Trans) : (toCommand c t).cmd.isWrite = t.write := by
  unfold toCommand; cases c.closePage <;> cases t.write <;> rfl
theorem toCommand_rw (c : Cfg) (t : Trans) : (toCommand c t).cmd.isRead ∨ (toCommand c t).cmd.isWrite := by
  rw [toCommand_read, toCommand_write]; cases t.write <;> simp

theorem Book.init (c : Cfg) : Book c .init := by
  constructor <;> simp [Ctrl.init, rIn, wIn, nRd, nWr]

theorem Full.init (c : Cfg) : Full c .init := by
  constructor <;> simp [Ctrl.init, rIn, wIn, nRd, nWr]

/-- Two states with the same queues and pending transactions. -/
structure SameBook (s s' : Ctrl) : Prop where
  queues : s'.queues = s.queues
  readQ : s'.readQ = s.readQ
  writeBuf : s'.writeBuf = s.writeBuf
  unifiedQ : s'.unifiedQ = s.unifiedQ
  pendRd : s'.pendRd = s.pendRd
  pendWr : s'.pendWr = s.pendWr

theorem SameBook.book {c : Cfg} {s s' : Ctrl} (h : SameBook s s') (hb : Book c s) : Book c s' := by
  obtain ⟨h1, h2, h3, h4, h5, h6⟩ := h
  obtain ⟨b1, b2, b3, b4, b5, b6⟩ := hb
  constructor <;> simp only [rIn, wIn, nRd, nWr, h1, h2, h3, h4, h5, h6] <;> assumption

theorem SameBook.full {c : Cfg} {s s' : Ctrl} (h : SameBook s s') (hb : Full c s) : Full c s' := by
  obtain ⟨h1, h2, h3, h4, h5, h6⟩ := h
  obtain ⟨b1, b2⟩ := hb
  constructor <;> simp only [rIn, wIn, nRd, nWr, h1, h2, h3, h4, h5, h6] <;> assumption

/-- A read of the address is pending and no queue knows it. -/
def Lost (c : Cfg) (s : Ctrl) (a : Nat) : Prop := 0 < nRd s a ∧ rIn c s a = 0

theorem SameBook.lost {c : Cfg} {s s' : Ctrl} (h : SameBook s s') {a : Nat} (hl : Lost c s a) : Lost c s' a := by
  obtain ⟨h1, h2, h3, h4, h5, h6⟩ := h
  simpa only [Lost, rIn, nRd, h1, h2, h3, h4, h5, h6] using hl

/-! ### a transaction arrives -/

theorem book_add {c : Cfg} {s : Ctrl} (hb : Book c s) (a : Nat) (w : Bool) : Book c (s.add c a w) := by
  cases w with
  | true =>
    by_cases h0 : (s.pendWr.countP fun x => x.addr = a) = 0
    · have hw := fun b => hb.wr b
      by_cases hu : c.unified
      · have hs : s.add c a true = { s with
            pendWr := s.pendWr ++ [⟨a, true, 0⟩], unifiedQ := s.unifiedQ ++ [⟨a, true, 0⟩]
            returnQ := s.returnQ ++ [⟨a, true, later s.sim.clk 1⟩] } := by simp [add, h0, hu]
        rw [hs]
        refine ⟨hb.cmds, hb.rq, hb.wb, hb.pr, fun b => ?_, fun b => ?_⟩
        · have := hb.rd b
          simpa [rIn, nRd] using this
        · have := hb.wr b
          simp only [wIn, nWr, List.countP_append, List.countP_cons, List.countP_nil] at this ⊢
          by_cases hab : a = b
          · subst hab; simp [-List.countP_eq_zero] at this ⊢; omega
          · simp [hab, -List.countP_eq_zero] at this ⊢; omega
      · have hs : s.add c a true = { s with
            pendWr := s.pendWr ++ [⟨a, true, 0⟩], writeBuf := s.writeBuf ++ [⟨a, true, 0⟩]
            returnQ := s.returnQ ++ [⟨a, true, later s.sim.clk 1⟩] } := by simp [add, h0, hu]
        rw [hs]
        refine ⟨hb.cmds, hb.rq, ?_, hb.pr, hb.rd, fun b => ?_⟩
        · intro t ht
          rcases List.mem_append.1 ht with h | h
          · exact hb.wb t h
          · rw [List.mem_singleton.1 h]
        · have := hb.wr b
          simp only [wIn, nWr, List.countP_append, List.countP_cons, List.countP_nil] at this ⊢
          by_cases hab : a = b
          · subst hab; simp [-List.countP_eq_zero] at this ⊢; omega
          · simp [hab, -List.countP_eq_zero] at this ⊢; omega
    · have hs : s.add c a true = { s with returnQ := s.returnQ ++ [⟨a, true, later s.sim.clk 1⟩] } := by
        simp [add, h0]
      rw [hs]; exact SameBook.book (s := s) ⟨rfl, rfl, rfl, rfl, rfl, rfl⟩ hb
  | false =>
    by_cases h0 : 0 < s.pendWr.countP fun x => x.addr = a
    · have hs : s.add c a false = { s with returnQ := s.returnQ ++ [⟨a, false, later s.sim.clk 1⟩] } := by
        simp only [add, Bool.false_eq_true, if_false, if_pos h0]
      rw [hs]; exact SameBook.book (s := s) ⟨rfl, rfl, rfl, rfl, rfl, rfl⟩ hb
    · have hpr : ∀ t ∈ s.pendRd ++ [(⟨a, false, 0⟩ : Trans)], t.write = false := by
        intro t ht
        rcases List.mem_append.1 ht with h | h
        · exact hb.pr t h
        · rw [List.mem_singleton.1 h]
      by_cases h1 : (s.pendRd.countP fun x => x.addr = a) = 0
      · have hc : ((s.pendRd ++ [(⟨a, false, 0⟩ : Trans)]).countP fun x => x.addr = a) = 1 := by
          simp [List.countP_append, h1]
        by_cases hu : c.unified
        · have hs : s.add c a false = { s with
              pendRd := s.pendRd ++ [⟨a, false, 0⟩], unifiedQ := s.unifiedQ ++ [⟨a, false, 0⟩] } := by
            simp only [add, Bool.false_eq_true, if_false, if_neg h0, hc, if_true, hu]
          rw [hs]
          refine ⟨hb.cmds, hb.rq, hb.wb, hpr, fun b => ?_, fun b => ?_⟩
          · have := hb.rd b
            simp only [rIn, nRd, List.countP_append, List.countP_cons, List.countP_nil] at this ⊢
            by_cases hab : a = b
            · subst hab; simp [-List.countP_eq_zero] at this h1 ⊢; omega
            · simp [hab, -List.countP_eq_zero] at this ⊢; omega
          · have := hb.wr b
            simpa [wIn, nWr] using this
        · have hs : s.add c a false = { s with
              pendRd := s.pendRd ++ [⟨a, false, 0⟩], readQ := s.readQ ++ [⟨a, false, 0⟩] } := by
            simp only [add, Bool.false_eq_true, if_false, if_neg h0, hc, if_true, hu]
          rw [hs]
          refine ⟨hb.cmds, ?_, hb.wb, hpr, fun b => ?_, hb.wr⟩
          · intro t ht
            rcases List.mem_append.1 ht with h | h
            · exact hb.rq t h
            · rw [List.mem_singleton.1 h]
          · have := hb.rd b
            simp only [rIn, nRd, List.countP_append, List.countP_cons, List.countP_nil] at this ⊢
            by_cases hab : a = b
            · subst hab; simp [-List.countP_eq_zero] at this h1 ⊢; omega
            · simp [hab, -List.countP_eq_zero] at this ⊢; omega
      · have hc : ((s.pendRd ++ [(⟨a, false, 0⟩ : Trans)]).countP fun x => x.addr = a) ≠ 1 := by
          simp [List.countP_append, h1]
        have hs : s.add c a false = { s with pendRd := s.pendRd ++ [⟨a, false, 0⟩] } := by
          simp only [add, Bool.false_eq_true, if_false, if_neg h0, if_neg hc]
        rw [hs]
        refine ⟨hb.cmds, hb.rq, hb.wb, hpr, fun b => ?_, hb.wr⟩
        have := hb.rd b
        simp only [rIn, nRd, List.countP_append, List.countP_cons, List.countP_nil] at this ⊢
        by_cases hab : a = b
        · subst hab; simp [-List.countP_eq_zero] at this ⊢; omega
        · simp [hab, -List.countP_eq_zero] at this ⊢; omega

theorem full_add {c : Cfg} {s : Ctrl} (hf : Full c s) (a : Nat) (w : Bool) : Full c (s.add c a w) := by
  cases w with
  | true =>
    by_cases h0 : (s.pendWr.countP fun x => x.addr = a) = 0
    · by_cases hu : c.unified
      · have hs : s.add c a true = { s with
            pendWr := s.pendWr ++ [⟨a, true, 0⟩], unifiedQ := s.unifiedQ ++ [⟨a, true, 0⟩]
            returnQ := s.returnQ ++ [⟨a, true, later s.sim.clk 1⟩] } := by simp [add, h0, hu]
        rw [hs]
        refine ⟨fun b h => ?_, fun b h => ?_⟩
        · have := hf.rd b h
          simpa [rIn] using this
        · by_cases hab : a = b
          · subst hab; simp [wIn, List.countP_append, -List.countP_pos_iff]; omega
          · have := hf.wr b (by simpa [nWr, List.countP_append, hab] using h)
            simp only [wIn, List.countP_append] at this ⊢
            omega
      · have hs : s.add c a true = { s with
            pendWr := s.pendWr ++ [⟨a, true, 0⟩], writeBuf := s.writeBuf ++ [⟨a, true, 0⟩]
            returnQ := s.returnQ ++ [⟨a, true, later s.sim.clk 1⟩] } := by simp [add, h0, hu]
        rw [hs]
        refine ⟨hf.rd, fun b h => ?_⟩
        by_cases hab : a = b
        · subst hab; simp [wIn, List.countP_append, -List.countP_pos_iff]; omega
        · have := hf.wr b (by simpa [nWr, List.countP_append, hab] using h)
          simp only [wIn, List.countP_append] at this ⊢
          omega
    · have hs : s.add c a true = { s with returnQ := s.returnQ ++ [⟨a, true, later s.sim.clk 1⟩] } := by
        simp [add, h0]
      rw [hs]; exact SameBook.full (s := s) ⟨rfl, rfl, rfl, rfl, rfl, rfl⟩ hf
  | false =>
    by_cases h0 : 0 < s.pendWr.countP fun x => x.addr = a
    · have hs : s.add c a false = { s with returnQ := s.returnQ ++ [⟨a, false, later s.sim.clk 1⟩] } := by
        simp only [add, Bool.false_eq_true, if_false, if_pos h0]
      rw [hs]; exact SameBook.full (s := s) ⟨rfl, rfl, rfl, rfl, rfl, rfl⟩ hf
    · by_cases h1 : (s.pendRd.countP fun x => x.addr = a) = 0
      · have hc : ((s.pendRd ++ [(⟨a, false, 0⟩ : Trans)]).countP fun x => x.addr = a) = 1 := by
          simp [List.countP_append, h1]
        by_cases hu : c.unified
        · have hs : s.add c a false = { s with
              pendRd := s.pendRd ++ [⟨a, false, 0⟩], unifiedQ := s.unifiedQ ++ [⟨a, false, 0⟩] } := by
            simp only [add, Bool.false_eq_true, if_false, if_neg h0, hc, if_true, hu]
          rw [hs]
          refine ⟨fun b h => ?_, fun b h => ?_⟩
          · by_cases hab : a = b
            · subst hab; simp [rIn, List.countP_append, -List.countP_pos_iff]; omega
            · have := hf.rd b (by simpa [nRd, List.countP_append, hab] using h)
              simp only [rIn, List.countP_append] at this ⊢
              omega
          · have := hf.wr b h
            simpa [wIn] using this
        · have hs : s.add c a false = { s with
              pendRd := s.pendRd ++ [⟨a, false, 0⟩], readQ := s.readQ ++ [⟨a, false, 0⟩] } := by
            simp only [add, Bool.false_eq_true, if_false, if_neg h0, hc, if_true, hu]
          rw [hs]
          refine ⟨fun b h => ?_, hf.wr⟩
          by_cases hab : a = b
          · subst hab; simp [rIn, List.countP_append]; omega
          · have := hf.rd b (by simpa [nRd, List.countP_append, hab] using h)
            simp only [rIn, List.countP_append] at this ⊢
            omega
      · have hc : ((s.pendRd ++ [(⟨a, false, 0⟩ : Trans)]).countP fun x => x.addr = a) ≠ 1 := by
          simp [List.countP_append, h1]
        have hs : s.add c a false = { s with pendRd := s.pendRd ++ [⟨a, false, 0⟩] } := by
          simp only [add, Bool.false_eq_true, if_false, if_neg h0, if_neg hc]
        rw [hs]
        refine ⟨fun b h => ?_, hf.wr⟩
        by_cases hab : a = b
        · subst hab; exact hf.rd a (by unfold nRd; omega)
        · exact hf.rd b (by simpa [nRd, List.countP_append, hab] using h)

/-! ### a transaction becomes a command -/

theorem pick_some {c : Cfg} {s : Ctrl} {l : List Trans} {t : Trans} {m : List Trans} (h : s.pick c l = some (t, m)) :
    ∃ l1 l2, l = l1 ++ t :: l2 ∧ m = l1 ++ l2 ∧ s.acceptsCommand c (toCommand c t).addr = true := by
  induction l generalizing m with
  | nil => cases h
  | cons x l ih =>
    simp only [pick] at h
    split at h
    · cases h; exact ⟨[], l, rfl, rfl, by assumption⟩
    · cases hp : s.pick c l with
      | none => rw [hp] at h; cases h
      | some y =>
        rw [hp] at h
        simp only [Option.map_some, Option.some.injEq, Prod.mk.injEq] at h
        obtain ⟨h1, h2⟩ := h
        obtain ⟨l1, l2, e1, e2, e3⟩ := ih (m := y.2) (by rw [hp, ← h1])
        exact ⟨x :: l1, l2, by rw [e1]; rfl, by rw [← h2, e2]; rfl, e3⟩

theorem addCommand_eq {c : Cfg} {s : Ctrl} {x : Command} (h : s.acceptsCommand c x.addr = true) :
    s.addCommand c x = { s with
      queues := fun j => if j = queueIndex c x.addr then s.queues (queueIndex c x.addr) ++ [x] else s.queues j
      used := fun r => if r = x.addr.rank then true else s.used r } := by
  have : (s.queues (queueIndex c x.addr)).length < c.queueSize := by simpa [acceptsCommand] using h
  simp [addCommand, this, setQueue]

/-- The number of entries of a list for an address when one is added. -/
theorem count_added {c : Cfg} {s : Ctrl} {t : Trans} {f : Command → Bool} (a : Nat) :
    ((if queueIndex c (c.map a) = queueIndex c (toCommand c t).addr then
        s.queues (queueIndex c (toCommand c t).addr) ++ [toCommand c t] else s.queues (queueIndex c (c.map a))).countP
          fun x => decide (x.hex = a) && f x) =
      ((s.queues (queueIndex c (c.map a))).countP fun x => decide (x.hex = a) && f x) +
        if t.addr = a then (if f (toCommand c t) then 1 else 0) else 0 := by
  by_cases hq : queueIndex c (c.map a) = queueIndex c (toCommand c t).addr
  · rw [if_pos hq, List.countP_append, ← hq]
    simp only [List.countP_cons, List.countP_nil, toCommand_hex, Nat.zero_add, Bool.and_eq_true]
    by_cases ha : t.addr = a
    · simp [ha]
    · simp [ha]
  · rw [if_neg hq]
    have : t.addr ≠ a := by rintro rfl; exact hq rfl
    simp [this]

theorem cmds_added {c : Cfg} {s : Ctrl} (hb : Book c s) (t : Trans) (i : Nat) (x : Command)
    (hx : x ∈ (if i = queueIndex c (toCommand c t).addr then
        s.queues (queueIndex c (toCommand c t).addr) ++ [toCommand c t] else s.queues i)) :
    i = queueIndex c x.addr ∧ ∃ w, x = toCommand c ⟨x.hex, w, 0⟩ := by
  split at hx
  · rename_i h
    rcases List.mem_append.1 hx with h' | h'
    · exact ⟨h.trans (hb.cmds _ _ h').1, (hb.cmds _ _ h').2⟩
    · rw [List.mem_singleton.1 h']; exact ⟨h, t.write, rfl⟩
  · exact hb.cmds _ _ hx

/-- A transaction has become a command, or nothing has changed. -/
structure Moved (c : Cfg) (s s' : Ctrl) : Prop where
  cmds : ∀ i x, x ∈ s'.queues i → i = queueIndex c x.addr ∧ ∃ w, x = toCommand c ⟨x.hex, w, 0⟩
  rq : ∀ t ∈ s'.readQ, t.write = false
  wb : ∀ t ∈ s'.writeBuf, t.write = true
  pr : s'.pendRd = s.pendRd
  pw : s'.pendWr = s.pendWr
  rd : ∀ a, rIn c s' a = rIn c s a
  wr : ∀ a, wIn c s' a = wIn c s a
  sim : s'.sim = s.sim
  ref : s'.ref = s.ref
  back : s'.returnQ = s.returnQ

theorem Moved.book {c : Cfg} {s s' : Ctrl} (h : Moved c s s') (hb : Book c s) : Book c s' :=
  ⟨h.cmds, h.rq, h.wb, h.pr ▸ hb.pr, fun a => by rw [h.rd]; unfold nRd; rw [h.pr]; exact hb.rd a,
    fun a => by rw [h.wr]; unfold nWr; rw [h.pw]; exact hb.wr a⟩

theorem Moved.full {c : Cfg} {s s' : Ctrl} (h : Moved c s s') (hf : Full c s) : Full c s' :=
  ⟨fun a => by rw [h.rd]; unfold nRd; rw [h.pr]; exact hf.rd a,
    fun a => by rw [h.wr]; unfold nWr; rw [h.pw]; exact hf.wr a⟩

theorem moved_schedule {c : Cfg} {s : Ctrl} (hb : Book c s) : Moved c s (s.schedule c) := by
  have key : ∀ s : Ctrl, Book c s → Moved c s (if c.unified then
      match s.pick c s.unifiedQ with
      | none => s
      | some (t, l) => { s.addCommand c (toCommand c t) with unifiedQ := l }
    else if 0 < s.draining then
      match s.pick c s.writeBuf with
      | none => s
      | some (t, l) =>
        if 0 < s.pendRd.countP fun x => x.addr = t.addr then { s with draining := 0 }
        else { s.addCommand c (toCommand c t) with writeBuf := l, draining := s.draining - 1 }
    else
      match s.pick c s.readQ with
      | none => s
      | some (t, l) => { s.addCommand c (toCommand c t) with readQ := l }) := by
    intro s hb
    have same : Moved c s s := ⟨hb.cmds, hb.rq, hb.wb, rfl, rfl, fun _ => rfl, fun _ => rfl, rfl, rfl, rfl⟩
    split
    · split
      · exact same
      · rename_i t m hp
        obtain ⟨l1, l2, e1, e2, e3⟩ := pick_some hp
        rw [addCommand_eq e3]
        refine ⟨cmds_added hb t, hb.rq, hb.wb, rfl, rfl, fun a => ?_, fun a => ?_, rfl, rfl, rfl⟩
        · simp only [rIn]
          rw [count_added, e1, e2]
          simp only [List.countP_append, List.countP_cons, toCommand_read]
          by_cases ha : t.addr = a <;> cases hw : t.write <;> simp [ha] <;> omega
        · simp only [wIn]
          rw [count_added, e1, e2]
          simp only [List.countP_append, List.countP_cons, toCommand_write]
          by_cases ha : t.addr = a <;> cases hw : t.write <;> simp [ha] <;> omega
    · split
      · split
        · exact same
        · rename_i t m hp
          split
          · exact ⟨hb.cmds, hb.rq, hb.wb, rfl, rfl, fun _ => rfl, fun _ => rfl, rfl, rfl, rfl⟩
          · obtain ⟨l1, l2, e1, e2, e3⟩ := pick_some hp
            have hw : t.write = true := hb.wb t (by rw [e1]; simp)
            rw [addCommand_eq e3]
            refine ⟨cmds_added hb t, hb.rq, fun x hx => hb.wb x ?_, rfl, rfl, fun a => ?_, fun a => ?_, rfl, rfl, rfl⟩
            · simp only [e2] at hx
              rw [e1]
              simp only [List.mem_append, List.mem_cons] at hx ⊢
              rcases hx with h | h <;> simp [h]
            · simp only [rIn]
              rw [count_added]
              simp only [toCommand_read, hw]
              by_cases ha : t.addr = a <;> simp [ha]
            · simp only [wIn]
              rw [count_added, e1, e2]
              simp only [List.countP_append, List.countP_cons, toCommand_write, hw]
              by_cases ha : t.addr = a <;> simp [ha]; omega
      · split
        · exact same
        · rename_i t m hp
          obtain ⟨l1, l2, e1, e2, e3⟩ := pick_some hp
          have hw : t.write = false := hb.rq t (by rw [e1]; simp)
          rw [addCommand_eq e3]
          refine ⟨cmds_added hb t, fun x hx => hb.rq x ?_, hb.wb, rfl, rfl, fun a => ?_, fun a => ?_, rfl, rfl, rfl⟩
          · simp only [e2] at hx
            rw [e1]
            simp only [List.mem_append, List.mem_cons] at hx ⊢
            rcases hx with h | h <;> simp [h]
          · simp only [rIn]
            rw [count_added, e1, e2]
            simp only [List.countP_append, List.countP_cons, toCommand_read, hw]
            by_cases ha : t.addr = a <;> simp [ha]; omega
          · simp only [wIn]
            rw [count_added]
            simp only [toCommand_write, hw]
            by_cases ha : t.addr = a <;> simp [ha]
  unfold schedule
  split
  · split
    · have := key { s with draining := s.writeBuf.length }
        (SameBook.book (s := s) ⟨rfl, rfl, rfl, rfl, rfl, rfl⟩ hb)
      exact ⟨this.cmds, this.rq, this.wb, this.pr, this.pw, this.rd, this.wr, this.sim, this.ref, this.back⟩
    · exact key _ hb
  · exact key _ hb

/-! ### a command is taken from a queue -/

/-- A command of a queue never ends the program. -/
theorem getReady_total {p : Times} {ch : Chan} {clk : Nat} {q : Command} (hq : q.cmd.isRead ∨ q.cmd.isWrite) :
    ∃ o, ch.getReady p q clk = .ok o := by
  cases hg : ch.getReady p q clk with
  | ok o => exact ⟨o, rfl⟩
  | error e =>
    exfalso
    have hr : q.cmd.isRank = false := by
      cases hc : q.cmd <;> simp [hc, Cmd.isRead, Cmd.isWrite] at hq <;> rfl
    unfold getReady at hg
    rw [if_neg (by simp [hr])] at hg
    simp only [bind, Except.bind, pure, Except.pure] at hg
    cases hb : (ch.bank q.addr.rank q.addr.group q.addr.bank).getReady q clk with
    | ok o => rw [hb] at hg; cases o <;> cases hg
    | error e =>
      have := Bank.getReady_error.1 hb
      generalize ch.bank q.addr.rank q.addr.group q.addr.bank = b at this
      cases hs : b.state <;> cases hc : q.cmd <;> simp [hc, Cmd.isRead, Cmd.isWrite] at hq <;>
        simp [Bank.required, hs, hc] at this

/-- What is known of a command `x` taken from the queues. -/
structure Took (c : Cfg) (s s' : Ctrl) (x : Command) : Prop where
  same : s' = { s with index := s'.index, queues := s'.queues }
  sub : ∀ i y, y ∈ s'.queues i → y ∈ s.queues i
  ready : ∃ q, Fits c.p q ∧ s.sim.chan.getReady c.p q s.sim.clk = .ok (some x)
  kind : x.cmd ≠ .refresh ∧ x.cmd ≠ .srefIn ∧ x.cmd ≠ .refBank
  rd : ∀ a, rIn c s a = rIn c s' a + if x.hex = a ∧ x.cmd.isRead then 1 else 0
  wr : ∀ a, wIn c s a = wIn c s' a + if x.hex = a ∧ x.cmd.isWrite then 1 else 0
  gone : (x.cmd.isRead ∨ x.cmd.isWrite) → ∃ i l1 l2, s.queues i = l1 ++ x :: l2 ∧
    (s'.queues = fun j => if j = i then l1 ++ l2 else s.queues j) ∧
    (x.cmd.isWrite → ∀ y ∈ l1, y.cmd.isRead → y.addr ≠ x.addr)
  stay : x.cmd.isRead = false → x.cmd.isWrite = false → s'.queues = s.queues
  free : s.inRef = true → s.refQs.contains (queueIndex c x.addr) = false

theorem count_eraseP {l : List Command} {f g : Command → Bool} {b : Bool} (h : ∃ y ∈ l, g y) (hf : ∀ y, g y → f y = b) :
    l.countP f = (l.eraseP g).countP f + if b then 1 else 0 := by
  obtain ⟨y, hy, hg⟩ := h
  obtain ⟨z, l1, l2, _, hz, e1, e2⟩ := List.exists_of_eraseP hy hg
  rw [e2, e1]
  simp only [List.countP_append, List.countP_cons, hf z hz]
  omega

theorem loop_spec {c : Cfg} (hm : ∀ a, Exists c.p (c.map a)) (n : Nat) {s : Ctrl} (hb : Book c s) :
    ∃ o s', getCommandLoop c n s = .ok (o, s') ∧
      match o with
      | none => s' = { s with index := s'.index }
      | some x => Took c s s' x := by
  induction n generalizing s with
  | zero => exact ⟨none, s, rfl, rfl⟩
  | succ n ih =>
    have hb1 : Book c (s.advance c) := SameBook.book (s := s) ⟨rfl, rfl, rfl, rfl, rfl, rfl⟩ hb
    have next : ∃ o s', getCommandLoop c n (s.advance c) = .ok (o, s') ∧
        match o with
        | none => s' = { s with index := s'.index }
        | some x => Took c s s' x := by
      obtain ⟨o, s', h1, h2⟩ := ih hb1
      refine ⟨o, s', h1, ?_⟩
      cases o with
      | none => exact h2
      | some x => exact ⟨h2.same, h2.sub, h2.ready, h2.kind, h2.rd, h2.wr, h2.gone, h2.stay, h2.free⟩
    simp only [getCommandLoop, bind, Except.bind, pure, Except.pure]
    split
    · exact next
    · rename_i hblk
      have hqs : ∀ q ∈ s.queues (s.advance c).index, q.cmd.isRead ∨ q.cmd.isWrite := by
        intro q hq
        obtain ⟨w, hw⟩ := (hb.cmds _ _ hq).2
        rw [hw]; exact toCommand_rw ..
      cases hf : firstReady c (s.advance c).sim.chan (s.advance c).sim.clk []
          ((s.advance c).queues (s.advance c).index) with
      | error e =>
        obtain ⟨q, hq, he⟩ := firstReady_error hf
        obtain ⟨o, ho⟩ := getReady_total (p := c.p) (ch := (s.advance c).sim.chan) (clk := (s.advance c).sim.clk)
          (hqs q hq)
        rw [ho] at he; cases he
      | ok o =>
        rw [lift_ok.2 rfl]
        cases o with
        | none => exact next
        | some x =>
          obtain ⟨q, hq, hx⟩ := firstReady_some hf
          have hrw := hqs q hq
          obtain ⟨h1, h2, h3, h4, h5, h6⟩ := getReady_shape hrw hx
          obtain ⟨hi, w, hw⟩ := hb.cmds _ _ hq
          have hqa : q.addr = c.map q.hex := by rw [hw]; rfl
          have hfree : s.inRef = true → s.refQs.contains (queueIndex c x.addr) = false := fun hin => by
            rw [h1, ← hi]
            have hin' : (s.advance c).inRef = true := hin
            rw [hin', Bool.true_and, Bool.not_eq_true] at hblk
            exact hblk
          have hfit : Fits c.p q := by
            have := hm q.hex
            rw [← hqa] at this
            exact ⟨this.1, fun _ => this⟩
          dsimp only
          split
          · rename_i hxrw
            have hxq : x = q := h3 (by simpa using hxrw)
            subst hxq
            have hany : ((s.advance c).queues (queueIndex c x.addr)).any
                (fun y => decide (x.hex = y.hex) && decide (x.cmd = y.cmd)) = true := by
              rw [List.any_eq_true]; exact ⟨x, hi ▸ hq, by simp⟩
            have he : (s.advance c).eraseRW c x = .ok ((s.advance c).setQueue (queueIndex c x.addr)
                (((s.advance c).queues (queueIndex c x.addr)).eraseP
                  (fun y => decide (x.hex = y.hex) && decide (x.cmd = y.cmd)))) := by
              unfold eraseRW
              dsimp only
              rw [if_pos hany]
            rw [he]
            refine ⟨some x, _, rfl, rfl, ?_, ⟨x, hfit, hx⟩, ⟨h4, h5, h6⟩, fun a => ?_, fun a => ?_, fun _ => ?_, ?_, hfree⟩
            · intro i y hy
              simp only [setQueue] at hy
              split at hy
              · rename_i h; rw [h]; exact List.mem_of_mem_eraseP hy
              · exact hy
            · have hcnt := count_eraseP (l := s.queues (queueIndex c x.addr))
                (g := fun y => decide (x.hex = y.hex) && decide (x.cmd = y.cmd))
                (f := fun y => decide (y.hex = a) && y.cmd.isRead) (b := decide (x.hex = a) && x.cmd.isRead)
                ⟨x, hi ▸ hq, by simp⟩ (by intro y hy; simp at hy; rw [hy.1, hy.2])
              simp only [rIn, setQueue, advance]
              by_cases ha : queueIndex c (c.map a) = queueIndex c x.addr
              · rw [if_pos ha, ha, hcnt]; simp; omega
              · have : x.hex ≠ a := by rintro rfl; exact ha (by rw [hqa])
                rw [if_neg ha]; simp [this]
            · have hcnt := count_eraseP (l := s.queues (queueIndex c x.addr))
                (g := fun y => decide (x.hex = y.hex) && decide (x.cmd = y.cmd))
                (f := fun y => decide (y.hex = a) && y.cmd.isWrite) (b := decide (x.hex = a) && x.cmd.isWrite)
                ⟨x, hi ▸ hq, by simp⟩ (by intro y hy; simp at hy; rw [hy.1, hy.2])
              simp only [wIn, setQueue, advance]
              by_cases ha : queueIndex c (c.map a) = queueIndex c x.addr
              · rw [if_pos ha, ha, hcnt]; simp; omega
              · have : x.hex ≠ a := by rintro rfl; exact ha (by rw [hqa])
                rw [if_neg ha]; simp [this]
            · obtain ⟨z, l1, l2, hl1, hz, e1, e2⟩ := List.exists_of_eraseP
                (p := fun y : Command => decide (x.hex = y.hex) && decide (x.cmd = y.cmd)) (hi ▸ hq) (by simp)
              have hzx : z = x := by
                simp only [Bool.and_eq_true, decide_eq_true_eq] at hz
                have hzm : z ∈ (s.advance c).queues (queueIndex c x.addr) := by rw [e1]; simp
                obtain ⟨-, w', hw'⟩ := hb.cmds _ _ hzm
                have hza : z.addr = c.map z.hex := by rw [hw']; rfl
                obtain ⟨zc, za, zh⟩ := z
                obtain ⟨xc, xa, xh⟩ := x
                dsimp only at hz hza hqa
                rw [Command.mk.injEq]
                exact ⟨hz.2.symm, by rw [hza, hqa, hz.1], hz.1.symm⟩
              subst hzx
              refine ⟨queueIndex c z.addr, l1, l2, e1, ?_, fun hzw y hy hyr hya => ?_⟩
              · have e2' : List.eraseP (fun y => decide (z.hex = y.hex) && decide (z.cmd = y.cmd))
                  ((s.advance c).queues (queueIndex c z.addr)) = l1 ++ l2 := e2
                rw [e2']
                rfl
              · obtain ⟨m1, u, m2, e3, hu, hd⟩ := firstReady_dep hf hzw
                have hum : u ∈ s.queues (s.advance c).index := by
                  have : u ∈ (s.advance c).queues (s.advance c).index := by rw [e3]; simp
                  exact this
                have huz : z = u := (getReady_shape (hqs u hum) hu).2.2.1 (.inr hzw)
                subst huz
                rw [hi] at e3
                have e4 : l1 ++ z :: l2 = m1 ++ z :: m2 := e1.symm.trans e3
                have hy1 : y ∈ m1 := by
                  rw [List.append_eq_append_iff] at e4
                  rcases e4 with ⟨as, h1, h2⟩ | ⟨as, h1, h2⟩
                  · rw [h1]; exact List.mem_append_left _ hy
                  · cases as with
                    | nil => simpa [h1] using hy
                    | cons b bs =>
                      simp only [List.cons_append, List.cons.injEq] at h2
                      exfalso
                      have := hl1 z (by rw [h1, ← h2.1]; simp)
                      simp at this
                exact hd y (by simpa using hy1) hyr hya
            · intro h1 h2
              rw [h1, h2] at hxrw; cases hxrw
          · rename_i hxrw
            simp only [Bool.or_eq_true, not_or, Bool.not_eq_true] at hxrw
            exact ⟨some x, _, rfl, rfl, fun _ _ h => h, ⟨q, hfit, hx⟩, ⟨h4, h5, h6⟩,
              fun a => by simp [hxrw.1]; rfl, fun a => by simp [hxrw.2]; rfl,
              fun h => by simp [hxrw.1, hxrw.2] at h, fun _ _ => rfl, hfree⟩

theorem Took.book {c : Cfg} {s s' : Ctrl} {x : Command} (h : Took c s s' x) (hb : Book c s) : Book c s' := by
  have e := h.same
  have hp : s'.pendRd = s.pendRd := by rw [e]
  have hw : s'.pendWr = s.pendWr := by rw [e]
  have hr : s'.readQ = s.readQ := by rw [e]
  have hwb : s'.writeBuf = s.writeBuf := by rw [e]
  refine ⟨fun i y hy => hb.cmds i y (h.sub i y hy), hr ▸ hb.rq, hwb ▸ hb.wb, hp ▸ hb.pr, fun a => ?_, fun a => ?_⟩
  · have := hb.rd a
    have := h.rd a
    unfold nRd at *; rw [hp]; omega
  · have := hb.wr a
    have := h.wr a
    unfold nWr at *; rw [hw]; omega

/-! ### a command is issued -/

theorem delay_refreshQ (ch : Chan) (clk : Nat) (f : Nat → Nat → Nat → Bool) (l : List (Cmd × Int)) :
    (ch.delay clk f l).refreshQ = ch.refreshQ := rfl

theorem rankState_refreshQ {ch ch' : Chan} {x : Command} {l : List (Nat × Nat)} (h : ch.rankState x l = .ok ch') :
    ch'.refreshQ = ch.refreshQ := by
  induction l generalizing ch with
  | nil => cases h; rfl
  | cons y l ih =>
    obtain ⟨j, k⟩ := y
    simp only [rankState, bind, Except.bind] at h
    cases hb : (ch.bank x.addr.rank j k).updateState x with
    | error e => rw [hb] at h; cases h
    | ok b => rw [hb] at h; exact ih (ch := ch.setBank x.addr.rank j k b) h

/-- Commands add nothing to the refresh queue. -/
theorem update_refreshQ {p : Times} {ch ch' : Chan} {x : Command} {clk : Nat} (h : ch.update p x clk = .ok ch') :
    ∀ r ∈ ch'.refreshQ, r ∈ ch.refreshQ := by
  simp only [update, bind, Except.bind, pure, Except.pure] at h
  cases hu : ch.updateState p x with
  | error e => rw [hu] at h; cases h
  | ok c1 =>
    rw [hu] at h
    cases h
    have h1 : (updateTiming p c1 x clk).refreshQ = c1.refreshQ := by
      unfold updateTiming; cases x.cmd <;> rfl
    rw [h1]
    unfold Chan.updateState at hu
    split at hu
    · simp only [bind, Except.bind, pure, Except.pure] at hu
      cases hr : ch.rankState x (places p) with
      | error e => rw [hr] at hu; cases hu
      | ok c2 =>
        rw [hr] at hu
        cases hu
        rw [← rankState_refreshQ hr]
        split
        · intro r hr; exact List.mem_of_mem_eraseP hr
        · exact fun _ h => h
        · exact fun _ h => h
    · simp only [bind, Except.bind, pure, Except.pure] at hu
      cases hb : (ch.bank x.addr.rank x.addr.group x.addr.bank).updateState x with
      | error e => rw [hb] at hu; cases hu
      | ok b =>
        rw [hb] at hu
        cases hu
        split
        · intro r hr; exact List.mem_of_mem_eraseP hr
        · exact fun _ h => h

/-- The commands that the refresh queue holds. -/
def isRef (k : Cmd) : Bool := k = .refresh || k = .refBank

/-- A refresh that is issued is the first of the queue. -/
def Next (ch : Chan) (x : Command) : Prop :=
  isRef x.cmd = true → ∃ r l, ch.refreshQ = r :: l ∧ r.cmd = x.cmd ∧ r.addr = x.addr

theorem update_queue {p : Times} {ch ch' : Chan} {x : Command} {clk : Nat} (h : ch.update p x clk = .ok ch')
    (hn : Next ch x) : ch'.refreshQ = if isRef x.cmd then ch.refreshQ.tail else ch.refreshQ := by
  simp only [update, bind, Except.bind, pure, Except.pure] at h
  cases hu : ch.updateState p x with
  | error e => rw [hu] at h; cases h
  | ok c1 =>
    rw [hu] at h
    cases h
    have h1 : (updateTiming p c1 x clk).refreshQ = c1.refreshQ := by
      unfold updateTiming; cases x.cmd <;> rfl
    rw [h1]
    unfold Chan.updateState at hu
    split at hu
    · rename_i hrk
      simp only [bind, Except.bind, pure, Except.pure] at hu
      cases hr : ch.rankState x (places p) with
      | error e => rw [hr] at hu; cases hu
      | ok c2 =>
        rw [hr] at hu
        cases hu
        have hq := rankState_refreshQ hr
        cases hx : x.cmd <;> simp only [hx, Cmd.isRank, Bool.false_eq_true] at hrk
        · obtain ⟨r, l, h2, -, h3⟩ := hn (by rw [hx]; rfl)
          simp [isRef, Chan.unqueue, hq, h2, h3]
        · simp [isRef, hq]
        · simp [isRef, hq]
    · rename_i hrk
      simp only [bind, Except.bind, pure, Except.pure] at hu
      cases hb : (ch.bank x.addr.rank x.addr.group x.addr.bank).updateState x with
      | error e => rw [hb] at hu; cases hu
      | ok b =>
        rw [hb] at hu
        cases hu
        split
        · rename_i hx
          obtain ⟨r, l, h2, -, h3⟩ := hn (by rw [hx]; rfl)
          simp [isRef, Chan.unqueue, hx, setBank, h2, h3, SameBank]
        · rename_i hx
          have : isRef x.cmd = false := by
            cases hc : x.cmd <;> simp [hc, Cmd.isRank] at hrk hx <;> rfl
          simp [this, setBank]

/-- The state after a command is issued. -/
def issued (c : Cfg) (s : Ctrl) (x : Command) (ch : Chan) : Ctrl :=
  { s with
    returnQ := s.returnQ ++ if x.cmd.isRead then
        (s.pendRd.filter fun t => t.addr = x.hex).map fun t => { t with complete := later s.sim.clk c.p.readDelay }
      else []
    pendRd := if x.cmd.isRead then s.pendRd.filter fun t => t.addr ≠ x.hex else s.pendRd
    pendWr := if x.cmd.isWrite then s.pendWr.eraseP fun t => t.addr = x.hex else s.pendWr
    sim := { s.sim with chan := ch, hist := ⟨s.sim.clk, x.cmd, x.addr⟩ :: s.sim.hist } }

theorem issue_spec {c : Cfg} {s : Ctrl} {q x : Command} (hr : Reach c.p s.sim) (hq : Fits c.p q)
    (hx : s.sim.chan.getReady c.p q s.sim.clk = .ok (some x)) (h1 : x.cmd.isRead → 0 < nRd s x.hex)
    (h2 : x.cmd.isWrite → 0 < nWr s x.hex) :
    ∃ ch, s.issue c x = .ok (issued c s x ch) ∧ Reach c.p (issued c s x ch).sim ∧
      (∀ r ∈ ch.refreshQ, r ∈ s.sim.chan.refreshQ) ∧ s.sim.chan.update c.p x s.sim.clk = .ok ch := by
  obtain ⟨ch, hu⟩ := hr.ready hq hx
  refine ⟨ch, ?_, hr.issue hq hx hu, update_refreshQ hu, hu⟩
  simp only [Ctrl.issue, bind, Except.bind, pure, Except.pure]
  by_cases hrd : x.cmd.isRead
  · have hw : x.cmd.isWrite = false := by cases hc : x.cmd <;> simp [hc, Cmd.isRead] at hrd <;> rfl
    have := h1 hrd
    unfold nRd at this
    rw [if_pos hrd, if_neg (by omega)]
    simp only [lift_ok.2 hu]
    simp [issued, hrd, hw]
  · rw [if_neg hrd]
    by_cases hw : x.cmd.isWrite
    · have := h2 hw
      unfold nWr at this
      have : s.pendWr.any (fun t => decide (t.addr = x.hex)) = true := by
        obtain ⟨t, ht, hta⟩ := List.countP_pos_iff.1 this
        exact List.any_eq_true.2 ⟨t, ht, hta⟩
      rw [if_pos hw, if_pos this]
      simp only [lift_ok.2 hu]
      simp [issued, hrd, hw]
    · rw [if_neg hw]
      simp only [lift_ok.2 hu]
      simp [issued, hrd, hw]

theorem issued_nRd {c : Cfg} {s : Ctrl} {x : Command} {ch : Chan} (a : Nat) :
    nRd (issued c s x ch) a = if x.cmd.isRead ∧ x.hex = a then 0 else nRd s a := by
  unfold nRd issued
  by_cases hr : x.cmd.isRead
  · simp only [hr, if_true, true_and, List.countP_filter]
    split
    · rename_i h
      subst h
      rw [List.countP_eq_zero]
      intro t _
      simp
    · rename_i h
      apply List.countP_congr
      intro t _
      simp only [Bool.and_eq_true, decide_eq_true_eq, and_iff_left_iff_imp]
      rintro rfl h'
      exact h h'.symm
  · simp [hr]

theorem issued_nWr {c : Cfg} {s : Ctrl} {x : Command} {ch : Chan} (hx : x.cmd.isWrite → 0 < nWr s x.hex) (a : Nat) :
    nWr s a = nWr (issued c s x ch) a + if x.hex = a ∧ x.cmd.isWrite then 1 else 0 := by
  unfold nWr issued
  by_cases hw : x.cmd.isWrite
  · obtain ⟨t, ht, hta⟩ := List.countP_pos_iff.1 (hx hw)
    obtain ⟨z, l1, l2, _, hz, e1, e2⟩ := List.exists_of_eraseP (p := fun t : Trans => decide (t.addr = x.hex)) ht hta
    simp only [hw, if_true, and_true]
    rw [e2, e1]
    simp only [List.countP_append, List.countP_cons]
    simp only [decide_eq_true_eq] at hz
    rw [hz]
    simp only [decide_eq_true_eq]
    omega
  · simp [hw]

/-- A command taken and issued. -/
theorem Took.issued {c : Cfg} {s s' : Ctrl} {x : Command} {ch : Chan} (h : Took c s s' x) (hb : Book c s) :
    (x.cmd.isRead → 0 < nRd s' x.hex) ∧ (x.cmd.isWrite → 0 < nWr s' x.hex) ∧ Book c (issued c s' x ch) ∧
      (Full c s → Full c (DramSim.issued c s' x ch)) := by
  have e := h.same
  have hp : ∀ a, nRd s' a = nRd s a := by intro a; unfold nRd; rw [e]
  have hw : ∀ a, nWr s' a = nWr s a := by intro a; unfold nWr; rw [e]
  have h1 : x.cmd.isRead → 0 < nRd s' x.hex := by
    intro hr
    have := hb.rd x.hex
    have h' := h.rd x.hex
    rw [if_pos ⟨rfl, hr⟩] at h'
    rw [hp]; omega
  have h2 : x.cmd.isWrite → 0 < nWr s' x.hex := by
    intro hr
    have := hb.wr x.hex
    have h' := h.wr x.hex
    rw [if_pos ⟨rfl, hr⟩] at h'
    rw [hw]; omega
  have hb' := h.book hb
  refine ⟨h1, h2, ⟨hb'.cmds, hb'.rq, hb'.wb, ?_, fun a => ?_, fun a => ?_⟩, fun hf => ⟨fun a ha => ?_, fun a ha => ?_⟩⟩
  · intro t ht
    simp only [DramSim.issued] at ht
    split at ht
    · exact hb'.pr t (List.mem_of_mem_filter ht)
    · exact hb'.pr t ht
  · have h3 := hb.rd a
    have h4 := h.rd a
    have h5 := hp a
    rw [issued_nRd]
    change rIn c s' a ≤ _ ∧ rIn c s' a ≤ _
    split
    · rename_i hc
      rw [if_pos ⟨hc.2, hc.1⟩] at h4
      omega
    · omega
  · have h3 := hb.wr a
    have h4 := h.wr a
    have h5 := hw a
    have h6 := issued_nWr (c := c) (ch := ch) h2 a
    change wIn c s' a ≤ _ ∧ _
    omega
  · rw [issued_nRd] at ha
    have h4 := h.rd a
    have h5 := hp a
    change 0 < rIn c s' a
    split at ha
    · omega
    · rename_i hc
      rw [if_neg (fun h => hc ⟨h.2, h.1⟩)] at h4
      have := hf.rd a (by omega)
      omega
  · have h3 := hb.wr a
    have h4 := h.wr a
    have h5 := hw a
    have h6 := issued_nWr (c := c) (ch := ch) h2 a
    change 0 < wIn c s' a
    by_cases hc : x.hex = a ∧ x.cmd.isWrite
    · rw [if_pos hc] at h4 h6
      omega
    · rw [if_neg hc] at h4
      have := hf.wr a (by omega)
      omega

end RadSim.DramSim
