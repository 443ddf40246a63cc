import Verif.Lemmas.DramWrites

/-! # C50, C85, C86: the transactions of a DRAM channel -/

namespace RadSim.DramSim

open Chan

/-! ## how a run can end -/

/-- **C50.** No sequence of transactions and cycles makes the bookkeeping fail (`exit(1)`); the program ends only by an
abort with self-refresh, or by a division by the refresh interval when this is zero. -/
theorem C50_no_exit (c : Cfg) (hm : ∀ a, Exists c.p (c.map a)) (l : List Use) (e : Fault)
    (h : Mem.init.exec c l = .error e) :
    (e = .abort ∧ c.selfRefresh = true) ∨ (e = .divide ∧ (c.interval % 18446744073709551616) = 0) := by
  rcases exec_spec hm (MInv.init hm) l with ⟨m, e', -⟩ | ⟨e', he, h1 | h1⟩
  · rw [e'] at h; cases h
  · rw [he] at h; cases h; exact .inl h1
  · rw [he] at h
    cases h
    refine .inr ⟨h1.1, ?_⟩
    have := h1.2
    unfold later at this
    omega

/-- **C50.** Without self-refresh and with a sensible refresh interval every sequence runs to its end. -/
theorem C50_runs (c : Cfg) (hm : ∀ a, Exists c.p (c.map a)) (hs : c.selfRefresh = false)
    (hi : 0 < c.interval ∧ c.interval < 18446744073709551616) (l : List Use) : ∃ m, Mem.init.exec c l = .ok m := by
  cases h : Mem.init.exec c l with
  | ok m => exact ⟨m, rfl⟩
  | error e =>
    rcases C50_no_exit c hm l e h with ⟨-, h1⟩ | ⟨-, h1⟩
    · rw [hs] at h1; cases h1
    · omega

theorem ran {c : Cfg} (hm : ∀ a, Exists c.p (c.map a)) {l : List Use} {m : Mem} (h : Mem.init.exec c l = .ok m) :
    Ran c .init m (l.count .tick) := by
  rcases exec_spec hm (MInv.init hm) l with ⟨m', e', hr, -⟩ | ⟨e', he, -⟩
  · rw [e'] at h; cases h; exact hr
  · rw [he] at h; cases h

theorem queueIndex_lt {c : Cfg} {a : Addr} (h : Exists c.p a) :
    Ctrl.queueIndex c a < c.p.ranks * (c.p.groups * c.p.banksPerGroup) := by
  obtain ⟨h1, h2, h3⟩ := h
  have hp : a.group * c.p.banksPerGroup + a.bank < c.p.groups * c.p.banksPerGroup :=
    calc a.group * c.p.banksPerGroup + a.bank < (a.group + 1) * c.p.banksPerGroup := by
          rw [Nat.add_one_mul]; omega
      _ ≤ _ := Nat.mul_le_mul_right _ h2
  have hq : a.rank * (c.p.groups * c.p.banksPerGroup) + (c.p.groups * c.p.banksPerGroup) ≤
      c.p.ranks * (c.p.groups * c.p.banksPerGroup) := by
    rw [← Nat.add_one_mul]; exact Nat.mul_le_mul_right _ h1
  unfold Ctrl.queueIndex Ctrl.banks
  split
  · have : a.rank * 1 ≤ a.rank * (c.p.groups * c.p.banksPerGroup) := Nat.mul_le_mul_left _ (by omega)
    omega
  · omega

/-! ## every transaction once -/

/-- **C50.** Nothing is returned that was not accepted, and nothing twice: for every address, no more reads and no more
writes are returned than were accepted. -/
theorem C50_at_most_once (c : Cfg) (hm : ∀ a, Exists c.p (c.map a)) (l : List Use) (m : Mem)
    (h : Mem.init.exec c l = .ok m) (x : Nat × Bool) : m.returned.count x ≤ m.accepted.count x := by
  have := (ran hm h).inv.sum x.1 x.2
  exact Nat.le.intro this.symm

/-- **C50.** A write is returned in the second cycle after it was accepted, whatever happens in between. -/
theorem C50_writes_returned (c : Cfg) (hm : ∀ a, Exists c.p (c.map a)) (l l' : List Use) (m m' : Mem)
    (h : Mem.init.exec c l = .ok m) (h' : m.exec c l' = .ok m') (hl : 2 ≤ l'.count .tick) (a : Nat) :
    m.accepted.count (a, true) ≤ m'.returned.count (a, true) := by
  have hi := (ran hm h).inv
  rcases exec_spec hm hi l' with ⟨m2, e2, hr, hd⟩ | ⟨e2, he, -⟩
  · rw [e2] at h'
    cases h'
    have := hd a true (m.ctrl.sim.clk + 1) (by omega) (by omega)
    refine Nat.le_trans ?_ this
    rw [hi.sum a true]
    unfold due owed
    simp only [if_true, Nat.add_zero, Nat.add_le_add_iff_left]
    apply List.countP_mono_left
    intro t ht htw
    simp only [Bool.and_eq_true, decide_eq_true_eq] at htw ⊢
    exact ⟨htw, hi.soon t ht htw.2⟩
  · rw [he] at h'; cases h'

/-- **C50** (partial: not for a channel that issues two commands in a cycle and has more than one rank or a short write
latency; see `C50_read_lost_violated`). When the queues are empty, exactly the accepted transactions have been
returned, those of the same address as often as they were accepted. -/
theorem C50_all_returned_partial (c : Cfg) (hm : ∀ a, Exists c.p (c.map a))
    (l : List Use) (m : Mem) (h : Mem.init.exec c l = .ok m)
    (hc : c.dual = false ∨ (Separate c.p ∧ l.count .tick < 9223372036854775808))
    (hq : ∀ i < c.p.ranks * (c.p.groups * c.p.banksPerGroup), m.ctrl.queues i = []) (hr : m.ctrl.readQ = []) (hu : m.ctrl.unifiedQ = [])
    (hd : m.ctrl.returnQ = []) : m.returned.Perm m.accepted := by
  have hran := ran hm h
  have hclk : m.ctrl.sim.clk = l.count .tick := by rw [hran.clk]; exact Nat.zero_add _
  have hfull : Full c m.ctrl := hran.full (by unfold Clean; rw [hclk]; exact hc) (Full.init c)
  rw [List.perm_iff_count]
  intro x
  have hs := hran.inv.sum x.1 x.2
  have : owed m.ctrl x.1 x.2 = 0 := by
    unfold owed
    rw [hd, List.countP_nil, Nat.zero_add]
    split
    · rfl
    · by_contra hne
      have := hfull.rd x.1 (by omega)
      unfold rIn at this
      rw [hq _ (queueIndex_lt (hm x.1)), hr, hu] at this
      simp at this
  rw [this, Nat.add_zero] at hs
  exact hs.symm

/-! ## the order -/

/-- **C86.** Writes are returned in the order in which they were accepted (both lists are newest first). -/
theorem C86_writes_in_order (c : Cfg) (hm : ∀ a, Exists c.p (c.map a)) (l : List Use) (m : Mem)
    (h : Mem.init.exec c l = .ok m) (hl : l.count .tick < 18446744073709551615) :
    m.returned.filter (·.2) <:+ m.accepted.filter (·.2) := by
  have hran := ran hm h
  have hclk : m.ctrl.sim.clk = l.count .tick := by rw [hran.clk]; exact Nat.zero_add _
  have hw := worder hm (MInv.init hm) WOrd.init h (by omega)
  rw [← List.reverse_prefix, hw.order]
  exact List.prefix_append ..

/-- **C85.** A read of an address with a write that waits is answered from the write buffer, in the second cycle. -/
theorem C85_read_of_waiting_write (c : Cfg) (hm : ∀ a, Exists c.p (c.map a)) (l l' : List Use) (m m' : Mem)
    (h : Mem.init.exec c l = .ok m) (a : Nat) (hacc : m.ctrl.accepts c false = true)
    (hw : ∃ t ∈ m.ctrl.pendWr, t.addr = a) (h' : m.exec c (.offer a false :: l') = .ok m')
    (hl : 2 ≤ l'.count .tick) : m.returned.count (a, false) < m'.returned.count (a, false) := by
  have hi := (ran hm h).inv
  simp only [Mem.exec, bind, Except.bind, Mem.step, hacc, if_true] at h'
  have hpos : 0 < m.ctrl.pendWr.countP fun x => x.addr = a := by
    obtain ⟨t, ht, hta⟩ := hw
    exact List.countP_pos_iff.2 ⟨t, ht, by simp [hta]⟩
  have hadd : m.ctrl.add c a false = { m.ctrl with returnQ := m.ctrl.returnQ ++ [⟨a, false, later m.ctrl.sim.clk 1⟩] } := by
    unfold Ctrl.add
    simp only [Bool.false_eq_true, if_false]
    rw [if_pos hpos]
  rcases step_spec hm hi (.offer a false) with ⟨m1, e1, hr1, -⟩ | ⟨e, he, -⟩
  · simp only [Mem.step, hacc, if_true, Except.ok.injEq] at e1
    rcases exec_spec hm hr1.inv l' with ⟨m2, e2, hr, hd⟩ | ⟨e2, he, -⟩
    · rw [e1, e2] at h'
      cases h'
      have hc1 : m1.ctrl.sim.clk = m.ctrl.sim.clk := by rw [← e1]; dsimp only; rw [hadd]
      have := hd a false (m.ctrl.sim.clk + 1) (by omega) (by omega)
      refine Nat.lt_of_lt_of_le ?_ this
      unfold due
      rw [← e1]
      dsimp only
      rw [hadd]
      dsimp only
      rw [List.countP_append]
      have : (List.countP (fun t : Trans => (decide (t.addr = a) && decide (t.write = false)) &&
          decide (t.complete ≤ m.ctrl.sim.clk + 1)) [⟨a, false, later m.ctrl.sim.clk 1⟩]) = 1 := by
        simp [later_one]
      omega
    · rw [e1, he] at h'; cases h'
  · simp only [Mem.step] at he; cases he

/-- **C85** (partial: not for channels that issue two commands in a cycle, as above, and only when the place is written
through one address). A write never overtakes an earlier read of the same address: of the commands issued after the
read was accepted, every write of its place comes behind a read of this place. -/
theorem C85_write_behind_read_partial (c : Cfg) (hm : ∀ a, Exists c.p (c.map a)) (l l' : List Use) (m m' : Mem)
    (h : Mem.init.exec c l = .ok m) (a : Nat) (hacc : m.ctrl.accepts c false = true)
    (hw : ∀ t ∈ m.ctrl.pendWr, t.addr ≠ a) (h' : m.exec c (.offer a false :: l') = .ok m')
    (hc : c.dual = false ∨ (Separate c.p ∧ (l ++ l').count .tick < 9223372036854775808))
    (hone : ∀ b, (b, true) ∈ m'.accepted → c.map b = c.map a → b = a)
    (u v : List Event) (e : Event) (hh : m'.ctrl.sim.hist = u ++ e :: v ++ m.ctrl.sim.hist) (hew : e.cmd.isWrite)
    (hea : e.addr = c.map a) : ∃ r ∈ v, r.cmd.isRead ∧ r.addr = c.map a := by
  have hran := ran hm h
  have hi := hran.inv
  have hclk : m.ctrl.sim.clk = l.count .tick := by rw [hran.clk]; exact Nat.zero_add _
  rcases step_spec hm hi (.offer a false) with ⟨m1, e1, hr1, -⟩ | ⟨e, he, -⟩
  · rcases exec_spec hm hr1.inv l' with ⟨m2, e2, hr, -⟩ | ⟨e2, he, -⟩
    · simp only [Mem.exec, bind, Except.bind] at h'
      rw [e1] at h'
      dsimp only at h'
      rw [e2] at h'
      cases h'
      simp only [Mem.step, hacc, if_true, Except.ok.injEq] at e1
      have hsim : m1.ctrl.sim = m.ctrl.sim := by rw [← e1]; exact (add_sim c m.ctrl a false).1
      have hn0 : ¬ 0 < m.ctrl.pendWr.countP fun x => x.addr = a := by
        rw [List.countP_pos_iff]
        rintro ⟨t, ht, hta⟩
        exact hw t ht (by simpa using hta)
      have hn : 0 < nRd m1.ctrl a := by
        rw [← e1]
        dsimp only
        unfold Ctrl.add nRd
        simp only [Bool.false_eq_true, if_false]
        rw [if_neg hn0]
        split
        · split <;> simp [List.countP_append]
        · simp [List.countP_append]
      have hcl : Clean c m'.ctrl := by
        unfold Clean
        rw [hr.clk, hsim, hclk, ← List.count_append]
        exact hc
      have hcl1 := hr.clean hcl
      have hcl0 := hr1.clean hcl1
      have hf := hran.full hcl0 (Full.init c)
      have ho := hran.ord hcl0 (Full.init c) (Ord.init c)
      obtain ⟨new, hnew, hb⟩ := hr.hist
      have hbef := (hb a hn).2 hcl (hr1.full hcl1 hf) (hr1.ord hcl1 hf ho) hone
      rw [hnew, hsim] at hh
      have hnn : new = u ++ e :: v := by simpa using List.append_cancel_right hh
      exact hbef u e v hnn ⟨hew, hea⟩
    · simp only [Mem.exec, bind, Except.bind] at h'
      rw [e1] at h'
      dsimp only at h'
      rw [he] at h'; cases h'
  · simp only [Mem.step] at he; cases he

/-! ## the commands -/

/-- **C48.** The commands that a controller issues obey the state diagram. -/
theorem C48_controller_legal (c : Cfg) (hm : ∀ a, Exists c.p (c.map a)) (l : List Use) (m : Mem)
    (h : Mem.init.exec c l = .ok m) : Legal m.ctrl.sim.hist := by
  obtain ⟨ops, h1, h2⟩ := (ran hm h).inv.run.reach
  exact C48_legal c.p ops h1 _ h2

/-- **C48** (partial: the distances of `Rule`). The commands that a controller issues keep their distances, and no two
of them use the data bus at the same time. -/
theorem C48_controller_spaced_partial (c : Cfg) (hm : ∀ a, Exists c.p (c.map a)) (hp : Sane c.p) (l : List Use) (m : Mem)
    (h : Mem.init.exec c l = .ok m) (hl : l.count .tick < 9223372036854775808) :
    Spaced (Rule c.p) m.ctrl.sim.hist ∧
      (c.p.CL + c.p.tRTRS ≤ c.p.CWL + c.p.AL + c.p.tRTP + c.p.tRP + c.p.toWrite → BusFree c.p m.ctrl.sim.hist) := by
  have hran := ran hm h
  have hclk : m.ctrl.sim.clk = l.count .tick := by rw [hran.clk]; exact Nat.zero_add _
  obtain ⟨ops, h1, h2⟩ := hran.inv.run.reach
  exact ⟨C48_spaced_partial c.p hp ops h1 _ h2 (by omega), fun hb => C48_bus c.p hp ops h1 _ h2 (by omega) hb⟩

/-- **C49.** Any five activations of a rank in a row that a controller issues span at least `tFAW` cycles. -/
theorem C49_controller_activations (c : Cfg) (hm : ∀ a, Exists c.p (c.map a)) (hp : Sane c.p) (l : List Use) (m : Mem)
    (h : Mem.init.exec c l = .ok m) (hl : l.count .tick < 9223372036854775808) :
    Window 4 c.p.tFAW m.ctrl.sim.hist := by
  have hran := ran hm h
  have hclk : m.ctrl.sim.clk = l.count .tick := by rw [hran.clk]; exact Nat.zero_add _
  obtain ⟨ops, h1, h2⟩ := hran.inv.run.reach
  exact C49_four_activations c.p hp ops h1 _ h2 (by omega)

namespace Example

/-- The address fields of `rad-sim/sim/dram/DRAMsim3/configs/DDR4_8Gb_x8_2400.ini` (`rochrababgco`, one channel). -/
def ddr4Map (hex : Nat) : Addr :=
  let h := hex / 64
  ⟨h / 2048 % 2, h / 128 % 4, h / 512 % 4, h / 4096 % 65536, h % 128⟩

/-- The address fields of `rad-sim/sim/dram/DRAMsim3/configs/HBM2_8Gb_x128.ini` (`rorabgbachco`, eight channels). -/
def hbm2Map (hex : Nat) : Addr :=
  let h := hex / 64
  ⟨h / 2048 % 2, h / 512 % 4, h / 128 % 4, h / 4096 % 32768, h % 16⟩

/-- A channel as in `rad-sim/sim/dram/DRAMsim3/configs/DDR4_8Gb_x8_2400.ini`. -/
def ddr4Cfg : Cfg :=
  { p := ddr4, map := ddr4Map, perRank := false, closePage := false, queueSize := 8, transSize := 32, unified := false,
    dual := false, policy := .staggered, selfRefresh := false, threshold := 1000 }

/-- A channel as in `rad-sim/sim/dram/DRAMsim3/configs/HBM2_8Gb_x128.ini`. -/
def hbm2Cfg : Cfg :=
  { p := hbm2, map := hbm2Map, perRank := false, closePage := false, queueSize := 8, transSize := 32, unified := false,
    dual := true, policy := .staggered, selfRefresh := false, threshold := 1000 }

theorem ddr4_exists (a : Nat) : Exists ddr4Cfg.p (ddr4Cfg.map a) :=
  ⟨Nat.mod_lt _ (by decide), Nat.mod_lt _ (by decide), Nat.mod_lt _ (by decide)⟩

theorem hbm2_exists (a : Nat) : Exists hbm2Cfg.p (hbm2Cfg.map a) :=
  ⟨Nat.mod_lt _ (by decide), Nat.mod_lt _ (by decide), Nat.mod_lt _ (by decide)⟩

/-- A check of the state at the end of a run. -/
def check (c : Cfg) (l : List Use) (f : Mem → Bool) : Bool :=
  match Mem.init.exec c l with
  | .ok m => f m
  | .error _ => false

theorem of_check {c : Cfg} {l : List Use} {f : Mem → Bool} (h : check c l f = true) :
    ∃ m, Mem.init.exec c l = .ok m ∧ f m = true := by
  unfold check at h
  cases hx : Mem.init.exec c l with
  | error e => rw [hx] at h; cases h
  | ok m => rw [hx] at h; exact ⟨m, rfl, h⟩

/-- The way in which a run ends. -/
def stopOf (c : Cfg) (l : List Use) : Option Fault :=
  match Mem.init.exec c l with
  | .ok _ => none
  | .error e => some e

theorem of_stop {c : Cfg} {l : List Use} {e : Fault} (h : stopOf c l = some e) : Mem.init.exec c l = .error e := by
  unfold stopOf at h
  cases hx : Mem.init.exec c l with
  | error e' => rw [hx] at h; cases h; rfl
  | ok m => rw [hx] at h; cases h

/-- All the queues are empty. -/
def quiet (m : Mem) : Bool :=
  (List.range 32).all (fun i => (m.ctrl.queues i).isEmpty) && m.ctrl.readQ.isEmpty && m.ctrl.unifiedQ.isEmpty &&
    m.ctrl.returnQ.isEmpty

theorem quiet_spec {m : Mem} (h : quiet m = true) : (∀ i < 32, m.ctrl.queues i = []) ∧ m.ctrl.readQ = [] ∧
    m.ctrl.unifiedQ = [] ∧ m.ctrl.returnQ = [] := by
  unfold quiet at h
  simp only [Bool.and_eq_true, List.all_eq_true, List.mem_range, List.isEmpty_iff] at h
  exact ⟨h.1.1.1, h.1.1.2, h.1.2, h.2⟩

/-- Reads and writes of a few addresses, some of them of the same one, and then time. -/
def some7 : List Use :=
  [.tick, .offer 0 false, .tick, .offer 4096 true, .tick, .offer 4096 false, .tick, .offer 0 true, .tick,
   .offer 0 false, .tick, .offer 64 false, .offer 262144 false] ++ List.replicate 92 .tick

theorem some7_check : check ddr4Cfg some7 (fun m => quiet m &&
    m.returned = [(262144, false), (64, false), (0, false), (0, false), (0, true), (4096, false), (4096, true)] &&
    m.accepted = [(262144, false), (64, false), (0, false), (0, true), (4096, false), (4096, true), (0, false)] &&
    m.ctrl.sim.hist.map (fun e => (e.time, e.cmd, e.addr.row)) =
      [(75, .read, 1), (58, .act, 1), (41, .pre, 1), (25, .read, 0), (19, .read, 0), (2, .act, 0)]) = true := by
  decide +kernel

/-- Everything is returned. -/
example : ∃ m, Mem.init.exec ddr4Cfg some7 = .ok m ∧ m.accepted.length = 7 ∧ m.returned.Perm m.accepted ∧
    m.returned.filter (·.2) <:+ m.accepted.filter (·.2) ∧ Legal m.ctrl.sim.hist ∧
    Spaced (Rule ddr4) m.ctrl.sim.hist ∧ BusFree ddr4 m.ctrl.sim.hist ∧ Window 4 26 m.ctrl.sim.hist := by
  obtain ⟨m, h, hc⟩ := of_check some7_check
  simp only [Bool.and_eq_true, decide_eq_true_eq] at hc
  obtain ⟨⟨⟨h1, h2⟩, h3⟩, h4⟩ := hc
  obtain ⟨q1, q2, q3, q4⟩ := quiet_spec h1
  have hl : some7.count .tick = 98 := by decide +kernel
  have hsp := C48_controller_spaced_partial ddr4Cfg ddr4_exists sane_ddr4 _ m h (by omega)
  exact ⟨m, h, by rw [h3]; rfl, C50_all_returned_partial ddr4Cfg ddr4_exists _ m h (.inl rfl) q1 q2 q3 q4,
    C86_writes_in_order ddr4Cfg ddr4_exists _ m h (by omega), C48_controller_legal ddr4Cfg ddr4_exists _ m h,
    hsp.1, hsp.2 (by decide), C49_controller_activations ddr4Cfg ddr4_exists sane_ddr4 _ m h (by omega)⟩

example : ∃ m, Mem.init.exec ddr4Cfg some7 = .ok m :=
  C50_runs ddr4Cfg ddr4_exists rfl (by decide) some7

/-- Four transactions; two cycles later the writes are returned, and the read of a waiting write too. -/
example : ∃ m m', Mem.init.exec ddr4Cfg [.tick, .offer 0 false, .tick, .offer 4096 true, .offer 0 true] = .ok m ∧
    m.exec ddr4Cfg [.offer 4096 false, .tick, .tick] = .ok m' ∧ m.accepted.count (4096, true) = 1 ∧
    1 ≤ m'.returned.count (4096, true) ∧ 0 < m'.returned.count (4096, false) ∧ m'.ctrl.sim.hist.length = 1 := by
  have h : check ddr4Cfg [.tick, .offer 0 false, .tick, .offer 4096 true, .offer 0 true] (fun m =>
      m.ctrl.accepts ddr4Cfg false && m.accepted.count (4096, true) = 1 && m.returned.count (4096, false) = 0 &&
      m.ctrl.pendWr.any (fun t => t.addr = 4096) &&
      (match m.exec ddr4Cfg [.offer 4096 false, .tick, .tick] with
        | .ok m' => m'.ctrl.sim.hist.length = 1 | .error _ => false)) = true := by decide +kernel
  obtain ⟨m, h1, h2⟩ := of_check h
  simp only [Bool.and_eq_true, decide_eq_true_eq, List.any_eq_true] at h2
  obtain ⟨⟨⟨⟨h3, h4⟩, h5⟩, h6⟩, h7⟩ := h2
  cases hx : m.exec ddr4Cfg [.offer 4096 false, .tick, .tick] with
  | error e => rw [hx] at h7; cases h7
  | ok m' =>
    rw [hx] at h7
    refine ⟨m, m', h1, hx, h4, ?_, ?_, by simpa using h7⟩
    · rw [← h4]
      exact C50_writes_returned ddr4Cfg ddr4_exists _ _ m m' h1 hx (by decide) 4096
    · have := C85_read_of_waiting_write ddr4Cfg ddr4_exists _ [.tick, .tick] m m' h1 4096 h3 h6 hx (by decide)
      omega

/-- Behind a read of address 0: a write of the same address, and eight other writes. -/
def post : List Use :=
  [.offer 0 true] ++ ((List.range 8).flatMap fun t => [.tick, .offer ((1 + t) * 64) true]) ++ List.replicate 22 .tick

theorem post_check : check ddr4Cfg [.tick] (fun m => m.ctrl.accepts ddr4Cfg false &&
    m.ctrl.pendWr.all (fun t => t.addr ≠ 0) && m.ctrl.sim.hist.isEmpty &&
    (match m.exec ddr4Cfg (.offer 0 false :: post) with
      | .ok m' => m'.accepted.all (fun x => x.1 % 64 = 0 && x.1 / 64 < 128) &&
          m'.ctrl.sim.hist = [⟨29, .write, ⟨0, 0, 0, 0, 0⟩⟩, ⟨19, .read, ⟨0, 0, 0, 0, 0⟩⟩, ⟨2, .act, ⟨0, 0, 0, 0, 0⟩⟩]
      | .error _ => false)) = true := by decide +kernel

/-- The write of the address is issued, behind the read. -/
example : ∃ m m', Mem.init.exec ddr4Cfg [.tick] = .ok m ∧ m.exec ddr4Cfg (.offer 0 false :: post) = .ok m' ∧
    (∃ e ∈ m'.ctrl.sim.hist, e.cmd = .write ∧ e.addr = ddr4Map 0) ∧
    ∀ u v e, m'.ctrl.sim.hist = u ++ e :: v ++ m.ctrl.sim.hist → e.cmd.isWrite → e.addr = ddr4Map 0 →
      ∃ r ∈ v, r.cmd.isRead ∧ r.addr = ddr4Map 0 := by
  obtain ⟨m, h1, h2⟩ := of_check post_check
  cases hx : m.exec ddr4Cfg (.offer 0 false :: post) with
  | error e => rw [hx] at h2; simp at h2
  | ok m' =>
    rw [hx] at h2
    simp only [Bool.and_eq_true, decide_eq_true_eq, List.all_eq_true] at h2
    obtain ⟨⟨⟨h3, h4⟩, h5⟩, h6, h7⟩ := h2
    refine ⟨m, m', h1, hx, ⟨_, by rw [h7]; exact List.mem_cons_self .., rfl, by decide⟩, fun u v e hh he hea => ?_⟩
    refine C85_write_behind_read_partial ddr4Cfg ddr4_exists _ post m m' h1 0 h3 h4 hx (.inl rfl) (fun b hb hm => ?_)
      u v e hh he hea
    have hb2 := h6 _ hb
    have hcol := congrArg Addr.col hm
    change b / 64 % 128 = 0 / 64 % 128 at hcol
    dsimp only at hb2
    omega

/-! ## what does not hold -/

/-- With self-refresh: a read for a rank that has just fallen asleep ends the program. -/
theorem C50_self_refresh_violated :
    Mem.init.exec { ddr4Cfg with selfRefresh := true, threshold := 10 }
      (List.replicate 10 .tick ++ [.offer 0 false] ++ List.replicate 4 .tick) = .error .abort :=
  of_stop (by decide +kernel)

/-- With more ranks than cycles between refreshes, the first cycle divides by zero. -/
theorem C50_divide_violated :
    Mem.init.exec { ddr4Cfg with p := { ddr4 with ranks := 16384 } } [.tick] = .error .divide :=
  rfl

/-- Nine writes, and two reads of the other rank. -/
def lossTrace : List Use :=
  (List.range 54).flatMap fun t => [.tick] ++
    (if t < 9 then [.offer (t * 64) true] else if t = 20 then [.offer 131072 false]
      else if t = 37 then [.offer 163840 false] else [])

theorem loss_check : check hbm2Cfg lossTrace (fun m => m.ctrl.readQ.isEmpty && m.ctrl.unifiedQ.isEmpty &&
    (m.ctrl.queues (Ctrl.queueIndex hbm2Cfg (hbm2Map 131072))).isEmpty && m.ctrl.pendRd.any (fun t => t.addr = 131072) &&
    m.accepted.contains (131072, false)) = true := by decide +kernel

/-- With two commands in a cycle (the HBM2 configuration) a read may be taken from its queue and never issued; then it
is never returned, nor is any later read of its address. -/
theorem C50_read_lost_violated : ∃ m, Mem.init.exec hbm2Cfg lossTrace = .ok m ∧ (131072, false) ∈ m.accepted ∧
    ∀ l m', m.exec hbm2Cfg l = .ok m' → m'.returned.count (131072, false) < m'.accepted.count (131072, false) := by
  obtain ⟨m, h1, h2⟩ := of_check loss_check
  simp only [Bool.and_eq_true, List.isEmpty_iff, List.contains_iff_mem] at h2
  obtain ⟨⟨⟨⟨h3, h4⟩, h5⟩, h6⟩, h7⟩ := h2
  have hl : Lost hbm2Cfg m.ctrl 131072 := by
    refine ⟨?_, ?_⟩
    · obtain ⟨t, ht, hta⟩ := List.any_eq_true.1 h6
      exact List.countP_pos_iff.2 ⟨t, ht, hta⟩
    · unfold rIn
      rw [h3, h4]
      change List.countP _ (m.ctrl.queues (Ctrl.queueIndex hbm2Cfg (hbm2Map 131072))) + _ + _ = 0
      rw [h5]
      rfl
  refine ⟨m, h1, h7, fun l m' h => ?_⟩
  rcases exec_spec hbm2_exists (ran hbm2_exists h1).inv l with ⟨m2, e2, hr, -⟩ | ⟨e2, he, -⟩
  · rw [e2] at h
    cases h
    have hs := hr.inv.sum 131072 false
    have := (hr.lost _ hl).1
    unfold owed at hs
    simp only [Bool.false_eq_true, if_false] at hs
    omega
  · rw [he] at h; cases h

/-- Reads of twelve rows of a bank, then as many writes as fit, the first one of the address that is read last. -/
def deadTrace : List Use :=
  ((List.range 11).flatMap fun t => [.tick, .offer (t * 262144) false]) ++ [.tick, .offer 26214400 false] ++
    (List.range 32).flatMap fun t => [.tick, .offer (26214400 + t * 64) true]

theorem dead_check : check ddr4Cfg deadTrace (fun m => decide (32 ≤ m.ctrl.writeBuf.length) &&
    decide (0 ≤ m.ctrl.draining) &&
    m.ctrl.writeBuf.all (fun t => Ctrl.queueIndex ddr4Cfg (ddr4Map t.addr) = 0) &&
    m.ctrl.writeBuf.head? = some ⟨26214400, true, 0⟩ && m.ctrl.pendRd.any (fun t => t.addr = 26214400) &&
    (m.ctrl.queues 0).all (fun y => y.hex ≠ 26214400) && m.accepted.contains (26214400, false)) = true := by
  decide +kernel

/-- When the write buffer is full of writes for one bank and the first of them waits for a read behind others, the
controller is stuck: whatever is offered, no write is ever accepted again, and the read is never returned. -/
theorem C50_drain_violated : ∃ m, Mem.init.exec ddr4Cfg deadTrace = .ok m ∧ (26214400, false) ∈ m.accepted ∧
    ∀ l m', m.exec ddr4Cfg l = .ok m' → m'.returned.count (26214400, false) < m'.accepted.count (26214400, false) ∧
      ∀ b, m'.accepted.count (b, true) = m.accepted.count (b, true) := by
  obtain ⟨m, h1, h2⟩ := of_check dead_check
  simp only [Bool.and_eq_true, decide_eq_true_eq, List.all_eq_true, List.contains_iff_mem] at h2
  obtain ⟨⟨⟨⟨⟨⟨h3, h4⟩, h5⟩, h6⟩, h7⟩, h8⟩, h9⟩ := h2
  have hq : Ctrl.queueIndex ddr4Cfg (ddr4Cfg.map 26214400) = 0 := by decide
  have hst : Stuck ddr4Cfg 26214400 [] m.ctrl := by
    refine ⟨rfl, h3, h4, fun t ht => by rw [hq]; exact h5 t ht, List.head?_eq_some_iff.1 h6, ?_, ?_, ⟨_, rfl⟩⟩
    · obtain ⟨t, ht, hta⟩ := List.any_eq_true.1 h7
      exact List.countP_pos_iff.2 ⟨t, ht, hta⟩
    · rw [hq]
      intro y hy hya
      exact absurd hya (h8 y hy)
  refine ⟨m, h1, h9, fun l m' h => ?_⟩
  rcases exec_spec ddr4_exists (ran ddr4_exists h1).inv l with ⟨m2, e2, hr, -⟩ | ⟨e2, he, -⟩
  · rw [e2] at h
    cases h
    obtain ⟨hs2, hacc⟩ := hr.stuck _ _ hst
    have hs := hr.inv.sum 26214400 false
    have := hs2.wait
    unfold owed at hs
    simp only [Bool.false_eq_true, if_false] at hs
    exact ⟨by omega, hacc⟩
  · rw [he] at h; cases h

/-- Eight writes to another bank, and, in the same cycle, a read and a write of its place through another address. -/
def overtake : List Use :=
  (List.range 8).map (fun t => .offer ((513 + t) * 64) true) ++ [.offer 0 false, .offer 1 true] ++ List.replicate 32 .tick

theorem overtake_check : check ddr4Cfg overtake (fun m =>
    m.accepted.take 2 = [(1, true), (0, false)] && m.ctrl.sim.hist.all (fun e => !e.cmd.isRead) &&
    m.ctrl.sim.hist.any (fun e => e.cmd = .write && e.addr = ⟨0, 0, 0, 0, 0⟩)) = true := by decide +kernel

/-- Addresses are not rounded to the size of an access: a write overtakes an earlier read of the same place when it has
another address. -/
theorem C85_same_place_violated : ddr4Cfg.map 0 = ddr4Cfg.map 1 ∧ ∃ m, Mem.init.exec ddr4Cfg overtake = .ok m ∧
    m.accepted.take 2 = [(1, true), (0, false)] ∧ (∃ e ∈ m.ctrl.sim.hist, e.cmd = .write ∧ e.addr = ddr4Cfg.map 0) ∧
    ∀ e ∈ m.ctrl.sim.hist, e.cmd.isRead = false := by
  obtain ⟨m, h1, h2⟩ := of_check overtake_check
  simp only [Bool.and_eq_true, decide_eq_true_eq, List.all_eq_true, List.any_eq_true, Bool.not_eq_true'] at h2
  obtain ⟨⟨h3, h4⟩, e, he, he1, he2⟩ := h2
  exact ⟨by decide, m, h1, h3, ⟨e, he, he1, he2⟩, h4⟩

end Example

end RadSim.DramSim
