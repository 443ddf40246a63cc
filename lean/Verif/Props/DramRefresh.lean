import Verif.Lemmas.DramWait
import Verif.Props.DramCtrl

/-! # C51, C87: the refreshes of a DRAM channel -/

namespace RadSim.DramSim

open Chan

/-- The refresh parameters are `int`s, and the distance of the refreshes is at least a cycle. -/
structure Periodic (c : Cfg) : Prop where
  rank : 0 ≤ c.p.tREFI ∧ c.p.tREFI < 2147483648
  bank : 0 ≤ c.p.tREFIb ∧ c.p.tREFIb < 2147483648
  pos : 0 < spacing c

theorem Periodic.interval {c : Cfg} (h : Periodic c) : later 0 c.interval = spacing c := by
  obtain ⟨h1, h2, -⟩ := h
  unfold later Cfg.interval spacing
  cases c.policy with
  | simultaneous => simp only; omega
  | bankStaggered => simp only; omega
  | staggered =>
    simp only
    obtain ⟨n, hn⟩ := Int.eq_ofNat_of_zero_le h1.1
    rw [hn, Int.tdiv_eq_ediv_of_nonneg (by omega), ← Int.natCast_ediv]
    have : n / c.p.ranks ≤ n := Nat.div_le_self ..
    rw [Int.toNat_natCast]
    generalize n / c.p.ranks = d at *
    omega

/-! ## C51: the plan -/

/-- **C51.** After `n` cycles, whatever the traffic, exactly `(n - 1) / spacing` refreshes have been scheduled: those
issued, oldest first, followed by those that wait are the plan, in which the ranks or the banks take turns. -/
theorem C51_plan (c : Cfg) (hm : ∀ a, Exists c.p (c.map a)) (hs : c.selfRefresh = false) (hq : Periodic c)
    (hp : c.policy ≠ .simultaneous) (l : List Use) (m : Mem) (h : Mem.init.exec c l = .ok m) :
    (refreshes m.ctrl.sim.hist).map (fun e => (e.cmd, e.addr)) ++
        m.ctrl.sim.chan.refreshQ.map (fun q => (q.cmd, q.addr)) =
      (List.range ((l.count .tick - 1) / spacing c)).map (planned c) := by
  have hR := (rexec hm hs (MInv.init hm) (RInv.init c) h).line
  have hclk : m.ctrl.sim.clk = l.count .tick := by
    rw [(ran hm h).clk]
    exact Nat.zero_add _
  rw [line_eq, hclk] at hR
  unfold slotsBefore at hR
  rw [hq.interval] at hR
  rw [hR]
  refine List.map_congr_left fun k _ => ?_
  unfold slot
  split
  · exact absurd ‹_› hp
  · rfl

theorem turn {k r n : Nat} (hr : r < n) : ∃ j, k ≤ j ∧ j < k + n ∧ j % n = r := by
  have h1 := Nat.div_add_mod k n
  have h2 := Nat.mod_lt k (Nat.lt_of_le_of_lt (Nat.zero_le _) hr)
  by_cases h : k % n ≤ r
  · refine ⟨n * (k / n) + r, by omega, by omega, ?_⟩
    rw [Nat.mul_add_mod, Nat.mod_eq_of_lt hr]
  · refine ⟨n * (k / n + 1) + r, ?_, ?_, ?_⟩
    · rw [Nat.mul_add, Nat.mul_one]; omega
    · rw [Nat.mul_add, Nat.mul_one]; omega
    · rw [Nat.mul_add_mod, Nat.mod_eq_of_lt hr]

/-- **C51.** Under the policy that refreshes rank after rank, every rank is scheduled in every `ranks` refreshes in a
row, hence once in `tREFI` cycles. -/
theorem C51_every_rank (c : Cfg) (hm : ∀ a, Exists c.p (c.map a)) (hs : c.selfRefresh = false) (hq : Periodic c)
    (hp : c.policy = .staggered) (l : List Use) (m : Mem) (h : Mem.init.exec c l = .ok m) (r k : Nat)
    (hr : r < c.p.ranks) (hk : (k + c.p.ranks) * spacing c < l.count .tick) :
    ∃ j, k ≤ j ∧ j < k + c.p.ranks ∧
      ((refreshes m.ctrl.sim.hist).map (fun e => (e.cmd, e.addr)) ++
        m.ctrl.sim.chan.refreshQ.map (fun q => (q.cmd, q.addr)))[j]? = some (.refresh, ⟨r, 0, 0, 0, 0⟩) := by
  obtain ⟨j, h1, h2, h3⟩ := turn (k := k) hr
  refine ⟨j, h1, h2, ?_⟩
  rw [C51_plan c hm hs hq (by rw [hp]; simp) l m h]
  have hj : j < (l.count .tick - 1) / spacing c := by
    have h4 : k + c.p.ranks ≤ (l.count .tick - 1) / spacing c := by
      rw [Nat.le_div_iff_mul_le hq.pos]
      omega
    omega
  rw [List.getElem?_map, List.getElem?_range hj]
  simp [planned, hp, h3]

/-- **C51.** Under the policy that refreshes bank after bank, every bank of every rank is scheduled in every
`ranks * groups * banks` refreshes in a row. -/
theorem C51_every_bank (c : Cfg) (hm : ∀ a, Exists c.p (c.map a)) (hs : c.selfRefresh = false) (hq : Periodic c)
    (hp : c.policy = .bankStaggered) (l : List Use) (m : Mem) (h : Mem.init.exec c l = .ok m) (r g b k : Nat)
    (hr : r < c.p.ranks) (hg : g < c.p.groups) (hb : b < c.p.banksPerGroup)
    (hk : (k + c.p.groups * c.p.banksPerGroup * c.p.ranks) * spacing c < l.count .tick) :
    ∃ j, k ≤ j ∧ j < k + c.p.groups * c.p.banksPerGroup * c.p.ranks ∧
      ((refreshes m.ctrl.sim.hist).map (fun e => (e.cmd, e.addr)) ++
        m.ctrl.sim.chan.refreshQ.map (fun q => (q.cmd, q.addr)))[j]? = some (.refBank, ⟨r, g, b, 0, 0⟩) := by
  have hlt : g + c.p.groups * (b + c.p.banksPerGroup * r) < c.p.groups * c.p.banksPerGroup * c.p.ranks := by
    have h1 : b + c.p.banksPerGroup * r + 1 ≤ c.p.banksPerGroup * c.p.ranks :=
      calc b + c.p.banksPerGroup * r + 1 ≤ c.p.banksPerGroup * (r + 1) := by rw [Nat.mul_add, Nat.mul_one]; omega
        _ ≤ _ := Nat.mul_le_mul_left _ hr
    calc g + c.p.groups * (b + c.p.banksPerGroup * r) < c.p.groups * (b + c.p.banksPerGroup * r + 1) := by
          rw [Nat.mul_add _ (_ + _), Nat.mul_one]; omega
      _ ≤ c.p.groups * (c.p.banksPerGroup * c.p.ranks) := Nat.mul_le_mul_left _ h1
      _ = _ := (Nat.mul_assoc ..).symm
  obtain ⟨j, h1, h2, h3⟩ := turn (k := k) hlt
  refine ⟨j, h1, h2, ?_⟩
  rw [C51_plan c hm hs hq (by rw [hp]; simp) l m h]
  have hj : j < (l.count .tick - 1) / spacing c := by
    have h4 : k + c.p.groups * c.p.banksPerGroup * c.p.ranks ≤ (l.count .tick - 1) / spacing c := by
      rw [Nat.le_div_iff_mul_le hq.pos]
      omega
    omega
  rw [List.getElem?_map, List.getElem?_range hj]
  have e1 : j % c.p.groups = g := by
    rw [Nat.mul_assoc] at h3
    rw [← Nat.mod_mul_right_mod j c.p.groups (c.p.banksPerGroup * c.p.ranks), h3, Nat.add_mul_mod_self_left,
      Nat.mod_eq_of_lt hg]
  have e2 : j / c.p.groups % (c.p.banksPerGroup * c.p.ranks) = b + c.p.banksPerGroup * r := by
    rw [Nat.mul_assoc] at h3
    rw [← Nat.mod_mul_right_div_self, h3, Nat.add_mul_div_left _ _ (by omega), Nat.div_eq_of_lt hg, Nat.zero_add]
  have e3 : j / c.p.groups % c.p.banksPerGroup = b := by
    rw [← Nat.mod_mul_right_mod _ c.p.banksPerGroup c.p.ranks, e2, Nat.add_mul_mod_self_left, Nat.mod_eq_of_lt hb]
  have e4 : j / (c.p.groups * c.p.banksPerGroup) % c.p.ranks = r := by
    rw [← Nat.div_div_eq_div_mul, ← Nat.mod_mul_right_div_self, e2, Nat.add_mul_div_left _ _ (by omega),
      Nat.div_eq_of_lt hb, Nat.zero_add]
  simp [planned, hp, e1, e3, e4]

/-- **C51, against.** Under the policy that should refresh all the ranks at a time, no rank but the first is ever
refreshed. -/
theorem C51_simultaneous_violated (c : Cfg) (hm : ∀ a, Exists c.p (c.map a)) (hs : c.selfRefresh = false)
    (hp : c.policy = .simultaneous) (l : List Use) (m : Mem) (h : Mem.init.exec c l = .ok m) (e : Event)
    (he : e ∈ m.ctrl.sim.hist) (hk : e.cmd = .refresh ∨ e.cmd = .refBank) : e.addr.rank = 0 := by
  have hR := (rexec hm hs (MInv.init hm) (RInv.init c) h).line
  rw [line_eq] at hR
  have h1 : e ∈ refreshes m.ctrl.sim.hist := by
    unfold refreshes
    rw [List.mem_reverse]
    exact List.mem_filter.2 ⟨he, by rcases hk with hk | hk <;> simp [hk]⟩
  have h2 : (e.cmd, e.addr) ∈ (List.range (slotsBefore c m.ctrl.sim.clk)).map (slot c) := by
    rw [← hR]
    exact List.mem_append_left _ (List.mem_map.2 ⟨e, h1, rfl⟩)
  obtain ⟨k, -, h3⟩ := List.mem_map.1 h2
  unfold slot at h3
  rw [hp] at h3
  simp only [Prod.mk.injEq] at h3
  rw [← h3.2]

/-! ## C87: in time -/

/-- **C87.** With the ranks taking turns, refresh number `k` is issued, for the rank whose turn it is, within `refreshWait`
cycles after it is due, whatever the traffic. -/
theorem C87_refresh_in_time (c : Cfg) (hm : ∀ a, Exists c.p (c.map a)) (hp : Sane c.p) (hs : c.selfRefresh = false)
    (hq : Periodic c) (hpol : c.policy = .staggered) (hw : refreshWait c.p < spacing c) (l : List Use) (m : Mem)
    (h : Mem.init.exec c l = .ok m) (hl : l.count .tick < 9223372036854775808) (k : Nat)
    (hk : (k + 1) * spacing c + refreshWait c.p < l.count .tick) :
    ∃ t, (refreshes m.ctrl.sim.hist)[k]? = some ⟨t, .refresh, ⟨k % c.p.ranks, 0, 0, 0, 0⟩⟩ ∧
      (k + 1) * spacing c ≤ t ∧ t ≤ (k + 1) * spacing c + refreshWait c.p := by
  have hclk : m.ctrl.sim.clk = l.count .tick := by
    rw [(ran hm h).clk]
    exact Nat.zero_add _
  have hplan := C51_plan c hm hs hq (by rw [hpol]; simp) l m h
  have hW := wexec hm hp hs (by rw [hpol]; simp) (by rw [hq.interval]; exact hw) (MInv.init hm) (RInv.init c) (.init c) h
    (by rw [hclk]; exact hl)
  have hlen := congrArg List.length hplan
  simp only [List.length_append, List.length_map, List.length_range] at hlen
  have hslots : k + 1 ≤ (l.count .tick - 1) / spacing c := by
    rw [Nat.le_div_iff_mul_le hq.pos]
    omega
  have hlt : k < (refreshes m.ctrl.sim.hist).length := by
    by_cases hn : m.ctrl.sim.chan.refreshQ = []
    · rw [hn] at hlen
      simp only [List.length_nil] at hlen
      omega
    · obtain ⟨r, h1, -, -, -, -, h2⟩ := hW.wait hn
      rw [h1] at hlen
      rw [hq.interval, hclk] at h2
      unfold slotsBefore at h2
      rw [hq.interval] at h2
      simp only [List.length_cons, List.length_nil] at hlen
      have h3 : k + 1 ≠ (l.count .tick - 1) / spacing c := by
        intro e
        rw [← e] at h2
        omega
      omega
  obtain ⟨t1, t2⟩ := hW.times k _ (List.getElem?_eq_getElem hlt)
  rw [hq.interval] at t1 t2
  have he : (fun e : Event => (e.cmd, e.addr)) (refreshes m.ctrl.sim.hist)[k] = planned c k := by
    have := congrArg (fun l => l[k]?) hplan
    rw [List.getElem?_append_left (by simpa using hlt), List.getElem?_map, List.getElem?_eq_getElem hlt,
      List.getElem?_map, List.getElem?_range (by omega)] at this
    simpa using this
  simp only [planned, hpol, Prod.mk.injEq] at he
  refine ⟨(refreshes m.ctrl.sim.hist)[k].time, ?_, t1, t2⟩
  rw [List.getElem?_eq_getElem hlt, ← he.1, ← he.2]

/-- **C87.** Every rank is refreshed in every stretch of `tREFI + refreshWait` cycles, whatever the traffic. -/
theorem C87_rank_refreshed (c : Cfg) (hm : ∀ a, Exists c.p (c.map a)) (hp : Sane c.p) (hs : c.selfRefresh = false)
    (hq : Periodic c) (hpol : c.policy = .staggered) (hw : refreshWait c.p < spacing c) (l : List Use) (m : Mem)
    (h : Mem.init.exec c l = .ok m) (hl : l.count .tick < 9223372036854775808) (r T : Nat) (hr : r < c.p.ranks)
    (hT : T + c.p.tREFI.toNat + refreshWait c.p < l.count .tick) :
    ∃ e ∈ m.ctrl.sim.hist, e.cmd = .refresh ∧ e.addr.rank = r ∧ T ≤ e.time ∧
      e.time ≤ T + c.p.tREFI.toNat + refreshWait c.p := by
  obtain ⟨j, h1, h2, h3⟩ := turn (k := T / spacing c) hr
  have h4 : c.p.ranks * spacing c ≤ c.p.tREFI.toNat := by
    unfold spacing
    rw [hpol]
    exact Nat.mul_div_le _ _
  have h5 : (j + 1) * spacing c ≤ T + c.p.tREFI.toNat :=
    calc (j + 1) * spacing c ≤ (T / spacing c + c.p.ranks) * spacing c := Nat.mul_le_mul_right _ h2
      _ = T / spacing c * spacing c + c.p.ranks * spacing c := Nat.add_mul ..
      _ ≤ _ := Nat.add_le_add (Nat.div_mul_le_self ..) h4
  have h6 : T ≤ (j + 1) * spacing c :=
    calc T ≤ (T / spacing c + 1) * spacing c := Nat.le_of_lt (Nat.lt_mul_of_div_lt (Nat.lt_succ_self _) hq.pos)
      _ ≤ _ := Nat.mul_le_mul_right _ (by omega)
  obtain ⟨t, e1, e2, e3⟩ := C87_refresh_in_time c hm hp hs hq hpol hw l m h hl j (by omega)
  refine ⟨⟨t, .refresh, ⟨j % c.p.ranks, 0, 0, 0, 0⟩⟩, ?_, rfl, h3, Nat.le_trans h6 e2, Nat.le_trans e3 (by omega)⟩
  have := List.mem_of_getElem? e1
  unfold refreshes at this
  exact (List.mem_filter.1 (List.mem_reverse.1 this)).1

namespace Example

theorem periodic_ddr4 : Periodic ddr4Cfg := ⟨by decide, by decide, by decide⟩
theorem periodic_hbm2 : Periodic hbm2Cfg := ⟨by decide, by decide, by decide⟩

/-- 487 cycles are much less than 4680, and 318 than 1950. -/
example : refreshWait ddr4 = 487 ∧ spacing ddr4Cfg = 4680 ∧ refreshWait hbm2 = 318 ∧ spacing hbm2Cfg = 1950 := by decide

/-- The second rank of the DDR4 memory is refreshed in the cycles from 100000 on, for every traffic. -/
example (l : List Use) (hl : l.count .tick = 200000) : ∃ m, Mem.init.exec ddr4Cfg l = .ok m ∧
    (∃ e ∈ m.ctrl.sim.hist, e.cmd = .refresh ∧ e.addr.rank = 1 ∧ 100000 ≤ e.time ∧ e.time ≤ 109847) ∧
    (refreshes m.ctrl.sim.hist).map (fun e => (e.cmd, e.addr)) ++
        m.ctrl.sim.chan.refreshQ.map (fun q => (q.cmd, q.addr)) =
      (List.range 42).map (fun k => (.refresh, ⟨k % 2, 0, 0, 0, 0⟩)) := by
  obtain ⟨m, h⟩ := C50_runs ddr4Cfg ddr4_exists rfl (by decide) l
  have h1 := C87_rank_refreshed ddr4Cfg ddr4_exists sane_ddr4 rfl periodic_ddr4 rfl (by decide) l m h (by omega) 1 100000
    (by decide) (by rw [hl]; decide)
  have h2 := C51_plan ddr4Cfg ddr4_exists rfl periodic_ddr4 (by decide) l m h
  rw [hl] at h2
  exact ⟨m, h, h1, h2⟩

/-- A small memory with a refresh every 40 cycles. -/
def busyCfg : Cfg :=
  { ddr4Cfg with
    p := { ddr4 with groups := 2, banksPerGroup := 2, tREFI := 80, tRFC := 10, tXS := 12, CL := 8, CWL := 6, tWR := 4,
                     tRP := 5, tRCD := 5, tRAS := 10 }
    map := fun h => ⟨h / 512 % 2, h / 128 % 2, h / 256 % 2, h / 1024 % 64, h % 128⟩ }

theorem busy_exists (a : Nat) : Exists busyCfg.p (busyCfg.map a) :=
  ⟨Nat.mod_lt _ (by decide), Nat.mod_lt _ (by decide), Nat.mod_lt _ (by decide)⟩

theorem periodic_busy : Periodic busyCfg := ⟨by decide, by decide, by decide⟩
theorem sane_busy : Sane busyCfg.p := by constructor <;> decide

/-- Rows of two banks are opened just before the refresh is due. -/
def busyTrace : List Use :=
  List.replicate 34 .tick ++ [.offer 0 false, .tick, .offer 128 false] ++ List.replicate 3 .tick ++
    [.offer 512 false] ++ List.replicate 3 .tick ++ [.offer 128 true, .offer 256 false] ++ List.replicate 37 .tick

theorem busy_check : check busyCfg busyTrace (fun m => m.ctrl.sim.hist.map (fun e => (e.time, e.cmd, e.addr.rank)) =
    [(77, .read, 0), (73, .read, 0), (72, .act, 0), (69, .read, 0), (68, .act, 0), (64, .act, 0), (54, .refresh, 0),
     (49, .pre, 0), (46, .read, 1), (45, .pre, 0), (40, .act, 1), (39, .act, 0), (35, .act, 0)]) = true := by
  decide +kernel

/-- The refresh is due in cycle 40 and waits until the two banks can be closed, in cycles 45 and 49, and until the rank
has rested, in cycle 54; this is within 37 cycles. The reads for the rank wait behind it, and those for the other rank do
not. -/
example : ∃ m t, Mem.init.exec busyCfg busyTrace = .ok m ∧ (refreshes m.ctrl.sim.hist)[0]? =
    some ⟨t, .refresh, ⟨0, 0, 0, 0, 0⟩⟩ ∧ 40 ≤ t ∧ t ≤ 77 ∧
    (54, Cmd.refresh) ∈ m.ctrl.sim.hist.map (fun e => (e.time, e.cmd)) := by
  obtain ⟨m, h, hc⟩ := of_check busy_check
  simp only [decide_eq_true_eq] at hc
  have hl : busyTrace.count .tick = 78 := by decide +kernel
  obtain ⟨t, h1, h2, h3⟩ := C87_refresh_in_time busyCfg busy_exists sane_busy rfl periodic_busy rfl (by decide) busyTrace m h
    (by omega) 0 (by rw [hl]; decide)
  refine ⟨m, t, h, h1, h2, h3, ?_⟩
  have := congrArg (List.map fun x : Nat × Cmd × Nat => (x.1, x.2.1)) hc
  rw [List.map_map] at this
  have e : (fun e : Event => (e.time, e.cmd)) = (fun x : Nat × Cmd × Nat => (x.1, x.2.1)) ∘
    fun e : Event => (e.time, e.cmd, e.addr.rank) := rfl
  rw [e, this]
  decide

/-- Two refreshes in a row are one for each rank. -/
example (l : List Use) (hl : l.count .tick = 1000) (m : Mem) (h : Mem.init.exec busyCfg l = .ok m) :
    ∃ j, 5 ≤ j ∧ j < 7 ∧ ((refreshes m.ctrl.sim.hist).map (fun e => (e.cmd, e.addr)) ++
      m.ctrl.sim.chan.refreshQ.map (fun q => (q.cmd, q.addr)))[j]? = some (.refresh, ⟨1, 0, 0, 0, 0⟩) :=
  C51_every_rank busyCfg busy_exists rfl periodic_busy rfl l m h 1 5 (by decide) (by rw [hl]; decide)

/-- The HBM2 memory with a refresh of a bank every 128 cycles. -/
def bankCfg : Cfg := { hbm2Cfg with policy := .bankStaggered }

/-- All 32 banks have their turn. -/
example (l : List Use) (hl : l.count .tick = 5000) : ∃ m j, Mem.init.exec bankCfg l = .ok m ∧ 3 ≤ j ∧ j < 35 ∧
    ((refreshes m.ctrl.sim.hist).map (fun e => (e.cmd, e.addr)) ++
      m.ctrl.sim.chan.refreshQ.map (fun q => (q.cmd, q.addr)))[j]? = some (.refBank, ⟨1, 2, 3, 0, 0⟩) := by
  have hx : ∀ a, Exists bankCfg.p (bankCfg.map a) := hbm2_exists
  obtain ⟨m, h⟩ := C50_runs bankCfg hx rfl (by decide) l
  obtain ⟨j, h1, h2, h3⟩ := C51_every_bank bankCfg hx rfl ⟨by decide, by decide, by decide⟩ rfl l m h 1 2 3 3 (by decide)
    (by decide) (by decide) (by rw [hl]; decide)
  exact ⟨m, j, h, h1, h2, h3⟩

/-- A refresh of all the ranks every 30 cycles. -/
def togetherCfg : Cfg := { busyCfg with policy := .simultaneous, p := { busyCfg.p with tREFI := 30 } }

theorem together_exists (a : Nat) : Exists togetherCfg.p (togetherCfg.map a) := busy_exists a

theorem together_check : check togetherCfg (List.replicate 93 .tick) (fun m =>
    (refreshes m.ctrl.sim.hist).map (fun e => (e.time, e.cmd, e.addr.rank)) =
      [(30, .refresh, 0), (60, .refresh, 0), (90, .refresh, 0)]) = true := by decide +kernel

/-- Three refreshes, all for the first of the two ranks. -/
example : ∃ l m, Mem.init.exec togetherCfg l = .ok m ∧
    (refreshes m.ctrl.sim.hist).map (fun e => (e.time, e.cmd, e.addr.rank)) =
      [(30, .refresh, 0), (60, .refresh, 0), (90, .refresh, 0)] ∧
    ∀ e ∈ m.ctrl.sim.hist, e.cmd = .refresh ∨ e.cmd = .refBank → e.addr.rank = 0 := by
  obtain ⟨m, h, hc⟩ := of_check together_check
  simp only [decide_eq_true_eq] at hc
  exact ⟨_, m, h, hc, fun e he hk => C51_simultaneous_violated togetherCfg together_exists rfl rfl _ m h e he hk⟩

end Example

end RadSim.DramSim
