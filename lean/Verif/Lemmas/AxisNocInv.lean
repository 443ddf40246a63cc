import Verif.Lemmas.AxisNocPkt

/-! # A run of a NoC with AXI-Stream adapters -/

namespace RadSim.AxisNoc

open Router (Flit Hop)
open Routing (Shape Rf dimOrderMesh vcOk)
open Net

variable {σ τ ρ ρ' : Type}

section
variable (VA : Alloc.Cls σ ρ) (SA : Alloc.Cls τ ρ') (c : Cfg) (va : Nat → σ) (sa : Nat → τ) (i : Nat → In ρ ρ')

/-- The state after `n` periods when nothing has failed. -/
def st (n : Nat) : Sys σ τ :=
  match after VA SA c va sa i n with
  | .ok x => x
  | .error _ => .init c va sa

/-- The network after `n` periods. -/
def nets (n : Nat) : Net.S (Msg BsFlit) σ τ := (st VA SA c va sa i n).net

/-- What the network finds in period `n`, with the flits written in it. -/
def envs (n : Nat) : Net.Env (Msg BsFlit) ρ ρ' :=
  { env c (i n) (st VA SA c va sa i n) with inject := (nets VA SA c va sa i (n + 1)).fIn }

/-- What holds after `n` periods; all beats offered satisfy `P`. -/
structure Inv (P : Nat → Nat → AxisTxn → Prop) (n : Nat) : Prop where
  ok : after VA SA c va sa i n = .ok (st VA SA c va sa i n)
  ticks : Ticks VA SA (mesh c.m) c.b va sa n (envs VA SA c va sa i) (nets VA SA c va sa i)
  slave : ∀ u < c.m.nodes, CreditInv (c.sc u) ((st VA SA c va sa i n).slave u) ((st VA SA c va sa i n).sent u)
    (creditsAt (nets VA SA c va sa i) (injLink c.m u) (n + 1)).flatten
  stream : ∀ u < c.m.nodes,
    Stream (c.sc u) ((st VA SA c va sa i n).slave u) ((st VA SA c va sa i n).got u) ((st VA SA c va sa i n).sent u)
  wrote : ∀ u < c.m.nodes,
    injected (envs VA SA c va sa i) (injLink c.m u) n = ((st VA SA c va sa i n).sent u).map (toNet u)
  good : ∀ u < c.m.nodes, ∀ t ∈ (st VA SA c va sa i n).got u,
    ∃ p < (c.sc u).n, ∃ b, P u p b ∧ t = registerTxn (c.sc u) p b
  master : ∀ u < c.m.nodes, ∃ hist,
    MasterInv (c.mc u) ((st VA SA c va sa i n).master u) ((st VA SA c va sa i n).hist u) hist ∧
      DropInv (c.mc u) ((st VA SA c va sa i n).master u) ((st VA SA c va sa i n).hist u)
  arrived : ∀ u < c.m.nodes, ((st VA SA c va sa i n).hist u).accepted =
    (flitsAt (nets VA SA c va sa i) (ejLink c.m u) (n + 1)).map toBs
  returned : ∀ u < c.m.nodes, ((st VA SA c va sa i n).hist u).credits =
    (credited (envs VA SA c va sa i) (ejLink c.m u) n).flatten

end

variable {VA : Alloc.Cls σ ρ} {SA : Alloc.Cls τ ρ'} {c : Cfg} {va : Nat → σ} {sa : Nat → τ} {i : Nat → In ρ ρ'}
  {P : Nat → Nat → AxisTxn → Prop} {rng : Nat → Nat × Nat} {n : Nat}

theorem Setup.vcOk (hs : Setup c rng) {u : Nat} (hu : u < c.m.nodes) : (c.sc u).VcOk := by
  intro t
  have h1 := hs.few t
  have h2 := hs.vcs (clsOf t)
  rw [hs.types u hu t, hs.buf u hu]
  exact ⟨h1.2, Nat.lt_of_le_of_lt h1.1 h2⟩

theorem uses (hs : Setup c rng) (n : Nat) : Uses (dimOrderMesh c.m rng) (envs VA SA c va sa i n) := by
  intro r p f
  refine ⟨(i n).rnd r p f, ?_⟩
  rw [← hs.rf]
  rfl

theorem legal (hs : Setup c rng) (ht : InTime (i n)) : Legal (mesh c.m) c.b (envs VA SA c va sa i n) :=
  mesh_legal (steps_dim hs.n rng) hs.vcs (uses hs n) ht.1 ht.2

/-- A flit written belongs to a beat offered. -/
theorem Inv.flit (h : Inv VA SA c va sa i P n) {u : Nat} (hu : u < c.m.nodes) {f : Flit (Msg BsFlit)}
    (hf : f ∈ injected (envs VA SA c va sa i) (injLink c.m u) n) :
    ∃ p < (c.sc u).n, ∃ b, P u p b ∧ ∃ j < (c.sc u).flits p, f = netFlit (c.sc u) u (registerTxn (c.sc u) p b) j := by
  rw [h.wrote u hu] at hf
  obtain ⟨t, ht, j, hj, rfl⟩ := (h.stream u hu).mem hf
  obtain ⟨p, hp, b, hb, rfl⟩ := h.good u hu t ht
  exact ⟨p, hp, b, hb, j, hj, rfl⟩

theorem Inv.packets (hs : Setup c rng) (h : Inv VA SA c va sa i P n) {κ : Type} {key : Nat → Flit (Msg BsFlit) → κ}
    (hk : ∀ u t j, key u (netFlit (c.sc u) u t j) = key u (netFlit (c.sc u) u t 0)) {u : Nat} (hu : u < c.m.nodes) (v : Nat) :
    Packets Flit.head Flit.tail (key u) (Net.onVc (injected (envs VA SA c va sa i) (injLink c.m u) n) v) := by
  rw [h.wrote u hu]
  exact (h.stream u hu).packets (hs.vcOk hu) u _ (hk u) v

theorem Inv.keys (hs : Setup c rng) (h : Inv VA SA c va sa i P n) (l : Nat) (hl : (mesh c.m).Source l) (v : Nat) :
    Packets Flit.head Flit.tail (fun f => keyOf f.data) (Net.onVc (injected (envs VA SA c va sa i) l n) v) := by
  obtain ⟨u, hu, rfl⟩ := mesh_source.1 hl
  exact h.packets hs (key := fun _ f => keyOf f.data) (fun u t j => by rw [netFlit_key, netFlit_key]) hu v

theorem Inv.sends (hs : Setup c rng) (hP : ∀ u p t, P u p t → Exists c u p t) (h : Inv VA SA c va sa i P n) :
    Sends c.m rng n (envs VA SA c va sa i) where
  heads u hu f hf _ := by
    obtain ⟨p, hp, b, hb, j, hj, rfl⟩ := h.flit hu hf
    refine ⟨rfl, ?_, ?_, rfl⟩
    · have := netFlit_key (c.sc u) u (registerTxn (c.sc u) p b) j
      simp only [keyOf, Prod.mk.injEq] at this
      rw [this.2.1]
      exact (hP u p b hb).1
    · show (rng _).1 ≤ (netFlit (c.sc u) u (registerTxn (c.sc u) p b) j).vc ∧
        (netFlit (c.sc u) u (registerTxn (c.sc u) p b) j).vc ≤ (rng _).2
      rw [netFlit_vc (hs.vcOk hu), hs.types u hu]
      exact ⟨Nat.le_refl _, (hs.few _).1⟩
  same u hu v := h.packets hs (key := fun _ f => (f.data.src, f.data.dest)) (fun u t j => by
    have := (netFlit_key (c.sc u) u t j).trans (netFlit_key (c.sc u) u t 0).symm
    simp only [keyOf, Prod.mk.injEq] at this
    rw [this.1, this.2.1]) hu v

theorem Inv.guided (hs : Setup c rng) (hP : ∀ u p t, P u p t → Exists c u p t) (h : Inv VA SA c va sa i P n) :
    Guided (mesh c.m) n (envs VA SA c va sa i)
      fun l f => mayTrail c.m rng l f ∧ f.data.load.destInterface < (c.mc f.data.dest).n :=
  guided_data (trail_guided hs.k hs.n (h.sends hs hP) fun k _ => uses hs k) (P := fun d => d.load.destInterface < (c.mc d.dest).n)
    (fun l hl f hf => by
      obtain ⟨u, hu, rfl⟩ := mesh_source.1 hl
      obtain ⟨p, hp, b, hb, j, hj, rfl⟩ := h.flit hu hf
      have h1 := netFlit_key (c.sc u) u (registerTxn (c.sc u) p b) j
      simp only [keyOf, Prod.mk.injEq] at h1
      rw [h1.2.2.2, h1.2.1]
      exact (hP u p b hb).2)

/-- What the sink side sees. -/
theorem Inv.arrivals (hs : Setup c rng) (ha : Allocs VA SA (mesh c.m) c.b va sa) (hP : ∀ u p t, P u p t → Exists c u p t)
    (h : Inv VA SA c va sa i P n) {x : Net.Env (Msg BsFlit) ρ ρ'} {net : Net.S (Msg BsFlit) σ τ}
    (hx : Net.tick VA SA (mesh c.m) c.b x (nets VA SA c va sa i n) = .ok net) {u : Nat} (hu : u < c.m.nodes) :
    GoodArrivals (c.mc u)
      ((flitsAt (nets VA SA c va sa i) (ejLink c.m u) (n + 1) ++ (net.fOut (ejLink c.m u)).toList).map toBs) := by
  have hsink : (mesh c.m).Sink (ejLink c.m u) := (mesh_sink hs.k).2 ⟨u, hu, rfl⟩
  have hsee := (sink_sees (mesh_wired hs.k) hs.ok ha h.ticks hx hsink).1
  have hpre := flitsAt_next h.ticks hx hsink.1
  refine ⟨?_, fun v hv => ⟨?_, ?_⟩⟩
  · intro b hb
    obtain ⟨f, hf, rfl⟩ := List.mem_map.1 hb
    rw [hs.sameVcs u hu]
    exact hsee f hf
  · intro f hf
    rw [onVc_toBs] at hf
    obtain ⟨b, hb, rfl⟩ := List.mem_map.1 hf
    obtain ⟨f, hf', rfl⟩ := List.mem_map.1 hb
    obtain ⟨g, -, -, -, hk, hm, hd⟩ := head_of (mesh_wired hs.k) hs.ok ha h.ticks (h.guided hs hP) (key := keyOf)
      (h.keys hs) (Nat.le_refl n) hsink.1 (hpre.subset (mem_onVc.1 hf').1)
    rw [mayMesh_link hs.k hm.1] at hd
    simp only [keyOf, Prod.mk.injEq] at hk
    rw [hk.2.2.2] at hd
    simp only [ejectFlit, toBs, BitVec.toNat_ofNat]
    exact Nat.lt_of_le_of_lt (Nat.mod_le _ _) hd
  · rw [onVc_toBs]
    refine sameDest_of ?_
    have := keyed (mesh_wired hs.k) hs.ok ha h.ticks (h.keys hs) n (Nat.le_refl n) _ hsink.1 v
    obtain ⟨z, hz⟩ := hpre.filter fun f => decide (f.vc = v)
    unfold Net.onVc at this ⊢
    rw [← hz] at this
    exact packets_prefix this

theorem inv_init (hs : Setup c rng) : Inv VA SA c va sa i P 0 where
  ok := rfl
  ticks :=
    { start := rfl
      legal := fun n hn => absurd hn (Nat.not_lt_zero _)
      step := fun n hn => absurd hn (Nat.not_lt_zero _)
      nodes := fun n hn => by
        obtain rfl : n = 0 := by omega
        refine ⟨fun l _ f hf => (by cases hf), fun l _ v => packets_nil, fun l _ v => ?_, fun l _ c hc => (by cases hc),
          fun l _ v => Nat.zero_le _⟩
        have := hs.ok.buf.perVc_pos
        simp [injected, Net.onVc, Router.upto]
        omega }
  slave u hu := by
    have h1 : creditsAt (nets VA SA c va sa i) (injLink c.m u) (0 + 1) = [] := rfl
    rw [h1]
    refine ⟨SlaveInv.init _, ?_, fun v => ?_, ⟨none, ?_, ?_⟩, fun b hb => (by cases hb)⟩
    · rw [hs.buf u hu]; exact BufInv.init _ hs.ok.buf
    · rfl
    · exact trivial
    · exact ⟨fun _ v _ => by simp [st, after, Sys.init, SlaveState.init, BufState.init], fun v hv => by cases hv⟩
  stream u hu := ⟨[], rfl, rfl⟩
  wrote u hu := rfl
  good u hu t ht := by cases ht
  master u hu := ⟨[], MasterInv.init _, ⟨rfl, rfl, fun v => rfl, fun v => Nat.le_refl _⟩⟩
  arrived u hu := rfl
  returned u hu := rfl

/-! ## a period -/

theorem st_succ {x : Sys σ τ} (h : after VA SA c va sa i n = .ok (st VA SA c va sa i n))
    (hx : step VA SA c (i n) (st VA SA c va sa i n) = .ok x) :
    after VA SA c va sa i (n + 1) = .ok x ∧ st VA SA c va sa i (n + 1) = x := by
  have : after VA SA c va sa i (n + 1) = .ok x := by
    unfold after
    rw [h]
    exact hx
  exact ⟨this, by unfold st; rw [this]⟩

theorem step_parts {x : Sys σ τ} {j : In ρ ρ'} {net : Net.S (Msg BsFlit) σ τ}
    (h1 : Net.tick VA SA (mesh c.m) c.b (env c j x) x.net = .ok net)
    (h2 : ∀ u < c.m.nodes, ∃ y, slavePart c j net x u = .ok y) (h3 : ∀ u < c.m.nodes, ∃ y, masterPart c j net x u = .ok y) :
    ∃ (out : Nat → SlaveState × List AxisTxn × List BsFlit) (ms : Nat → MasterState × MasterHist),
      (∀ u < c.m.nodes, slavePart c j net x u = .ok (out u)) ∧
      (∀ u < c.m.nodes, masterPart c j net x u = .ok (ms u)) ∧
      step VA SA c j x = .ok (Sys.mk (written c out net) (fun u => (out u).1) (fun u => x.got u ++ (out u).2.1)
        (fun u => x.sent u ++ (out u).2.2) (fun u => (ms u).1) (fun u => (ms u).2)) := by
  obtain ⟨out, ho⟩ := each_exists (d := (x.slave 0, [], [])) h2
  obtain ⟨ms, hm⟩ := each_exists (d := (x.master 0, MasterHist.empty)) h3
  refine ⟨out, ms, (each_ok ho).1, (each_ok hm).1, ?_⟩
  unfold step
  rw [h1]
  dsimp only
  rw [ho]
  dsimp only
  rw [hm]

theorem slave_part {x : Sys σ τ} {j : In ρ ρ'} {net : Net.S (Msg BsFlit) σ τ} {u : Nat} {y : SlaveState × List AxisTxn × List BsFlit}
    (h : slavePart c j net x u = .ok y) : slaveRun (c.sc u) (x.slave u)
      ((j.sPre u).map SlaveEdge.event ++ .noc ((net.cOut (injLink c.m u)).getD []) :: (j.sPost u).map SlaveEdge.event) = .ok y := by
  unfold slavePart at h
  split at h
  · cases h
  · rename_i hr; cases h; exact hr

theorem master_part {x : Sys σ τ} {j : In ρ ρ'} {net : Net.S (Msg BsFlit) σ τ} {u : Nat} {y : MasterState × MasterHist}
    (h : masterPart c j net x u = .ok y) : masterRun (c.mc u) (x.master u) (x.hist u)
      (.tick :: (j.mPre u).map MasterEdge.event ++
        .noc ((net.fOut (ejLink c.m u)).map toBs) :: (j.mPost u).map MasterEdge.event) = (y.2, .ok y.1) := by
  unfold masterPart at h
  split at h
  · cases h
  · rename_i hr; cases h; exact hr

theorem noc_mem {j : In ρ ρ'} {u : Nat} {l : List Nat} {beats : Nat → Option AxisTxn} {seen : Bool}
    (h : SlaveEvent.node beats seen ∈
      (j.sPre u).map SlaveEdge.event ++ .noc l :: (j.sPost u).map SlaveEdge.event) :
    SlaveEdge.node beats seen ∈ j.sPre u ++ j.sPost u := by
  have key : ∀ {es : List SlaveEdge}, SlaveEvent.node beats seen ∈ es.map SlaveEdge.event → SlaveEdge.node beats seen ∈ es := by
    intro es h
    obtain ⟨e, he, h1⟩ := List.mem_map.1 h
    cases e with
    | node b s => cases h1; exact he
    | adapter => cases h1
  rcases List.mem_append.1 h with h | h
  · exact List.mem_append_left _ (key h)
  · rcases List.mem_cons.1 h with h | h
    · cases h
    · exact List.mem_append_right _ (key h)

theorem toList_flatten (a : Option (List Nat)) : a.toList.flatten = a.getD [] := by cases a <;> simp

theorem written_net (out : Nat → SlaveState × List AxisTxn × List BsFlit) (net : Net.S (Msg BsFlit) σ τ) :
    written c out net = { net with fIn := fun l =>
      if l < (mesh c.m).links ∧ (mesh c.m).driver l = none then (written c out net).fIn l else net.fIn l } := by
  unfold written
  congr 1
  funext l
  by_cases h : injLink c.m 0 ≤ l ∧ l < injLink c.m 0 + c.m.nodes
  · have hsrc : (mesh c.m).Source l :=
      mesh_source.2 ⟨l - injLink c.m 0, by omega, by unfold injLink at h ⊢; omega⟩
    simp [h, hsrc.1, (driver_none hsrc.1).2 hsrc]
  · simp [h]

theorem inv_step (hs : Setup c rng) (ha : Allocs VA SA (mesh c.m) c.b va sa) (hP : ∀ u p t, P u p t → Exists c u p t)
    (h : Inv VA SA c va sa i P n) (ht : InTime (i n)) (ho : Offered c P (i n)) : Inv VA SA c va sa i P (n + 1) := by
  have hw := mesh_wired (s := c.m) hs.k
  obtain ⟨s', hs'⟩ := never_fails hw hs.ok ha h.ticks (legal hs ht)
  obtain ⟨net, hnet⟩ : ∃ net, Net.tick VA SA (mesh c.m) c.b (env c (i n) (st VA SA c va sa i n))
      (st VA SA c va sa i n).net = .ok net := ⟨_, tick_inject hs' fun _ => none⟩
  clear hs' s'
  have hsrc : ∀ u < c.m.nodes, (mesh c.m).Source (injLink c.m u) := fun u hu => mesh_source.2 ⟨u, hu, rfl⟩
  have hsink : ∀ u < c.m.nodes, (mesh c.m).Sink (ejLink c.m u) := fun u hu => (mesh_sink hs.k).2 ⟨u, hu, rfl⟩
  have hS : ∀ u < c.m.nodes, ∃ s' acc out, slaveRun (c.sc u) ((st VA SA c va sa i n).slave u)
        (((i n).sPre u).map SlaveEdge.event ++
          .noc ((net.cOut (injLink c.m u)).getD []) :: ((i n).sPost u).map SlaveEdge.event) = .ok (s', acc, out) ∧
      CreditInv (c.sc u) s' ((st VA SA c va sa i n).sent u ++ out)
        ((creditsAt (nets VA SA c va sa i) (injLink c.m u) (n + 1)).flatten ++ (net.cOut (injLink c.m u)).getD []) ∧
      out.length ≤ 1 := by
    intro u hu
    obtain ⟨h1, h2⟩ := source_sees hw hs.ok ha h.ticks hnet (hsrc u hu)
    refine slave_period (hs.ports u hu).1 (hs.vcOk hu) (by rw [hs.buf u hu]; exact hs.ok.buf) (h.slave u hu) _ _ ?_ ?_
    · cases hc : net.cOut (injLink c.m u) with
      | none => exact List.nodup_nil
      | some l => exact h1 l hc
    · intro v
      have := h2 v
      rw [List.flatten_append, toList_flatten, h.wrote u hu, count_toNet] at this
      exact this
  have hM : ∀ u < c.m.nodes, ∃ hist, ∃ s' h' hist', masterRun (c.mc u) ((st VA SA c va sa i n).master u)
        ((st VA SA c va sa i n).hist u) (.tick :: ((i n).mPre u).map MasterEdge.event ++
          .noc ((net.fOut (ejLink c.m u)).map toBs) :: ((i n).mPost u).map MasterEdge.event) = (h', .ok s') ∧
      MasterInv (c.mc u) s' h' (hist ++ hist') ∧ DropInv (c.mc u) s' h' ∧
      h'.accepted = ((st VA SA c va sa i n).hist u).accepted ++ ((net.fOut (ejLink c.m u)).map toBs).toList ∧
      h'.credits = ((st VA SA c va sa i n).hist u).credits ++ ((st VA SA c va sa i n).master u).credit.toList := by
    intro u hu
    obtain ⟨hist, hi, hd⟩ := h.master u hu
    have hga := h.arrivals hs ha hP hnet hu
    have hsee := (sink_sees hw hs.ok ha h.ticks hnet (hsink u hu)).2
    have hpos := hs.ok.buf.perVc_pos
    have hl : ∀ a : Option (Flit (Msg BsFlit)), (a.map toBs).toList = a.toList.map toBs := fun a => by cases a <;> rfl
    refine ⟨hist, master_period (b := c.b.buf.perVc.toNat) (hs.ports u hu).2 ?_ ?_ hi hd _ _ _ ?_ ?_⟩
    · rw [hs.sameVcs u hu]; exact Nat.lt_of_le_of_lt (Nat.zero_le _) (hs.vcs 0)
    · have := hs.deep u hu; omega
    · rw [h.arrived u hu, hl, ← List.map_append]; exact hga
    · intro f _
      have := hsee f.vc
      rw [h.arrived u hu, hl, ← List.map_append, count_toBs, List.count_append, h.returned u hu]
      omega
  obtain ⟨out, ms, hout, hms, hstep⟩ := step_parts hnet (fun u hu => by
      obtain ⟨s', acc, o, h1, _⟩ := hS u hu
      exact ⟨(s', acc, o), by unfold slavePart; rw [h1]⟩) (fun u hu => by
      obtain ⟨_, s', h', _, h1, _⟩ := hM u hu
      exact ⟨(s', h'), by unfold masterPart; rw [h1]⟩)
  obtain ⟨hafter, hst⟩ := st_succ h.ok hstep
  have hn1 : nets VA SA c va sa i (n + 1) = written c out net := by unfold nets; rw [hst]
  have htick : Net.tick VA SA (mesh c.m) c.b (envs VA SA c va sa i n) (nets VA SA c va sa i n) =
      .ok (nets VA SA c va sa i (n + 1)) := by
    have := tick_inject hnet (nets VA SA c va sa i (n + 1)).fIn
    rw [hn1] at this ⊢
    rw [← written_net] at this
    exact (show envs VA SA c va sa i n = _ by unfold envs; rw [hn1]) ▸ this
  have hcr : ∀ u < c.m.nodes, (creditsAt (nets VA SA c va sa i) (injLink c.m u) (n + 2)).flatten =
      (creditsAt (nets VA SA c va sa i) (injLink c.m u) (n + 1)).flatten ++ (net.cOut (injLink c.m u)).getD [] := by
    intro u _
    rw [creditsAt_succ, List.flatten_append, toList_flatten, hn1]
    rfl
  have hfl : ∀ u < c.m.nodes, flitsAt (nets VA SA c va sa i) (ejLink c.m u) (n + 2) =
      flitsAt (nets VA SA c va sa i) (ejLink c.m u) (n + 1) ++ (net.fOut (ejLink c.m u)).toList := by
    intro u _
    rw [flitsAt_succ, hn1]
    rfl
  -- the adapters after the period
  have hS' : ∀ u < c.m.nodes, CreditInv (c.sc u) (out u).1 ((st VA SA c va sa i n).sent u ++ (out u).2.2)
        (creditsAt (nets VA SA c va sa i) (injLink c.m u) (n + 2)).flatten ∧ (out u).2.2.length ≤ 1 := by
    intro u hu
    obtain ⟨s', acc, o, h1, h2, h3⟩ := hS u hu
    have := slave_part (hout u hu)
    rw [h1] at this
    injection this with e
    rw [← e]
    exact ⟨by rw [hcr u hu]; exact h2, h3⟩
  have hwrote : ∀ u < c.m.nodes, injected (envs VA SA c va sa i) (injLink c.m u) (n + 1) =
      ((st VA SA c va sa i n).sent u ++ (out u).2.2).map (toNet u) := by
    intro u hu
    have hin : (envs VA SA c va sa i n).inject (injLink c.m u) = (out u).2.2.getLast?.map (toNet u) := by
      show (nets VA SA c va sa i (n + 1)).fIn _ = _
      rw [hn1]
      have h0 : injLink c.m u - injLink c.m 0 = u := by unfold injLink; omega
      have h1 : injLink c.m 0 ≤ injLink c.m u ∧ injLink c.m u < injLink c.m 0 + c.m.nodes := by unfold injLink; omega
      simp only [written, if_pos h1, h0]
    rw [injected_succ, h.wrote u hu, List.map_append, hin]
    congr 1
    have := (hS' u hu).2
    match (out u).2.2, this with
    | [], _ => rfl
    | [f], _ => rfl
  have hM' : ∀ u < c.m.nodes, (∃ hist, MasterInv (c.mc u) (ms u).1 (ms u).2 hist) ∧ DropInv (c.mc u) (ms u).1 (ms u).2 ∧
      (ms u).2.accepted = (flitsAt (nets VA SA c va sa i) (ejLink c.m u) (n + 2)).map toBs ∧
      (ms u).2.credits = (credited (envs VA SA c va sa i) (ejLink c.m u) (n + 1)).flatten := by
    intro u hu
    obtain ⟨hist, s', h', hist', h1, h2, h3, h4, h5⟩ := hM u hu
    have := master_part (hms u hu)
    rw [h1] at this
    injection this with e1 e2
    injection e2 with e2
    rw [← e1, ← e2]
    refine ⟨⟨_, h2⟩, h3, ?_, ?_⟩
    · rw [h4, h.arrived u hu, hfl u hu, List.map_append]
      congr 1
      cases net.fOut (ejLink c.m u) <;> rfl
    · rw [h5, h.returned u hu, credited_succ, List.flatten_append]
      congr 1
      show _ = (Option.map (fun x => [x]) ((st VA SA c va sa i n).master (ejLink c.m u - ejLink c.m 0)).credit).toList.flatten
      rw [show ejLink c.m u - ejLink c.m 0 = u by unfold ejLink; omega]
      cases ((st VA SA c va sa i n).master u).credit <;> rfl
  have hstream : ∀ u < c.m.nodes, Stream (c.sc u) (out u).1 ((st VA SA c va sa i n).got u ++ (out u).2.1)
      ((st VA SA c va sa i n).sent u ++ (out u).2.2) := by
    intro u hu
    refine (h.stream u hu).run (hs.ports u hu).1 (h.slave u hu).inv ?_ (slave_part (hout u hu))
    intro e he
    rcases List.mem_append.1 he with he | he
    · obtain ⟨e, _, rfl⟩ := List.mem_map.1 he; exact event_reset e
    · rcases List.mem_cons.1 he with rfl | he
      · rfl
      · obtain ⟨e, _, rfl⟩ := List.mem_map.1 he; exact event_reset e
  have hga' : ∀ u < c.m.nodes, GoodArrivals (c.mc u) (ms u).2.accepted := by
    intro u hu
    rw [(hM' u hu).2.2.1, hfl u hu]
    exact h.arrivals hs ha hP hnet hu
  have hcnt : ∀ u < c.m.nodes, ∀ v, (credited (envs VA SA c va sa i) (ejLink c.m u) (n + 1)).flatten.count v ≤
      (ms u).2.accepted.countP fun g => g.vc == v := by
    intro u hu v
    obtain ⟨_, hd, _, h3⟩ := hM' u hu
    have h1 := hd.credit v
    have h2 := hd.fifo v
    rw [← h3]
    omega
  refine ⟨by rw [hst]; exact hafter, h.ticks.snoc (legal hs ht) ⟨?_, ?_, ?_, ?_, ?_⟩ htick, ?_, ?_, ?_, ?_, ?_, ?_, ?_⟩
  · intro l hl f hf
    obtain ⟨u, hu, rfl⟩ := mesh_source.1 hl
    rw [hwrote u hu] at hf
    obtain ⟨b, hb, rfl⟩ := List.mem_map.1 hf
    have := (hS' u hu).1.sentVc b hb
    rw [hs.buf u hu] at this
    exact this
  · intro l hl v
    obtain ⟨u, hu, rfl⟩ := mesh_source.1 hl
    rw [hwrote u hu]
    exact (hstream u hu).packets (hs.vcOk hu) u _ (fun t j => rfl) v
  · intro l hl v
    obtain ⟨u, hu, rfl⟩ := mesh_source.1 hl
    rw [hwrote u hu, count_toNet, show n + 1 + 1 = n + 2 from rfl]
    have hi := (hS' u hu).1
    have h1 := hi.occ v
    by_cases hv : v < c.b.buf.vcs
    · have h2 := hi.buf.bound v (by rw [hs.buf u hu]; exact hv)
      rw [hs.buf u hu] at h2
      omega
    · have h3 : ((st VA SA c va sa i n).sent u ++ (out u).2.2).countP (fun g => g.vc == v) = 0 := by
        rw [List.countP_eq_zero]
        intro b hb
        have := hi.sentVc b hb
        rw [hs.buf u hu] at this
        simp
        omega
      have := hs.ok.buf.perVc_pos
      omega
  · intro l hl cr hcr
    obtain ⟨u, hu, rfl⟩ := (mesh_sink hs.k).1 hl
    obtain ⟨x, hx, h1⟩ := List.mem_filterMap.1 hcr
    have h2 : ∃ v, cr = [v] := by
      obtain ⟨k, _, rfl⟩ := List.mem_map.1 hx
      obtain ⟨v, _, h2⟩ := Option.map_eq_some_iff.1 h1
      exact ⟨v, h2.symm⟩
    obtain ⟨v, rfl⟩ := h2
    refine ⟨List.nodup_singleton v, fun w hw => ?_⟩
    obtain rfl := List.mem_singleton.1 hw
    have h3 := hcnt u hu w
    have h4 : 0 < (credited (envs VA SA c va sa i) (ejLink c.m u) (n + 1)).flatten.count w :=
      List.count_pos_iff.2 (List.mem_flatten.2 ⟨_, hcr, hw⟩)
    obtain ⟨g, hg, hgw⟩ := List.countP_pos_iff.1 (Nat.lt_of_lt_of_le h4 h3)
    have h5 := (hga' u hu).1 g hg
    rw [hs.sameVcs u hu] at h5
    simp only [beq_iff_eq] at hgw
    omega
  · intro l hl v
    obtain ⟨u, hu, rfl⟩ := (mesh_sink hs.k).1 hl
    have h1 := hcnt u hu v
    rw [(hM' u hu).2.2.1, count_toBs] at h1
    exact h1
  · intro u hu; rw [hst]; exact (hS' u hu).1
  · intro u hu; rw [hst]; exact hstream u hu
  · intro u hu; rw [hst]; exact hwrote u hu
  · intro u hu t ht'
    rw [hst] at ht'
    rcases List.mem_append.1 ht' with h1 | h1
    · exact h.good u hu t h1
    · obtain ⟨beats, seen, p, b, h2, hp, hb, rfl⟩ := slaveRun_mem (slave_part (hout u hu)) t h1
      exact ⟨p, hp, b, ho u hu beats seen (noc_mem h2) p hp b hb, rfl⟩
  · intro u hu
    rw [hst]
    obtain ⟨⟨hist, h1⟩, h2, _⟩ := hM' u hu
    exact ⟨hist, h1, h2⟩
  · intro u hu; rw [hst]; exact (hM' u hu).2.2.1
  · intro u hu; rw [hst]; exact (hM' u hu).2.2.2

theorem inv_all (hs : Setup c rng) (ha : Allocs VA SA (mesh c.m) c.b va sa) (hP : ∀ u p t, P u p t → Exists c u p t) :
    ∀ n, (∀ k < n, InTime (i k)) → (∀ k < n, Offered c P (i k)) → Inv VA SA c va sa i P n := by
  intro n
  induction n with
  | zero => intro _ _; exact inv_init hs
  | succ n ih =>
    intro ht ho
    exact inv_step hs ha hP (ih (fun k hk => ht k (by omega)) fun k hk => ho k (by omega)) (ht n (by omega)) (ho n (by omega))

end RadSim.AxisNoc
