import Verif.Lemmas.MmNoc
import Verif.Props.Alloc

/-! # Properties of a mesh NoC with AXI memory-mapped adapters -/

namespace RadSim.MmNoc

open Routing (dimOrderMesh)
open Net (mesh Allocs)
open MmSink (Beat decode typed)
open AxisNoc (clsOf)

variable {σ τ ρ ρ' : Type} {VA : Alloc.Cls σ ρ} {SA : Alloc.Cls τ ρ'} {c : Cfg} {va : Nat → σ} {sa : Nat → τ}
  {i : Nat → In ρ ρ'} {rng : Nat → Nat × Nat} {r : Nat → Nat} {n : Nat}

theorem inv_of (hs : Setup c rng r) (ha : Allocs VA SA (mesh c.m) c.b va sa) (hr : Runs c r n i) :
    Noc.Inv VA SA c.noc va sa i (Good c fun k => (i k).ad) n :=
  Noc.inv_all hs.noc ha (laws hs hr) n (Nat.le_refl n) hr.time

theorem sink_of {inp : Nat → Nat → NodeIn} {u n : Nat} {s : Node} {se ac : List BsFlit} {cr re : List Nat}
    (hk : (c.nc u).kind ≠ .none) (h : Good c inp u n s se cr ac re) : Sink (c.nc u).sink s.sink s.hist ac re := by
  unfold Good at h
  cases hk' : (c.nc u).kind with
  | none => exact absurd hk' hk
  | slave => rw [hk'] at h; exact h.2
  | master => rw [hk'] at h; exact h.2

theorem shows_eq {u : Nat} (hk : (c.nc u).kind ≠ .none) : shows (c.nc u).kind = MmSink.channels (c.nc u).sink.master := by
  unfold NodeCfg.sink
  cases h : (c.nc u).kind with
  | none => exact absurd h hk
  | slave => rfl
  | master => rfl

/-! ## C108: nothing fails, no flit is lost -/

/-- **C108** for one virtual channel per packet type and the clock ratio of `Setup`: whatever the modules offer, whenever they
are ready, however the clocks interleave and whatever the allocators grant, no assertion or error of the routers, the channels,
the buffer states or the adapters stops the simulation, and no adapter drops a flit. Missing: types with several virtual
channels, other clock ratios. -/
theorem C108_system_never_fails_partial (hs : Setup c rng r) (ha : Allocs VA SA (mesh c.m) c.b va sa) (hr : Runs c r n i) :
    ∃ x, after VA SA c va sa i n = .ok x ∧ ∀ u < c.m.nodes, (x.ad u).hist.dropped = [] := by
  have h := inv_of hs ha hr
  refine ⟨_, h.ok, fun u hu => ?_⟩
  have hg := h.good u hu
  by_cases hk : (c.nc u).kind = .none
  · unfold Good at hg
    rw [hk] at hg
    rw [hg.1]
    rfl
  · exact (sink_of hk hg).drop

/-! ## C109: what modules are shown has been handed over for them, in order -/

theorem marks_prefix {α β : Type} (f : α → β) (G : List (Nat × α)) (l : List β) (h : l <+: (G.map (·.2)).map f) (w : Nat) :
    (((G.take l.length).map (·.1)).zip l |>.filter fun y => y.1 = w).map (·.2) <+:
      ((G.filter fun x => x.1 = w).map (·.2)).map f := by
  induction G generalizing l with
  | nil => simp
  | cons x G ih =>
    cases l with
    | nil => simp
    | cons y l =>
      simp only [List.map_cons, List.cons_prefix_cons] at h
      obtain ⟨rfl, h⟩ := h
      have := ih l h
      by_cases hx : x.1 = w
      · simp only [List.length_cons, List.take_succ_cons, List.map_cons, List.zip_cons_cons]
        rw [List.filter_cons_of_pos (by simpa using hx), List.filter_cons_of_pos (by simpa using hx)]
        simp only [List.map_cons, List.cons_prefix_cons, true_and]
        exact this
      · simp only [List.length_cons, List.take_succ_cons, List.map_cons, List.zip_cons_cons]
        rw [List.filter_cons_of_neg (by simpa using hx), List.filter_cons_of_neg (by simpa using hx)]
        exact this

/-- The packets of node `w` for node `u` on channel `k` decode to the beats handed over. -/
theorem decode_pks {inp : Nat → Nat → NodeIn} {w u n : Nat} {k : MmType} {s : Node} {se ac : List BsFlit} {cr re : List Nat}
    (h : Good c inp w n s se cr ac re) :
    (((pks c w s).filter fun p => p.head?.any fun f => f.dest = u ∧ f.type = k.flitType).map (decode k)).map core =
      (((given (c.nc w).kind s).filter fun y => y.1 = u ∧ y.2.type = k).map (·.2)).map core := by
  unfold Good at h
  unfold pks txns given
  cases hk : (c.nc w).kind with
  | none => rfl
  | slave =>
    rw [hk] at h
    exact decode_reqs s.reqs none false 0 h.1.opened (by simp) (by simp) h.1.fits
  | master =>
    rw [hk] at h
    exact decode_rsps s.rsps h.1.fits

/-- **C109** for one virtual channel per packet type and the clock ratio of `Setup`: the beats shown to a module on a channel
can be traced to nodes such that those of a node are the first that its module has handed over for this one on this channel, in
this order and unchanged but for burst, size and length of addresses. So nothing is invented, repeated, reordered, skipped or
sent to the wrong place; write data comes to the node of the last write address. Missing: as for C108. -/
theorem C109_in_order_partial (hs : Setup c rng r) (ha : Allocs VA SA (mesh c.m) c.b va sa) (hr : Runs c r n i)
    {x : Sys σ τ} (hx : after VA SA c va sa i n = .ok x) {u : Nat} (hu : u < c.m.nodes) :
    (∀ y ∈ (x.ad u).hist.shown, y.1.type ∈ shows (c.nc u).kind) ∧
    ∀ k ∈ shows (c.nc u).kind, ∃ src : List Nat, src.length = (shownAt x u k).length ∧ (∀ w ∈ src, w < c.m.nodes) ∧
      ∀ w < c.m.nodes, (((src.zip (shownAt x u k)).filter fun y => y.1 = w).map (·.2)).map core <+:
        (givenFor c x w u k).map core := by
  have h := inv_of hs ha hr
  have hst : x = Noc.st VA SA c.noc va sa i n := by
    have := h.ok
    unfold after at hx
    rw [hx] at this
    injection this
  by_cases hk : (c.nc u).kind = .none
  · have hg := h.good u hu
    unfold Good at hg
    rw [hk] at hg
    rw [hst, hg.1]
    refine ⟨?_, ?_⟩
    · intro y hy; cases hy
    · intro k hk'; rw [hk] at hk'; cases hk'
  · have hsink := sink_of hk (h.good u hu)
    rw [← hst] at hsink
    rw [shows_eq hk]
    have hsep := hs.separate hu hk
    refine ⟨?_, ?_⟩
    · intro y hy
      obtain ⟨made, pres, hall⟩ := hsink.all hsep
      have hb := hall.1.2.beats
      have hy' : some y.1 ∈ pres.map (MmSink.beatOf (c.nc u).sink.master) := by
        rw [hb]
        exact List.mem_map_of_mem (List.mem_append_left _ (List.mem_map_of_mem hy))
      obtain ⟨p, -, hp⟩ := List.mem_map.1 hy'
      generalize y.1 = b at hp ⊢
      unfold MmSink.beatOf at hp
      cases p with
      | nil => cases hp
      | cons f p =>
        dsimp only at hp
        split at hp <;> first
          | (injection hp with e; rw [← e]; simp [MmSink.channels, MmSink.Beat.type]; try simp_all)
          | cases hp
    · intro k hkc
      obtain ⟨es, he⟩ := hsink.run
      have hbel := hsink.belongs
      rw [← hsink.acc] at hbel
      have e1 : (MmSink.run (c.nc u).sink (.init (c.nc u).sink) .empty es).1 = (x.ad u).hist := by rw [he]
      have ho := (MmSink.C88_order (c.nc u).sink es hsep (by rw [e1]; exact hbel)).2 k hkc
      rw [e1, hsink.acc] at ho
      obtain ⟨G, g1, g2, g3⟩ := h.marked hs.noc ha (laws hs hr) hu (ty := k.flitType) (hs.one k.flitType).1
      unfold typed at ho
      rw [← g1] at ho
      change shownAt x u k <+: _ at ho
      refine ⟨(G.take (shownAt x u k).length).map (·.1), ?_, ?_, ?_⟩
      · have := ho.length_le
        simp only [List.length_map] at this
        rw [List.length_map, List.length_take]
        omega
      · intro w hw
        obtain ⟨y, hy, rfl⟩ := List.mem_map.1 hw
        exact g2 y (List.mem_of_mem_take hy)
      · intro w hw
        have m1 := (marks_prefix (decode k) G _ ho w).map core
        have m2 := ((g3 w hw).map (decode k)).map core
        refine m1.trans (m2.trans (MmSink.prefix_of_eq ?_))
        rw [← hst]
        have hgw := h.good w hw
        rw [← hst] at hgw
        exact decode_pks hgw

/-! ## An example

Two nodes in a line, node 0 with a slave adapter and node 1 with a master adapter, with the virtual channels and the clock ratio
of `rad-sim/example-designs/aximm_hello_world/config.yml:1-40`: an adapter edge in every period, a node edge in every fourth. -/

namespace Example

open Alloc (islip Islip)

def chans (t : Nat) : Nat × Nat := (t % 5, t % 5)

def node (k : Kind) : NodeCfg := ⟨k, ⟨fun t => clsOf t, fun t => clsOf t⟩, 128, 16, 4, 4⟩

def cfg : Cfg where
  m := ⟨2, 1⟩
  b := ⟨0, 0, ⟨5, -1, 4, false⟩, -1, 1, 1, 1, 1, 1⟩
  rf := dimOrderMesh ⟨2, 1⟩ chans
  nc := fun u => node (if u = 0 then .slave else .master)

theorem setup : Setup cfg chans fun _ => 4 where
  k := by decide
  n := by decide
  ok := ⟨⟨by decide, by decide, by decide⟩, rfl, .inl rfl, rfl, rfl, rfl, rfl⟩
  rf := rfl
  vcs := by
    intro t
    show t % 5 < 5
    omega
  one := by intro t; cases t <;> decide
  apart := by intro t t'; cases t <;> cases t' <;> decide
  types := by intro u _ _ t; cases t <;> exact ⟨rfl, rfl⟩
  clock := fun u _ _ => ⟨show 2 ≤ 4 by decide, show 4 ≤ 256 by decide, show 128 ≤ 512 by decide,
    fun t => Nat.le_max_right _ _⟩
  deep := fun _ _ _ => show (4 : Int) ≤ 4 by decide

theorem allocs : Allocs islip islip (mesh cfg.m) cfg.b (fun _ => Islip.init 15 15 1) (fun _ => Islip.init 3 3 1) where
  va := fun _ _ => Alloc.C44_islip 15 15 1
  sa := fun _ _ => Alloc.C44_islip 3 3 1

/-- Two reads, then a write. -/
def reqs (k : Nat) : ReqOffer where
  ar := if k < 16 then some ⟨BitVec.ofNat 8 k, BitVec.ofNat 64 (2 ^ 57 + 64 * k), 1, 2, 3, BitVec.ofNat 64 k⟩ else none
  aw := if 4 ≤ k ∧ k < 20 then some ⟨7, BitVec.ofNat 64 (2 ^ 57 + 4096), 1, 2, 3, 5⟩ else none
  w := if 4 ≤ k ∧ k < 28 then some ⟨9, BitVec.ofNat 512 (2 ^ 100 + k), true, 6⟩ else none

/-- Responses, which the module at node 1 makes up. -/
def rsps (k : Nat) : RspOffer where
  r := if k % 8 < 4 then some ⟨BitVec.ofNat 8 k, BitVec.ofNat 512 (2 ^ 99 + k), 1, true, BitVec.ofNat 64 k⟩ else none
  b := if k % 8 < 6 then some ⟨BitVec.ofNat 8 (k + 1), 2, 3⟩ else none

def inp (k : Nat) : In Unit Unit where
  now := k
  rnd := fun _ _ _ => false
  rva := fun _ => ()
  rsa := fun _ => ()
  ad := fun _ => ⟨[(decide (k % 4 = 0), true, reqs k)], [], [(decide (k % 4 = 0), true, rsps k)], [],
    [.adapter true], if k % 4 = 0 then [.node fun _ => true] else []⟩

def run (n : Nat) : Except (Noc.Err Err) (Sys Islip Islip) :=
  after islip islip cfg (fun _ => Islip.init 15 15 1) (fun _ => Islip.init 3 3 1) inp n

/-- What of a beat is easy to read. -/
def brief : Beat → Nat × Nat
  | .req (.ar a) => (a.id.toNat, a.addr.toNat)
  | .req (.aw a) => (a.id.toNat, a.addr.toNat)
  | .req (.w a) => (a.id.toNat, a.data.toNat)
  | .rsp (.r a) => (a.id.toNat, a.data.toNat)
  | .rsp (.b a) => (a.id.toNat, a.resp.toNat)

/-- What modules are shown. -/
theorem arrive : (match run 48 with
    | .ok x => ([shownAt x 1 .ar, shownAt x 1 .aw, shownAt x 1 .w, shownAt x 0 .r, shownAt x 0 .b].map (List.map brief))
    | .error _ => []) =
    [[(3, 2 ^ 57 + 192)], [(7, 2 ^ 57 + 4096)], [(9, 2 ^ 100 + 19)], [(3, 2 ^ 99 + 3), (19, 2 ^ 99 + 19)], [(12, 2)]] := by
  decide +kernel

theorem regular (d : Nat) : ∀ n, AlignedClocks 4 n ((List.range' n d).map fun k => (decide (k % 4 = 0), true)) := by
  induction d with
  | zero => intro n; exact trivial
  | succ d ih =>
    intro n
    rw [List.range'_succ, List.map_cons]
    cases h : decide (n % 4 = 0) <;> exact ⟨h.symm, ih (n + 1)⟩

theorem clocks (k : Kind) (u N : Nat) : GapOk 4 none (clocksTo k (fun n => (inp n).ad u) N) := by
  cases k with
  | none =>
    have : clocksTo .none (fun n => (inp n).ad u) N = [] := by simp [clocksTo, clocksOf]
    rw [this]
    exact trivial
  | slave =>
    have : clocksTo .slave (fun n => (inp n).ad u) N = (List.range' 0 N).map fun k => (decide (k % 4 = 0), true) := by
      rw [← List.range_eq_range', clocksTo]
      exact List.flatMap_pure_eq_map _ _
    rw [this]
    exact (regular N 0).gapOk (by decide) _ 0 none (.inl ⟨rfl, rfl⟩)
  | master =>
    have : clocksTo .master (fun n => (inp n).ad u) N = (List.range' 0 N).map fun k => (decide (k % 4 = 0), true) := by
      rw [← List.range_eq_range', clocksTo]
      exact List.flatMap_pure_eq_map _ _
    rw [this]
    exact (regular N 0).gapOk (by decide) _ 0 none (.inl ⟨rfl, rfl⟩)

instance (u : Nat) (b : ReqBeat) : Decidable (ReqFits cfg u b) := by
  cases b <;> unfold ReqFits <;> infer_instance

instance (u : Nat) (b : RspBeat) : Decidable (RspFits cfg u b) := by
  cases b <;> unfold RspFits <;> infer_instance

theorem req_fits : ∀ k < 48, ((reqs k).ar.all fun a => decide (ReqFits cfg 0 (.ar a))) = true ∧
    ((reqs k).aw.all fun a => decide (ReqFits cfg 0 (.aw a))) = true ∧
    ((reqs k).w.all fun a => decide (ReqFits cfg 0 (.w a))) = true := by decide +kernel

theorem rsp_fits : ∀ k < 48, ((rsps k).r.all fun a => decide (RspFits cfg 1 (.r a))) = true ∧
    ((rsps k).b.all fun a => decide (RspFits cfg 1 (.b a))) = true := by decide +kernel

theorem runs : Runs cfg (fun _ => 4) 48 inp where
  time := by
    intro k hk
    show (0 : Int) ≤ (k : Int) ∧ (k : Int) + 1 ≤ 2147483647
    omega
  offers := by
    intro k hk
    refine ⟨fun u hu h0 x hx => ?_, fun u hu h0 x hx => ?_⟩
    · have hx : x.2.2 = reqs k := by
        change x ∈ [(_, _, reqs k)] ++ [] at hx
        simp only [List.append_nil, List.mem_singleton] at hx
        rw [hx]
      obtain ⟨h1, h2, h3⟩ := req_fits k hk
      rw [hx]
      have hu0 : u = 0 := by
        by_contra h
        simp [cfg, node, h] at h0
      subst hu0
      exact ⟨fun a ha => by simpa [ha] using h1, fun a ha => by simpa [ha] using h2, fun a ha => by simpa [ha] using h3⟩
    · have hx : x.2.2 = rsps k := by
        change x ∈ [(_, _, rsps k)] ++ [] at hx
        simp only [List.append_nil, List.mem_singleton] at hx
        rw [hx]
      obtain ⟨h1, h2⟩ := rsp_fits k hk
      rw [hx]
      have hu1 : u = 1 := by
        have : u < 2 := hu
        by_contra h
        have : u = 0 := by omega
        simp [cfg, node, this] at h0
      subst hu1
      exact ⟨fun a ha => by simpa [ha] using h1, fun a ha => by simpa [ha] using h2⟩
  clocks := fun u _ => clocks _ u 48

example : ∃ x, run 48 = .ok x ∧ ∀ u < 2, (x.ad u).hist.dropped = [] :=
  C108_system_never_fails_partial setup allocs runs

example {x : Sys Islip Islip} (hx : run 48 = .ok x) : ∃ src : List Nat, src.length = (shownAt x 0 .r).length ∧
    (∀ w ∈ src, w < 2) ∧ ∀ w < 2, (((src.zip (shownAt x 0 .r)).filter fun y => y.1 = w).map (·.2)).map core <+:
      (givenFor cfg x w 0 .r).map core :=
  (C109_in_order_partial setup allocs runs hx (u := 0) (by decide)).2 .r (by decide)

end Example

end RadSim.MmNoc
