import Verif.Lemmas.MmNocSink
import Verif.Lemmas.MmNocSource
import Verif.Lemmas.AxisNocDrain
import Verif.Props.MmNoc

/-! # A NoC with AXI memory-mapped adapters in periods in which nothing moves -/

namespace RadSim.MmNoc

open Router (Flit Hop)
open Routing (Shape Rf dimOrderMesh vcOk)
open AxisNoc (clsOf toBs toNet count_toBs count_toNet)
open Noc (Made Comes Laws st nets envs)
open Net

variable {σ τ ρ ρ' : Type} {VA : Alloc.Cls σ ρ} {SA : Alloc.Cls τ ρ'} {c : Cfg} {va : Nat → σ} {sa : Nat → τ} {i : Nat → In ρ ρ'}
  {rng : Nat → Nat × Nat} {r : Nat → Nat} {n : Nat}

/-- What holds after `n` periods. -/
abbrev Holds (VA : Alloc.Cls σ ρ) (SA : Alloc.Cls τ ρ') (c : Cfg) (va : Nat → σ) (sa : Nat → τ) (i : Nat → In ρ ρ') (n : Nat) : Prop :=
  Noc.Inv VA SA c.noc va sa i (Good c fun k => (i k).ad) n

/-- The adapters of a node after `n` periods. -/
abbrev node (VA : Alloc.Cls σ ρ) (SA : Alloc.Cls τ ρ') (c : Cfg) (va : Nat → σ) (sa : Nat → τ) (i : Nat → In ρ ρ') (n u : Nat) : Node :=
  (st VA SA c.noc va sa i n).ad u

/-- What a node does in a period. -/
theorem step_of (h : Holds VA SA c va sa i n) (h' : Holds VA SA c va sa i (n + 1)) {u : Nat} (hu : u < c.m.nodes) :
    ∃ out, nodeStep c.b.buf (c.nc u) ((i n).ad u) (((nets VA SA c.noc va sa i (n + 1)).cOut (injLink c.m u)).getD [])
        (((nets VA SA c.noc va sa i (n + 1)).fOut (ejLink c.m u)).map toBs) (node VA SA c va sa i n u) =
        .ok (node VA SA c va sa i (n + 1) u, out) ∧
      (st VA SA c.noc va sa i (n + 1)).sent u = (st VA SA c.noc va sa i n).sent u ++ out := by
  have hx := h'.ok
  unfold Noc.after at hx
  rw [h.ok] at hx
  dsimp only at hx
  have hnet : nets VA SA c.noc va sa i (n + 1) = (st VA SA c.noc va sa i (n + 1)).net := rfl
  unfold node
  rw [hnet]
  generalize st VA SA c.noc va sa i (n + 1) = y at hx ⊢
  unfold Noc.step at hx
  split at hx
  · cases hx
  · rename_i net h1
    split at hx
    · cases hx
    · rename_i out h2
      cases hx
      exact ⟨(out u).2, Noc.node_part ((Net.each_ok h2).1 u hu), rfl⟩

theorem period (h : Holds VA SA c va sa i n) (h' : Holds VA SA c va sa i (n + 1)) {u : Nat} (hu : u < c.m.nodes)
    (hk : (c.nc u).kind ≠ .none) :
    ∃ out, Period c u ((i n).ad u) (((nets VA SA c.noc va sa i (n + 1)).cOut (injLink c.m u)).getD [])
        (((nets VA SA c.noc va sa i (n + 1)).fOut (ejLink c.m u)).map toBs) (node VA SA c va sa i n u)
        (node VA SA c va sa i (n + 1) u) out ∧
      (st VA SA c.noc va sa i (n + 1)).sent u = (st VA SA c.noc va sa i n).sent u ++ out := by
  obtain ⟨out, h1, h2⟩ := step_of h h' hu
  exact ⟨out, period_of hk h1, h2⟩

/-- A node without an adapter. -/
theorem bare (h : Holds VA SA c va sa i n) {u : Nat} (hu : u < c.m.nodes) (hk : (c.nc u).kind = .none) :
    node VA SA c va sa i n u = .init (c.nc u) ∧ (st VA SA c.noc va sa i n).sent u = [] ∧
      (flitsAt (nets VA SA c.noc va sa i) (ejLink c.m u) (n + 1)).map toBs = [] := by
  have hg := h.good u hu
  unfold Good at hg
  rw [hk] at hg
  exact ⟨hg.1, hg.2.1, hg.2.2.1⟩

theorem held (h : Holds VA SA c va sa i n) {u : Nat} (hu : u < c.m.nodes) (hk : (c.nc u).kind ≠ .none) :
    At c (gapTo c (fun k => (i k).ad) u n) u (node VA SA c va sa i n u) ((st VA SA c.noc va sa i n).sent u)
      (creditsAt (nets VA SA c.noc va sa i) (injLink c.m u) (n + 1)).flatten
      ((flitsAt (nets VA SA c.noc va sa i) (ejLink c.m u) (n + 1)).map toBs)
      (credited (envs VA SA c.noc va sa i) (ejLink c.m u) n).flatten := at_of hk (h.good u hu)

/-! ## progress -/

/-- What the sink side of a node has done. -/
def work (s : Node) : Nat := 4 * s.hist.accepted.length - MmSink.load s.sink

/-- What has been done so far. -/
def progress (VA : Alloc.Cls σ ρ) (SA : Alloc.Cls τ ρ') (c : Cfg) (va : Nat → σ) (sa : Nat → τ) (i : Nat → In ρ ρ') (n : Nat) : Nat :=
  hops (mesh c.m) (nets VA SA c.noc va sa i) n + ∑ u ∈ Finset.range c.m.nodes, (((st VA SA c.noc va sa i n).sent u).length +
    (work (node VA SA c va sa i n u) +
      ((node VA SA c va sa i n u).reqs.length + (node VA SA c va sa i n u).rsps.length)))

/-- Nothing is undone. -/
structure Onward (s s' : Node) (se se' : List BsFlit) : Prop where
  sent : se <+: se'
  reqs : s.reqs <+: s'.reqs
  rsps : s.rsps <+: s'.rsps
  shown : s.hist.shown <+: s'.hist.shown
  work : work s ≤ work s'

theorem Onward.refl (s : Node) (se : List BsFlit) : Onward s s se se :=
  ⟨List.prefix_refl _, List.prefix_refl _, List.prefix_refl _, List.prefix_refl _, Nat.le_refl _⟩

theorem Onward.trans {s s' s'' : Node} {se se' se'' : List BsFlit} (h : Onward s s' se se') (g : Onward s' s'' se' se'') :
    Onward s s'' se se'' :=
  ⟨h.sent.trans g.sent, h.reqs.trans g.reqs, h.rsps.trans g.rsps, h.shown.trans g.shown, h.work.trans g.work⟩

section
variable {N : Nat} (hs : Setup c rng r) (hinv : ∀ n ≤ N, Holds VA SA c va sa i n)
include hs hinv

theorem onward {a b : Nat} (hab : a ≤ b) (hb : b ≤ N) {u : Nat} (hu : u < c.m.nodes) :
    Onward (node VA SA c va sa i a u) (node VA SA c va sa i b u) ((st VA SA c.noc va sa i a).sent u)
      ((st VA SA c.noc va sa i b).sent u) := by
  obtain ⟨d, rfl⟩ := Nat.exists_eq_add_of_le hab
  clear hab
  induction d with
  | zero => exact .refl _ _
  | succ d ih =>
    refine (ih (by omega)).trans ?_
    have h1 := hinv (a + d) (by omega)
    have h2 := hinv (a + d + 1) (by omega)
    by_cases hk : (c.nc u).kind = .none
    · obtain ⟨e1, e2, -⟩ := bare h1 hu hk
      obtain ⟨e3, e4, -⟩ := bare h2 hu hk
      rw [e1, e2]
      show Onward _ (node VA SA c va sa i (a + d + 1) u) _ ((st VA SA c.noc va sa i (a + d + 1)).sent u)
      rw [e3, e4]
      exact .refl _ _
    · obtain ⟨out, hp, hse⟩ := period h1 h2 hu hk
      have k1 := (held h1 hu hk).sink
      have k2 := (held h2 hu hk).sink
      have hl := k1.load_period (hs.separate hu hk) k2 hp.sink
      have hl2 := k2.load_le (hs.separate hu hk)
      refine ⟨⟨_, hse.symm⟩, hp.reqs, hp.rsps, shown_run _ hp.sink, ?_⟩
      unfold work
      show _ ≤ 4 * (node VA SA c va sa i (a + d + 1) u).hist.accepted.length - MmSink.load (node VA SA c va sa i (a + d + 1) u).sink
      omega

theorem progress_mono {a b : Nat} (hab : a ≤ b) (hb : b ≤ N) :
    progress VA SA c va sa i a ≤ progress VA SA c va sa i b := by
  refine Nat.add_le_add (hops_mono _ _ hab) (Finset.sum_le_sum fun u hu => ?_)
  have h := onward hs hinv hab hb (Finset.mem_range.1 hu)
  exact Nat.add_le_add h.sent.length_le (Nat.add_le_add h.work (Nat.add_le_add h.reqs.length_le h.rsps.length_le))

/-- Nothing moves. -/
theorem no_progress {a b : Nat} (hab : a ≤ b) (hb : b ≤ N) (h : progress VA SA c va sa i b = progress VA SA c va sa i a) :
    hops (mesh c.m) (nets VA SA c.noc va sa i) b = hops (mesh c.m) (nets VA SA c.noc va sa i) a ∧
      ∀ u < c.m.nodes, (st VA SA c.noc va sa i b).sent u = (st VA SA c.noc va sa i a).sent u ∧
        work (node VA SA c va sa i b u) = work (node VA SA c va sa i a u) ∧
        (node VA SA c va sa i b u).reqs = (node VA SA c va sa i a u).reqs ∧
        (node VA SA c va sa i b u).rsps = (node VA SA c va sa i a u).rsps := by
  have key : ∀ {α : Type} {x y : List α}, x <+: y → y.length ≤ x.length → y = x :=
    fun h1 h2 => (h1.eq_of_length (Nat.le_antisymm h1.length_le h2)).symm
  have h0 := hops_mono (mesh c.m) (nets VA SA c.noc va sa i) hab
  have hle : ∀ u ∈ Finset.range c.m.nodes, _ := fun u hu => by
    have h := onward hs hinv hab hb (Finset.mem_range.1 hu)
    exact Nat.add_le_add h.sent.length_le (Nat.add_le_add h.work (Nat.add_le_add h.reqs.length_le h.rsps.length_le))
  have hsum := Finset.sum_le_sum hle
  unfold progress at h
  have e1 := (Finset.sum_eq_sum_iff_of_le hle).1 (by omega)
  refine ⟨by omega, fun u hu => ?_⟩
  have e2 := e1 u (Finset.mem_range.2 hu)
  have h := onward hs hinv hab hb hu
  have l1 := h.sent.length_le
  have l2 := h.work
  have l3 := h.reqs.length_le
  have l4 := h.rsps.length_le
  exact ⟨key h.sent (by omega), by omega, key h.reqs (by omega), key h.rsps (by omega)⟩

end

theorem rest_tailless {α : Type} {tail : α → Bool} (l : List α) {y : List α} (h : ∀ x ∈ y, tail x = false) :
    rest tail (l ++ y) = rest tail l ++ y := by
  induction y using List.reverseRecOn with
  | nil => simp
  | append_singleton y x ih =>
    rw [← List.append_assoc, rest_snoc, if_neg (by rw [h x (by simp)]; simp), ih fun z hz => h z (by simp [hz]),
      List.append_assoc]

/-- The flits of a type are those of its virtual channel. -/
theorem typed_vc {c : MmSink.Cfg} {ac : List BsFlit} (hs : MmSink.Separate c)
    (h1 : ∀ t, c.vcs.first t = c.vcs.last t ∧ c.vcs.last t < 8) (hb : MmSink.Belongs c ac) {k : MmType} (hk : k ∈ c.types) {v : Nat}
    (hkv : c.vcs.last k.flitType = v) : MmSink.typed k ac = ac.filter fun f => f.vc = v := by
  unfold MmSink.typed
  apply List.filter_congr
  intro g hg
  obtain ⟨j, hj, ht, b1, b2⟩ := hb g hg
  have a1 := h1 g.type
  rw [decide_eq_decide]
  constructor
  · intro e
    rw [e] at b1 b2 a1
    omega
  · intro e
    rw [MmSink.types_eq] at hk
    rw [ht] at b1 b2 a1
    have c1 := MmSink.class_of_range hs hj (v := v) (by omega) (by omega)
    have c2 := MmSink.class_of_range hs hk (v := v) (by rw [(h1 _).1]; omega) (by omega)
    rw [c1] at c2
    cases c2
    exact ht

/-- A virtual channel has less than a packet waiting. -/
theorem Sink.waiting_lt {c : MmSink.Cfg} {s : MmSink.State} {h : MmSink.Hist} {ac : List BsFlit} {re : List Nat} (hs : MmSink.Separate c)
    (h1 : ∀ t, c.vcs.first t = c.vcs.last t ∧ c.vcs.last t < 8) (hi : Sink c s h ac re) (hf : MmSink.Final c s) {L : Nat}
    (hL : 0 < L) {v : Nat} (hv : Short BsFlit.tail L (ac.filter fun f => f.vc = v)) : MmSink.waiting v s < L := by
  obtain ⟨made, pres, hall⟩ := hi.all hs
  have hin : ∀ k, ∀ f ∈ s.fifos k, f.vc.toNat = v → k ∈ c.types ∧ c.vcs.last k.flitType = v := by
    intro k f hk hfv
    have hkt : k ∈ c.types := by
      by_contra hc
      rw [hi.outside hc] at hk
      cases hk
    have hm : f ∈ MmSink.ofClass c k h.accepted := by
      rw [hall.1.1.stream k hkt]
      unfold MmSink.inside
      simp [hk]
    rw [hi.acc, MmSink.ofClass_eq hs hi.belongs] at hm
    obtain ⟨g, hg, rfl⟩ := List.mem_map.1 hm
    have hg := List.mem_filter.1 hg
    have hgt := of_decide_eq_true hg.2
    obtain ⟨-, -, -, b1, b2⟩ := hi.belongs g hg.1
    rw [hgt] at b1 b2
    have := h1 k.flitType
    refine ⟨hkt, ?_⟩
    rw [← hfv]
    show _ = (BitVec.ofNat 3 g.vc).toNat
    rw [BitVec.toNat_ofNat, Nat.mod_eq_of_lt (by omega)]
    omega
  have hlen : ∀ k ∈ c.types, c.vcs.last k.flitType = v → (s.fifos k).length < L := by
    intro k hk hkv
    have e1 := hall.1.1.stream k hk
    unfold MmSink.inside at e1
    rw [hf.held, hi.acc, MmSink.ofClass_eq hs hi.belongs] at e1
    have e2 := typed_vc hs h1 hi.belongs hk hkv
    rw [e2] at e1
    have e3 : Short ScFlit.tail L ((ac.filter fun f => f.vc = v).map mmEject) := (short_map _ _).2 hv
    rw [e1] at e3
    have e4 := e3 _ (List.prefix_refl _)
    rw [show MmSink.ofClass c k (none : Option BsFlit).toList = [] from rfl, List.append_nil, ← List.append_assoc,
      rest_tailless _ (hf.tails k hk), List.length_append] at e4
    omega
  have hz : ∀ k, (∀ f ∈ s.fifos k, f.vc.toNat ≠ v) → MmSink.vcCount v (s.fifos k) = 0 := by
    intro k hk
    unfold MmSink.vcCount
    rw [List.countP_eq_zero]
    intro f hf'
    simpa using hk f hf'
  have hle : ∀ k, MmSink.vcCount v (s.fifos k) ≤ (s.fifos k).length := fun k => List.countP_le_length
  by_cases hex : ∃ k ∈ c.types, c.vcs.last k.flitType = v
  · obtain ⟨k, hk, hkv⟩ := hex
    have hother : ∀ j, j ≠ k → MmSink.vcCount v (s.fifos j) = 0 := by
      intro j hj
      apply hz
      intro f hf' hfv
      obtain ⟨j1, j2⟩ := hin j f hf' hfv
      rw [MmSink.types_eq] at hk j1
      have c1 := MmSink.class_of_range hs j1 (v := v) (by rw [(h1 _).1]; omega) (by omega)
      have c2 := MmSink.class_of_range hs hk (v := v) (by rw [(h1 _).1]; omega) (by omega)
      rw [c1] at c2
      cases c2
      exact hj rfl
    have h2 := hle k
    have h3 := hlen k hk hkv
    unfold MmSink.waiting
    rw [hf.held]
    have o1 := hother .ar
    have o2 := hother .aw
    have o3 := hother .w
    have o4 := hother .r
    have o5 := hother .b
    cases k <;> simp at o1 o2 o3 o4 o5 ⊢ <;> omega
  · have hother : ∀ j, MmSink.vcCount v (s.fifos j) = 0 := by
      intro j
      apply hz
      intro f hf' hfv
      exact hex ⟨j, hin j f hf' hfv⟩
    unfold MmSink.waiting
    rw [hf.held, hother, hother, hother, hother, hother]
    exact hL

theorem gapTo_succ (c : Cfg) (inp : Nat → Nat → NodeIn) (u n : Nat) :
    gapTo c inp u (n + 1) = gapAfter (gapTo c inp u n) (clocksOf (c.nc u).kind (inp n u)) := by
  unfold gapTo
  rw [clocksTo_succ, gapAfter_append]

/-- Periods in which nothing moves although nothing is in the way. -/
structure Calm (VA : Alloc.Cls σ ρ) (SA : Alloc.Cls τ ρ') (c : Cfg) (va : Nat → σ) (sa : Nat → τ) (i : Nat → In ρ ρ')
    (rng : Nat → Nat × Nat) (r : Nat → Nat) (N n₀ J K a T : Nat) : Prop where
  set : Setup c rng r
  allocs : Allocs VA SA (mesh c.m) c.b va sa
  grants : Grants VA SA (mesh c.m) c.b va sa
  short : ∀ u < c.m.nodes, (c.nc u).kind ≠ .none → ∀ k, (mmFlits (c.nc u).dataw k : Int) ≤ c.b.buf.perVc
  runs : Runs c r N i
  inv : ∀ n ≤ N, Holds VA SA c va sa i n
  fair : Fair c N n₀ J K i
  start : n₀ ≤ a
  stop : a + T ≤ N
  still : progress VA SA c va sa i (a + T) = progress VA SA c va sa i a

namespace Calm

variable {N n₀ J K a T : Nat} (w : Calm VA SA c va sa i rng r N n₀ J K a T)
include w

theorem same {n m : Nat} (h1 : a ≤ n) (h2 : n ≤ m) (h3 : m ≤ a + T) :
    hops (mesh c.m) (nets VA SA c.noc va sa i) m = hops (mesh c.m) (nets VA SA c.noc va sa i) n ∧
      ∀ u < c.m.nodes, (st VA SA c.noc va sa i m).sent u = (st VA SA c.noc va sa i n).sent u ∧
        work (node VA SA c va sa i m u) = work (node VA SA c va sa i n u) ∧
        (node VA SA c va sa i m u).reqs = (node VA SA c va sa i n u).reqs ∧
        (node VA SA c va sa i m u).rsps = (node VA SA c va sa i n u).rsps := by
  have hN := w.stop
  refine no_progress w.set w.inv h2 (by omega) ?_
  have k1 := progress_mono w.set w.inv h1 (by omega)
  have k2 := progress_mono w.set w.inv h2 (by omega)
  have k3 := progress_mono w.set w.inv h3 (by omega)
  have := w.still
  omega

/-- Later periods. -/
theorem shift {d : Nat} (hd : d ≤ T) : Calm VA SA c va sa i rng r N n₀ J K (a + d) (T - d) where
  set := w.set
  allocs := w.allocs
  grants := w.grants
  short := w.short
  runs := w.runs
  inv := w.inv
  fair := w.fair
  start := by have := w.start; omega
  stop := by have := w.stop; omega
  still := by
    have hN := w.stop
    have k1 := progress_mono w.set w.inv (show a ≤ a + d by omega) (by omega)
    have k2 := progress_mono w.set w.inv (show a + d ≤ a + T by omega) (by omega)
    have := w.still
    rw [show a + d + (T - d) = a + T by omega]
    omega

/-- The network in these periods. -/
theorem net {T' : Nat} (hT : T' ≤ T) :
    Still VA SA (mesh c.m) c.b va sa N K a T' (envs VA SA c.noc va sa i) (nets VA SA c.noc va sa i) := by
  have hN := w.stop
  refine ⟨mesh_wired w.set.k, w.set.ok, w.allocs, w.grants, (w.inv N (Nat.le_refl _)).ticks, by omega,
    (w.same (Nat.le_refl _) (by omega) (by omega)).1, fun n h1 h2 l hl => ?_, fun m n h1 h2 => ?_⟩
  · obtain ⟨u, hu, rfl⟩ := mesh_source.1 hl
    have e1 := (w.inv n (by omega)).wrote u hu
    have e2 := (w.inv (n + 1) (by omega)).wrote u hu
    rw [((w.same h1 (Nat.le_succ n) (by omega)).2 u hu).1, ← e1, injected_succ] at e2
    have : ((envs VA SA c.noc va sa i n).inject (injLink c.m u)).toList = [] := by
      exact List.append_cancel_left (by rw [List.append_nil]; exact e2)
    cases hx : (envs VA SA c.noc va sa i n).inject (injLink c.m u) with
    | none => rfl
    | some f => rw [hx] at this; cases this
  · obtain ⟨h3, h4⟩ := w.fair.time m n h1 h2
    exact ⟨h3, fun l _ => ⟨show (i m).now + 1 - 1 ≤ (i n).now by omega, show (i m).now + 1 - 1 ≤ (i n).now by omega⟩⟩

/-! ## the sink side -/

/-- A period after the last flit has arrived. -/
theorem idle {n : Nat} (h1 : a + K + 1 ≤ n) (h2 : n < a + T) {u : Nat} (hu : u < c.m.nodes) (hk : (c.nc u).kind ≠ .none) :
    Quiet (c.nc u).sink ((i n).ad u) (node VA SA c va sa i n u).sink (node VA SA c va sa i (n + 1) u).sink := by
  have hN := w.stop
  have hi := w.inv n (by omega)
  have hi' := w.inv (n + 1) (by omega)
  obtain ⟨out, hp, -⟩ := period hi hi' hu hk
  have hr := hp.sink
  have hl : ejLink c.m u < (mesh c.m).links := ((mesh_sink w.set.k).2 ⟨u, hu, rfl⟩).1
  have hf := (w.net (Nat.le_refl T)).fOut hl (n := n + 1) (by omega) (by omega)
  rw [hf, Option.map_none] at hr
  have k1 := (held hi hu hk).sink
  have k2 := (held hi' hu hk).sink
  refine k1.quiet (w.set.separate hu hk) hr ?_
  have e1 := ((w.same (n := n) (m := n + 1) (by omega) (by omega) (by omega)).2 u hu).2.1
  have e2 : (node VA SA c va sa i (n + 1) u).hist.accepted = (node VA SA c va sa i n u).hist.accepted := by
    rw [k1.acc, k2.acc, flitsAt_succ]
    have : (nets VA SA c.noc va sa i (n + 1)).fOut (ejLink c.m u) = none := hf
    rw [this]
    simp
  have l1 := k1.load_le (w.set.separate hu hk)
  have l2 := k2.load_le (w.set.separate hu hk)
  unfold work at e1
  rw [e2] at e1 l2
  omega

theorem quiets {n m : Nat} (h1 : a + K + 1 ≤ n) (h2 : n ≤ m) (h3 : m ≤ a + T) {u : Nat} (hu : u < c.m.nodes)
    (hk : (c.nc u).kind ≠ .none) :
    MmSink.Same (node VA SA c va sa i n u).sink (node VA SA c va sa i m u).sink ∧
      ((node VA SA c va sa i n u).sink.port = none → (node VA SA c va sa i m u).sink.port = none) := by
  obtain ⟨d, rfl⟩ := Nat.exists_eq_add_of_le h2
  clear h2
  induction d with
  | zero => exact ⟨.refl _, id⟩
  | succ d ih =>
    have h := ih (by omega)
    have g := w.idle (n := n + d) (by omega) (by omega) hu hk
    exact ⟨h.1.trans g.same, fun hp => g.port (.inl (h.2 hp))⟩

theorem typed {n : Nat} (hn : n ≤ N) {u : Nat} (hu : u < c.m.nodes) (hk : (c.nc u).kind ≠ .none) :
    MmSink.Typed (c.nc u).sink (node VA SA c va sa i n u).hist.accepted := by
  have k1 := (held (w.inv n hn) hu hk).sink
  rw [k1.acc]
  exact MmSink.belongs_typed (w.set.separate hu hk) k1.belongs

/-- The module has been shown everything there was to show. -/
theorem shownAll (hT : K + 1 + J ≤ T) {n : Nat} (h1 : a + K + 1 ≤ n) (h2 : n ≤ a + T) {u : Nat} (hu : u < c.m.nodes)
    (hk : (c.nc u).kind ≠ .none) :
    (node VA SA c va sa i n u).sink.cur = none ∧ (node VA SA c va sa i n u).sink.outq = [] := by
  have hN := w.stop
  have hn := w.start
  by_contra hne
  have hne' : (node VA SA c va sa i n u).sink.cur ≠ none ∨ (node VA SA c va sa i n u).sink.outq ≠ [] := by
    by_contra hc
    push Not at hc
    exact hne hc
  have hi := w.inv n (by omega)
  have k1 := (held hi hu hk).sink
  obtain ⟨made, pres, hall⟩ := k1.all (w.set.separate hu hk)
  have hord := hall.1.2.order
  rw [List.append_assoc, ← MmSink.taken_eq, ← List.append_assoc] at hord
  rcases ht : MmSink.taken (node VA SA c va sa i n u).sink with ⟨_ | p, q⟩
  · have := (MmSink.load_taken _).2.1 hne'
    rw [ht] at this
    exact absurd rfl this
  · rw [ht] at hord
    have hmem : p ∈ made.map (·.2) := by rw [hord]; simp
    obtain ⟨x, hx, rfl⟩ := List.mem_map.1 hmem
    obtain ⟨b, hb, hbt⟩ := MmSink.made_beat hall.1.1 (w.typed (by omega) hu hk) hx
    have hx1 := (hall.1.1.closed x hx).2
    rw [MmSink.types_eq] at hx1
    obtain ⟨k, j1, j2, r, hr, hrt⟩ := w.fair.ready (a + K + 1) (by omega) (by omega) u hu b.type (by
      rw [shows_eq hk, hbt]; exact hx1)
    have g := (w.idle (n := k) (by omega) (by omega) hu hk).ready r hr x.2 q b (by
      have s1 := (w.quiets (n := a + K + 1) (m := k) (by omega) j1 (by omega) hu hk).1
      have s2 := (w.quiets (n := a + K + 1) (m := n) (by omega) h1 h2 hu hk).1
      rw [taken_same s1, ← taken_same s2]
      exact ht) hb
    rw [hrt] at g
    cases g

/-- There are only incomplete packets in the ejection FIFOs. -/
theorem final (hT : K + 2 + J ≤ T) {n : Nat} (h1 : a + K + 1 ≤ n) (h2 : n ≤ a + T) {u : Nat} (hu : u < c.m.nodes)
    (hk : (c.nc u).kind ≠ .none) : MmSink.Final (c.nc u).sink (node VA SA c va sa i n u).sink := by
  have hN := w.stop
  have hn := w.start
  obtain ⟨e1, e2⟩ := w.shownAll (by omega) h1 h2 hu hk
  refine ⟨(held (w.inv n (by omega)) hu hk).sink.held, ?_, e2, e1⟩
  obtain ⟨k, k1, k2, b, hb⟩ := w.fair.sink (a + K + 2) (by omega) (by omega) u hu hk
  have h3 := (w.idle (n := k) (by omega) (by omega) hu hk).tails ⟨b, hb⟩
    (by obtain ⟨k', rfl⟩ : ∃ k', k = k' + 1 := ⟨k - 1, by omega⟩
        exact (w.idle (n := k') (by omega) (by omega) hu hk).push)
    (w.shownAll (by omega) (n := k) (by omega) (by omega) hu hk).2
  rw [(w.quiets (Nat.le_refl _) (show a + K + 1 ≤ k by omega) (by omega) hu hk).1.fifos] at h3
  rw [(w.quiets (Nat.le_refl _) h1 h2 hu hk).1.fifos]
  exact h3

/-- Nothing is at the ports any more. -/
theorem ports {n : Nat} (h1 : a + K + 1 + J ≤ n) (h2 : n ≤ a + T) {u : Nat} (hu : u < c.m.nodes)
    {k : MmType} (hk : k ∈ shows (c.nc u).kind) : (node VA SA c va sa i n u).sink.port = none := by
  have hN := w.stop
  have hn := w.start
  have hk' : (c.nc u).kind ≠ .none := by intro e; rw [e] at hk; cases hk
  obtain ⟨k, k1, k2, r, hr, -⟩ := w.fair.ready (a + K + 1) (by omega) (by omega) u hu k hk
  have g := (w.idle (n := k) (by omega) (by omega) hu hk').port (.inr ⟨r, hr⟩)
  exact (w.quiets (n := k + 1) (m := n) (by omega) (by omega) h2 hu hk').2 g

/-- Every flit taken has its credit. -/
theorem exact : ∀ n ≤ N, ∀ u < c.m.nodes, Exact (node VA SA c va sa i n u).sink (node VA SA c va sa i n u).hist := by
  intro n
  induction n with
  | zero => intro _ u _ v; rfl
  | succ n ih =>
    intro hn u hu
    by_cases hk : (c.nc u).kind = .none
    · rw [(bare (w.inv (n + 1) hn) hu hk).1]; intro v; rfl
    · obtain ⟨out, hp, -⟩ := period (w.inv n (by omega)) (w.inv (n + 1) (by omega)) hu hk
      exact period_exact hp.sink (ih (by omega) u hu) (w.fair.one n (by omega) u hu)

/-- Packets fit into a buffer. -/
theorem shorts {l : Nat} (hl : l < (mesh c.m).links) (v : Nat) :
    Short Flit.tail c.b.buf.perVc.toNat (Net.onVc (entered (nets VA SA c.noc va sa i) l N) v) := by
  have hpos := w.set.ok.buf.perVc_pos
  have hi := w.inv N (Nat.le_refl _)
  refine Net.short (mesh_wired w.set.k) w.set.ok w.allocs hi.ticks (by omega) ?_ N (Nat.le_refl _) l hl v
  intro l hl v
  obtain ⟨u, hu, rfl⟩ := mesh_source.1 hl
  have hwr : injected (envs VA SA c.noc va sa i) (injLink c.m u) N = _ := hi.wrote u hu
  rw [hwr]
  have hlaw := laws w.set w.runs
  obtain ⟨q1, q2⟩ := hlaw.sent u hu _ _ _ _ _ _ (hi.good u hu)
  refine Short.prefix ?_ ((q1.map (toNet u)).filter fun f : Flit _ => decide (f.vc = v))
  have := Noc.onVc_flatten q2 u v
  unfold Net.onVc at this
  rw [this, ← List.flatMap_id, List.flatMap_map]
  refine short_flatMap (by omega) fun p hp => ?_
  have hp := List.mem_of_mem_filter hp
  have hc := ((q2 p hp).net u (key := fun _ => ()) fun _ _ _ => rfl).2
  refine ⟨short_closed (by omega) ?_ hc, hc⟩
  unfold pks at hp
  obtain ⟨t, ht, rfl⟩ := List.mem_map.1 hp
  have hk : (c.nc u).kind ≠ .none := by
    intro e; rw [e] at ht; cases ht
  have := w.short u hu hk t.type
  simp only [id, List.length_map]
  unfold onWire mmPacket
  rw [List.length_map, List.length_map, List.length_range]
  omega

/-- Nothing reaches a node without an adapter. -/
theorem bareEnd {n : Nat} (hn : n ≤ N) {u : Nat} (hu : u < c.m.nodes) (hk : (c.nc u).kind = .none) :
    flitsAt (nets VA SA c.noc va sa i) (ejLink c.m u) (n + 1) = [] :=
  List.map_eq_nil_iff.1 (bare (w.inv n hn) hu hk).2.2

theorem settled {n : Nat} (h1 : a + K + 2 ≤ n) (h2 : n ≤ a + T) {u : Nat} (hu : u < c.m.nodes) :
    (node VA SA c va sa i n u).sink.credit = none := by
  have hN := w.stop
  by_cases hk : (c.nc u).kind = .none
  · rw [(bare (w.inv n (by omega)) hu hk).1]; rfl
  · obtain ⟨m, rfl⟩ : ∃ m, n = m + 1 := ⟨n - 1, by omega⟩
    exact (w.idle (n := m) (by omega) (by omega) hu hk).credit

/-- The network waits for nothing at its sinks. -/
theorem window (hT : K + 2 + J ≤ T) {T' : Nat} (hT' : T' ≤ T) :
    Window VA SA (mesh c.m) c.b va sa N 1 K a T' (envs VA SA c.noc va sa i) (nets VA SA c.noc va sa i) := by
  have hN := w.stop
  have hpos := w.set.ok.buf.perVc_pos
  refine ⟨w.net hT', fun n h1 h2 l hl => ?_, fun n h1 h2 l hl v => ?_⟩
  · obtain ⟨u, hu, rfl⟩ := (mesh_sink w.set.k).1 hl
    show Option.map _ (node VA SA c va sa i n (ejLink c.m u - ejLink c.m 0)).sink.credit = none
    rw [show ejLink c.m u - ejLink c.m 0 = u by unfold ejLink; omega, w.settled (by omega) (by omega) hu]
    rfl
  · have hin := hl.1
    obtain ⟨u, hu, rfl⟩ := (mesh_sink w.set.k).1 hl
    have e1 : flitsAt (nets VA SA c.noc va sa i) (ejLink c.m u) (n + 1) = entered (nets VA SA c.noc va sa i) (ejLink c.m u) a := by
      rw [(w.net (Nat.le_refl T)).arrived hin (by omega) (by omega), (w.net (Nat.le_refl T)).entered_const hin (by omega) (by omega)]
    by_cases hk : (c.nc u).kind = .none
    · rw [← e1, w.bareEnd (by omega) hu hk]
      show (0 : Int) < _
      omega
    have hi := (held (w.inv n (by omega)) hu hk).sink
    have e2 := hi.counted v
    have e3 := w.exact n (by omega) u hu v
    rw [w.settled (by omega) (by omega) hu, hi.cred] at e3
    simp only [Option.toList_none, List.count_nil, Nat.add_zero] at e3
    have h8 := fun t => w.set.single hu hk t
    have e5 : Short BsFlit.tail c.b.buf.perVc.toNat
        (((flitsAt (nets VA SA c.noc va sa i) (ejLink c.m u) (n + 1)).map toBs).filter fun f => f.vc = v) := by
      rw [List.filter_map, short_map]
      refine (w.shorts hin v).prefix (List.IsPrefix.filter _ ?_)
      rw [e1]
      exact entered_mono _ _ (by omega)
    have e6 := hi.waiting_lt (w.set.separate hu hk) h8 (w.final hT (n := n) (by omega) (by omega) hu hk) (by omega) e5
    have e7 : ((node VA SA c va sa i n u).hist.accepted.countP fun g => (BitVec.ofNat 3 g.vc).toNat = v) =
        (Net.onVc (entered (nets VA SA c.noc va sa i) (ejLink c.m u) a) v).length := by
      rw [hi.acc, ← e1, ← count_toBs]
      apply List.countP_congr
      intro g hg
      obtain ⟨j, hj, ht, b1, b2⟩ := hi.belongs g hg
      have := h8 g.type
      rw [BitVec.toNat_ofNat, Nat.mod_eq_of_lt (by omega)]
      simp
    omega

end Calm

end RadSim.MmNoc
