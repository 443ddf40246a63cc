import Verif.Lemmas.AxisNocOrder
import Verif.Lemmas.AxisNocSink
import Verif.Lemmas.AxisNocSource
import Verif.Lemmas.NetworkLive
import Verif.Lemmas.NetworkShort
import Verif.Lemmas.MeshLive

/-! # A NoC with AXI-Stream adapters in periods in which nothing moves -/

namespace RadSim.AxisNoc

open Router (Flit Hop)
open Routing (Shape Rf dimOrderMesh vcOk)
open Net

variable {σ τ ρ ρ' : Type} {VA : Alloc.Cls σ ρ} {SA : Alloc.Cls τ ρ'} {c : Cfg} {va : Nat → σ} {sa : Nat → τ} {i : Nat → In ρ ρ'}
  {P : Nat → Nat → AxisTxn → Prop} {rng : Nat → Nat × Nat} {n : Nat}

/-- What the adapters of a node do in a period. -/
theorem Inv.period (h : Inv VA SA c va sa i P n) (h' : Inv VA SA c va sa i P (n + 1)) {u : Nat} (hu : u < c.m.nodes) :
    ∃ acc out, slaveRun (c.sc u) ((st VA SA c va sa i n).slave u) (((i n).sPre u).map SlaveEdge.event ++
          .noc (((nets VA SA c va sa i (n + 1)).cOut (injLink c.m u)).getD []) :: ((i n).sPost u).map SlaveEdge.event) =
        .ok ((st VA SA c va sa i (n + 1)).slave u, acc, out) ∧
      (st VA SA c va sa i (n + 1)).got u = (st VA SA c va sa i n).got u ++ acc ∧
      (st VA SA c va sa i (n + 1)).sent u = (st VA SA c va sa i n).sent u ++ out ∧
      masterRun (c.mc u) ((st VA SA c va sa i n).master u) ((st VA SA c va sa i n).hist u)
          (.tick :: ((i n).mPre u).map MasterEdge.event ++
            .noc (((nets VA SA c va sa i (n + 1)).fOut (ejLink c.m u)).map toBs) :: ((i n).mPost u).map MasterEdge.event) =
        ((st VA SA c va sa i (n + 1)).hist u, .ok ((st VA SA c va sa i (n + 1)).master u)) := by
  have hx := h'.ok
  unfold after at hx
  rw [h.ok] at hx
  dsimp only at hx
  have hnet : nets VA SA c va sa i (n + 1) = (st VA SA c va sa i (n + 1)).net := rfl
  rw [hnet]
  generalize st VA SA c va sa i (n + 1) = y at hx ⊢
  unfold step at hx
  split at hx
  · cases hx
  · rename_i net h1
    split at hx
    · cases hx
    · rename_i out h2
      split at hx
      · cases hx
      · rename_i ms h3
        cases hx
        exact ⟨(out u).2.1, (out u).2.2, slave_part ((each_ok h2).1 u hu), rfl, rfl, master_part ((each_ok h3).1 u hu)⟩

/-- What has been done so far. -/
def progress (VA : Alloc.Cls σ ρ) (SA : Alloc.Cls τ ρ') (c : Cfg) (va : Nat → σ) (sa : Nat → τ) (i : Nat → In ρ ρ') (n : Nat) : Nat :=
  hops (mesh c.m) (nets VA SA c va sa i) n + ∑ u ∈ Finset.range c.m.nodes, (((st VA SA c va sa i n).sent u).length +
    (((st VA SA c va sa i n).hist u).pops.length +
      ∑ p ∈ Finset.range (c.mc u).n, (beatsOn p ((st VA SA c va sa i n).hist u).delivered).length))

theorem Inv.grows (h : Inv VA SA c va sa i P n) (h' : Inv VA SA c va sa i P (n + 1)) {u : Nat} (hu : u < c.m.nodes) :
    Grows ((st VA SA c va sa i n).hist u) ((st VA SA c va sa i (n + 1)).hist u) := by
  obtain ⟨_, _, _, _, _, h1⟩ := h.period h' hu
  have := masterRun_grows (c.mc u) (.tick :: ((i n).mPre u).map MasterEdge.event ++
            .noc (((nets VA SA c va sa i (n + 1)).fOut (ejLink c.m u)).map toBs) :: ((i n).mPost u).map MasterEdge.event)
            ((st VA SA c va sa i n).master u) ((st VA SA c va sa i n).hist u)
  rw [h1] at this
  exact this

section
variable {N : Nat} (hinv : ∀ n ≤ N, Inv VA SA c va sa i P n)
include hinv

theorem all_grows {a b : Nat} (hab : a ≤ b) (hb : b ≤ N) {u : Nat} (hu : u < c.m.nodes) :
    Grows ((st VA SA c va sa i a).hist u) ((st VA SA c va sa i b).hist u) ∧
      (st VA SA c va sa i a).sent u <+: (st VA SA c va sa i b).sent u ∧
      (st VA SA c va sa i a).got u <+: (st VA SA c va sa i b).got u := by
  obtain ⟨d, rfl⟩ := Nat.exists_eq_add_of_le hab
  clear hab
  induction d with
  | zero => exact ⟨Grows.refl _, List.prefix_refl _, List.prefix_refl _⟩
  | succ d ih =>
    have hi := ih (by omega)
    have h1 := hinv (a + d) (by omega)
    have h2 := hinv (a + d + 1) (by omega)
    obtain ⟨acc, out, _, hg, hs, _⟩ := h1.period h2 hu
    exact ⟨hi.1.trans (h1.grows h2 hu), hi.2.1.trans ⟨_, hs.symm⟩, hi.2.2.trans ⟨_, hg.symm⟩⟩

theorem progress_mono {a b : Nat} (hab : a ≤ b) (hb : b ≤ N) :
    progress VA SA c va sa i a ≤ progress VA SA c va sa i b := by
  refine Nat.add_le_add (hops_mono _ _ hab) (Finset.sum_le_sum fun u hu => ?_)
  obtain ⟨h1, h2, _⟩ := all_grows hinv hab hb (Finset.mem_range.1 hu)
  exact Nat.add_le_add h2.length_le (Nat.add_le_add h1.pops.length_le
    (Finset.sum_le_sum fun p _ => (h1.del p).length_le))

/-- Nothing moves. -/
theorem no_progress {a b : Nat} (hab : a ≤ b) (hb : b ≤ N) (h : progress VA SA c va sa i b = progress VA SA c va sa i a) :
    hops (mesh c.m) (nets VA SA c va sa i) b = hops (mesh c.m) (nets VA SA c va sa i) a ∧
      ∀ u < c.m.nodes, (st VA SA c va sa i b).sent u = (st VA SA c va sa i a).sent u ∧
        Quiet (c.mc u) ((st VA SA c va sa i a).hist u) ((st VA SA c va sa i b).hist u) := by
  have key : ∀ {α : Type} {x y : List α}, x <+: y → y.length ≤ x.length → y = x :=
    fun h1 h2 => (h1.eq_of_length (Nat.le_antisymm h1.length_le h2)).symm
  have h0 := hops_mono (mesh c.m) (nets VA SA c va sa i) hab
  have hle : ∀ u ∈ Finset.range c.m.nodes, _ := fun u hu => by
    obtain ⟨h1, h2, _⟩ := all_grows hinv hab hb (Finset.mem_range.1 hu)
    exact Nat.add_le_add h2.length_le (Nat.add_le_add h1.pops.length_le
      (Finset.sum_le_sum (s := Finset.range (c.mc u).n) fun p _ => (h1.del p).length_le))
  have hsum := Finset.sum_le_sum hle
  unfold progress at h
  have e1 := (Finset.sum_eq_sum_iff_of_le hle).1 (by omega)
  refine ⟨by omega, fun u hu => ?_⟩
  have e2 := e1 u (Finset.mem_range.2 hu)
  obtain ⟨h1, h2, _⟩ := all_grows hinv hab hb hu
  have l1 := h2.length_le
  have l2 := h1.pops.length_le
  have l3 := Finset.sum_le_sum (s := Finset.range (c.mc u).n) fun p _ => (h1.del p).length_le
  refine ⟨key h2 (by omega), key h1.pops (by omega), fun p hp => key (h1.del p) ?_⟩
  exact Nat.le_of_eq ((Finset.sum_eq_sum_iff_of_le fun p _ => (h1.del p).length_le).1 (by omega) p (Finset.mem_range.2 hp)).symm

end

theorem Fair.willing {N n₀ J K : Nat} (h : Fair c N n₀ J K i) : Willing VA SA c va sa N n₀ J K i where
  one := h.one
  source := h.source
  sink := h.sink
  ready := by
    intro k h1 h2 u hu p hp
    obtain ⟨k', h3, h4, r, h5, h6⟩ := h.ready k h1 h2 u hu p hp
    exact ⟨k', h3, h4, r, h5, fun _ _ _ => h6⟩
  time := h.time

/-- Periods in which nothing moves although nothing is in the way. -/
structure Calm (VA : Alloc.Cls σ ρ) (SA : Alloc.Cls τ ρ') (c : Cfg) (va : Nat → σ) (sa : Nat → τ) (i : Nat → In ρ ρ')
    (P : Nat → Nat → AxisTxn → Prop) (rng : Nat → Nat × Nat) (N n₀ J K a T : Nat) : Prop where
  set : Setup c rng
  allocs : Allocs VA SA (mesh c.m) c.b va sa
  grants : Grants VA SA (mesh c.m) c.b va sa
  short : ∀ u < c.m.nodes, ∀ p < (c.sc u).n, ((c.sc u).flits p : Int) ≤ c.b.buf.perVc
  depth : ∀ u < c.m.nodes, 0 < (c.sc u).depth ∧ 0 < (c.mc u).outDepth
  goes : ∀ u p t, P u p t → Exists c u p t
  inv : ∀ n ≤ N, Inv VA SA c va sa i P n
  fair : Willing VA SA c va sa N n₀ J K i
  start : n₀ ≤ a
  stop : a + T ≤ N
  still : progress VA SA c va sa i (a + T) = progress VA SA c va sa i a
  quiet : ∀ u < c.m.nodes, (st VA SA c va sa i (a + T)).got u = (st VA SA c va sa i a).got u

namespace Calm

variable {N n₀ J K a T : Nat} (w : Calm VA SA c va sa i P rng N n₀ J K a T)
include w

theorem same {n m : Nat} (h1 : a ≤ n) (h2 : n ≤ m) (h3 : m ≤ a + T) :
    hops (mesh c.m) (nets VA SA c va sa i) m = hops (mesh c.m) (nets VA SA c va sa i) n ∧
      ∀ u < c.m.nodes, (st VA SA c va sa i m).sent u = (st VA SA c va sa i n).sent u ∧
        Quiet (c.mc u) ((st VA SA c va sa i n).hist u) ((st VA SA c va sa i m).hist u) := by
  have hN := w.stop
  refine no_progress w.inv h2 (by omega) ?_
  have k1 := progress_mono w.inv h1 (by omega)
  have k2 := progress_mono w.inv h2 (by omega)
  have k3 := progress_mono w.inv h3 (by omega)
  have := w.still
  omega

/-- No beat is accepted. -/
theorem got {n m : Nat} (h1 : a ≤ n) (h2 : n ≤ m) (h3 : m ≤ a + T) {u : Nat} (hu : u < c.m.nodes) :
    (st VA SA c va sa i m).got u = (st VA SA c va sa i n).got u := by
  have hN := w.stop
  have k1 := (all_grows w.inv h1 (by omega) hu).2.2
  have k2 := (all_grows w.inv h2 (by omega) hu).2.2
  have k3 := (all_grows w.inv h3 (by omega) hu).2.2
  rw [w.quiet u hu] at k3
  have l1 := k1.length_le
  have l3 := k3.length_le
  exact (k2.eq_of_length (Nat.le_antisymm k2.length_le (by omega))).symm

/-- The network in these periods. -/
theorem net {T' : Nat} (hT : T' ≤ T) :
    Still VA SA (mesh c.m) c.b va sa N K a T' (envs VA SA c va sa i) (nets VA SA c va sa i) := by
  have hN := w.stop
  refine ⟨mesh_wired w.set.k, w.set.ok, w.allocs, w.grants, (w.inv N (Nat.le_refl _)).ticks, by omega,
    (w.same (Nat.le_refl _) (by omega) (by omega)).1, fun n h1 h2 l hl => ?_, fun m n h1 h2 => ?_⟩
  · obtain ⟨u, hu, rfl⟩ := mesh_source.1 hl
    have e1 := (w.inv n (by omega)).wrote u hu
    have e2 := (w.inv (n + 1) (by omega)).wrote u hu
    rw [((w.same h1 (Nat.le_succ n) (by omega)).2 u hu).1, ← e1, injected_succ] at e2
    have : ((envs VA SA c va sa i n).inject (injLink c.m u)).toList = [] := by simpa using e2
    cases hx : (envs VA SA c va sa i n).inject (injLink c.m u) with
    | none => rfl
    | some f => rw [hx] at this; cases this
  · obtain ⟨h3, h4⟩ := w.fair.time m n h1 h2
    exact ⟨h3, fun l _ => ⟨show (i m).now + 1 - 1 ≤ (i n).now by omega, show (i m).now + 1 - 1 ≤ (i n).now by omega⟩⟩

theorem vcs {u : Nat} (hu : u < c.m.nodes) : 0 < (c.mc u).vcs := by
  rw [w.set.sameVcs u hu]
  exact Nat.lt_of_le_of_lt (Nat.zero_le _) (w.set.vcs 0)

theorem arrivals {n : Nat} (hn : n < N) {u : Nat} (hu : u < c.m.nodes) :
    GoodArrivals (c.mc u) ((flitsAt (nets VA SA c va sa i) (ejLink c.m u) (n + 2)).map toBs) := by
  have h := (w.inv n (by omega))
  have h1 := (w.inv (n + 1) (by omega)).ticks.step n (by omega)
  have := h.arrivals w.set w.allocs w.goes h1 hu
  rw [flitsAt_succ]
  exact this

/-! ## the sink side -/

/-- A period after the last flit has arrived. -/
theorem idle {n : Nat} (h1 : a + K + 1 ≤ n) (h2 : n < a + T) {u : Nat} (hu : u < c.m.nodes) :
    Idle (c.mc u) ((st VA SA c va sa i n).master u) ((st VA SA c va sa i (n + 1)).master u) ∧
      ((st VA SA c va sa i (n + 1)).master u).credit = none ∧
      ((st VA SA c va sa i (n + 1)).master u).push = ((st VA SA c va sa i (n + 1)).master u).pushNext ∧
      (∀ r, .node r ∈ (i n).mPre u ++ (i n).mPost u → ∀ p < (c.mc u).n,
        (((st VA SA c va sa i n).master u).outq p ≠ [] → (((st VA SA c va sa i (n + 1)).master u).port p).isSome) ∧
        (r p = true → (((st VA SA c va sa i n).master u).port p).isSome → False)) ∧
      (∀ cm, .adapter cm ∈ (i n).mPre u ++ (i n).mPost u →
        ((st VA SA c va sa i n).master u).push = ((st VA SA c va sa i n).master u).pushNext →
        (∀ d < (c.mc u).n, (((st VA SA c va sa i n).master u).outq d).length < (c.mc u).outDepth) →
        ∀ v < (c.mc u).vcs, (((st VA SA c va sa i n).master u).fifos v).countP (fun f => f.tail) = 0) := by
  have hN := w.stop
  have hi := w.inv n (by omega)
  obtain ⟨_, _, _, _, _, hr⟩ := hi.period (w.inv (n + 1) (by omega)) hu
  have hl : ejLink c.m u < (mesh c.m).links := ((mesh_sink w.set.k).2 ⟨u, hu, rfl⟩).1
  rw [(w.net (Nat.le_refl T)).fOut hl (n := n + 1) (by omega) (by omega), Option.map_none] at hr
  obtain ⟨hist, hm, hd⟩ := hi.master u hu
  refine period_idle (w.set.ports u hu).2 (w.vcs hu) hm ?_ hd.held hr ((w.same (by omega) (Nat.le_succ n) (by omega)).2 u hu).2
  rw [hi.arrived u hu]
  have := w.arrivals (n := n) (by omega) hu
  rw [flitsAt_succ, List.map_append] at this
  exact this.prefix

theorem idles {n m : Nat} (h1 : a + K + 1 ≤ n) (h2 : n ≤ m) (h3 : m ≤ a + T) {u : Nat} (hu : u < c.m.nodes) :
    Idle (c.mc u) ((st VA SA c va sa i n).master u) ((st VA SA c va sa i m).master u) := by
  obtain ⟨d, rfl⟩ := Nat.exists_eq_add_of_le h2
  clear h2
  induction d with
  | zero => exact Idle.refl _ _
  | succ d ih => exact (ih (by omega)).trans (w.idle (n := n + d) (by omega) (by omega) hu).1

/-- The ports have handed over everything. -/
theorem outq (hT : K + 1 + 2 * J ≤ T) {n : Nat} (h1 : a + K + 1 ≤ n) (h2 : n ≤ a + T) {u : Nat} (hu : u < c.m.nodes) {p : Nat}
    (hp : p < (c.mc u).n) : ((st VA SA c va sa i n).master u).outq p = [] := by
  have hN := w.stop
  have hn := w.start
  by_contra hne
  rw [(w.idles (Nat.le_refl _) h1 h2 hu).outq] at hne
  obtain ⟨k, k1, k2, r, hr, hrp⟩ := w.fair.ready (a + K + 1) (by omega) (by omega) u hu p hp
  have hk := (w.idle (n := k) (by omega) (by omega) hu).2.2.2.1 r hr p hp
  have hsome := hk.1 (by rw [(w.idles (Nat.le_refl _) k1 (by omega) hu).outq]; exact hne)
  obtain ⟨k', k3, k4, r', hr', hrp'⟩ := w.fair.ready (a + K + 1 + J) (by omega) (by omega) u hu p hp
  have hk' := (w.idle (n := k') (by omega) (by omega) hu).2.2.2.1 r' hr' p hp
  have hsome' := (w.idles (n := k + 1) (m := k') (by omega) (by omega) (by omega) hu).port p hp hsome
  exact hk'.2 (hrp' _ (w.inv k' (by omega)).ok hsome') hsome'

/-- There are only incomplete packets in the ejection FIFOs. -/
theorem tails (hT : K + 2 + 2 * J ≤ T) {n : Nat} (h1 : a + K + 1 ≤ n) (h2 : n ≤ a + T) {u : Nat} (hu : u < c.m.nodes) {v : Nat}
    (hv : v < (c.mc u).vcs) : (((st VA SA c va sa i n).master u).fifos v).countP (fun f => f.tail) = 0 := by
  have hN := w.stop
  have hn := w.start
  obtain ⟨k, k1, k2, cm, hcm⟩ := w.fair.sink (a + K + 2) (by omega) (by omega) u hu
  have h3 := (w.idle (n := k) (by omega) (by omega) hu).2.2.2.2 cm hcm
    (by obtain ⟨k', rfl⟩ : ∃ k', k = k' + 1 := ⟨k - 1, by omega⟩
        exact (w.idle (n := k') (by omega) (by omega) hu).2.2.1)
    (fun d hd => by
      rw [w.outq (by omega) (n := k) (by omega) (by omega) hu hd]
      exact (w.depth u hu).2) v hv
  rw [(w.idles (Nat.le_refl _) (show a + K + 1 ≤ k by omega) (by omega) hu).fifos] at h3
  rw [(w.idles (Nat.le_refl _) h1 h2 hu).fifos]
  exact h3

theorem depack (hT : K + 2 + 2 * J ≤ T) {n : Nat} (h1 : a + K + 1 ≤ n) (h2 : n ≤ a + T) {u : Nat} (hu : u < c.m.nodes) :
    ((st VA SA c va sa i n).master u).depack = false := by
  have hN := w.stop
  obtain ⟨hist, hm, hd⟩ := (w.inv n (by omega)).master u hu
  cases hdp : ((st VA SA c va sa i n).master u).depack with
  | false => rfl
  | true =>
    obtain ⟨v, vs, hpr, hlt, _⟩ := hm.fifo.busy hdp
    have hv : v < (c.mc u).vcs := by
      have : v ∈ ((st VA SA c va sa i n).master u).prio := by rw [hpr]; simp
      exact List.mem_range.1 (hm.fifo.prio.subset this)
    have e1 := hm.fifo.cnt v
    have e2 := hm.fifo.le v
    rw [w.tails hT h1 h2 hu hv] at e1
    omega

/-- Every flit taken has its credit. -/
theorem exact : ∀ n ≤ N, ∀ u < c.m.nodes, Exact ((st VA SA c va sa i n).master u) ((st VA SA c va sa i n).hist u) := by
  intro n
  induction n with
  | zero => intro _ u _ v; rfl
  | succ n ih =>
    intro hn u hu
    have hi := w.inv n (by omega)
    obtain ⟨hist, hm, hd⟩ := hi.master u hu
    obtain ⟨_, _, _, _, _, hr⟩ := hi.period (w.inv (n + 1) (by omega)) hu
    refine period_exact (w.set.ports u hu).2 (w.vcs hu) hm ?_ hr (w.fair.one n (by omega) u hu) (ih (by omega) u hu)
    have := w.arrivals (n := n) (by omega) hu
    rw [flitsAt_succ, List.map_append, ← hi.arrived u hu] at this
    cases hx : (nets VA SA c va sa i (n + 1)).fOut (ejLink c.m u) <;> rw [hx] at this <;> exact this

/-- What has arrived is cut into the packets completed and what is in the FIFO. -/
theorem cuts (hT : K + 2 + 2 * J ≤ T) {n : Nat} (h1 : a + K + 1 ≤ n) (h2 : n ≤ a + T) {u : Nat} (hu : u < c.m.nodes)
    {hist : List (Nat × List ScFlit)}
    (hm : MasterInv (c.mc u) ((st VA SA c va sa i n).master u) ((st VA SA c va sa i n).hist u) hist) {v : Nat}
    (hv : v < (c.mc u).vcs) :
    whole ScFlit.tail (RadSim.onVc v ((st VA SA c va sa i n).hist u).accepted) = histVc v hist ∧
      rest ScFlit.tail (RadSim.onVc v ((st VA SA c va sa i n).hist u).accepted) =
        ((st VA SA c va sa i n).master u).fifos v := by
  have hN := w.stop
  obtain ⟨_, _, hd⟩ := (w.inv n (by omega)).master u hu
  have hs := hm.fifo.stream v hv
  have hin : inside ((st VA SA c va sa i n).master u) v = ((st VA SA c va sa i n).master u).fifos v := by
    unfold inside
    rw [w.depack hT h1 h2 hu, hd.held]
    simp [RadSim.onVc]
  rw [hin] at hs
  have hno : whole ScFlit.tail (((st VA SA c va sa i n).master u).fifos v) = [] := by
    have ht := w.tails hT h1 h2 hu hv
    rw [List.countP_eq_zero] at ht
    generalize ((st VA SA c va sa i n).master u).fifos v = l at ht
    induction l using List.reverseRecOn with
    | nil => rfl
    | append_singleton l x ih =>
      rw [whole_snoc, ih fun f hf => ht f (by simp [hf]), if_neg (ht x (by simp))]
      rfl
  have hwh := MmSink.whole_flatten_append ScFlit.tail (histVc v hist) (((st VA SA c va sa i n).master u).fifos v) (by
    intro p hp
    simp only [histVc, List.mem_map, List.mem_filter] at hp
    obtain ⟨x, ⟨hx, _⟩, rfl⟩ := hp
    exact (hm.fifo.histOk x hx).1)
  rw [hno, List.append_nil, ← hs] at hwh
  refine ⟨hwh, ?_⟩
  have := cut_flatten (tail := ScFlit.tail) (RadSim.onVc v ((st VA SA c va sa i n).hist u).accepted)
  rw [hwh] at this
  exact List.append_cancel_left (this.trans hs)

/-- Packets fit into a buffer. -/
theorem shorts {l : Nat} (hl : l < (mesh c.m).links) (v : Nat) :
    Short Flit.tail c.b.buf.perVc.toNat (Net.onVc (entered (nets VA SA c va sa i) l N) v) := by
  have hpos := w.set.ok.buf.perVc_pos
  have hi := w.inv N (Nat.le_refl _)
  refine Net.short (mesh_wired w.set.k) w.set.ok w.allocs hi.ticks (by omega) ?_ N (Nat.le_refl _) l hl v
  intro l hl v
  obtain ⟨u, hu, rfl⟩ := mesh_source.1 hl
  rw [hi.wrote u hu]
  refine Short.prefix ?_ (((hi.stream u hu).prefix u).filter fun f : Flit _ => decide (f.vc = v))
  rw [filter_flatMap_all (q := fun t => decide (vcidFromType (c.sc u).vc t.type = v))]
  · refine short_flatMap (by omega) fun t ht => ?_
    obtain ⟨p, hp, b, -, rfl⟩ := hi.good u hu t (List.mem_filter.1 ht).1
    have hc := (netFlits_packets (c.sc u) u (registerTxn (c.sc u) p b) (fun _ => ()) fun _ => rfl).2
    refine ⟨short_closed (by omega) ?_ hc, hc⟩
    have := w.short u hu p hp
    rw [netFlits_eq, List.length_map, List.length_range]
    show (c.sc u).flits p ≤ _
    omega
  · intro t _ f hf
    obtain ⟨j, _, rfl⟩ := mem_netFlits hf
    rw [netFlit_vc (w.set.vcOk hu)]

/-- The network waits for nothing at its sinks. -/
theorem window (hT : K + 2 + 2 * J ≤ T) {T' : Nat} (hT' : T' ≤ T) :
    Window VA SA (mesh c.m) c.b va sa N 1 K a T' (envs VA SA c va sa i) (nets VA SA c va sa i) := by
  have hN := w.stop
  have hpos := w.set.ok.buf.perVc_pos
  have hcr : ∀ n, a + K + 2 ≤ n → n ≤ a + T → ∀ u < c.m.nodes, ((st VA SA c va sa i n).master u).credit = none := by
    intro n h1 h2 u hu
    obtain ⟨m, rfl⟩ : ∃ m, n = m + 1 := ⟨n - 1, by omega⟩
    exact (w.idle (n := m) (by omega) (by omega) hu).2.1
  refine ⟨w.net hT', fun n h1 h2 l hl => ?_, fun n h1 h2 l hl v => ?_⟩
  · obtain ⟨u, hu, rfl⟩ := (mesh_sink w.set.k).1 hl
    show Option.map _ ((st VA SA c va sa i n).master (ejLink c.m u - ejLink c.m 0)).credit = none
    rw [show ejLink c.m u - ejLink c.m 0 = u by unfold ejLink; omega, hcr n (by omega) (by omega) u hu]
    rfl
  · have hin := hl.1
    obtain ⟨u, hu, rfl⟩ := (mesh_sink w.set.k).1 hl
    have hi := w.inv n (by omega)
    obtain ⟨hist, hm, hd⟩ := hi.master u hu
    have e1 : flitsAt (nets VA SA c va sa i) (ejLink c.m u) (n + 1) = entered (nets VA SA c va sa i) (ejLink c.m u) a := by
      rw [(w.net (Nat.le_refl T)).arrived hin (by omega) (by omega), (w.net (Nat.le_refl T)).entered_const hin (by omega) (by omega)]
    have e2 := hd.fifo v
    have e3 := w.exact n (by omega) u hu v
    rw [hcr n (by omega) (by omega) u hu, hi.returned u hu] at e3
    rw [hi.arrived u hu, count_toBs, e1] at e2
    simp only [Option.toList_none, List.count_nil, Nat.add_zero] at e3
    by_cases hv : v < (c.mc u).vcs
    · have e4 := (w.cuts hT (n := n) (by omega) (by omega) hu hm hv).2
      have e5 : Short ScFlit.tail c.b.buf.perVc.toNat (RadSim.onVc v ((st VA SA c va sa i n).hist u).accepted) := by
        rw [hi.arrived u hu, onVc_toBs, List.map_map, short_map]
        refine (w.shorts hin v).prefix (List.IsPrefix.filter _ ?_)
        rw [e1]
        exact entered_mono _ _ (by omega)
      have e6 := e5 _ (List.prefix_refl _)
      rw [e4] at e6
      omega
    · have e7 : Net.onVc (entered (nets VA SA c va sa i) (ejLink c.m u) a) v = [] := by
        rw [← e1]
        unfold Net.onVc
        rw [List.filter_eq_nil_iff]
        intro f hf
        have h5 := w.arrivals (n := n) (by omega) hu
        rw [flitsAt_succ, List.map_append] at h5
        have := h5.1 (toBs f) (List.mem_append_left _ (List.mem_map_of_mem hf))
        simp only [decide_eq_true_eq]
        intro h6
        rw [← h6] at hv
        exact hv this
      rw [e7]
      simp only [List.length_nil]
      omega

end Calm

end RadSim.AxisNoc
