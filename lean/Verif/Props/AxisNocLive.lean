import Verif.Lemmas.AxisNocDrain
import Verif.Props.AxisNoc

/-! # AXI-Stream over a mesh NoC: everything arrives

C93 and C94 say that nothing wrong arrives. Here: when the modules stop sending and go on taking what they are handed, then
after some time, which is computed from the configuration and the number of flits, everything accepted has been handed
over. -/

namespace RadSim.AxisNoc

open Router (Flit Hop)
open Routing (Shape Rf dimOrderMesh)
open Net

variable {σ τ ρ ρ' : Type} {VA : Alloc.Cls σ ρ} {SA : Alloc.Cls τ ρ'} {c : Cfg} {va : Nat → σ} {sa : Nat → τ} {i : Nat → In ρ ρ'}
  {rng : Nat → Nat × Nat}

/-- Beats with their marks. -/
def markedFor {σ τ : Type} (c : Cfg) (x : Sys σ τ) (u p : Nat) : List ((Nat × FlitType) × Beat) :=
  (List.range c.m.nodes).flatMap fun w =>
    ((x.got w).filter fun t => decide (portOf t = p) && decide (nodeOf (c.sc w) t = u)).map fun t => ((w, t.type), beatIn t)

theorem markedFor_filter {σ τ : Type} (c : Cfg) (x : Sys σ τ) (u p : Nat) {w : Nat} (hw : w < c.m.nodes) (ty : FlitType) :
    ((markedFor c x u p).filter fun y => y.1 = (w, ty)).map (·.2) = acceptedFor c x w u p ty := by
  unfold markedFor
  generalize hN : c.m.nodes = m at hw
  clear hN
  have key : ∀ w', ((((x.got w').filter fun t => decide (portOf t = p) && decide (nodeOf (c.sc w') t = u)).map
      fun t => ((w', t.type), beatIn t)).filter fun y => y.1 = (w, ty)) =
      if w' = w then (((x.got w).filter fun t => nodeOf (c.sc w) t = u ∧ portOf t = p ∧ t.type = ty).map
        fun t => ((w, ty), beatIn t)) else [] := by
    intro w'
    rw [List.filter_map, List.filter_filter]
    by_cases h : w' = w
    · subst h
      rw [if_pos rfl]
      have e : ((x.got w').filter fun t => ((fun y : (Nat × FlitType) × Beat => decide (y.1 = (w', ty))) ∘
          fun t : AxisTxn => ((w', t.type), beatIn t)) t && (decide (portOf t = p) && decide (nodeOf (c.sc w') t = u))) =
          (x.got w').filter fun t => nodeOf (c.sc w') t = u ∧ portOf t = p ∧ t.type = ty := by
        refine List.filter_congr fun t _ => ?_
        rw [Bool.eq_iff_iff]
        simp only [Function.comp, Prod.mk.injEq, true_and, Bool.and_eq_true, decide_eq_true_eq]
        constructor
        · rintro ⟨h1, h2, h3⟩; exact ⟨h3, h2, h1⟩
        · rintro ⟨h1, h2, h3⟩; exact ⟨h3, h2, h1⟩
      rw [e]
      refine List.map_congr_left fun t ht => ?_
      rw [(of_decide_eq_true (List.mem_filter.1 ht).2).2.2]
    · rw [if_neg h, List.filter_eq_nil_iff.2]
      · rfl
      · intro t _
        simp [h]
  rw [List.filter_flatMap]
  simp only [key]
  clear key
  induction m with
  | zero => omega
  | succ m ih =>
    rw [List.range_succ, List.flatMap_append, List.flatMap_singleton, List.map_append]
    by_cases h : w < m
    · rw [ih h, if_neg (by omega)]
      simp
    · have : w = m := by omega
      subst this
      have h0 : ((List.range w).flatMap fun w' => if w' = w then (((x.got w).filter fun t => nodeOf (c.sc w) t = u ∧ portOf t = p ∧
          t.type = ty).map fun t => ((w, ty), beatIn t)) else []) = [] := by
        rw [List.flatMap_eq_nil_iff]
        intro w' hw'
        have := List.mem_range.1 hw'
        rw [if_neg (by omega)]
      rw [h0, if_pos rfl, List.map_nil, List.nil_append, List.map_map]
      rfl

theorem markedFor_length {σ τ : Type} (c : Cfg) (x : Sys σ τ) (u p : Nat) : (markedFor c x u p).length =
    ∑ w ∈ Finset.range c.m.nodes, (x.got w).countP fun t => decide (portOf t = p) && decide (nodeOf (c.sc w) t = u) := by
  unfold markedFor
  generalize c.m.nodes = m
  induction m with
  | zero => rfl
  | succ m ih =>
    rw [List.range_succ, List.flatMap_append, List.flatMap_singleton, List.length_append, ih, Finset.sum_range_succ,
      List.length_map, List.countP_eq_length_filter]

/-- C95. Let the virtual channel and switch allocators serve some request if there is one (C44, C68), let the routers have an
output buffer, every packet fit into a buffer, and the FIFOs of the adapters have a place. From period `n₀` on let the
modules offer nothing more and take what they are handed. Then after a number of periods, which is given, all that was
accepted for a port has been handed over by it: what it has handed over can be marked with nodes and types, so that
- what is marked with a node and a type are the beats of this type that this node has accepted for this port, all of them and
  each once, with their data, user bits and last flag;
- if there is one virtual channel for the type, they are in the order in which they were accepted. -/
theorem C95_all_delivered {n₀ J K N : Nat} (hs : Setup c rng) (ha : Allocs VA SA (mesh c.m) c.b va sa)
    (hg : Grants VA SA (mesh c.m) c.b va sa) (hob : c.b.outSize ≠ 0)
    (hsh : ∀ u < c.m.nodes, ∀ p < (c.sc u).n, (numFlits ((c.sc u).dataw p) : Int) ≤ c.b.buf.perVc)
    (hdp : ∀ u < c.m.nodes, 0 < (c.sc u).depth ∧ 0 < (c.mc u).outDepth) (ht : ∀ k < N, InTime (i k))
    (ho : ∀ k < N, Offered c (fun u p t => Exists c u p t ∧ FitsPort c u p t) (i k)) (hc : Closing c N n₀ J K i)
    {x₀ x : Sys σ τ} (hx₀ : after VA SA c va sa i n₀ = .ok x₀) (hx : after VA SA c va sa i N = .ok x)
    (hN : n₀ + ((3 * (c.m.n * c.m.k + 1) + 1) * flitsOf c x₀ + 1) *
      (3 * K + 2 * J + 2 * (c.m.nodes * ((2 * c.m.n + 1) * c.b.vcs)) + 7) ≤ N)
    {u p : Nat} (hu : u < c.m.nodes) (hp : p < (c.mc u).n) :
    ∃ marks : List (Nat × FlitType), marks.length = (deliveredAt x u p).length ∧ (∀ y ∈ marks, y.1 < c.m.nodes) ∧
      ∀ w < c.m.nodes, ∀ ty,
        List.Perm (((marks.zip (deliveredAt x u p)).filter fun y => y.1 = (w, ty)).map (·.2)) (acceptedFor c x w u p ty) ∧
        ((rng (clsOf ty)).1 = (rng (clsOf ty)).2 →
          ((marks.zip (deliveredAt x u p)).filter fun y => y.1 = (w, ty)).map (·.2) = acceptedFor c x w u p ty) := by
  have hn : n₀ ≤ N := Nat.le_trans (Nat.le_add_right _ _) hN
  have hinv : ∀ n ≤ N, Inv VA SA c va sa i (fun u p t => Exists c u p t ∧ FitsPort c u p t) n := fun n h =>
    inv_all hs ha (fun _ _ _ h => h.1) n (fun k hk => ht k (by omega)) fun k hk => ho k (by omega)
  have hst : ∀ {n : Nat} {y : Sys σ τ}, n ≤ N → after VA SA c va sa i n = .ok y → y = st VA SA c va sa i n := by
    intro n y h hy
    have := (hinv n h).ok
    rw [hy] at this
    exact Except.ok.inj this
  obtain ⟨marks, h1, h2, h3⟩ := C93_delivered hs ha ht ho hx hu hp
  have hlen := all_handed hs ha (fun _ _ _ h => h.1) hinv hc hn hg hob hsh hdp (by
    rw [← hst hn hx₀, mesh_slots]
    exact hN) hu hp
  rw [← hst (Nat.le_refl N) hx, ← markedFor_length] at hlen
  have hz : (marks.zip (deliveredAt x u p)).length = (deliveredAt x u p).length := by
    rw [List.length_zip, h1, Nat.min_self]
  have hsub : List.Subperm (marks.zip (deliveredAt x u p)) (markedFor c x u p) := by
    rw [List.subperm_ext_iff]
    rintro ⟨⟨w, ty⟩, b⟩ hy
    have hw := h2 _ (List.of_mem_zip hy).1
    have key : ∀ l : List ((Nat × FlitType) × Beat), l.count ((w, ty), b) =
        ((l.filter fun y => y.1 = (w, ty)).map (·.2)).count b := by
      intro l
      rw [List.count_eq_countP, List.count_eq_countP, List.countP_map, List.countP_filter]
      refine List.countP_congr fun y _ => ?_
      obtain ⟨y1, y2⟩ := y
      simp only [Function.comp, Bool.and_eq_true, beq_iff_eq, decide_eq_true_eq, Prod.mk.injEq]
      exact and_comm
    rw [key, key, markedFor_filter c x u p hw ty]
    exact ((h3 w hw ty).1).count_le b
  have hperm := hsub.perm_of_length_le (by omega)
  refine ⟨marks, h1, h2, fun w hw ty => ?_⟩
  have hpw : List.Perm (((marks.zip (deliveredAt x u p)).filter fun y => y.1 = (w, ty)).map (·.2)) (acceptedFor c x w u p ty) := by
    rw [← markedFor_filter c x u p hw ty]
    exact (hperm.filter _).map _
  exact ⟨hpw, fun hone => ((h3 w hw ty).2 hone).eq_of_length hpw.length_eq⟩

/-- C95, one sender: a port hands over exactly the beats accepted for it, in order. -/
theorem C95_stream_arrives {n₀ J K N : Nat} (hs : Setup c rng) (ha : Allocs VA SA (mesh c.m) c.b va sa)
    (hg : Grants VA SA (mesh c.m) c.b va sa) (hob : c.b.outSize ≠ 0)
    (hsh : ∀ u < c.m.nodes, ∀ p < (c.sc u).n, (numFlits ((c.sc u).dataw p) : Int) ≤ c.b.buf.perVc)
    (hdp : ∀ u < c.m.nodes, 0 < (c.sc u).depth ∧ 0 < (c.mc u).outDepth) (ht : ∀ k < N, InTime (i k))
    (ho : ∀ k < N, Offered c (fun u p t => Exists c u p t ∧ FitsPort c u p t) (i k)) (hc : Closing c N n₀ J K i)
    {x₀ x : Sys σ τ} (hx₀ : after VA SA c va sa i n₀ = .ok x₀) (hx : after VA SA c va sa i N = .ok x)
    (hN : n₀ + ((3 * (c.m.n * c.m.k + 1) + 1) * flitsOf c x₀ + 1) *
      (3 * K + 2 * J + 2 * (c.m.nodes * ((2 * c.m.n + 1) * c.b.vcs)) + 7) ≤ N)
    {u p : Nat} (hu : u < c.m.nodes) (hp : p < (c.mc u).n) {w : Nat} (hw : w < c.m.nodes) {ty : FlitType}
    (hone : (rng (clsOf ty)).1 = (rng (clsOf ty)).2)
    (honly : ∀ w' < c.m.nodes, ∀ ty', (w', ty') ≠ (w, ty) → acceptedFor c x w' u p ty' = []) :
    deliveredAt x u p = acceptedFor c x w u p ty := by
  obtain ⟨marks, h1, h2, h3⟩ := C95_all_delivered hs ha hg hob hsh hdp ht ho hc hx₀ hx hN hu hp
  have h4 := (h3 w hw ty).2 hone
  have h5 := C94_stream_in_order hs ha ht ho hx hu hp hone honly
  refine h5.eq_of_length (Nat.le_antisymm h5.length_le ?_)
  rw [← h4, List.length_map]
  refine Nat.le_trans (List.length_filter_le _ _) ?_
  rw [List.length_zip]
  exact Nat.min_le_right _ _

/-! ## An example

The system of the example for C93, with the clocks of the example designs (`rad-sim/example-designs/mlp/config.yml:4,23,34`):
periods of 1 ns for the NoC, 1.25 ns for the adapters and 5 ns for the modules. The modules offer beats for 12 periods. -/

namespace LiveExample

open Alloc (islip Islip)
open RadSim.AxisNoc.Example (cfg chans beat setup allocs)

def offer (k u p : Nat) : Option AxisTxn :=
  if 12 ≤ k then none
  else if u = 0 ∧ p = 0 ∧ k ≠ 5 then some (beat (100 + k) 1 0 (k = 10))
  else if u = 0 ∧ p = 1 then some (beat (2 ^ 100 + k) 1 1 false)
  else if u = 1 ∧ p = 0 then some (beat (200 + k) 0 1 true)
  else none

def inp (k : Nat) : In Unit Unit where
  now := k
  rnd := fun _ _ _ => false
  rva := fun _ => ()
  rsa := fun _ => ()
  sPre := fun u => if k % 5 = 0 then [.node (offer k u) false] else []
  sPost := fun _ => if k % 5 = 4 then [] else [.adapter]
  mPre := fun _ => if k % 5 = 4 then [] else [.adapter true]
  mPost := fun _ => if k % 5 = 0 then [.node fun _ => true] else []

def run (n : Nat) : Except Err (Sys Islip Islip) :=
  after islip islip cfg (fun _ => Islip.init 6 6 1) (fun _ => Islip.init 3 3 1) inp n

theorem grants : Grants islip islip (mesh cfg.m) cfg.b (fun _ => Islip.init 6 6 1) (fun _ => Islip.init 3 3 1) where
  va := fun _ _ => (Alloc.C68_islip 6 6 1 (by decide)).mono fun _ _ h => h.1
  sa := fun _ _ => (Alloc.C68_islip 3 3 1 (by decide)).mono fun _ _ h => h.1

theorem offers : ∀ k u p, u < 2 → p < 2 → ∀ t ∈ offer k u p, Exists cfg u p t ∧ FitsPort cfg u p t := by
  have : ∀ k < 12, ∀ u < 2, ∀ p < 2,
      ((offer k u p).all fun t => decide (Exists cfg u p t ∧ FitsPort cfg u p t)) = true := by decide +kernel
  intro k u p hu hp t ht
  by_cases hk : k < 12
  · have := this k hk u hu p hp
    rw [Option.mem_def.1 ht] at this
    simpa using this
  · unfold offer at ht
    rw [if_pos (by omega)] at ht
    cases ht

theorem only_offer {k u : Nat} {beats : Nat → Option AxisTxn} {seen : Bool}
    (h : SlaveEdge.node beats seen ∈ (inp k).sPre u ++ (inp k).sPost u) : beats = offer k u := by
  unfold inp at h
  rcases List.mem_append.1 h with h | h
  · dsimp only at h
    split at h
    · simp only [List.mem_cons, List.not_mem_nil, or_false, SlaveEdge.node.injEq] at h
      exact h.1
    · cases h
  · dsimp only at h
    split at h
    · cases h
    · simp at h

theorem offered (k : Nat) : Offered cfg (fun u p t => Exists cfg u p t ∧ FitsPort cfg u p t) (inp k) := by
  intro u hu beats seen h p hp t ht
  rw [only_offer h] at ht
  exact offers k u p hu hp t ht

theorem in_time {N : Nat} (hN : N < 2 ^ 31) : ∀ k < N, InTime (inp k) := by
  intro k hk
  show (0 : Int) ≤ (k : Int) ∧ (k : Int) + 1 ≤ 2147483647
  omega

theorem closing (N : Nat) : Closing cfg N 12 5 1 inp where
  one := by
    intro k _ u _
    unfold inp
    dsimp only
    split <;> split <;> decide
  quiet := by
    intro k h1 _ u _ beats seen h p _ t ht
    rw [only_offer h] at ht
    unfold offer at ht
    rw [if_pos h1] at ht
    cases ht
  source := by
    intro k _ _ u _
    by_cases h : k % 5 = 4
    · refine ⟨k + 1, by omega, by omega, ?_⟩
      unfold inp
      dsimp only
      rw [if_neg (show ¬ (k + 1) % 5 = 4 by omega)]
      simp
    · refine ⟨k, by omega, by omega, ?_⟩
      unfold inp
      dsimp only
      rw [if_neg h]
      simp
  sink := by
    intro k _ _ u _
    by_cases h : k % 5 = 4
    · refine ⟨k + 1, by omega, by omega, true, ?_⟩
      unfold inp
      dsimp only
      rw [if_neg (show ¬ (k + 1) % 5 = 4 by omega)]
      simp
    · refine ⟨k, by omega, by omega, true, ?_⟩
      unfold inp
      dsimp only
      rw [if_neg h]
      simp
  ready := by
    intro k _ _ u _ p _
    refine ⟨(k + 4) / 5 * 5, by omega, by omega, fun _ => true, ?_, rfl⟩
    unfold inp
    dsimp only
    rw [if_pos (show (k + 4) / 5 * 5 % 5 = 0 by omega)]
    simp
  time := by
    intro m n h _
    show (m : Int) + 1 ≤ (n : Int) ∧ (m : Int) ≤ (n : Int)
    omega

/-- The beats accepted in the first periods: their flits, and data and last flag by source, type and destination. -/
theorem start : (match run 12 with
    | .ok x => some (flitsOf cfg x, [(1, 0), (1, 1), (0, 1)].map fun d => (List.range 2).flatMap fun w =>
        [FlitType.readRequest, .readReply, .writeRequest, .writeReply, .writeData].map fun ty =>
          (acceptedFor cfg x w d.1 d.2 ty).map fun b => (b.tdata.toNat, b.tlast))
    | .error _ => none) = some (13, [
      [[(100, false), (110, true)], [], [], [], [], [], [], [], [], []],
      [[], [], [], [], [(2 ^ 100 + 5, false)], [], [], [], [], []],
      [[], [], [], [], [], [(200, true), (205, true), (210, true)], [], [], [], []]]) := by decide +kernel

/-- Nothing has been handed over yet. -/
theorem nothing : (match run 12 with
    | .ok x => [(1, 0), (1, 1), (0, 1)].map fun d => (deliveredAt x d.1 d.2).length
    | .error _ => []) = [0, 0, 0] := by decide +kernel

/-- From some period on everything has arrived. -/
example {N : Nat} (h1 : 5776 ≤ N) (h2 : N < 2 ^ 31) : ∃ x, run N = .ok x ∧
    (deliveredAt x 1 0).map (fun b => (b.tdata.toNat, b.tlast)) = [(100, false), (110, true)] ∧
    (deliveredAt x 1 1).map (fun b => (b.tdata.toNat, b.tlast)) = [(2 ^ 100 + 5, false)] ∧
    (deliveredAt x 0 1).map (fun b => (b.tdata.toNat, b.tlast)) = [(200, true), (205, true), (210, true)] := by
  have hinv : ∀ n ≤ N, Inv islip islip cfg (fun _ => Islip.init 6 6 1) (fun _ => Islip.init 3 3 1) inp
      (fun u p t => Exists cfg u p t ∧ FitsPort cfg u p t) n := fun n h =>
    inv_all setup allocs (fun _ _ _ h => h.1) n (fun k hk => in_time h2 k (by omega)) fun k _ => offered k
  have hs := start
  unfold run at hs
  rw [(hinv 12 (by omega)).ok] at hs
  dsimp only at hs
  refine ⟨_, (hinv N (Nat.le_refl _)).ok, ?_⟩
  have hgot := fun w (hw : w < 2) => got_const hinv (closing N) (Nat.le_refl 12) (show 12 ≤ N by omega) (Nat.le_refl N) (u := w) hw
  have hacc : ∀ w < 2, ∀ u p ty, acceptedFor cfg (st islip islip cfg (fun _ => Islip.init 6 6 1) (fun _ => Islip.init 3 3 1) inp N)
      w u p ty = acceptedFor cfg (st islip islip cfg (fun _ => Islip.init 6 6 1) (fun _ => Islip.init 3 3 1) inp 12) w u p ty := by
    intro w hw u p ty
    unfold acceptedFor
    rw [hgot w hw]
  simp only [List.range, List.range.loop, List.flatMap_cons, List.flatMap_nil, List.map_cons, List.map_nil, List.append_nil,
    List.cons_append, List.nil_append, List.cons.injEq, and_true, Option.some.injEq, Prod.mk.injEq, List.map_eq_nil_iff] at hs
  obtain ⟨hF, ⟨a0, a1, a2, a3, a4, a5, a6, a7, a8, a9⟩, ⟨b0, b1, b2, b3, b4, b5, b6, b7, b8, b9⟩,
    ⟨c0, c1, c2, c3, c4, c5, c6, c7, c8, c9⟩⟩ := hs
  have key := fun {u p w : Nat} {ty : FlitType} (hu : u < 2) (hp : p < 2) (hw : w < 2) hone honly =>
    C95_stream_arrives setup allocs grants (by decide) (by decide) (by decide) (in_time h2)
    (fun k _ => offered k) (closing N) (hinv 12 (by omega)).ok (hinv N (Nat.le_refl _)).ok (by rw [hF]; exact h1) (u := u) (p := p)
    hu hp (w := w) (ty := ty) hw hone honly
  have two : ∀ w, w < cfg.m.nodes → w = 0 ∨ w = 1 := fun w h => by
    have : w < 2 := h
    omega
  refine ⟨?_, ?_, ?_⟩
  · rw [key (w := 0) (ty := .readRequest) (by decide) (by decide) (by decide) rfl fun w hw ty hne => ?_, hacc 0 (by decide)]
    · exact a0
    · rw [hacc w hw]
      rcases two w hw with rfl | rfl <;> cases ty
      exacts [absurd rfl hne, a1, a2, a3, a4, a5, a6, a7, a8, a9]
  · rw [key (w := 0) (ty := .writeData) (by decide) (by decide) (by decide) rfl fun w hw ty hne => ?_, hacc 0 (by decide)]
    · exact b4
    · rw [hacc w hw]
      rcases two w hw with rfl | rfl <;> cases ty
      exacts [b0, b1, b2, b3, absurd rfl hne, b5, b6, b7, b8, b9]
  · rw [key (w := 1) (ty := .readRequest) (by decide) (by decide) (by decide) rfl fun w hw ty hne => ?_, hacc 1 (by decide)]
    · exact c5
    · rw [hacc w hw]
      rcases two w hw with rfl | rfl <;> cases ty
      exacts [c0, c1, c2, c3, c4, absurd rfl hne, c6, c7, c8, c9]

end LiveExample

end RadSim.AxisNoc
