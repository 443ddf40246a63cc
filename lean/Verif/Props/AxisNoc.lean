import Verif.Lemmas.AxisNocOrder
import Verif.Props.Alloc

/-! # AXI-Stream over a mesh NoC, from module to module

The whole of source side adapters, mesh and sink side adapters, with modules that do as they like. In contrast to C08, C13,
C78 and C92 nothing is assumed about the other parts: what each of them needs is proved from what the others do. -/

namespace RadSim.AxisNoc

open Router (Flit Hop)
open Routing (Shape Rf dimOrderMesh)
open Net

variable {σ τ ρ ρ' : Type} {VA : Alloc.Cls σ ρ} {SA : Alloc.Cls τ ρ'} {c : Cfg} {va : Nat → σ} {sa : Nat → τ} {i : Nat → In ρ ρ'}
  {rng : Nat → Nat × Nat} {n : Nat}

/-- C93. Whatever the modules do, as long as beats go to existing nodes and ports, no part of the system ever stops the
program: no FIFO overflows, no credit is in excess, no packet is cut, no assertion fails. -/
theorem C93_system_never_fails (hs : Setup c rng) (ha : Allocs VA SA (mesh c.m) c.b va sa) (ht : ∀ k < n, InTime (i k))
    (ho : ∀ k < n, Offered c (Exists c) (i k)) : ∃ x, after VA SA c va sa i n = .ok x :=
  ⟨_, (inv_all hs ha (fun _ _ _ h => h) n ht ho).ok⟩

/-- C93, the assertion of the routing function: a head at an input of a router is on a virtual channel of its type. -/
theorem C93_routing_assertion (hs : Setup c rng) (ha : Allocs VA SA (mesh c.m) c.b va sa) (ht : ∀ k < n, InTime (i k))
    (ho : ∀ k < n, Offered c (Exists c) (i k)) {x : Sys σ τ} (hx : after VA SA c va sa i n = .ok x) {r p : Nat}
    (hr : r < c.m.nodes) (hp : p < 2 * c.m.n + 1) {f : Flit (Msg BsFlit)} (hf : x.net.fOut ((mesh c.m).inLink r p) = some f)
    (hh : f.head = true) (rnd : Bool) : c.rf r (pkt f) p rnd ≠ none := by
  have h := inv_all (P := Exists c) hs ha (fun _ _ _ h => h) n ht ho
  have hst : x = st VA SA c va sa i n := by
    have := h.ok
    rw [hx] at this
    exact Except.ok.inj this
  subst hst
  have hl := (mesh_wired (s := c.m) hs.k).inLt r hr p hp
  have hm : f ∈ flitsAt (nets VA SA c va sa i) ((mesh c.m).inLink r p) (n + 1) := by
    rw [flitsAt_succ]
    refine List.mem_append_right _ ?_
    change f ∈ ((st VA SA c va sa i n).net.fOut _).toList
    rw [hf]
    simp
  have := heads_guided (mesh_wired hs.k) hs.ok ha h.ticks (h.guided hs fun _ _ _ h => h) n (Nat.le_refl n) _ hl f
    ((flitsAt_prefix h.ticks (Nat.le_refl _) hl).subset hm) hh
  have hv := this.1.1.2.2.1
  rw [hs.rf]
  unfold dimOrderMesh
  rw [if_pos hv]
  simp

theorem subperm_some {α : Type} {a b : List α} (h : List.Subperm (a.map some) (b.map some)) : List.Subperm a b := by
  obtain ⟨l, h1, h2⟩ := h
  have h3 := h1.filterMap id
  have h4 := h2.filterMap id
  rw [List.filterMap_map] at h3 h4
  simp only [Function.id_comp, List.filterMap_some] at h3 h4
  exact ⟨_, h3, h4⟩

theorem subperm_map {α β : Type} {a b : List α} (h : List.Subperm a b) (f : α → β) : List.Subperm (a.map f) (b.map f) := by
  obtain ⟨l, h1, h2⟩ := h
  exact ⟨_, h1.map f, h2.map f⟩

theorem prefix_some {α : Type} {a b : List α} (h : a.map some <+: b.map some) : a <+: b := by
  have h := h.filterMap id
  rw [List.filterMap_map, List.filterMap_map] at h
  simpa using h

/-- C93, C94. Let the data of a beat fit its port, and the port it goes to not be narrower. Then all that a port has ever
handed over can be marked with nodes and types, so that
- what is marked with a node and a type are different beats of this type that this node has accepted for this port, with
  their data, user bits and last flag;
- if there is one virtual channel for the type, they are the first of these beats, in the order in which they were accepted. -/
theorem C93_delivered (hs : Setup c rng) (ha : Allocs VA SA (mesh c.m) c.b va sa) (ht : ∀ k < n, InTime (i k))
    (ho : ∀ k < n, Offered c (fun u p t => Exists c u p t ∧ FitsPort c u p t) (i k)) {x : Sys σ τ}
    (hx : after VA SA c va sa i n = .ok x) {u p : Nat} (hu : u < c.m.nodes) (hp : p < (c.mc u).n) :
    ∃ marks : List (Nat × FlitType), marks.length = (deliveredAt x u p).length ∧ (∀ y ∈ marks, y.1 < c.m.nodes) ∧
      ∀ w < c.m.nodes, ∀ ty,
        List.Subperm (((marks.zip (deliveredAt x u p)).filter fun y => y.1 = (w, ty)).map (·.2)) (acceptedFor c x w u p ty) ∧
        ((rng (clsOf ty)).1 = (rng (clsOf ty)).2 →
          ((marks.zip (deliveredAt x u p)).filter fun y => y.1 = (w, ty)).map (·.2) <+: acceptedFor c x w u p ty) := by
  have h := inv_all hs ha (fun _ _ _ h => h.1) n ht ho
  have hst : x = st VA SA c va sa i n := by
    have := h.ok
    rw [hx] at this
    exact Except.ok.inj this
  subst hst
  obtain ⟨H, h1, h2, marks, h3, h4, h5⟩ := h.marked hs ha (fun _ _ _ h => h) hu hp
  have e : ∀ w ty, (((marks.zip (deliveredAt (st VA SA c va sa i n) u p)).filter fun y => y.1 = (w, ty)).map
      fun y => some y.2) = (((marks.zip (deliveredAt (st VA SA c va sa i n) u p)).filter fun y => y.1 = (w, ty)).map
      (·.2)).map some := by
    intro w ty
    rw [List.map_map]
    rfl
  refine ⟨marks, h3, h4, fun w hw ty => ⟨subperm_some ?_, fun hone => prefix_some ?_⟩⟩
  · rw [← e, h.accepted (fun _ _ _ h => h) hw]
    exact (h5 w ty).sublist.subperm.trans (subperm_map (h.counted hs ha (fun _ _ _ h => h.1) hu h1 h2 hw p ty) beatOf)
  · rw [← e, h.accepted (fun _ _ _ h => h) hw]
    exact (h5 w ty).trans ((h.ordered hs ha (fun _ _ _ h => h.1) hu h1 h2 hw p hone).map beatOf)

/-- C94. Let there be one virtual channel for a type, and let all beats accepted for a port have this type and come from one
node. Then the port hands over exactly the first of them, in the order in which they were accepted. -/
theorem C94_stream_in_order (hs : Setup c rng) (ha : Allocs VA SA (mesh c.m) c.b va sa) (ht : ∀ k < n, InTime (i k))
    (ho : ∀ k < n, Offered c (fun u p t => Exists c u p t ∧ FitsPort c u p t) (i k)) {x : Sys σ τ}
    (hx : after VA SA c va sa i n = .ok x) {u p : Nat} (hu : u < c.m.nodes) (hp : p < (c.mc u).n) {w : Nat} {ty : FlitType}
    (hone : (rng (clsOf ty)).1 = (rng (clsOf ty)).2)
    (honly : ∀ w' < c.m.nodes, ∀ ty', (w', ty') ≠ (w, ty) → acceptedFor c x w' u p ty' = []) :
    deliveredAt x u p <+: acceptedFor c x w u p ty := by
  obtain ⟨marks, h1, h2, h3⟩ := C93_delivered hs ha ht ho hx hu hp
  have hall : ∀ y ∈ marks.zip (deliveredAt x u p), y.1 = (w, ty) := by
    intro y hy
    by_contra hne
    have hm := (List.of_mem_zip (a := y.1) (b := y.2) hy).1
    have h4 := (h3 y.1.1 (h2 _ hm) y.1.2).1
    rw [honly _ (h2 _ hm) _ hne, List.subperm_nil, List.map_eq_nil_iff, List.filter_eq_nil_iff] at h4
    exact h4 y hy (by simp)
  have hsnd : (marks.zip (deliveredAt x u p)).map (·.2) = deliveredAt x u p := List.map_snd_zip (by omega)
  by_cases hw : w < c.m.nodes
  · have := (h3 w hw ty).2 hone
    rw [List.filter_eq_self.2 fun y hy => by simp [hall y hy], hsnd] at this
    exact this
  · cases hz : marks.zip (deliveredAt x u p) with
    | nil =>
      rw [hz] at hsnd
      rw [← hsnd]
      exact List.nil_prefix
    | cons y l =>
      have hy : y ∈ marks.zip (deliveredAt x u p) := by rw [hz]; simp
      have := h2 _ (List.of_mem_zip (a := y.1) (b := y.2) hy).1
      rw [hall y hy] at this
      exact absurd this hw

/-! ## An example

Two nodes in a line. Every node has two source ports, one of 8 bits for read requests and one of 128 bits for write data, and
two sink ports of 128 bits. Read requests and replies have virtual channel 0, the rest channel 1. Node 0 sends to both ports
of node 1, and node 1 to a port of node 0. -/

namespace Example

open Alloc (islip Islip)

def chans (t : Nat) : Nat × Nat := if t = 0 ∨ t = 3 then (0, 0) else (1, 1)

def cfg : Cfg where
  m := ⟨2, 1⟩
  b := ⟨0, 0, ⟨2, -1, 4, false⟩, -1, 1, 1, 1, 1, 1⟩
  rf := dimOrderMesh ⟨2, 1⟩ chans
  sc := fun _ => ⟨2, fun p => if p = 0 then 8 else 128, fun p => if p = 0 then .readRequest else .writeData,
    ⟨0, 1, 1, 0, 1⟩, 8, 0, 0, ⟨2, -1, 4, false⟩⟩
  mc := fun _ => ⟨2, fun _ => 128, 2, 4, 2⟩

theorem cfg_ok : cfg.b.Ok :=
  ⟨⟨by decide, by decide, by decide⟩, rfl, .inl rfl, rfl, rfl, rfl, rfl⟩

theorem setup : Setup cfg chans where
  k := by decide
  n := by decide
  ok := cfg_ok
  rf := rfl
  vcs := by
    intro t
    show (chans t).2 < 2
    unfold chans
    split <;> decide
  buf := fun _ _ => rfl
  types := by
    intro u _ t
    cases t <;> rfl
  few := by
    intro t
    cases t <;> decide
  ports := fun _ _ => ⟨Nat.zero_lt_succ _, Nat.zero_lt_succ _⟩
  sameVcs := fun _ _ => rfl
  deep := fun _ _ => show (4 : Int) ≤ 4 by decide

theorem allocs : Allocs islip islip (mesh cfg.m) cfg.b (fun _ => Islip.init 6 6 1) (fun _ => Islip.init 3 3 1) where
  va := fun _ _ => Alloc.C44_islip 6 6 1
  sa := fun _ _ => Alloc.C44_islip 3 3 1

def beat (d u p : Nat) (last : Bool) : AxisTxn :=
  ⟨BitVec.ofNat 512 d, BitVec.ofNat 21 u, BitVec.ofNat 32 p, 0, last, 0, BitVec.ofNat 75 (d + 7), 0, .readRequest, 0⟩

def offer (k u p : Nat) : Option AxisTxn :=
  if u = 0 ∧ p = 0 ∧ k % 4 = 1 then some (beat (100 + k) 1 0 (k = 5))
  else if u = 0 ∧ p = 1 ∧ k % 6 = 2 then some (beat (2 ^ 100 + k) 1 1 false)
  else if u = 1 ∧ p = 0 ∧ k % 3 = 0 then some (beat (200 + k) 0 1 true)
  else none

def inp (k : Nat) : In Unit Unit where
  now := k
  rnd := fun _ _ _ => false
  rva := fun _ => ()
  rsa := fun _ => ()
  sPre := fun u => [.node (offer k u) false, .adapter]
  sPost := fun _ => [.adapter, .adapter]
  mPre := fun _ => [.adapter true, .adapter true]
  mPost := fun _ => [.node fun _ => true]

def run (n : Nat) : Except Err (Sys Islip Islip) :=
  after islip islip cfg (fun _ => Islip.init 6 6 1) (fun _ => Islip.init 3 3 1) inp n

instance (c : Cfg) (u p : Nat) (t : AxisTxn) : Decidable (Exists c u p t ∧ FitsPort c u p t) := by
  unfold Exists FitsPort
  infer_instance

theorem offers : ∀ k < 30, ∀ u < 2, ∀ p < 2, ∀ t ∈ offer k u p, Exists cfg u p t ∧ FitsPort cfg u p t := by
  have : ∀ k < 30, ∀ u < 2, ∀ p < 2,
      ((offer k u p).all fun t => decide (Exists cfg u p t ∧ FitsPort cfg u p t)) = true := by decide +kernel
  intro k hk u hu p hp t ht
  have := this k hk u hu p hp
  rw [Option.mem_def.1 ht] at this
  simpa using this

theorem offered : ∀ k < 30, Offered cfg (fun u p t => Exists cfg u p t ∧ FitsPort cfg u p t) (inp k) := by
  intro k hk u hu beats seen h p hp t ht
  have hb : beats = offer k u := by
    simp only [inp, List.mem_append, List.mem_cons, List.not_mem_nil, or_false, reduceCtorEq, or_self,
      SlaveEdge.node.injEq] at h
    exact h.1
  rw [hb] at ht
  exact offers k hk u hu p hp t ht

theorem in_time : ∀ k < 30, InTime (inp k) := by
  intro k hk
  show (0 : Int) ≤ (k : Int) ∧ (k : Int) + 1 ≤ 2147483647
  omega

/-- The beats that arrive. -/
theorem arrive : (match run 30 with
    | .ok x => [deliveredAt x 1 0, deliveredAt x 1 1, deliveredAt x 0 1].map fun l => l.map fun b => (b.tdata.toNat, b.tlast)
    | .error _ => []) =
    [[(101, false), (105, true), (109, false)], [(2 ^ 100 + 2, false), (2 ^ 100 + 8, false)],
      [(200, true), (203, true), (206, true)]] := by decide +kernel

example : ∃ x, after islip islip cfg (fun _ => Islip.init 6 6 1) (fun _ => Islip.init 3 3 1) inp 30 = .ok x :=
  C93_system_never_fails setup allocs in_time fun k hk u hu beats seen h p hp t ht =>
    (offered k hk u hu beats seen h p hp t ht).1

example {x : Sys Islip Islip} (hx : run 30 = .ok x) : ∃ marks : List (Nat × FlitType),
    marks.length = (deliveredAt x 1 0).length ∧ (∀ y ∈ marks, y.1 < 2) ∧ ∀ w < 2, ∀ ty,
      List.Subperm (((marks.zip (deliveredAt x 1 0)).filter fun y => y.1 = (w, ty)).map (·.2)) (acceptedFor cfg x w 1 0 ty) ∧
      ((chans (clsOf ty)).1 = (chans (clsOf ty)).2 →
        ((marks.zip (deliveredAt x 1 0)).filter fun y => y.1 = (w, ty)).map (·.2) <+: acceptedFor cfg x w 1 0 ty) :=
  C93_delivered setup allocs in_time offered hx (by decide) (by decide)

/-- Only node 0 sends to port 0 of node 1. -/
theorem only : (match run 30 with
    | .ok x => (List.range 2).flatMap fun w => [FlitType.readRequest, .readReply, .writeRequest, .writeReply, .writeData].map
        fun ty => (acceptedFor cfg x w 1 0 ty).length
    | .error _ => []) = [8, 0, 0, 0, 0, 0, 0, 0, 0, 0] := by decide +kernel

example {x : Sys Islip Islip} (hx : run 30 = .ok x) : deliveredAt x 1 0 <+: acceptedFor cfg x 0 1 0 .readRequest := by
  have h := only
  rw [hx] at h
  simp only [List.range, List.range.loop, List.flatMap_cons, List.flatMap_nil, List.map_cons, List.map_nil, List.append_nil,
    List.cons_append, List.nil_append, List.cons.injEq, List.length_eq_zero_iff, and_true] at h
  obtain ⟨-, h1, h2, h3, h4, h5, h6, h7, h8, h9⟩ := h
  refine C94_stream_in_order setup allocs in_time offered hx (by decide) (by decide) rfl fun w hw ty hne => ?_
  have hw' : w = 0 ∨ w = 1 := by
    have : w < 2 := hw
    omega
  rcases hw' with rfl | rfl
  · cases ty
    exacts [absurd rfl hne, h1, h2, h3, h4]
  · cases ty
    exacts [h5, h6, h7, h8, h9]

example {x : Sys Islip Islip} (hx : run 8 = .ok x) {r p : Nat} (hr : r < 2) (hp : p < 3) {f : Flit (Msg BsFlit)}
    (hf : x.net.fOut ((mesh cfg.m).inLink r p) = some f) (hh : f.head = true) : cfg.rf r (pkt f) p false ≠ none :=
  C93_routing_assertion setup allocs (fun k hk => in_time k (by omega)) (fun k hk u hu beats seen h p hp t ht =>
    (offered k (by omega) u hu beats seen h p hp t ht).1) hx hr hp hf hh false

/-- There are heads at the inputs of routers. -/
theorem heads : (match run 8 with
    | .ok x => (x.net.fOut ((mesh cfg.m).inLink 0 2)).map (fun f : Flit (Msg BsFlit) => f.head)
    | .error _ => none) = some true := by decide +kernel

end Example

/-! ## Two virtual channels for a type

As above, but all types have both channels, and the adapter of node 1 waits at first. The second packet follows the first on
the same virtual channel into the adapter, the third takes the other one, and the adapter takes turns. -/

namespace Example2

open Alloc (islip Islip)
open Example (beat)

def chans (_ : Nat) : Nat × Nat := (0, 1)

def cfg : Cfg :=
  { Example.cfg with
    rf := dimOrderMesh ⟨2, 1⟩ chans
    sc := fun _ => ⟨1, fun _ => 8, fun _ => .writeData, ⟨0, 0, 0, 0, 0⟩, 8, 0, 0, ⟨2, -1, 4, false⟩⟩ }

theorem setup : Setup cfg chans where
  k := by decide
  n := by decide
  ok := Example.cfg_ok
  rf := rfl
  vcs := fun _ => show 1 < 2 by decide
  buf := fun _ _ => rfl
  types := by
    intro u _ t
    cases t <;> rfl
  few := fun _ => show 0 ≤ 1 ∧ 0 < 8 by decide
  ports := fun _ _ => ⟨Nat.zero_lt_succ _, Nat.zero_lt_succ _⟩
  sameVcs := fun _ _ => rfl
  deep := fun _ _ => show (4 : Int) ≤ 4 by decide

def offer (k u : Nat) : Option AxisTxn :=
  if u = 0 ∧ k % 4 = 1 ∧ k < 10 then some (beat (100 + k) 1 0 false) else none

def inp (k : Nat) : In Unit Unit where
  now := k
  rnd := fun _ _ _ => false
  rva := fun _ => ()
  rsa := fun _ => ()
  sPre := fun u => [.node (fun _ => offer k u) false, .adapter]
  sPost := fun _ => [.adapter, .adapter]
  mPre := fun _ => if k < 22 then [] else [.adapter true, .adapter true, .adapter true]
  mPost := fun _ => [.node fun _ => true]

theorem offers : ∀ k < 34, ∀ u < 2, ∀ t ∈ offer k u, Exists cfg u 0 t ∧ FitsPort cfg u 0 t := by
  have : ∀ k < 34, ∀ u < 2, ((offer k u).all fun t => decide (Exists cfg u 0 t ∧ FitsPort cfg u 0 t)) = true := by
    decide +kernel
  intro k hk u hu t ht
  have := this k hk u hu
  rw [Option.mem_def.1 ht] at this
  simpa using this

theorem offered : ∀ k < 34, Offered cfg (fun u p t => Exists cfg u p t ∧ FitsPort cfg u p t) (inp k) := by
  intro k hk u hu beats seen h p hp t ht
  have hb : beats = fun _ => offer k u := by
    simp only [inp, List.mem_append, List.mem_cons, List.not_mem_nil, or_false, reduceCtorEq, or_self,
      SlaveEdge.node.injEq] at h
    exact h.1
  rw [hb] at ht
  have : p = 0 := by
    have : p < 1 := hp
    omega
  subst this
  exact offers k hk u hu t ht

theorem in_time : ∀ k < 34, InTime (inp k) := by
  intro k hk
  show (0 : Int) ≤ (k : Int) ∧ (k : Int) + 1 ≤ 2147483647
  omega

/-- What arrives and what was sent. -/
theorem arrive : (match after islip islip cfg (fun _ => Islip.init 6 6 1) (fun _ => Islip.init 3 3 1) inp 34 with
    | .ok x => some ((deliveredAt x 1 0).map fun b => b.tdata.toNat, (acceptedFor cfg x 0 1 0 .writeData).map fun b => b.tdata.toNat)
    | .error _ => none) = some ([101, 109, 105], [101, 105, 109]) := by decide +kernel

end Example2

/-- C94 does not hold with two virtual channels for a type: beats of one source port for one sink port can arrive in
another order. -/
theorem C94_two_channels_violated : ¬ ∀ (c : Cfg) (rng : Nat → Nat × Nat) (i : Nat → In Unit Unit) (n : Nat)
    (x : Sys Alloc.Islip Alloc.Islip), Setup c rng → (∀ k < n, InTime (i k)) →
    (∀ k < n, Offered c (fun u p t => Exists c u p t ∧ FitsPort c u p t) (i k)) →
    after Alloc.islip Alloc.islip c (fun _ => Alloc.Islip.init 6 6 1) (fun _ => Alloc.Islip.init 3 3 1) i n = .ok x →
    deliveredAt x 1 0 <+: acceptedFor c x 0 1 0 .writeData := by
  intro h
  have ha := Example2.arrive
  split at ha
  · rename_i x hx
    have h1 := h Example2.cfg Example2.chans Example2.inp 34 x Example2.setup Example2.in_time Example2.offered hx
    injection ha with ha
    injection ha with h2 h3
    have h4 := h1.map fun b => b.tdata.toNat
    rw [h2, h3] at h4
    revert h4
    decide
  · cases ha

end RadSim.AxisNoc
