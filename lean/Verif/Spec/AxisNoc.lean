import Verif.Model.AxisNoc
import Verif.Spec.Network
import Verif.Lemmas.RouterBase

/-! # What a NoC with AXI-Stream adapters is to do -/

namespace RadSim.AxisNoc

open Routing (dimOrderMesh)
open Channel (intMax)

variable {ρ ρ' : Type}

/-- The configuration fits together: a mesh with dimension-order routing, where `rng` gives the virtual channels of a type;
the adapters have the numbers of channels and buffer places of the routers, inject on the first channel of a type, have
ports, and an ejection FIFO with a place for every place the router counts on. -/
structure Setup (c : Cfg) (rng : Nat → Nat × Nat) : Prop where
  k : 0 < c.m.k
  n : 0 < c.m.n
  ok : c.b.Ok
  rf : c.rf = dimOrderMesh c.m rng
  vcs : ∀ t, (rng t).2 < c.b.vcs
  buf : ∀ u < c.m.nodes, (c.sc u).buf = c.b.buf
  types : ∀ u < c.m.nodes, ∀ t, vcidFromType (c.sc u).vc t = (rng (clsOf t)).1
  few : ∀ t, (rng (clsOf t)).1 ≤ (rng (clsOf t)).2 ∧ (rng (clsOf t)).1 < 8
  ports : ∀ u < c.m.nodes, 0 < (c.sc u).n ∧ 0 < (c.mc u).n
  sameVcs : ∀ u < c.m.nodes, (c.mc u).vcs = c.b.vcs
  deep : ∀ u < c.m.nodes, c.b.buf.perVc ≤ (c.mc u).depth

/-- The node of this RAD that a beat is to go to: the low seven bits of `tdest` if its high seven bits name this RAD, the
portal otherwise. -/
def nodeOf (c : SlaveCfg) (t : AxisTxn) : Nat :=
  if t.tdest.toNat / 16384 = c.radId % 128 then t.tdest.toNat % 128 else c.portalId % 2 ^ 21

/-- The port of this node. -/
def portOf (t : AxisTxn) : Nat := t.tid.toNat % 32

/-- The beats offered in a period satisfy `P`, which is told the node and the port. -/
def Offered (c : Cfg) (P : Nat → Nat → AxisTxn → Prop) (i : In ρ ρ') : Prop :=
  ∀ u < c.m.nodes, ∀ beats seen, SlaveEdge.node beats seen ∈ i.sPre u ++ i.sPost u →
    ∀ p < (c.sc u).n, ∀ t, beats p = some t → P u p t

/-- The beat goes to an existing node and port. -/
def Exists (c : Cfg) (u _p : Nat) (t : AxisTxn) : Prop :=
  nodeOf (c.sc u) t < c.m.nodes ∧ portOf t < (c.mc (nodeOf (c.sc u) t)).n

/-- The data of the beat fits its port, and this port is not wider than the one the beat goes to. -/
def FitsPort (c : Cfg) (u p : Nat) (t : AxisTxn) : Prop :=
  (c.sc u).dataw p ≤ 512 ∧ t.tdata.toNat < 2 ^ (c.sc u).dataw p ∧
    (c.sc u).dataw p ≤ (c.mc (nodeOf (c.sc u) t)).dataw (portOf t)

/-- The time is in the range of the type the channels use. -/
def InTime (i : In ρ ρ') : Prop := 0 ≤ i.now ∧ i.now + 1 ≤ intMax

/-- The edge is one of the adapter clock. -/
def MasterEdge.isAdapter : MasterEdge → Bool
  | .adapter _ => true
  | .node _ => false

/-- The clocks run and the modules take what they are handed: from period `n₀` on, in any `J` periods every adapter has an
edge of its clock, and every port of a sink side adapter an edge of the node clock at which the module is ready. A sink side
adapter never has two edges of its clock in a period. `K` periods are at least the credit delay. -/
structure Fair (c : Cfg) (N n₀ J K : Nat) (i : Nat → In ρ ρ') : Prop where
  one : ∀ k < N, ∀ u < c.m.nodes, ((i k).mPre u ++ (i k).mPost u).countP MasterEdge.isAdapter ≤ 1
  source : ∀ k, n₀ ≤ k → k + J ≤ N → ∀ u < c.m.nodes, ∃ k', k ≤ k' ∧ k' < k + J ∧
    .adapter ∈ (i k').sPre u ++ (i k').sPost u
  sink : ∀ k, n₀ ≤ k → k + J ≤ N → ∀ u < c.m.nodes, ∃ k', k ≤ k' ∧ k' < k + J ∧
    ∃ cm, .adapter cm ∈ (i k').mPre u ++ (i k').mPost u
  ready : ∀ k, n₀ ≤ k → k + J ≤ N → ∀ u < c.m.nodes, ∀ p < (c.mc u).n, ∃ k', k ≤ k' ∧ k' < k + J ∧
    ∃ r, .node r ∈ (i k').mPre u ++ (i k').mPost u ∧ r p = true
  time : ∀ m n, m + K ≤ n → n < N → (i m).now + c.b.creditDelay ≤ (i n).now ∧ (i m).now ≤ (i n).now

/-- As `Fair`, but a module need only be ready at the edge if its port shows a beat then. -/
structure Willing (VA : Alloc.Cls σ ρ) (SA : Alloc.Cls τ ρ') (c : Cfg) (va : Nat → σ) (sa : Nat → τ) (N n₀ J K : Nat)
    (i : Nat → In ρ ρ') : Prop where
  one : ∀ k < N, ∀ u < c.m.nodes, ((i k).mPre u ++ (i k).mPost u).countP MasterEdge.isAdapter ≤ 1
  source : ∀ k, n₀ ≤ k → k + J ≤ N → ∀ u < c.m.nodes, ∃ k', k ≤ k' ∧ k' < k + J ∧
    .adapter ∈ (i k').sPre u ++ (i k').sPost u
  sink : ∀ k, n₀ ≤ k → k + J ≤ N → ∀ u < c.m.nodes, ∃ k', k ≤ k' ∧ k' < k + J ∧
    ∃ cm, .adapter cm ∈ (i k').mPre u ++ (i k').mPost u
  ready : ∀ k, n₀ ≤ k → k + J ≤ N → ∀ u < c.m.nodes, ∀ p < (c.mc u).n, ∃ k', k ≤ k' ∧ k' < k + J ∧
    ∃ r, .node r ∈ (i k').mPre u ++ (i k').mPost u ∧
      ∀ x, after VA SA c va sa i k' = .ok x → ((x.master u).port p).isSome → r p = true
  time : ∀ m n, m + K ≤ n → n < N → (i m).now + c.b.creditDelay ≤ (i n).now ∧ (i m).now ≤ (i n).now

/-- From period `n₀` on the modules offer no beats. -/
structure Closing (c : Cfg) (N n₀ J K : Nat) (i : Nat → In ρ ρ') : Prop extends Fair c N n₀ J K i where
  quiet : ∀ k, n₀ ≤ k → k < N → Offered c (fun _ _ _ => False) (i k)

/-- A source side adapter turns beats down for a full injection FIFO only if this FIFO was marked full before or after the
edge of the adapter clock in this period. -/
def Seen (VA : Alloc.Cls σ ρ) (SA : Alloc.Cls τ ρ') (c : Cfg) (va : Nat → σ) (sa : Nat → τ) (i : Nat → In ρ ρ') (N : Nat) : Prop :=
  ∀ k < N, ∀ x y, after VA SA c va sa i k = .ok x → after VA SA c va sa i (k + 1) = .ok y → ∀ u < c.m.nodes,
    ∀ beats, SlaveEdge.node beats true ∈ (i k).sPre u ++ (i k).sPost u →
      (x.slave u).injFull = true ∨ (y.slave u).injFull = true

/-- The flits of the beats accepted so far. -/
def flitsOf {σ τ : Type} (c : Cfg) (x : Sys σ τ) : Nat :=
  ∑ u ∈ Finset.range c.m.nodes, ((x.got u).map fun t => numFlits ((c.sc u).dataw t.iface)).sum

/-- What of a beat is to arrive. -/
structure Beat where
  tdata : BitVec axisDataW
  tuser : BitVec axisUserW
  tlast : Bool
  deriving DecidableEq

/-- What a module hands over. -/
def beatIn (t : AxisTxn) : Beat := ⟨t.tdata, t.tuser, t.tlast⟩

/-- What a module is handed. -/
def beatOut (o : AxisOut) : Beat := ⟨o.tdata, o.tuser, o.tlast⟩

/-- The beats that port `p` of node `u` has handed over. -/
def deliveredAt {σ τ : Type} (x : Sys σ τ) (u p : Nat) : List Beat :=
  ((x.hist u).delivered.filter fun y => y.1 = p).map fun y => beatOut y.2

/-- The beats of type `ty` that node `w` has accepted for port `p` of node `u`. -/
def acceptedFor {σ τ : Type} (c : Cfg) (x : Sys σ τ) (w u p : Nat) (ty : FlitType) : List Beat :=
  ((x.got w).filter fun t => nodeOf (c.sc w) t = u ∧ portOf t = p ∧ t.type = ty).map beatIn

end RadSim.AxisNoc
