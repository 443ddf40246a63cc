import Verif.Spec.Mlp
import Verif.Spec.MlpDesign
import Verif.Spec.AxisNoc

/-! # What the design `mlp` is to do on a mesh -/

namespace RadSim.Mlp

open Channel (intMax)

variable {σ τ ρ ρ' : Type}

/-- The modules there are. -/
def Design.Has (D : Design) : Block → Prop
  | .disp m => m < D.mvms 0
  | .mvm l m => l < D.layers ∧ m < D.mvms l
  | .coll => True

/-- The numbers of a file fit an `int`. -/
def InRange (file : List (List Int)) : Prop := ∀ line ∈ file, ∀ v ∈ line, -2147483648 ≤ v ∧ v < 2147483648

/-- The design fits the NoC: each module is at a node of this RAD of its own, the ports are as wide as the vectors, the message
types have one virtual channel, the numbers in the input files fit an `int`, and no line of golden outputs is all zeros modulo
2 ^ 32. -/
structure Works (d : Params) (rng : Nat → Nat × Nat) : Prop where
  ok : d.D.Ok d.q
  setup : AxisNoc.Setup d.noc rng
  placed : ∀ b, d.D.Has b → d.node b < d.noc.m.nodes ∧ d.node b < 128
  apart : ∀ u b, d.block u = some b ↔ d.D.Has b ∧ d.node b = u
  rad : d.rad < 128 ∧ ∀ u < d.noc.m.nodes, (d.noc.sc u).radId = d.rad
  lanes : 32 * d.D.dim ≤ 512
  wide : ∀ b, d.D.Has b → (d.noc.sc (d.node b)).dataw 0 = 32 * d.D.dim ∧ (d.noc.mc (d.node b)).dataw 0 = 32 * d.D.dim
  channel : ∀ u < d.noc.m.nodes, (rng (AxisNoc.clsOf ((d.noc.sc u).types 0))).1 = (rng (AxisNoc.clsOf ((d.noc.sc u).types 0))).2
  inputs : ∀ m < d.D.mvms 0, InRange (d.D.inputFile m)
  shows : ∀ line ∈ d.D.goldenFile, ∃ v ∈ line, v % 4294967296 ≠ 0

/-- The time is in range, all modules and the driver are on one clock, and this clock is not faster than that of the NoC. -/
structure Paced (d : Params) (t : Tick ρ ρ') : Prop where
  time : 0 ≤ t.now ∧ t.now + 1 ≤ intMax
  drive : t.drive = t.edge
  source : ∀ u < d.noc.m.nodes, (t.sPre u ++ t.sPost u).count AddDesign.SEdge.node = if t.edge then 1 else 0
  sink : ∀ u < d.noc.m.nodes, (t.mPre u ++ t.mPost u).count AddDesign.MEdge.node = if t.edge then 1 else 0

/-- From period `n₀` on all clocks run: in any `J` periods every adapter has an edge of its clock, and the modules have an edge of
theirs. A sink side adapter never has two edges of its clock in a period. `K` periods are at least the credit delay. -/
structure Runs (d : Params) (N n₀ J K : Nat) (t : Nat → Tick ρ ρ') : Prop where
  one : ∀ k < N, ∀ u < d.noc.m.nodes, ((t k).mPre u ++ (t k).mPost u).countP (· ≠ AddDesign.MEdge.node) ≤ 1
  source : ∀ k, n₀ ≤ k → k + J ≤ N → ∀ u < d.noc.m.nodes, ∃ k', k ≤ k' ∧ k' < k + J ∧
    AddDesign.SEdge.adapter ∈ (t k').sPre u ++ (t k').sPost u
  sink : ∀ k, n₀ ≤ k → k + J ≤ N → ∀ u < d.noc.m.nodes, ∃ k', k ≤ k' ∧ k' < k + J ∧
    ∃ cm, AddDesign.MEdge.adapter cm ∈ (t k').mPre u ++ (t k').mPost u
  edge : ∀ k, n₀ ≤ k → k + J ≤ N → ∃ k', k ≤ k' ∧ k' < k + J ∧ (t k').edge = true
  time : ∀ m n, m + K ≤ n → n < N → (t m).now + d.noc.b.creditDelay ≤ (t n).now ∧ (t m).now ≤ (t n).now

/-- `InputReady` of a source side adapter sees `_injection_afifo_full` as it is before or after the edges of the period. -/
def InputsSeen (VA : Alloc.Cls σ ρ) (SA : Alloc.Cls τ ρ') (d : Params) (va : Nat → σ) (sa : Nat → τ) (t : Nat → Tick ρ ρ')
    (N : Nat) : Prop :=
  ∀ k < N, ∀ x y, sysRun VA SA d va sa t k = .ok x → sysRun VA SA d va sa t (k + 1) = .ok y →
    ∀ u < d.noc.m.nodes, (t k).seen u = true → (t k).edge = true → (x.noc.slave u).injFull = true ∨ (y.noc.slave u).injFull = true

/-- The vectors a module has taken from the NoC, with the user bits. -/
def inbox (d : Params) (x : AxisNoc.Sys σ τ) (b : Block) : List (Vec × Nat) :=
  (AxisNoc.deliveredAt x (d.node b) 0).map fun t => (unpack d.D.dim t.tdata, t.tuser.toNat)

/-- The vectors the collector has taken. -/
def received (d : Params) (x : Sys σ τ) : List Vec := (inbox d x.noc .coll).map (·.1)

end RadSim.Mlp
