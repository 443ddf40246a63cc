import Verif.Model.AddDesign
import Verif.Spec.AxisNoc

/-! # What the example designs are to do -/

namespace RadSim.AddDesign

open Channel (intMax)

variable {σ τ ρ ρ' : Type}

/-- The design fits the NoC: client and adder are at nodes of this RAD, the port of the client is wide enough for the numbers
and not wider than that of the adder, its message type has one virtual channel, the numbers and the result fit an `int`, and
the FIFOs of the client have at least two places. -/
structure Works (d : Params) (rng : Nat → Nat × Nat) : Prop where
  setup : AxisNoc.Setup d.noc rng
  client : d.client < d.noc.m.nodes
  adder : d.adder < d.noc.m.nodes ∧ d.adder < 128
  rad : d.rad < 128 ∧ (d.noc.sc d.client).radId = d.rad
  wide : (d.noc.sc d.client).dataw 0 ≤ 512 ∧ (d.noc.sc d.client).dataw 0 ≤ (d.noc.mc d.adder).dataw 0
  numbers : ∀ v ∈ d.numbers, v < 2 ^ 31 ∧ v < 2 ^ (d.noc.sc d.client).dataw 0
  result : d.want < 2 ^ 31
  depth : 2 ≤ d.depth
  channel : (rng (AxisNoc.clsOf ((d.noc.sc d.client).types 0))).1 = (rng (AxisNoc.clsOf ((d.noc.sc d.client).types 0))).2

/-- The time is in range, and the module clock is not faster than that of the NoC. -/
structure Paced (d : Params) (t : Tick ρ ρ') : Prop where
  time : 0 ≤ t.now ∧ t.now + 1 ≤ intMax
  client : (t.sPre d.client ++ t.sPost d.client).count SEdge.node ≤ 1
  adder : (t.mPre d.adder ++ t.mPost d.adder).count MEdge.node ≤ 1

/-- From period `n₀` on all clocks run: in any `J` periods every adapter has an edge of its clock, and every sink side adapter
and the client have an edge of the module clock. A sink side adapter never has two edges of its clock in a period. `K` periods
are at least the credit delay. -/
structure Runs (d : Params) (N n₀ J K : Nat) (t : Nat → Tick ρ ρ') : Prop where
  one : ∀ k < N, ∀ u < d.noc.m.nodes, ((t k).mPre u ++ (t k).mPost u).countP (· ≠ MEdge.node) ≤ 1
  source : ∀ k, n₀ ≤ k → k + J ≤ N → ∀ u < d.noc.m.nodes, ∃ k', k ≤ k' ∧ k' < k + J ∧
    SEdge.adapter ∈ (t k').sPre u ++ (t k').sPost u
  client : ∀ k, n₀ ≤ k → k + J ≤ N → ∃ k', k ≤ k' ∧ k' < k + J ∧
    SEdge.node ∈ (t k').sPre d.client ++ (t k').sPost d.client
  sink : ∀ k, n₀ ≤ k → k + J ≤ N → ∀ u < d.noc.m.nodes, ∃ k', k ≤ k' ∧ k' < k + J ∧
    ∃ cm, MEdge.adapter cm ∈ (t k').mPre u ++ (t k').mPost u
  ready : ∀ k, n₀ ≤ k → k + J ≤ N → ∀ u < d.noc.m.nodes, ∃ k', k ≤ k' ∧ k' < k + J ∧
    MEdge.node ∈ (t k').mPre u ++ (t k').mPost u
  time : ∀ m n, m + K ≤ n → n < N → (t m).now + d.noc.b.creditDelay ≤ (t n).now ∧ (t m).now ≤ (t n).now

/-- `InputReady` of a source side adapter sees `_injection_afifo_full` as it is before or after the edges of the period. -/
def Seen (VA : Alloc.Cls σ ρ) (SA : Alloc.Cls τ ρ') (d : Params) (va : Nat → σ) (sa : Nat → τ) (t : Nat → Tick ρ ρ')
    (N : Nat) : Prop :=
  ∀ k < N, ∀ x y, run VA SA d va sa t k = .ok x → run VA SA d va sa t (k + 1) = .ok y →
    ∀ u < d.noc.m.nodes, (t k).seen u = true → SEdge.node ∈ (t k).sPre u ++ (t k).sPost u →
      (x.noc.slave u).injFull = true ∨ (y.noc.slave u).injFull = true

/-! ## FIFO and client by themselves -/

/-- What is at the inputs of a FIFO at an edge. -/
structure Access (α : Type) where
  wen : Bool
  ren : Bool
  wdata : α

/-- The user heeds the outputs of the FIFO. -/
def Heeds {α : Type} (c : FifoCfg) (zero : α) : Fifo α → List (Access α) → Prop
  | _, [] => True
  | f, a :: l => (a.ren = true → f.empty = false) ∧ (a.wen = true → f.full = false) ∧
      ∀ f', f.tick c zero a.wen a.ren a.wdata = .ok f' → Heeds c zero f' l

/-- The state after some edges, with what was written and what was read from the output. -/
def fifoRun {α : Type} (c : FifoCfg) (zero : α) : Fifo α → List (Access α) → Except FifoErr (Fifo α × List α × List α)
  | f, [] => .ok (f, [], [])
  | f, a :: l =>
    match f.tick c zero a.wen a.ren a.wdata with
    | .error e => .error e
    | .ok f' =>
      match fifoRun c zero f' l with
      | .error e => .error e
      | .ok (g, ws, rs) =>
        .ok (g, (if a.wen then [a.wdata] else []) ++ ws, (if a.ren then [f.rdata] else []) ++ rs)

/-- What is at the inputs of a client at an edge. -/
structure Drive where
  valid : Bool
  value : Nat
  last : Bool
  tready : Bool

/-- The state of a client after some edges, with what it took from the driver and what it handed to the NoC. -/
def clientRun (depth : Nat) : Client → List Drive → Except FifoErr (Client × List (Nat × Bool) × List (Nat × Bool))
  | k, [] => .ok (k, [], [])
  | k, a :: l =>
    match k.tick depth a.valid a.value a.last a.tready with
    | .error e => .error e
    | .ok k' =>
      match clientRun depth k' l with
      | .error e => .error e
      | .ok (g, ws, rs) =>
        .ok (g, (if k.ready && a.valid then [(a.value, a.last)] else []) ++ ws, (if a.tready then k.offer.toList else []) ++ rs)

end RadSim.AddDesign
