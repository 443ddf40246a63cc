import Verif.Model.AximmDesign
import Verif.Spec.MmNoc

/-! # What the design `aximm_hello_world` is to do -/

namespace RadSim.Hello

open Channel (intMax)
open MmNoc (nodeOf)

variable {σ τ ρ ρ' : Type}

/-- Between two edges of the node clock the adapter clock has an edge, but fewer than `m`, and up to and including the second
one at most `m`: as with clocks in phase, the adapter clock being `m` times as fast. -/
def Spaced (m : Nat) : Option Nat → List (Bool × Bool) → Prop
  | _, [] => True
  | g, (node, adapter) :: es =>
    (node = true → ∀ k, g = some k → 1 ≤ k ∧ k < m) ∧ (adapter = true → ∀ k, g = some k → k + 1 ≤ m) ∧
      Spaced m (gapNext g node adapter) es

/-- The design fits the NoC: the requester and the responder are the only modules on it, their ports have the width of the
data, the base addresses name their nodes, the offsets in the trace do not leave the address range of the responder, and the
FIFOs have room for more than the whole trace. -/
structure Works (d : Params) (rng : Nat → Nat × Nat) (r : Nat → Nat) : Prop where
  setup : MmNoc.Setup d.noc rng r
  q : d.qNode < d.noc.m.nodes ∧ (d.noc.nc d.qNode).kind = .slave ∧ (d.noc.nc d.qNode).dataw = 512
  p : d.pNode < d.noc.m.nodes ∧ (d.noc.nc d.pNode).kind = .master ∧ (d.noc.nc d.pNode).dataw = 512
  others : ∀ u < d.noc.m.nodes, u ≠ d.qNode → u ≠ d.pNode → (d.noc.nc u).kind = .none
  base : nodeOf d.qBase = d.qNode
  addrs : ∀ x ∈ d.trace, nodeOf (d.pBase + x.addr) = d.pNode
  small : d.trace.length < d.depth

/-- The edges of node clock and adapter clock at a source side in the first `n` periods. -/
def edgesTo (t : Nat → Tick ρ ρ') (u n : Nat) : List (Bool × Bool) := (List.range n).flatMap fun k => (t k).pre u ++ (t k).post u

/-- The first `N` periods: the time is in range, the modules are on one clock, which is not faster than that of the NoC, and node
clock and adapter clock keep to the ratio. -/
structure Paced (d : Params) (r : Nat → Nat) (N : Nat) (t : Nat → Tick ρ ρ') : Prop where
  time : ∀ k < N, 0 ≤ (t k).now ∧ (t k).now + 1 ≤ intMax
  source : ∀ k < N, ∀ u, u = d.qNode ∨ u = d.pNode → (((t k).pre u ++ (t k).post u).countP fun x => x.1) = if (t k).edge then 1 else 0
  sink : ∀ k < N, ∀ u, u = d.qNode ∨ u = d.pNode →
    ((t k).outPre u ++ (t k).outPost u).count none = if (t k).edge then 1 else 0
  clocks : ∀ u, u = d.qNode ∨ u = d.pNode → Spaced (r u) none (edgesTo t u N)

/-- In the first `N` periods no clock stops: from `n₀` on every `J` periods have an edge of the modules and an edge of each adapter
clock, at the sinks at most one a period, and the time moves on by the credit delay within `K` periods. -/
structure Lively (d : Params) (N n₀ J K : Nat) (t : Nat → Tick ρ ρ') : Prop where
  one : ∀ k < N, ∀ u, u = d.qNode ∨ u = d.pNode → ((t k).outPre u ++ (t k).outPost u).countP Option.isSome ≤ 1
  edge : ∀ k, n₀ ≤ k → k + J ≤ N → ∃ k', k ≤ k' ∧ k' < k + J ∧ (t k').edge = true
  source : ∀ k, n₀ ≤ k → k + J ≤ N → ∀ u, u = d.qNode ∨ u = d.pNode → ∃ k', k ≤ k' ∧ k' < k + J ∧
    ∃ x ∈ (t k').pre u ++ (t k').post u, x.2 = true
  sink : ∀ k, n₀ ≤ k → k + J ≤ N → ∀ u, u = d.qNode ∨ u = d.pNode → ∃ k', k ≤ k' ∧ k' < k + J ∧
    ∃ b, some b ∈ (t k').outPre u ++ (t k').outPost u
  time : ∀ m n, m + K ≤ n → n < N → (t m).now + d.noc.b.creditDelay ≤ (t n).now ∧ (t m).now ≤ (t n).now

/-- A request without its number. -/
inductive Plain
  | ar (addr user : BitVec 64)
  | aw (addr user : BitVec 64)
  | w (data : BitVec 512) (last : Bool) (user : BitVec 64)
  deriving DecidableEq

/-- A request without its number. -/
def plain : ReqBeat → Plain
  | .ar a => .ar a.addr a.user
  | .aw a => .aw a.addr a.user
  | .w x => .w x.data x.last x.user

/-- The requests for a line of the trace: a read address, or a write address and the data. -/
def requests (d : Params) (x : Cmd) : List Plain :=
  if x.write then [.aw (d.pBase + x.addr) d.qBase, .w x.data true d.qBase] else [.ar (d.pBase + x.addr) d.qBase]

/-- What a memory with contents `m` answers to reads and writes, one after the other: the data to a read. -/
def answers (m : BitVec 64 → BitVec 512) : List Cmd → List (Option (BitVec 512))
  | [] => []
  | x :: l => if x.write then none :: answers (fun a => if a = x.addr then x.data else m a) l else some (m x.addr) :: answers m l

end RadSim.Hello
