import Verif.Model.MmNoc
import Verif.Lemmas.RouterBase
import Verif.Props.AxiMmSink

/-! # What a NoC with AXI memory-mapped adapters is to do -/

namespace RadSim.MmNoc

open Routing (dimOrderMesh)
open Channel (intMax)
open MmSink (Beat)
open AxisNoc (clsOf)

/-- The configuration fits together: a mesh with dimension-order routing, where `rng` gives the virtual channel of a type,
one for each of the five; the adapters know these channels, have a data width and a clock ratio they can handle, where the
adapter clock has at most `r u` edges in a period of the node clock, and ejection FIFOs with a place for every place the
router counts on. -/
structure Setup (c : Cfg) (rng : Nat → Nat × Nat) (r : Nat → Nat) : Prop where
  k : 0 < c.m.k
  n : 0 < c.m.n
  ok : c.b.Ok
  rf : c.rf = dimOrderMesh c.m rng
  vcs : ∀ t, (rng t).2 < c.b.vcs
  one : ∀ t, (rng (clsOf t)).1 = (rng (clsOf t)).2 ∧ (rng (clsOf t)).1 < 8
  apart : ∀ t t', (rng (clsOf t)).1 = (rng (clsOf t')).1 → t = t'
  types : ∀ u < c.m.nodes, (c.nc u).kind ≠ .none → ∀ t,
    (c.nc u).vcs.first t = (rng (clsOf t)).1 ∧ (c.nc u).vcs.last t = (rng (clsOf t)).2
  clock : ∀ u < c.m.nodes, (c.nc u).kind ≠ .none → MmCfgOk (c.nc u).mm (r u)
  deep : ∀ u < c.m.nodes, (c.nc u).kind ≠ .none → c.b.buf.perVc ≤ (c.nc u).ejDepth

/-- The edges of the node clock and the adapter clock at the source side in a period. -/
def clocksOf (k : Kind) (i : NodeIn) : List (Bool × Bool) :=
  match k with
  | .none => []
  | .slave => (i.reqPre ++ i.reqPost).map fun x => (x.1, x.2.1)
  | .master => (i.rspPre ++ i.rspPost).map fun x => (x.1, x.2.1)

/-- The edges in the first `n` periods. -/
def clocksTo (k : Kind) (i : Nat → NodeIn) (n : Nat) : List (Bool × Bool) := (List.range n).flatMap fun t => clocksOf k (i t)

/-- The node that the top seven bits name. -/
def nodeOf (a : BitVec 64) : Nat := a.toNat / 2 ^ 57

/-- A request is addressed to a node that takes requests, and write data fits the port. -/
def ReqFits (c : Cfg) (u : Nat) : ReqBeat → Prop
  | .ar a => nodeOf a.addr < c.m.nodes ∧ (c.nc (nodeOf a.addr)).kind = .master
  | .aw a => nodeOf a.addr < c.m.nodes ∧ (c.nc (nodeOf a.addr)).kind = .master
  | .w x => x.data.toNat < 2 ^ (c.nc u).dataw

/-- The user bits of a response name a node that takes responses, and read data fits the port. -/
def RspFits (c : Cfg) (u : Nat) : RspBeat → Prop
  | .r x => nodeOf x.user < c.m.nodes ∧ (c.nc (nodeOf x.user)).kind = .slave ∧ x.data.toNat < 2 ^ (c.nc u).dataw
  | .b x => nodeOf x.user < c.m.nodes ∧ (c.nc (nodeOf x.user)).kind = .slave

/-- What the modules offer in a period. -/
structure Offers (c : Cfg) (i : Nat → NodeIn) : Prop where
  req : ∀ u < c.m.nodes, (c.nc u).kind = .slave → ∀ x ∈ (i u).reqPre ++ (i u).reqPost,
    (∀ a, x.2.2.ar = some a → ReqFits c u (.ar a)) ∧ (∀ a, x.2.2.aw = some a → ReqFits c u (.aw a)) ∧
      ∀ a, x.2.2.w = some a → ReqFits c u (.w a)
  rsp : ∀ u < c.m.nodes, (c.nc u).kind = .master → ∀ x ∈ (i u).rspPre ++ (i u).rspPost,
    (∀ a, x.2.2.r = some a → RspFits c u (.r a)) ∧ ∀ a, x.2.2.b = some a → RspFits c u (.b a)

/-- The first `N` periods: the time is in the range of the type the channels use, the modules make proper offers, and at
every source side the node clock and the adapter clock keep to the ratio. -/
structure Runs {ρ ρ' : Type} (c : Cfg) (r : Nat → Nat) (N : Nat) (i : Nat → In ρ ρ') : Prop where
  time : ∀ k < N, 0 ≤ (i k).now ∧ (i k).now + 1 ≤ intMax
  offers : ∀ k < N, Offers c (i k).ad
  clocks : ∀ u < c.m.nodes, GapOk (r u) none (clocksTo (c.nc u).kind (fun k => (i k).ad u) N)

/-- The requests a module has handed over, with the node each is to go to: write data goes where the last write address
went. -/
def routed : Nat → List ReqBeat → List (Nat × Beat)
  | _, [] => []
  | d, .ar a :: l => (nodeOf a.addr, .req (.ar a)) :: routed d l
  | _, .aw a :: l => (nodeOf a.addr, .req (.aw a)) :: routed (nodeOf a.addr) l
  | d, .w x :: l => (d, .req (.w x)) :: routed d l

/-- The responses a module has handed over, with the node each is to go to. -/
def answered : List RspBeat → List (Nat × Beat)
  | [] => []
  | .r x :: l => (nodeOf x.user, .rsp (.r x)) :: answered l
  | .b x :: l => (nodeOf x.user, .rsp (.b x)) :: answered l

/-- All beats that the module at a node has handed over, with the nodes they are to go to. -/
def given (k : Kind) (s : Node) : List (Nat × Beat) :=
  match k with
  | .none => []
  | .slave => routed 0 s.reqs
  | .master => answered s.rsps

/-- The beats of channel `k` that node `w` has been handed for node `u`. -/
def givenFor {σ τ : Type} (c : Cfg) (x : Sys σ τ) (w u : Nat) (k : MmType) : List Beat :=
  ((given (c.nc w).kind (x.ad w)).filter fun y => y.1 = u ∧ y.2.type = k).map (·.2)

/-- What of a beat is to arrive: all of it, but burst, size and length of an address, which do not (C19). -/
def core : Beat → Beat
  | .req (.ar a) => .req (.ar { a with burst := 0, size := 0, len := 0 })
  | .req (.aw a) => .req (.aw { a with burst := 0, size := 0, len := 0 })
  | b => b

/-- The beats of channel `k` that have been shown to the module at node `u`. -/
def shownAt {σ τ : Type} (x : Sys σ τ) (u : Nat) (k : MmType) : List Beat :=
  ((x.ad u).hist.shown.map (·.1)).filter fun b => b.type = k

/-- The channels on which the module at a node is shown beats. -/
def shows : Kind → List MmType
  | .none => []
  | .slave => [.r, .b]
  | .master => [.ar, .aw, .w]

/-- An edge of the adapter clock at the sink side. -/
def isAdapter : SinkEdge → Bool
  | .adapter _ => true
  | .node _ => false

/-- From period `n₀` on, in any `J` periods, the source side of every adapter has an edge of the adapter clock, the sink side
too, and for every channel the sink side has an edge of the node clock at which the module is ready on it. A sink side never
has two edges of the adapter clock in a period. `K` periods are at least the credit delay. -/
structure Fair {ρ ρ' : Type} (c : Cfg) (N n₀ J K : Nat) (i : Nat → In ρ ρ') : Prop where
  one : ∀ k < N, ∀ u < c.m.nodes, (((i k).ad u).outPre ++ ((i k).ad u).outPost).countP isAdapter ≤ 1
  source : ∀ k, n₀ ≤ k → k + J ≤ N → ∀ u < c.m.nodes, (c.nc u).kind ≠ .none → ∃ k', k ≤ k' ∧ k' < k + J ∧
    ∃ x ∈ clocksOf (c.nc u).kind ((i k').ad u), x.2 = true
  sink : ∀ k, n₀ ≤ k → k + J ≤ N → ∀ u < c.m.nodes, (c.nc u).kind ≠ .none → ∃ k', k ≤ k' ∧ k' < k + J ∧
    ∃ b, .adapter b ∈ ((i k').ad u).outPre ++ ((i k').ad u).outPost
  ready : ∀ k, n₀ ≤ k → k + J ≤ N → ∀ u < c.m.nodes, ∀ t ∈ shows (c.nc u).kind, ∃ k', k ≤ k' ∧ k' < k + J ∧
    ∃ r, .node r ∈ ((i k').ad u).outPre ++ ((i k').ad u).outPost ∧ r t = true
  time : ∀ m n, m + K ≤ n → n < N → (i m).now + c.b.creditDelay ≤ (i n).now ∧ (i m).now ≤ (i n).now

/-- The module at a node offers nothing in a period. -/
def Offerless (i : NodeIn) : Prop :=
  (∀ x ∈ i.reqPre ++ i.reqPost, x.2.2 = ⟨none, none, none⟩) ∧ ∀ x ∈ i.rspPre ++ i.rspPost, x.2.2 = ⟨none, none⟩

/-- The flits of the beats handed over so far. -/
def flitsOf {σ τ : Type} (c : Cfg) (x : Sys σ τ) : Nat :=
  ∑ u ∈ Finset.range c.m.nodes, ((given (c.nc u).kind (x.ad u)).map fun y => mmFlits (c.nc u).dataw y.2.type).sum

end RadSim.MmNoc
