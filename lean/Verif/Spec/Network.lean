import Mathlib.Algebra.BigOperators.Group.Finset.Basic
import Verif.Spec.Router
import Verif.Spec.Cut
import Verif.Props.Alloc
import Verif.Model.Network

/-! # What a network is to do

The vocabulary talks about the flits and credits at the nodes, about the time and about the routing function. Everything
is given by tick numbers: `e n` comes in in tick `n`, and `s n` is the state before it. -/

namespace RadSim.Net

open Router (Flit Cfg upto)
open Channel (intMax)
open Alloc (Holds Valid asked)

variable {δ σ τ ρ ρ' : Type}

/-- The links of different ports are different. -/
structure Topo.Wired (t : Topo) : Prop where
  outLt : ∀ r < t.size, ∀ o < t.outputs r, t.outLink r o < t.links
  inLt : ∀ r < t.size, ∀ i < t.inputs r, t.inLink r i < t.links
  outInj : ∀ r < t.size, ∀ o < t.outputs r, ∀ r' < t.size, ∀ o' < t.outputs r', t.outLink r o = t.outLink r' o' →
    r = r' ∧ o = o'
  inInj : ∀ r < t.size, ∀ i < t.inputs r, ∀ r' < t.size, ∀ i' < t.inputs r', t.inLink r i = t.inLink r' i' →
    r = r' ∧ i = i'

/-- A node sends flits on this link. -/
def Topo.Source (t : Topo) (l : Nat) : Prop := l < t.links ∧ ∀ r < t.size, ∀ o < t.outputs r, t.outLink r o ≠ l

/-- A node receives the flits of this link. -/
def Topo.Sink (t : Topo) (l : Nat) : Prop := l < t.links ∧ ∀ r < t.size, ∀ i < t.inputs r, t.inLink r i ≠ l

instance (t : Topo) (l : Nat) : Decidable (t.Source l) := inferInstanceAs (Decidable (_ ∧ _))

instance (t : Topo) (l : Nat) : Decidable (t.Sink l) := inferInstanceAs (Decidable (_ ∧ _))

/-- The flits sent by nodes on a link in the first `n` ticks. -/
def injected (e : Nat → Env δ ρ ρ') (l n : Nat) : List (Flit δ) := (upto e n).filterMap fun x => x.inject l

/-- The credits sent by nodes on a link in the first `n` ticks. -/
def credited (e : Nat → Env δ ρ ρ') (l n : Nat) : List (List Nat) := (upto e n).filterMap fun x => x.credit l

/-- The flits that were at the end of a link in the first `n` states. -/
def flitsAt (s : Nat → S δ σ τ) (l n : Nat) : List (Flit δ) := (upto s n).filterMap fun x => x.fOut l

/-- The credits that were at the end of a link in the first `n` states. -/
def creditsAt (s : Nat → S δ σ τ) (l n : Nat) : List (List Nat) := (upto s n).filterMap fun x => x.cOut l

/-- The flits on a virtual channel. -/
def onVc (l : List (Flit δ)) (v : Nat) : List (Flit δ) := l.filter fun f => f.vc = v

/-- Times fit their type, and the routing functions offer existing outputs, none of them twice. -/
structure Legal (t : Topo) (b : Cfg) (e : Env δ ρ ρ') : Prop where
  time : 0 ≤ e.now
  fits : ∀ l < t.links, e.now + t.flitDelay l ≤ intMax ∧ e.now + t.creditDelay l ≤ intMax
  offers : ∀ r < t.size, ∀ i f, ∀ p ∈ e.rf r i f, p.port < t.outputs r ∧ p.vcStart ≤ p.vcEnd ∧ p.vcEnd < b.vcs
  once : ∀ r < t.size, ∀ i f,
    ((e.rf r i f).flatMap fun p => (List.range' p.vcStart (p.vcEnd + 1 - p.vcStart)).map (Prod.mk p.port)).Nodup

/-- What the nodes have kept to in the first `n` ticks. Flits were sent on existing virtual channels, as packets with one
packet ID each on every virtual channel, and never more than there are places in the buffer of the router by the credits
seen; credits were sent for flits seen. -/
structure Nodes (t : Topo) (b : Cfg) (e : Nat → Env δ ρ ρ') (s : Nat → S δ σ τ) (n : Nat) : Prop where
  vcs : ∀ l, t.Source l → ∀ f ∈ injected e l n, f.vc < b.vcs
  packets : ∀ l, t.Source l → ∀ v, Packets Flit.head Flit.tail Flit.pid (onVc (injected e l n) v)
  space : ∀ l, t.Source l → ∀ v,
    ((onVc (injected e l n) v).length : Int) ≤ b.buf.perVc + (creditsAt s l (n + 1)).flatten.count v
  credit : ∀ l, t.Sink l → ∀ c ∈ credited e l n, c.Nodup ∧ ∀ v ∈ c, v < b.vcs
  credits : ∀ l, t.Sink l → ∀ v, (credited e l n).flatten.count v ≤ (onVc (flitsAt s l (n + 1)) v).length

/-- A run of `N` ticks from the construction of the network on, with nodes that keep their side of the agreement. -/
structure Ticks (VA : Alloc.Cls σ ρ) (SA : Alloc.Cls τ ρ') (t : Topo) (b : Cfg) (va : Nat → σ) (sa : Nat → τ) (N : Nat)
    (e : Nat → Env δ ρ ρ') (s : Nat → S δ σ τ) : Prop where
  start : s 0 = .init va sa
  legal : ∀ n < N, Legal t b (e n)
  nodes : ∀ n ≤ N, Nodes t b e s n
  step : ∀ n < N, tick VA SA t b (e n) (s n) = .ok (s (n + 1))

/-- The allocators of all routers make valid assignments. -/
structure Allocs (VA : Alloc.Cls σ ρ) (SA : Alloc.Cls τ ρ') (t : Topo) (b : Cfg) (va : Nat → σ) (sa : Nat → τ) : Prop where
  va : ∀ r < t.size, Holds VA (t.inputs r * b.vcs) (t.outputs r * b.vcs) (va r) fun l m => Valid (asked l) m
  sa : ∀ r < t.size, Holds SA (t.inputs r) (t.outputs r) (sa r) fun l m => Valid (asked l) m

/-- What of a flit stays the same on its way. -/
def body (f : Flit δ) : Bool × Bool × Int × δ := (f.head, f.tail, f.pid, f.data)

/-- The complete packets of a virtual channel of a link. -/
def packetsOf (l : List (Flit δ)) (v : Nat) : List (List (Bool × Bool × Int × δ)) :=
  (whole Flit.tail (onVc l v)).map (List.map body)

/-- The number of packets with a property that nodes have sent in the first `n` ticks. -/
def entering (t : Topo) (b : Cfg) (e : Nat → Env δ ρ ρ') (n : Nat) (P : List (Bool × Bool × Int × δ) → Bool) : Nat :=
  ∑ l ∈ (Finset.range t.links).filter t.Source, ∑ v ∈ Finset.range b.vcs, (packetsOf (injected e l n) v).countP P

/-- The number of packets with a property that nodes have received in the first `n` states. -/
def leaving (t : Topo) (b : Cfg) (s : Nat → S δ σ τ) (n : Nat) (P : List (Bool × Bool × Int × δ) → Bool) : Nat :=
  ∑ l ∈ (Finset.range t.links).filter t.Sink, ∑ v ∈ Finset.range b.vcs, (packetsOf (flitsAt s l n) v).countP P

/-- A routing discipline: heads enter on virtual channels where they may be, and at every router where a head may be the
routing function offers only virtual channels where it may be after that. On its way through a router a head changes only
its virtual channel and its hop count. -/
structure Guided (t : Topo) (N : Nat) (e : Nat → Env δ ρ ρ') (may : Nat → Flit δ → Prop) : Prop where
  enter : ∀ l, t.Source l → ∀ f ∈ injected e l N, f.head = true → may l f
  hop : ∀ n < N, ∀ r < t.size, ∀ i < t.inputs r, ∀ f : Flit δ, f.head = true → may (t.inLink r i) f →
    ∀ p ∈ (e n).rf r i f, ∀ u, p.vcStart ≤ u → u ≤ p.vcEnd →
      may (t.outLink r p.port) { f with vc := u, hops := f.hops + 1 }

/-- The allocators of all routers grant something whenever something is asked for. -/
structure Grants (VA : Alloc.Cls σ ρ) (SA : Alloc.Cls τ ρ') (t : Topo) (b : Cfg) (va : Nat → σ) (sa : Nat → τ) : Prop where
  va : ∀ r < t.size, Holds VA (t.inputs r * b.vcs) (t.outputs r * b.vcs) (va r) fun l m => l ≠ [] → m.Some
  sa : ∀ r < t.size, Holds SA (t.inputs r) (t.outputs r) (sa r) fun l m => l ≠ [] → m.Some

/-- The nodes let the network drain from tick `n₀` on: they send no flits any more, the packets they have sent are
complete, a flit that a node has received is credited within `D` ticks, and there are no credits for no virtual channel.
The time advances in `K` ticks by the delays of all parts. -/
structure Drains (t : Topo) (b : Cfg) (N n₀ D K : Nat) (e : Nat → Env δ ρ ρ') (s : Nat → S δ σ τ) : Prop where
  quiet : ∀ n, n₀ ≤ n → n < N → ∀ l, t.Source l → (e n).inject l = none
  whole : ∀ l, t.Source l → ∀ v, ∀ f ∈ (onVc (injected e l n₀) v).getLast?, f.tail = true
  prompt : ∀ n, n₀ ≤ n → n + D ≤ N → ∀ l, t.Sink l → ∀ v,
    (onVc (flitsAt s l (n + 1)) v).length ≤ (credited e l (n + D)).flatten.count v
  credit : ∀ n < N, ∀ l, t.Sink l → (e n).credit l ≠ some []
  time : ∀ m n, m + K ≤ n → n < N → (e m).now + b.creditDelay ≤ (e n).now ∧
    ∀ l < t.links, (e m).now + t.flitDelay l - 1 ≤ (e n).now ∧ (e m).now + t.creditDelay l - 1 ≤ (e n).now

/-- The virtual channels of the links have ranks of at most `R`, and for a head at a place where it may be the routing
function offers something, and only virtual channels of a lower rank. -/
structure Ranked (t : Topo) (b : Cfg) (N : Nat) (e : Nat → Env δ ρ ρ') (may : Nat → Flit δ → Prop) (rank : Nat → Nat → Nat)
    (R : Nat) : Prop where
  le : ∀ l < t.links, ∀ v < b.vcs, rank l v ≤ R
  down : ∀ n < N, ∀ r < t.size, ∀ i < t.inputs r, ∀ f : Flit δ, f.head = true → may (t.inLink r i) f → f.vc < b.vcs →
    (e n).rf r i f ≠ [] ∧
      ∀ p ∈ (e n).rf r i f, ∀ u, p.vcStart ≤ u → u ≤ p.vcEnd → rank (t.outLink r p.port) u < rank (t.inLink r i) f.vc

/-- The number of flits that nodes have sent in the first `n` ticks. -/
def flitsIn (t : Topo) (e : Nat → Env δ ρ ρ') (n : Nat) : Nat :=
  ∑ l ∈ (Finset.range t.links).filter t.Source, (injected e l n).length

/-- The number of input virtual channels of all routers. -/
def slots (t : Topo) (b : Cfg) : Nat := ∑ r ∈ Finset.range t.size, t.inputs r * b.vcs

end RadSim.Net
