import Verif.Spec.Packets
import Verif.Model.Router

/-! # What a router is to do

The vocabulary talks about the flits and credits on the channels of a router only. A history has one entry per tick. -/

namespace RadSim.Router

variable {δ σ τ ρ ρ' : Type}

/-- The flits that have arrived at an input on a virtual channel. -/
def received (h : List (In δ ρ ρ')) (i v : Nat) : List (Flit δ) :=
  h.filterMap fun x => (x.flit i).filter fun f => f.vc = v

/-- The flits that have left through an output. -/
def sent (h : List (Out δ)) (o : Nat) : List (Flit δ) := h.filterMap fun x => x.flit o

/-- The credits that have arrived for a virtual channel of an output. -/
def granted (h : List (In δ ρ ρ')) (o u : Nat) : Nat := (h.filterMap fun x => x.credit o).flatten.count u

/-- The credits that were returned for a virtual channel of an input. -/
def returned (h : List (Out δ)) (i v : Nat) : Nat := (h.filterMap fun x => x.credit i).flatten.count v

/-- A flit is passed from an input virtual channel to an output virtual channel. -/
structure Pass (δ : Type) where
  i : Nat
  v : Nat
  o : Nat
  u : Nat
  f : Flit δ

/-- The flits passed from an input virtual channel. -/
def passedFrom (l : List (Pass δ)) (i v : Nat) : List (Pass δ) := l.filter fun e => e.i = i ∧ e.v = v

/-- The flits passed to an output virtual channel. -/
def passedTo (l : List (Pass δ)) (o u : Nat) : List (Pass δ) := l.filter fun e => e.o = o ∧ e.u = u

/-- A flit as it leaves: only its virtual channel and its hop count have changed. -/
def Pass.flit (e : Pass δ) : Flit δ := { e.f with vc := e.u, hops := e.f.hops + 1 }

/-- The routing function has offered an output virtual channel for a flit that came in at input `i`. -/
def Offered (h : List (In δ ρ ρ')) (i : Nat) (f : Flit δ) (o u : Nat) : Prop :=
  ∃ e ∈ h, ∃ p ∈ e.rf i f, p.port = o ∧ p.vcStart ≤ u ∧ u ≤ p.vcEnd

/-- A sequence of passed flits explains what was seen at the channels:
the flits of every input virtual channel are passed in the order of arrival, each once;
what leaves an output are the flits passed to it, in that order, each once;
one credit is returned for every flit passed;
all flits of a packet go to the same output virtual channel, one that the routing function has offered for the head;
and the packets on an output virtual channel are not mixed with each other. -/
structure Explains (ins : List (In δ ρ ρ')) (outs : List (Out δ)) (l : List (Pass δ)) : Prop where
  from_input : ∀ i v, (passedFrom l i v).map Pass.f <+: received ins i v
  to_output : ∀ o, sent outs o <+: (l.filter fun e => e.o = o).map Pass.flit
  routed : ∀ e ∈ l, e.f.head = true → Offered ins e.i e.f e.o e.u
  together : ∀ i v, Packets (fun e => e.f.head) (fun e => e.f.tail) (fun e => (e.o, e.u)) (passedFrom l i v)
  credited : ∀ i v, returned outs i v = (passedFrom l i v).length
  unmixed : ∀ o u, Packets (fun e => e.f.head) (fun e => e.f.tail) (fun e => (e.i, e.v)) (passedTo l o u)

/-- What the neighbours of a router guarantee in the next tick, after a history: flits come in on existing ports and
virtual channels, as packets with one packet ID each, and only when there is a free place in the buffer by the credits
returned so far; credits come in for flits that were sent before; the routing function offers existing outputs, none of
them twice; the time is not negative. -/
structure Admits (c : Cfg) (ins : List (In δ ρ ρ')) (outs : List (Out δ)) (e : In δ ρ ρ') : Prop where
  port : ∀ i f, e.flit i = some f → i < c.inputs ∧ f.vc < c.vcs
  packets : ∀ i v, Packets Flit.head Flit.tail Flit.pid (received (ins ++ [e]) i v)
  space : ∀ i v, ((received (ins ++ [e]) i v).length : Int) ≤ c.buf.perVc + returned outs i v
  credit : ∀ o l, e.credit o = some l → o < c.outputs ∧ l.Nodup ∧ ∀ u ∈ l, u < c.vcs
  credits : ∀ o u, granted (ins ++ [e]) o u ≤ ((sent outs o).filter fun f => f.vc = u).length
  offers : ∀ i f, ∀ p ∈ e.rf i f, p.port < c.outputs ∧ p.vcStart ≤ p.vcEnd ∧ p.vcEnd < c.vcs
  once : ∀ i f, ((e.rf i f).flatMap fun p => (List.range' p.vcStart (p.vcEnd + 1 - p.vcStart)).map (Prod.mk p.port)).Nodup
  time : 0 ≤ e.now

/-- The runs of a router from its construction on, with neighbours that keep their side of the agreement. -/
inductive Run (VA : Alloc.Cls σ ρ) (SA : Alloc.Cls τ ρ') (c : Cfg) (va : σ) (sa : τ) :
    List (In δ ρ ρ') → List (Out δ) → R δ σ τ → Prop
  | start : Run VA SA c va sa [] [] (R.init va sa)
  | step {ins outs s e s' out} (h : Run VA SA c va sa ins outs s) (ha : Admits c ins outs e)
      (ht : tick VA SA c e s = .ok (s', out)) : Run VA SA c va sa (ins ++ [e]) (outs ++ [out]) s'

/-- The first `n` entries of a history that is given by tick numbers. -/
def upto {α : Type} (f : Nat → α) (n : Nat) : List α := (List.range n).map f

/-- A run of `N` ticks: `e n` comes in, `out n` goes out in tick `n`, and `s n` is the state before it. -/
structure Ticks (VA : Alloc.Cls σ ρ) (SA : Alloc.Cls τ ρ') (c : Cfg) (va : σ) (sa : τ) (N : Nat)
    (e : Nat → In δ ρ ρ') (out : Nat → Out δ) (s : Nat → R δ σ τ) : Prop where
  start : s 0 = .init va sa
  admits : ∀ n < N, Admits c (upto e n) (upto out n) (e n)
  step : ∀ n < N, tick VA SA c (e n) (s n) = .ok (s (n + 1), out n)

/-- The flits that have left through an output on a virtual channel. -/
def sentOn (h : List (Out δ)) (o u : Nat) : Nat := ((sent h o).filter fun f => f.vc = u).length

/-- The neighbours let a router drain from tick `n₀` on: no flit comes in any more, the packets that have come in are
complete, a flit that has left is credited within `D` ticks, `K` ticks are at least the credit delay, there are no credits
for no virtual channel, and the routing function always offers something. -/
structure Drains (c : Cfg) (N n₀ D K : Nat) (e : Nat → In δ ρ ρ') (out : Nat → Out δ) : Prop where
  quiet : ∀ n, n₀ ≤ n → n < N → ∀ i, (e n).flit i = none
  whole : ∀ i v, ∀ f ∈ (received (upto e n₀) i v).getLast?, f.tail = true
  prompt : ∀ n, n₀ ≤ n → n + D ≤ N → ∀ o u, sentOn (upto out n) o u ≤ granted (upto e (n + D)) o u
  time : ∀ m n, m + K ≤ n → n < N → (e m).now + c.creditDelay ≤ (e n).now
  credit : ∀ n < N, ∀ o, (e n).credit o ≠ some []
  routes : ∀ n < N, ∀ i f, (e n).rf i f ≠ []

/-- The number of flits that have come in and not left yet. -/
def inside (c : Cfg) (ins : List (In δ ρ ρ')) (outs : List (Out δ)) : Nat :=
  (ins.map fun x => ((List.range c.inputs).filterMap x.flit).length).sum -
    (outs.map fun x => ((List.range c.outputs).filterMap x.flit).length).sum

/-- Everything that has come in has left, each packet through one output virtual channel. -/
structure Delivered (ins : List (In δ ρ ρ')) (outs : List (Out δ)) (l : List (Pass δ)) : Prop where
  explains : Explains ins outs l
  from_input : ∀ i v, (passedFrom l i v).map Pass.f = received ins i v
  to_output : ∀ o, sent outs o = (l.filter fun e => e.o = o).map Pass.flit

end RadSim.Router
