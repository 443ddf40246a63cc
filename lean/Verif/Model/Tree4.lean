import Verif.Model.AdaptTorus

/-!
# The tree of four-way routers

Models `Tree4` (`rad-sim/sim/noc/booksim/networks/tree4.cpp`) and its routing functions `tree4_nca` and `tree4_anca`
(`rad-sim/sim/noc/booksim/routefunc.cpp:130-264`). The constructor asserts radix 4 and three levels
(`rad-sim/sim/noc/booksim/networks/tree4.cpp:67-70`): four routers on level 0, eight on level 1, sixteen on level 2, and 64
terminals. The router at position `pos` of level `h` has the number `16 * h + pos`
(`rad-sim/sim/noc/booksim/networks/tree4.cpp:108`).

Simplifications: those of `RadSim.Routing` and `Verif/Model/AdaptTorus.lean`. -/

namespace RadSim.Routing

open Router (Hop)

/-- The connections in the order in which they are made, with the router that drives the channel and the one that reads it;
the channel is the place in the list. Between levels 1 and 2: `rad-sim/sim/noc/booksim/networks/tree4.cpp:146-178`; between
levels 0 and 1: `180-208`. -/
def t4Conns : List (Nat × Nat) :=
  ((List.range 8).flatMap fun pos => (List.range 4).flatMap fun port =>
    [(16 + pos, 32 + (4 * (pos / 2) + port)), (32 + (4 * (pos / 2) + port), 16 + pos)]) ++
  ((List.range 4).flatMap fun pos => (List.range 8).flatMap fun port => [(pos, 16 + port), (16 + port, pos)])

/-- The router that drives a channel, `rad-sim/sim/noc/booksim/networks/tree4.cpp:146-208`. -/
def t4From (c : Nat) : Nat := (t4Conns.getD c (0, 0)).1

/-- The router that reads a channel, `rad-sim/sim/noc/booksim/networks/tree4.cpp:146-208`. -/
def t4To (c : Nat) : Nat := (t4Conns.getD c (0, 0)).2

/-- The output port of a channel: `AddOutputChannel` numbers the outputs of a router in the order of the calls. The routers
of level 2 have four ejection channels before (`rad-sim/sim/noc/booksim/networks/tree4.cpp:125-145`). -/
def t4OutPort (c : Nat) : Nat :=
  (if 32 ≤ t4From c then 4 else 0) + ((t4Conns.take c).filter fun x => x.1 = t4From c).length

/-- The input port of a channel: `AddInputChannel` numbers the inputs of a router in the order of the calls. The routers
of level 2 have four injection channels before (`rad-sim/sim/noc/booksim/networks/tree4.cpp:125-145`). -/
def t4InPort (c : Nat) : Nat :=
  (if 32 ≤ t4To c then 4 else 0) + ((t4Conns.take c).filter fun x => x.2 = t4To c).length

/-- The first output port and the number of ports, `rad-sim/sim/noc/booksim/routefunc.cpp:162-188` for `tree4_anca` and
`233-254` for `tree4_nca`. `RandomInt(m)` is the draw modulo `m + 1`. -/
def t4Ports (anca : Bool) (draw node dest : Nat) : Nat × Nat :=
  let rH := node / 16
  let rP := node % 16
  if rH = 0 then (2 * (dest / 16) + draw % 2, 1)
  else if rH = 1 then
    if dest / 4 / 4 = rP / 2 then (dest / 4 % 4, 1) else if anca then (4, 4) else (4 + draw % 4, 1)
  else if dest / 4 = rP then (dest % 4, 1) else if anca then (4, 2) else (4 + draw % 2, 1)

/-- `tree4_anca`, `rad-sim/sim/noc/booksim/routefunc.cpp:130-198`, and `tree4_nca`,
`rad-sim/sim/noc/booksim/routefunc.cpp:203-264`. -/
def tree4 (anca : Bool) (rng : Nat → Nat × Nat) (draw node : Nat) (f : Pkt) : Option (List Hop) :=
  if vcOk rng f then
    let x := t4Ports anca draw node f.dest
    some ((List.range x.2).foldl (fun out i => addRange out ⟨x.1 + i, (rng f.cls).1, (rng f.cls).2, 0⟩) [])
  else none

/-- A head arriving at a router is routed there once
(`rad-sim/sim/noc/booksim/routers/iq_router.cpp:429-533`, `VC::Route`). -/
def T4Arrives (anca : Bool) (rng : Nat → Nat × Nat) (node inPort : Nat) (f : Pkt) (h : HeadA) : Prop :=
  ∃ draw outs, tree4 anca rng draw node f = some outs ∧ h = ⟨node, inPort, f, outs⟩

/-- A packet enters at terminal `t`, which injects at port `t % 4` of router `t / 4` of level 2
(`rad-sim/sim/noc/booksim/networks/tree4.cpp:126-131`). -/
def T4Enters (anca : Bool) (rng : Nat → Nat × Nat) (t : Nat) (h : HeadA) : Prop :=
  ∃ f, t < 64 ∧ f.dest < 64 ∧ T4Arrives anca rng (32 + t / 4) (t % 4) f h

/-- The head takes virtual channel `c.2` of channel `c.1`, offered by an element of its output set
(`rad-sim/sim/noc/booksim/routers/iq_router.cpp:607-650`), and arrives at the router that reads the channel. -/
def T4Takes (anca : Bool) (rng : Nat → Nat × Nat) (h : HeadA) (c : Nat × Nat) (h' : HeadA) : Prop :=
  ∃ o ∈ h.outs, c.1 < t4Conns.length ∧ t4From c.1 = h.node ∧ t4OutPort c.1 = o.port ∧ o.vcStart ≤ c.2 ∧ c.2 ≤ o.vcEnd ∧
    T4Arrives anca rng (t4To c.1) (t4InPort c.1) { h.pkt with vc := c.2 } h'

/-- The head may leave at terminal `t`: output port `p < 4` of the router at position `a` of level 2 ejects at terminal
`4 * a + p` (`rad-sim/sim/noc/booksim/networks/tree4.cpp:137-138`). -/
def T4Ejects (h : HeadA) (t : Nat) : Prop := ∃ o ∈ h.outs, 32 ≤ h.node ∧ o.port < 4 ∧ t = 4 * (h.node - 32) + o.port

end RadSim.Routing
