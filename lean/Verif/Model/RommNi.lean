import Verif.Model.TwoPhase

/-!
# Randomised minimal mesh routing with virtual channels by destination

Models `romm_ni_mesh` of `rad-sim/sim/noc/booksim/routefunc.cpp`. The call with `inject` set is left out.
-/

namespace RadSim.Routing

/-- `romm_ni_mesh`, `rad-sim/sim/noc/booksim/routefunc.cpp:909-965`: the entry of the output set and the intermediate router of
the flit. The phase has no virtual channels of its own. For a destination outside the network the range could lie outside that
of the class; this is `none` here. -/
def rommNiMesh (s : Shape) (rng : Nat → Nat × Nat) (node : Nat) (f : Pkt) (intm inPort drawn : Nat) :
    Option (Out × Nat) :=
  if vcOk rng f then
    let r := rng f.cls
    let x := phaseAt s node f intm inPort drawn
    let port := dorNextMesh s node (if x.1 = 0 then x.2 else f.dest) false
    if node ≠ f.dest then
      let per := (r.2 + 1 - r.1) / s.nodes
      if per > 0 ∧ f.dest < s.nodes then
        some (⟨port, r.1 + f.dest * per, r.1 + f.dest * per + per - 1, x.1⟩, x.2)
      else none
    else some (⟨port, r.1, r.2, x.1⟩, x.2)
  else none

/-- A head arriving at a router is routed there once
(`rad-sim/sim/noc/booksim/routers/iq_router.cpp:429-533`, `VC::Route`). -/
def ArrivesN (s : Shape) (rng : Nat → Nat × Nat) (node inPort : Nat) (f : Pkt) (intm drawn : Nat) (h : Head2) : Prop :=
  ∃ o i, rommNiMesh s rng node f intm inPort drawn = some (o, i) ∧ h = ⟨node, { f with ph := o.ph }, i, o⟩

/-- A packet enters at its source on the injection port, the last one
(`rad-sim/sim/noc/booksim/networks/kncube.cpp:164`), where the intermediate router is drawn
(`rad-sim/sim/noc/booksim/routefunc.cpp:947-950`). -/
def EntersN (s : Shape) (rng : Nat → Nat × Nat) (h : Head2) : Prop :=
  ∃ node f intm drawn, node < s.nodes ∧ f.dest < s.nodes ∧ rommDraw s node f.dest drawn ∧
    ArrivesN s rng node (2 * s.n) f intm drawn h

/-- The head takes virtual channel `c.2` of link `c.1` and arrives at the router that reads the link
(`rad-sim/sim/noc/booksim/networks/kncube.cpp:79-171`). -/
def TakesN (s : Shape) (rng : Nat → Nat × Nat) (h : Head2) (c : Nat × Nat) (h' : Head2) : Prop :=
  h.out.port < 2 * s.n ∧ c.1 = outputChannel s h.node h.out.port ∧ h.out.vcBegin ≤ c.2 ∧ c.2 ≤ h.out.vcEnd ∧
    ∃ v q, receivers s c.1 = [(v, q)] ∧ ArrivesN s rng v q { h.pkt with vc := c.2 } h.intm 0 h'

end RadSim.Routing
