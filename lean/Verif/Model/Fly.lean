import Verif.Model.TwoPhase

/-!
# The butterfly network

Models `KNFly` (`rad-sim/sim/noc/booksim/networks/fly.cpp`) and its routing function `dest_tag_fly`
(`rad-sim/sim/noc/booksim/routefunc.cpp`). A shape of radix `k` and `n` stages has `k ^ n` terminals and `n * k ^ (n - 1)`
routers with `k` inputs and `k` outputs.

Simplifications, beside those of `Verif/Model/Routing.lean`: numbers are natural numbers, so that `int` does not overflow; the
call with `inject` set is left out.
-/

namespace RadSim.Routing

/-- `per_stage`, `rad-sim/sim/noc/booksim/networks/fly.cpp:65`. -/
def perStage (s : Shape) : Nat := s.k ^ (s.n - 1)

/-- `KNFly::_OutChannel`, `rad-sim/sim/noc/booksim/networks/fly.cpp:119-122`. -/
def flyOut (s : Shape) (stage addr port : Nat) : Nat := stage * s.nodes + addr * s.k + port

/-- `KNFly::_InChannel`, `rad-sim/sim/noc/booksim/networks/fly.cpp:124-144`. -/
def flyIn (s : Shape) (stage addr port : Nat) : Nat :=
  let shift := s.k ^ (s.n - stage - 1)
  let zero := addr / shift % s.k
  (stage - 1) * s.nodes + (addr - zero * shift + port * shift) * s.k + zero

/-- All routers and input ports that read a channel between routers. Routers are numbered stage by stage
(`rad-sim/sim/noc/booksim/networks/fly.cpp:70-75`); those of the first stage read the injection channels only (`82-98`). -/
def flyReceivers (s : Shape) (c : Nat) : List (Nat × Nat) :=
  (List.range (s.n * perStage s)).flatMap fun node =>
    ((List.range s.k).filter fun port =>
      node / perStage s ≠ 0 ∧ flyIn s (node / perStage s) (node % perStage s) port = c).map fun port => (node, port)

/-- `dest_tag_fly`, `rad-sim/sim/noc/booksim/routefunc.cpp:1862-1906`. The loop divides the destination by the radix once for
every stage still to come. -/
def destTagFly (s : Shape) (rng : Nat → Nat × Nat) : Rf := fun node f _ _ =>
  if vcOk rng f then
    let stage := node * s.k / s.nodes
    some ⟨divs s.k (s.n - 1 - stage) f.dest % s.k, (rng f.cls).1, (rng f.cls).2, f.ph⟩
  else none

/-- A packet enters at a terminal: terminal `c` injects at port `c % k` of router `c / k` of the first stage
(`rad-sim/sim/noc/booksim/networks/fly.cpp:84-86`). -/
def FlyEnters (s : Shape) (rng : Nat → Nat × Nat) (c : Nat) (h : Head) : Prop :=
  ∃ f, c < s.nodes ∧ f.dest < s.nodes ∧ Arrives (destTagFly s rng) (c / s.k) (c % s.k) f h

/-- The head takes virtual channel `c.2` of channel `c.1` and arrives at the router that reads it
(`rad-sim/sim/noc/booksim/networks/fly.cpp:99-114`). Only the last stage has no such channels. -/
def FlyTakes (s : Shape) (rng : Nat → Nat × Nat) (h : Head) (c : Nat × Nat) (h' : Head) : Prop :=
  h.node / perStage s < s.n - 1 ∧ h.out.port < s.k ∧
    c.1 = flyOut s (h.node / perStage s) (h.node % perStage s) h.out.port ∧ h.out.vcBegin ≤ c.2 ∧ c.2 ≤ h.out.vcEnd ∧
    ∃ v q, flyReceivers s c.1 = [(v, q)] ∧ Arrives (destTagFly s rng) v q { h.pkt with vc := c.2 } h'

/-- The head wants the ejection channel of terminal `t`: in the last stage, output port `p` of the router at `a` ejects at
terminal `a * k + p` (`rad-sim/sim/noc/booksim/networks/fly.cpp:101-103`). -/
def FlyEjects (s : Shape) (h : Head) (t : Nat) : Prop :=
  h.node / perStage s = s.n - 1 ∧ t = h.node % perStage s * s.k + h.out.port

end RadSim.Routing
