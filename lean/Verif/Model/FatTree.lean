import Verif.Model.Fly

/-!
# The fat tree

Models `FatTree` (`rad-sim/sim/noc/booksim/networks/fattree.cpp`) and its routing functions `fattree_nca` and `fattree_anca`
(`rad-sim/sim/noc/booksim/routefunc.cpp`). A shape of radix `k` and `n` levels has `k ^ n` terminals and `k ^ (n - 1)` routers on
every level; level 0 is the top, and the terminals hang on level `n - 1`. Ports below `k` face down, the others up.

Simplifications, beside those of `Verif/Model/Routing.lean`: numbers are natural numbers, so that `int` does not overflow; the
call with `inject` set is left out; the numbers of used credits that `fattree_anca` compares are arbitrary.
-/

namespace RadSim.Routing

/-- `chan_per_direction`, `rad-sim/sim/noc/booksim/networks/fattree.cpp:160`. -/
def treeChans (s : Shape) : Nat := s.k * s.k ^ (s.n - 1)

/-- Channel of an output port: `link` of the down outputs, `rad-sim/sim/noc/booksim/networks/fattree.cpp:165-180`, and of the up
outputs, `184-199`, which are added after the `k` outputs that face down. -/
def treeOut (s : Shape) (level pos port : Nat) : Nat :=
  if port < s.k then level * (2 * treeChans s) + pos * s.k + port
  else level * (2 * treeChans s) - treeChans s + pos * s.k + (port - s.k)

/-- `link` of an input from the level below, `rad-sim/sim/noc/booksim/networks/fattree.cpp:206-231`. -/
def treeInBelow (s : Shape) (level pos port : Nat) : Nat :=
  let hood := s.k ^ (s.n - 1 - level)
  let branch := s.k ^ (s.n - 1 - (level + 1))
  (level + 1) * (2 * treeChans s) - treeChans s + pos / hood * (hood * s.k) + port * branch * s.k +
    pos % hood % branch * s.k + pos % hood / branch

/-- `link` of an input from the level above, `rad-sim/sim/noc/booksim/networks/fattree.cpp:235-260`. -/
def treeInAbove (s : Shape) (level pos port : Nat) : Nat :=
  let hood := s.k ^ (s.n - 1 - (level - 1))
  let branch := s.k ^ (s.n - 1 - level)
  (level - 1) * (2 * treeChans s) + pos / hood * (hood * s.k) + port * branch * s.k +
    pos % hood % branch * s.k + pos % hood / branch

/-- Whether an input port reads a channel: inputs from below on all levels but the last, where they are the injection channels
(`rad-sim/sim/noc/booksim/networks/fattree.cpp:141-146`), and inputs from above on all levels but the first. -/
def treeReads (s : Shape) (level pos port c : Nat) : Prop :=
  if port < s.k then level < s.n - 1 ∧ treeInBelow s level pos port = c
  else level ≠ 0 ∧ treeInAbove s level pos (port - s.k) = c

instance (s : Shape) (level pos port c : Nat) : Decidable (treeReads s level pos port c) := by
  unfold treeReads; infer_instance

/-- All routers and input ports that read a channel between routers. Routers are numbered level by level from the top
(`rad-sim/sim/noc/booksim/networks/fattree.cpp:111-128`). -/
def treeReceivers (s : Shape) (c : Nat) : List (Nat × Nat) :=
  (List.range (s.n * perStage s)).flatMap fun node =>
    ((List.range (2 * s.k)).filter fun port => treeReads s (node / perStage s) (node % perStage s) port c).map
      fun port => (node, port)

/-- The draw of `fattree_nca`, `RandomInt(gK-1)`, `rad-sim/sim/noc/booksim/routefunc.cpp:325`. -/
def ncaUp (s : Shape) (p : Nat) : Prop := ∃ draw, p = draw % (s.k - 1 + 1)

/-- The draw of `fattree_anca`: of two ports the one with fewer credits used,
`rad-sim/sim/noc/booksim/routefunc.cpp:395-402`. -/
def ancaUp (s : Shape) (p : Nat) : Prop :=
  ∃ (used : Nat → Nat) (d1 d2 : Nat), p =
    if used (s.k + d1 % (s.k - 1 + 1)) > used (s.k + d2 % (s.k - 1 + 1)) then d2 % (s.k - 1 + 1) else d1 % (s.k - 1 + 1)

/-- `fattree_nca`, `rad-sim/sim/noc/booksim/routefunc.cpp:269-331`, and `fattree_anca`, `336-408`, which differ only in the draw
`up`. A failing assertion is `none`. -/
def fatTree (s : Shape) (rng : Nat → Nat × Nat) (up node : Nat) (f : Pkt) (inPort : Nat) : Option Out :=
  if vcOk rng f then
    let pos := node % s.k ^ (s.n - 1)
    let depth := node / s.k ^ (s.n - 1)
    let hood := pos / s.k ^ (s.n - depth - 1)
    let coverage := s.k ^ (s.n - depth)
    let r := rng f.cls
    if f.dest < (hood + 1) * coverage ∧ hood * coverage ≤ f.dest then
      if depth = s.n - 1 then some ⟨f.dest % s.k, r.1, r.2, f.ph⟩
      else some ⟨(f.dest - hood * coverage) / s.k ^ (s.n - (depth + 1)), r.1, r.2, f.ph⟩
    else if inPort < s.k then some ⟨s.k + up, r.1, r.2, f.ph⟩
    else none
  else none

/-- A head arriving at a router is routed there once (`rad-sim/sim/noc/booksim/routers/iq_router.cpp:429-533`, `VC::Route`). -/
def TreeArrives (s : Shape) (rng : Nat → Nat × Nat) (ups : Nat → Prop) (node inPort : Nat) (f : Pkt) (h : Head) : Prop :=
  ∃ up o, ups up ∧ fatTree s rng up node f inPort = some o ∧ h = ⟨node, inPort, { f with ph := o.ph }, o⟩

/-- A packet enters at a terminal: terminal `c` injects at port `c % k` of router `c / k` of the last level
(`rad-sim/sim/noc/booksim/networks/fattree.cpp:141-146`). -/
def TreeEnters (s : Shape) (rng : Nat → Nat × Nat) (ups : Nat → Prop) (c : Nat) (h : Head) : Prop :=
  ∃ f, c < s.nodes ∧ f.dest < s.nodes ∧ TreeArrives s rng ups ((s.n - 1) * perStage s + c / s.k) (c % s.k) f h

/-- Output ports that lead to another router: those down on all levels but the last, those up on all levels but the first
(`rad-sim/sim/noc/booksim/networks/fattree.cpp:165-167`, `184-186`). -/
def treeLinked (s : Shape) (level port : Nat) : Prop :=
  if port < s.k then level < s.n - 1 else level ≠ 0 ∧ port < 2 * s.k

instance (s : Shape) (level port : Nat) : Decidable (treeLinked s level port) := by unfold treeLinked; infer_instance

/-- The head takes virtual channel `c.2` of channel `c.1` and arrives at the router that reads it. -/
def TreeTakes (s : Shape) (rng : Nat → Nat × Nat) (ups : Nat → Prop) (h : Head) (c : Nat × Nat) (h' : Head) : Prop :=
  treeLinked s (h.node / perStage s) h.out.port ∧
    c.1 = treeOut s (h.node / perStage s) (h.node % perStage s) h.out.port ∧ h.out.vcBegin ≤ c.2 ∧ c.2 ≤ h.out.vcEnd ∧
    ∃ v q, treeReceivers s c.1 = [(v, q)] ∧ TreeArrives s rng ups v q { h.pkt with vc := c.2 } h'

/-- The head wants the ejection channel of terminal `t`: on the last level, output port `p < k` of the router at `a` ejects at
terminal `a * k + p` (`rad-sim/sim/noc/booksim/networks/fattree.cpp:141-148`). -/
def TreeEjects (s : Shape) (h : Head) (t : Nat) : Prop :=
  h.node / perStage s = s.n - 1 ∧ h.out.port < s.k ∧ t = h.node % perStage s * s.k + h.out.port

end RadSim.Routing
