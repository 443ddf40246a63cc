import Verif.Model.MinAdapt

/-!
# Adaptive routing of a torus

Models `min_adapt_torus` (`rad-sim/sim/noc/booksim/routefunc.cpp:1779-1858`): minimal adaptive routing on a virtual channel
of its own, with dimension order as in `dim_order_torus` on two escape channels.

Simplifications: those of `RadSim.Routing`. The call at injection (`inject`) is left out, as for the other routing functions.
A head may take any channel that an element of its output set offers; the order in which a router tries them is left open. -/

namespace RadSim.Routing

open Router (Hop)

/-- The loop over dimensions of `min_adapt_torus`, `rad-sim/sim/noc/booksim/routefunc.cpp:1826-1840`; the first argument
after the channel is the number of iterations left. `dist2` is compared through `2 * delta` and `k`. -/
def torusDirs (k vc : Nat) : Nat → Nat → Nat → Nat → List Hop → List Hop
  | 0, _, _, _, out => out
  | m + 1, n, cur, dest, out =>
    torusDirs k vc m (n + 1) (cur / k) (dest / k)
      (if cur % k ≠ dest % k then
        addRange out ⟨if 2 * ((dest % k + k - cur % k) % k) < k then 2 * n else 2 * n + 1, vc, vc, 1⟩
      else out)

/-- `min_adapt_torus`, `rad-sim/sim/noc/booksim/routefunc.cpp:1779-1858`: the output set and the partition. The element
for ejection (line 1808) does not end the function; what follows is added to it. -/
def minAdaptTorus (s : Shape) (rng : Nat → Nat × Nat) (node : Nat) (f : Pkt) (inPort : Nat) (rnd : Bool) :
    Option (List Hop × Int) :=
  if vcOk rng f then
    let r := rng f.cls
    let out := if node = f.dest then addRange [] ⟨2 * s.n, r.1, r.2, 0⟩ else []
    let inVc := if inPort = 2 * s.n then r.2 else f.vc
    let free := decide (inVc > r.1 + 1)
    let out := if free then torusDirs s.k (r.1 + 3) s.n 0 node f.dest out else out
    let x := dorNextTorus s node f.dest (if free then 2 * s.n else inPort) f.ph rnd
    let vc := if x.2 = 0 then r.1 else r.1 + 1
    some (addRange out ⟨x.1, vc, vc, 0⟩, x.2)
  else none

/-- The head of a packet waiting at a router with its output set, see `Head`. -/
structure HeadA where
  node : Nat
  inPort : Nat
  pkt : Pkt
  outs : List Hop
  deriving DecidableEq

/-- A head arriving at a router is routed there once
(`rad-sim/sim/noc/booksim/routers/iq_router.cpp:429-533`, `VC::Route`). -/
def ArrivesA (s : Shape) (rng : Nat → Nat × Nat) (node inPort : Nat) (f : Pkt) (h : HeadA) : Prop :=
  ∃ rnd o, minAdaptTorus s rng node f inPort rnd = some o ∧ h = ⟨node, inPort, { f with ph := o.2 }, o.1⟩

/-- A packet enters at a router, see `Enters` (`rad-sim/sim/noc/booksim/networks/kncube.cpp:164`,
`rad-sim/sim/noc/booksim/flit.cpp:85`). -/
def EntersA (s : Shape) (rng : Nat → Nat × Nat) (h : HeadA) : Prop :=
  ∃ node f, node < s.nodes ∧ f.dest < s.nodes ∧ f.ph = -1 ∧ ArrivesA s rng node (2 * s.n) f h

/-- The head takes virtual channel `c.2` of link `c.1`, offered by an element of its output set
(`rad-sim/sim/noc/booksim/routers/iq_router.cpp:607-650`), and arrives at the router that reads the link. -/
def TakesA (s : Shape) (rng : Nat → Nat × Nat) (h : HeadA) (c : Nat × Nat) (h' : HeadA) : Prop :=
  ∃ o ∈ h.outs, o.port < 2 * s.n ∧ c.1 = outputChannel s h.node o.port ∧ o.vcStart ≤ c.2 ∧ c.2 ≤ o.vcEnd ∧
    ∃ v q, receivers s c.1 = [(v, q)] ∧ ArrivesA s rng v q { h.pkt with vc := c.2 } h'

/-- An element of the output set is for the ejection port, the last output port
(`rad-sim/sim/noc/booksim/networks/kncube.cpp:165`). -/
def HomeA (s : Shape) (h : HeadA) : Prop := ∃ o ∈ h.outs, o.port = 2 * s.n

end RadSim.Routing
