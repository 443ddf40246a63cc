import Mathlib.Data.List.Basic

/-!
# Mesh and torus routing

Models the k-ary n-cube network of BookSim (`rad-sim/sim/noc/booksim/networks/kncube.cpp`), the routing
functions `dim_order_mesh`, `xy_yx_mesh` and `dim_order_torus`
(`rad-sim/sim/noc/booksim/routefunc.cpp`) and the hop count of `rad-sim/sim/radsim_utils.cpp`.

Simplifications. Machine integers are natural numbers (the partition `ph` of a flit, which starts at
`-1`, is an integer). `powi` is exponentiation. Failed assertions are `none`. Random draws are Boolean
arguments. Watch output is left out.
-/

namespace RadSim.Routing

/-- The globals `gK` and `gN` that routing functions read, set by the constructor of the network
(`rad-sim/sim/noc/booksim/networks/kncube.cpp:55-61`). -/
structure Shape where
  k : Nat
  n : Nat
  deriving DecidableEq, Repr

/-- `_size = powi(_k, _n)` and `_nodes = _size`,
`rad-sim/sim/noc/booksim/networks/kncube.cpp:61-64`. Also `gNodes`
(`rad-sim/sim/noc/booksim/networks/network.cpp:128`). -/
def Shape.nodes (s : Shape) : Nat := s.k ^ s.n

/-- `KNCube::_LeftNode`, `rad-sim/sim/noc/booksim/networks/kncube.cpp:190-203`. -/
def leftNode (s : Shape) (node dim : Nat) : Nat :=
  let kToDim := s.k ^ dim
  if node / kToDim % s.k = 0 then node + (s.k - 1) * kToDim else node - kToDim

/-- `KNCube::_RightNode`, `rad-sim/sim/noc/booksim/networks/kncube.cpp:205-218`. -/
def rightNode (s : Shape) (node dim : Nat) : Nat :=
  let kToDim := s.k ^ dim
  if node / kToDim % s.k = s.k - 1 then node - (s.k - 1) * kToDim else node + kToDim

/-- `KNCube::_LeftChannel`, `rad-sim/sim/noc/booksim/networks/kncube.cpp:171-179`. -/
def leftChannel (s : Shape) (node dim : Nat) : Nat := 2 * s.n * node + (2 * dim + 1)

/-- `KNCube::_RightChannel`, `rad-sim/sim/noc/booksim/networks/kncube.cpp:181-188`. -/
def rightChannel (s : Shape) (node dim : Nat) : Nat := 2 * s.n * node + 2 * dim

/-- The channel that input port `port` of router `node` reads. Ports are numbered in the order of the
`AddInputChannel` calls of `KNCube::_BuildNet`, for each dimension first the channel from the right
neighbour, then the one from the left
(`rad-sim/sim/noc/booksim/networks/kncube.cpp:121-127`). -/
def inputChannel (s : Shape) (node port : Nat) : Nat :=
  if port % 2 = 0 then leftChannel s (rightNode s node (port / 2)) (port / 2)
  else rightChannel s (leftNode s node (port / 2)) (port / 2)

/-- The channel that output port `port` of router `node` drives, in the order of the `AddOutputChannel`
calls (`rad-sim/sim/noc/booksim/networks/kncube.cpp:141-147`). -/
def outputChannel (s : Shape) (node port : Nat) : Nat :=
  if port % 2 = 0 then rightChannel s node (port / 2) else leftChannel s node (port / 2)

/-- All routers and input ports that read a channel. A router reads its input channels every cycle
(`rad-sim/sim/noc/booksim/routers/router.cpp:90-95`), so this is where a flit sent on it arrives. -/
def receivers (s : Shape) (c : Nat) : List (Nat × Nat) :=
  (List.range s.nodes).flatMap fun node =>
    ((List.range (2 * s.n)).filter fun port => inputChannel s node port = c).map fun port => (node, port)

/-- The ascending loop of `dor_next_mesh`, `rad-sim/sim/noc/booksim/routefunc.cpp:579-582`; the first
argument is the number of iterations left. -/
def ascLoop (k : Nat) : Nat → Nat → Nat → Nat → Nat × Nat × Nat
  | 0, dim, cur, dest => (dim, cur, dest)
  | m + 1, dim, cur, dest =>
    if cur % k ≠ dest % k then (dim, cur, dest) else ascLoop k m (dim + 1) (cur / k) (dest / k)

/-- The descending loop of `dor_next_mesh`, `rad-sim/sim/noc/booksim/routefunc.cpp:571-574`; the loop
variable counts down to zero. -/
def descLoop (s : Shape) : Nat → Nat → Nat → Nat × Nat × Nat
  | 0, cur, dest => (0, cur, dest)
  | dim + 1, cur, dest =>
    if cur * s.k / s.nodes ≠ dest * s.k / s.nodes then (dim + 1, cur, dest)
    else descLoop s dim (cur * s.k % s.nodes) (dest * s.k % s.nodes)

/-- `dor_next_mesh`, `rad-sim/sim/noc/booksim/routefunc.cpp:562-591`. -/
def dorNextMesh (s : Shape) (cur dest : Nat) (descending : Bool) : Nat :=
  if cur = dest then 2 * s.n
  else if descending then
    let (dim, c, d) := descLoop s (s.n - 1) cur dest
    if c * s.k / s.nodes < d * s.k / s.nodes then 2 * dim else 2 * dim + 1
  else
    let (dim, c, d) := ascLoop s.k (s.n - 1) 0 cur dest
    if c % s.k < d % s.k then 2 * dim else 2 * dim + 1

/-- The fields of a head flit that routing uses. `cls` is the flit type. -/
structure Pkt where
  dest : Nat
  cls : Nat
  vc : Nat
  ph : Int
  deriving DecidableEq, Repr

/-- The result of a routing function: the only entry of the output set
(`outputs->AddRange(out_port, vcBegin, vcEnd)`) and the new partition of the flit. -/
structure Out where
  port : Nat
  vcBegin : Nat
  vcEnd : Nat
  ph : Int
  deriving DecidableEq, Repr

/-- A routing function applied at router `node` to a flit that came in on port `inPort`. The Boolean is
the random draw. -/
abbrev Rf := Nat → Pkt → Nat → Bool → Option Out

/-- The assertion on the channel of the flit at the head of every routing function,
`rad-sim/sim/noc/booksim/routefunc.cpp:686`. The range of every flit type is a parameter
(`routefunc.cpp:669-685`). -/
def vcOk (rng : Nat → Nat × Nat) (f : Pkt) : Prop := (rng f.cls).1 ≤ f.vc ∧ f.vc ≤ (rng f.cls).2

instance (rng : Nat → Nat × Nat) (f : Pkt) : Decidable (vcOk rng f) :=
  inferInstanceAs (Decidable (_ ∧ _))

/-- `dim_order_mesh`, `rad-sim/sim/noc/booksim/routefunc.cpp:665-703`. -/
def dimOrderMesh (s : Shape) (rng : Nat → Nat × Nat) : Rf := fun node f _ _ =>
  if vcOk rng f then
    some ⟨dorNextMesh s node f.dest false, (rng f.cls).1, (rng f.cls).2, f.ph⟩
  else none

/-- `available_vcs`, `rad-sim/sim/noc/booksim/routefunc.cpp:531`. -/
def available (r : Nat × Nat) : Nat := (r.2 + 1 - r.1) / 2

/-- `xy_yx_mesh`, `rad-sim/sim/noc/booksim/routefunc.cpp:495-554`. The adaptive variant
(`routefunc.cpp:420-492`) differs only in how the order is picked at injection, here the draw. -/
def xyYxMesh (s : Shape) (rng : Nat → Nat × Nat) : Rf := fun node f inPort rnd =>
  if vcOk rng f then
    let r := rng f.cls
    if node = f.dest then some ⟨2 * s.n, r.1, r.2, f.ph⟩
    else
      let a := available r
      if a > 0 then
        let xThenY := if inPort < 2 * s.n then decide (f.vc < r.1 + a) else rnd
        if xThenY then some ⟨dorNextMesh s node f.dest false, r.1, r.2 - a, f.ph⟩
        else some ⟨dorNextMesh s node f.dest true, r.1 + a, r.2, f.ph⟩
      else none
  else none

/-- The loop of `dor_next_torus`, `rad-sim/sim/noc/booksim/routefunc.cpp:603-606`: the first dimension
in which the nodes differ and what is left of the node numbers; the first argument is the number of
iterations left. -/
def torusLoop (k : Nat) : Nat → Nat → Nat → Nat → Nat × Nat × Nat
  | 0, dim, cur, dest => (dim, cur, dest)
  | m + 1, dim, cur, dest =>
    if cur % k ≠ dest % k then (dim, cur, dest) else torusLoop k m (dim + 1) (cur / k) (dest / k)

/-- `dor_next_torus` with a partition and `balance` false,
`rad-sim/sim/noc/booksim/routefunc.cpp:595-661`. Returns the output port and the partition. `dist2` is
compared through `2 * delta` and `k`. -/
def dorNextTorus (s : Shape) (cur dest inPort : Nat) (ph : Int) (rnd : Bool) : Nat × Int :=
  let (dim, cur, dest) := torusLoop s.k s.n 0 cur dest
  if dim < s.n then
    if inPort / 2 ≠ dim then
      let c := cur % s.k
      let d := dest % s.k
      let delta := (d + s.k - c) % s.k
      let right := decide (2 * delta < s.k) || (decide (2 * delta = s.k) && rnd)
      (if right then 2 * dim else 2 * dim + 1,
        if (right && decide (d < c)) || (!right && decide (d < c)) then 1 else 0)
    else (inPort ^^^ 1, ph)
  else (2 * s.n, ph)

/-- `dim_order_torus`, `rad-sim/sim/noc/booksim/routefunc.cpp:1569-1636`. -/
def dimOrderTorus (s : Shape) (rng : Nat → Nat × Nat) : Rf := fun node f inPort rnd =>
  if vcOk rng f then
    let r := rng f.cls
    let (port, ph) := dorNextTorus s node f.dest inPort f.ph rnd
    if node ≠ f.dest then
      let a := available r
      if a > 0 then
        if ph = 0 then some ⟨port, r.1, r.2 - a, ph⟩ else some ⟨port, r.1 + a, r.2, ph⟩
      else none
    else some ⟨port, r.1, r.2, ph⟩
  else none

/-- `CalculateXYGridHops`, `rad-sim/sim/radsim_utils.cpp:21-32`. A dimension of zero is a division by
zero there. -/
def gridHops (src dest grid : Nat) : Nat :=
  let size := grid * grid
  let s := src % size
  let d := dest % size
  ((s / grid : Nat) - (d / grid : Nat) : Int).natAbs + ((s % grid : Nat) - (d % grid : Nat) : Int).natAbs + 1

/-- The head of a packet waiting at a router with its routing decision. -/
structure Head where
  node : Nat
  inPort : Nat
  pkt : Pkt
  out : Out
  deriving DecidableEq, Repr

/-- A head arriving at a router is routed there once
(`rad-sim/sim/noc/booksim/routers/iq_router.cpp:429-533`, `VC::Route`). -/
def Arrives (rf : Rf) (node inPort : Nat) (f : Pkt) (h : Head) : Prop :=
  ∃ rnd o, rf node f inPort rnd = some o ∧
    h = ⟨node, inPort, { f with ph := o.ph }, o⟩

/-- A packet enters at a router: it comes in on the injection port, the last one
(`rad-sim/sim/noc/booksim/networks/kncube.cpp:164`), with the partition `-1` of a new flit
(`rad-sim/sim/noc/booksim/flit.cpp:85`). -/
def Enters (s : Shape) (rf : Rf) (h : Head) : Prop :=
  ∃ node f, node < s.nodes ∧ f.dest < s.nodes ∧ f.ph = -1 ∧ Arrives rf node (2 * s.n) f h

/-- The head takes virtual channel `c.2` of link `c.1` and arrives at the router that reads the link. -/
def Takes (s : Shape) (rf : Rf) (h : Head) (c : Nat × Nat) (h' : Head) : Prop :=
  h.out.port < 2 * s.n ∧ c.1 = outputChannel s h.node h.out.port ∧
    h.out.vcBegin ≤ c.2 ∧ c.2 ≤ h.out.vcEnd ∧
    ∃ v q, receivers s c.1 = [(v, q)] ∧ Arrives rf v q { h.pkt with vc := c.2 } h'

/-- The head wants the ejection port, the last output port
(`rad-sim/sim/noc/booksim/networks/kncube.cpp:165`). -/
def Home (s : Shape) (h : Head) : Prop := h.out.port = 2 * s.n

/-- The globals after building the networks of all RADs one after the other
(`rad-sim/sim/noc/radsim_noc.cpp:24-26`): every constructor overwrites them
(`rad-sim/sim/noc/booksim/networks/kncube.cpp:60`). -/
def globals (nets : List Shape) : Option Shape := nets.getLast?

end RadSim.Routing
