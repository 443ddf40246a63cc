import Mathlib.Data.List.Basic

/-!
# Concentrated mesh

Models the network that RAD-Sim uses for 3D devices (`rad-sim/config.py:111-112,130-138`): a mesh of
`k` by `k` routers with four terminals each, `rad-sim/sim/noc/booksim/networks/cmesh.cpp`. The
configuration script always writes `n = 2`, `c = 4`, `xr = 2` and `yr = 2`, so the concentration in
both dimensions is 2 (`cmesh.cpp:99-100`) and the numbers appear as constants here.
-/

namespace RadSim.CMesh

/-- The terminal on the injection and ejection link number `port` of a router,
`rad-sim/sim/noc/booksim/networks/cmesh.cpp:161-177`. Ports are numbered in the order of the loops. -/
def terminal (k router port : Nat) : Nat :=
  k * 2 * (2 * (router / k) + port / 2) + (2 * (router % k) + port % 2)

/-- `CMesh::NodeToRouter`, `rad-sim/sim/noc/booksim/networks/cmesh.cpp:316-323`. -/
def nodeToRouter (k address : Nat) : Nat :=
  let y := address / (2 * k) / 2
  let x := address % (2 * k) / 2
  y * k + x

/-- `CMesh::NodeToPort`, `rad-sim/sim/noc/booksim/networks/cmesh.cpp:325-334`; the masks are 1. -/
def nodeToPort (k address : Nat) : Nat :=
  let x := address &&& 1
  let y := address / (2 * k) &&& 1
  4 / 2 * y + x

/-- The channel on output port `port` (4 to 7: `+x`, `-x`, `+y`, `-y`) of a router,
`rad-sim/sim/noc/booksim/networks/cmesh.cpp:181-189,234-291`. -/
def outputChannel (k node port : Nat) : Nat := k * (node / k) + node % k + (port - 4) * (k * k)

/-- The channel on input port `port` of a router, with the express links of the edges,
`rad-sim/sim/noc/booksim/networks/cmesh.cpp:190-230,244,260,276,292`. -/
def inputChannel (k node port : Nat) : Nat :=
  let x := node % k
  let y := node / k
  let offset := k * k
  match port - 4 with
  | 0 =>
    if x = k - 1 then
      if y < k / 2 then k * (y + k / 2) + x else k * (y - k / 2) + x
    else k * y + (x + 1) + 1 * offset
  | 1 =>
    if x = 0 then
      if y < k / 2 then k * (y + k / 2) + x + offset else k * (y - k / 2) + x + offset
    else k * y + (x - 1) + 0 * offset
  | 2 =>
    if y = k - 1 then
      if x < k / 2 then k * y + (x + k / 2) + 2 * offset else k * y + (x - k / 2) + 2 * offset
    else k * (y + 1) + x + 3 * offset
  | _ =>
    if y = 0 then
      if x < k / 2 then k * y + (x + k / 2) + 3 * offset else k * y + (x - k / 2) + 3 * offset
    else k * (y - 1) + x + 2 * offset

/-- All routers and input ports that read a channel; a router receives from each of its input
channels every cycle (`rad-sim/sim/noc/booksim/routers/iq_router.cpp:303`), and `Channel::Receive` leaves the
item in place for any other reader (`rad-sim/sim/noc/booksim/channel.hpp:96-99`). -/
def receivers (k c : Nat) : List (Nat × Nat) :=
  (List.range (k * k)).flatMap fun node =>
    (([4, 5, 6, 7] : List Nat).filter fun port => inputChannel k node port = c).map fun port => (node, port)

/-- `cmesh_next_no_express`, `rad-sim/sim/noc/booksim/networks/cmesh.cpp:786-814`. The router is never
the destination; the assertion at the end is the port 3 here, which is an ejection port. -/
def nextNoExpress (k cur dest : Nat) : Nat :=
  let cy := cur / k
  let cx := cur % k
  let dy := dest / k
  let dx := dest % k
  if cx < dx then 4 + 0
  else if cx > dx then 4 + 1
  else if cy < dy then 4 + 2
  else if cy > dy then 4 + 3
  else 3

/-- `cmesh_next`, `rad-sim/sim/noc/booksim/networks/cmesh.cpp:671-727`, with the same remark. The
comparison `> gK/2 - 1` is on machine integers. -/
def nextExpress (k cur dest : Nat) : Nat :=
  let cy := cur / k
  let cx := cur % k
  let dy := dest / k
  let dx := dest % k
  if cx < dx then
    if dx - cx + 1 > k / 2 ∧ cy = 0 then 4 + 3
    else if dx - cx + 1 > k / 2 ∧ cy = k - 1 then 4 + 2
    else 4 + 0
  else if cx > dx then
    if cx - dx + 1 > k / 2 ∧ cy = 0 then 4 + 3
    else if cx - dx + 1 > k / 2 ∧ cy = k - 1 then 4 + 2
    else 4 + 1
  else if cy < dy then
    if dy - cy + 1 > k / 2 ∧ cx = 0 then 4 + 1
    else if dy - cy + 1 > k / 2 ∧ cx = k - 1 then 4 + 0
    else 4 + 2
  else if cy > dy then
    if cy - dy + 1 > k / 2 ∧ cx = 0 then 4 + 1
    else if cy - dy + 1 > k / 2 ∧ cx = k - 1 then 4 + 0
    else 4 + 3
  else 3

/-- `cmesh_xy`, `rad-sim/sim/noc/booksim/networks/cmesh.cpp:343-397`: the order of `xy_yx_cmesh` that
goes along `x` first; express links are taken for every distance above one. -/
def nextXy (k cur dest : Nat) : Nat :=
  let cy := cur / k
  let cx := cur % k
  let dy := dest / k
  let dx := dest % k
  if cx < dx then
    if dx - cx > 1 ∧ cy = 0 then 4 + 3
    else if dx - cx > 1 ∧ cy = k - 1 then 4 + 2
    else 4 + 0
  else if cx > dx then
    if cx - dx > 1 ∧ cy = 0 then 4 + 3
    else if cx - dx > 1 ∧ cy = k - 1 then 4 + 2
    else 4 + 1
  else if cy < dy then
    if dy - cy > 1 ∧ cx = 0 then 4 + 1
    else if dy - cy > 1 ∧ cx = k - 1 then 4 + 0
    else 4 + 2
  else if cy > dy then
    if cy - dy > 1 ∧ cx = 0 then 4 + 1
    else if cy - dy > 1 ∧ cx = k - 1 then 4 + 0
    else 4 + 3
  else 0

/-- The head of a packet at a router: its destination terminal and its virtual channels. -/
structure Head where
  router : Nat
  dest : Nat
  lo : Nat
  hi : Nat
  deriving DecidableEq, Repr

/-- The output port: `dor_no_express_cmesh` and `dor_cmesh` with the given function for the next router,
`rad-sim/sim/noc/booksim/networks/cmesh.cpp:816-868,729-781`. `xy_yx_cmesh` (`cmesh.cpp:455-525`) has the
same form once the order is drawn. -/
def port (next : Nat → Nat → Nat → Nat) (k : Nat) (h : Head) : Nat :=
  if nodeToRouter k h.dest = h.router then nodeToPort k h.dest
  else next k h.router (nodeToRouter k h.dest)

/-- A packet enters at a router. -/
def Enters (k : Nat) (h : Head) : Prop := h.router < k * k ∧ h.dest < 4 * (k * k) ∧ h.lo ≤ h.hi

/-- The head takes virtual channel `c.2` of link `c.1` and arrives at the router that reads the link. -/
def Takes (next : Nat → Nat → Nat → Nat) (k : Nat) (h : Head) (c : Nat × Nat) (h' : Head) : Prop :=
  4 ≤ port next k h ∧ c.1 = outputChannel k h.router (port next k h) ∧ h.lo ≤ c.2 ∧ c.2 ≤ h.hi ∧
    ∃ v q, receivers k c.1 = [(v, q)] ∧ h' = { h with router := v }

/-- The head wants the ejection link of a terminal. -/
def Home (next : Nat → Nat → Nat → Nat) (k : Nat) (h : Head) : Prop := port next k h < 4

end RadSim.CMesh
