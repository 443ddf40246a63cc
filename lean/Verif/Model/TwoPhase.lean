import Verif.Model.Routing

/-!
# Two-phase and non-interfering mesh routing

Models the routing functions `valiant_mesh`, `romm_mesh`, `dim_order_ni_mesh` and `dim_order_pni_mesh` of
`rad-sim/sim/noc/booksim/routefunc.cpp`.

Simplifications, beside those of `Verif/Model/Routing.lean`. The calls with `inject` set, which pick the virtual channel
at the network interface, are left out. `ran_next` is a function from the number of the draw.
-/

namespace RadSim.Routing

/-- `rand_min_intr_mesh`, `rad-sim/sim/noc/booksim/routefunc.cpp:820-841`, with `RandomInt(max)` the draw modulo
`max + 1` (`rad-sim/sim/noc/booksim/random_utils.hpp:49-51`). The first argument is the number of iterations left. -/
def randMinLoop (k : Nat) (draw : Nat → Nat) : Nat → Nat → Nat → Nat → Nat
  | 0, _, _, _ => 0
  | m + 1, offset, src, dest =>
    (if src % k < dest % k then offset * (src % k + draw m % (dest % k - src % k + 1))
      else offset * (dest % k + draw m % (src % k - dest % k + 1))) +
    randMinLoop k draw m (offset * k) (src / k) (dest / k)

/-- `rand_min_intr_mesh`, `rad-sim/sim/noc/booksim/routefunc.cpp:820-841`. -/
def randMin (s : Shape) (draw : Nat → Nat) (src dest : Nat) : Nat := randMinLoop s.k draw s.n 1 src dest

/-- The intermediate router of `romm_mesh`, `rad-sim/sim/noc/booksim/routefunc.cpp:876`. -/
def rommDraw (s : Shape) (src dest intm : Nat) : Prop := ∃ draw, intm = randMin s draw src dest

/-- The intermediate router of `valiant_mesh`, `RandomInt( gNodes - 1 )`,
`rad-sim/sim/noc/booksim/routefunc.cpp:1350`. -/
def valiantDraw (s : Shape) (_src _dest intm : Nat) : Prop := ∃ draw, intm = draw % (s.nodes - 1 + 1)

/-- Phase and intermediate router of a flit at a router, where `drawn` is the intermediate router that is drawn on the
injection port: `rad-sim/sim/noc/booksim/routefunc.cpp:874-881` and, with the same text, `1348-1355`. -/
def phaseAt (s : Shape) (node : Nat) (f : Pkt) (intm inPort drawn : Nat) : Int × Nat :=
  let x : Int × Nat := if inPort = 2 * s.n then (0, drawn) else (f.ph, intm)
  if x.1 = 0 ∧ node = x.2 then (1, x.2) else x

/-- `romm_mesh`, `rad-sim/sim/noc/booksim/routefunc.cpp:845-905`, and `valiant_mesh`, `1319-1379`, which differ only in
the draw: the entry of the output set and the intermediate router of the flit. -/
def twoPhaseMesh (s : Shape) (rng : Nat → Nat × Nat) (node : Nat) (f : Pkt) (intm inPort drawn : Nat) :
    Option (Out × Nat) :=
  if vcOk rng f then
    let r := rng f.cls
    let x := phaseAt s node f intm inPort drawn
    let port := dorNextMesh s node (if x.1 = 0 then x.2 else f.dest) false
    if node ≠ f.dest then
      if available r > 0 then
        if x.1 = 0 then some (⟨port, r.1, r.2 - available r, x.1⟩, x.2)
        else if x.1 = 1 then some (⟨port, r.1 + available r, r.2, x.1⟩, x.2)
        else none
      else none
    else some (⟨port, r.1, r.2, x.1⟩, x.2)
  else none

/-- The head of a packet of a two-phase routing function at a router, with its decision. -/
structure Head2 where
  node : Nat
  pkt : Pkt
  intm : Nat
  out : Out
  deriving DecidableEq, Repr

/-- A head arriving at a router is routed there once
(`rad-sim/sim/noc/booksim/routers/iq_router.cpp:429-533`, `VC::Route`). On the injection port it is given the drawn
intermediate router. -/
def Arrives2 (s : Shape) (rng : Nat → Nat × Nat) (node inPort : Nat) (f : Pkt) (intm drawn : Nat) (h : Head2) : Prop :=
  ∃ o i, twoPhaseMesh s rng node f intm inPort drawn = some (o, i) ∧ h = ⟨node, { f with ph := o.ph }, i, o⟩

/-- A packet enters at its source on the injection port, the last one
(`rad-sim/sim/noc/booksim/networks/kncube.cpp:164`). -/
def Enters2 (s : Shape) (rng : Nat → Nat × Nat) (draw : Nat → Nat → Nat → Prop) (h : Head2) : Prop :=
  ∃ node f intm drawn, node < s.nodes ∧ f.dest < s.nodes ∧ draw node f.dest drawn ∧
    Arrives2 s rng node (2 * s.n) f intm drawn h

/-- The head takes virtual channel `c.2` of link `c.1` and arrives at the router that reads the link. -/
def Takes2 (s : Shape) (rng : Nat → Nat × Nat) (h : Head2) (c : Nat × Nat) (h' : Head2) : Prop :=
  h.out.port < 2 * s.n ∧ c.1 = outputChannel s h.node h.out.port ∧ h.out.vcBegin ≤ c.2 ∧ c.2 ≤ h.out.vcEnd ∧
    ∃ v q, receivers s c.1 = [(v, q)] ∧ Arrives2 s rng v q { h.pkt with vc := c.2 } h.intm 0 h'

/-- The head wants the ejection port, the last output port
(`rad-sim/sim/noc/booksim/networks/kncube.cpp:165`). -/
def Home2 (s : Shape) (h : Head2) : Prop := h.out.port = 2 * s.n

/-- `dim_order_ni_mesh`, `rad-sim/sim/noc/booksim/routefunc.cpp:707-756`. For a destination outside the network the range
could lie outside that of the class; this is `none` here. -/
def dimOrderNiMesh (s : Shape) (rng : Nat → Nat × Nat) : Rf := fun node f _ _ =>
  if vcOk rng f then
    let r := rng f.cls
    let port := dorNextMesh s node f.dest false
    if node ≠ f.dest then
      let per := (r.2 + 1 - r.1) / s.nodes
      if per > 0 ∧ f.dest < s.nodes then some ⟨port, r.1 + f.dest * per, r.1 + f.dest * per + per - 1, f.ph⟩ else none
    else some ⟨port, r.1, r.2, f.ph⟩
  else none

/-- The loop `next_coord /= gK`, `rad-sim/sim/noc/booksim/routefunc.cpp:787-789`. -/
def divs (k : Nat) : Nat → Nat → Nat
  | 0, x => x
  | d + 1, x => divs k d (x / k)

/-- `dim_order_pni_mesh`, `rad-sim/sim/noc/booksim/routefunc.cpp:760-814`. -/
def dimOrderPniMesh (s : Shape) (rng : Nat → Nat × Nat) : Rf := fun node f _ _ =>
  if vcOk rng f then
    let r := rng f.cls
    let port := dorNextMesh s node f.dest false
    if node ≠ f.dest then
      let next := divs s.k (port / 2) f.dest % s.k
      let per := (r.2 + 1 - r.1) / s.k
      if per > 0 then some ⟨port, r.1 + next * per, r.1 + next * per + per - 1, f.ph⟩ else none
    else some ⟨port, r.1, r.2, f.ph⟩
  else none

end RadSim.Routing
