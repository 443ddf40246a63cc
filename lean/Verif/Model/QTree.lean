import Verif.Model.Fly

/-!
# The quad tree

Models `QTree` (`rad-sim/sim/noc/booksim/networks/qtree.cpp`) and its routing function `qtree_nca`
(`rad-sim/sim/noc/booksim/routefunc.cpp:76-125`). The constructor asserts radix 4 and three levels
(`rad-sim/sim/noc/booksim/networks/qtree.cpp:63`): one router at the top, four on level 1, sixteen on level 2, and 64 terminals.
The router at position `pos` of level `h` has the number `256 * h + pos` (`rad-sim/sim/noc/booksim/networks/qtree.cpp:88`).

Simplifications: those of `Verif/Model/Routing.lean`; the call with `inject` set is left out. -/

namespace RadSim.Routing

/-- The numbers of the routers, `rad-sim/sim/noc/booksim/networks/qtree.cpp:85-100`. -/
def qtNodes : List Nat := (List.range 3).flatMap fun h => (List.range (4 ^ h)).map fun pos => h * 256 + pos

/-- `HeightFromID`, `rad-sim/sim/noc/booksim/networks/qtree.cpp:177-180`. -/
def qtHeight (id : Nat) : Nat := id / 256

/-- `PosFromID`, `rad-sim/sim/noc/booksim/networks/qtree.cpp:182-185`. -/
def qtPos (id : Nat) : Nat := id % 256

/-- `_channels`, `rad-sim/sim/noc/booksim/networks/qtree.cpp:73-75`. -/
def qtChannels : Nat := ((List.range' 1 2).map fun j => 2 * 4 ^ j).sum

/-- `_InputIndex`, `rad-sim/sim/noc/booksim/networks/qtree.cpp:158-165`. -/
def qtInputIndex (height pos port : Nat) : Nat := ((List.range height).map fun h => 4 ^ (h + 1)).sum + 4 * pos + port

/-- `_OutputIndex`, `rad-sim/sim/noc/booksim/networks/qtree.cpp:167-174`. -/
def qtOutputIndex (height pos port : Nat) : Nat :=
  qtChannels / 2 + ((List.range height).map fun h => 4 ^ (h + 1)).sum + 4 * pos + port

/-- The input channels of a router in the order of the calls of `AddInputChannel`, that is, by port; `none` is an injection
channel. `rad-sim/sim/noc/booksim/networks/qtree.cpp:103-108` and `115-140`. -/
def qtIns (id : Nat) : List (Option Nat) :=
  let h := qtHeight id
  let pos := qtPos id
  (if h = 2 then List.replicate 4 none else []) ++
  (if h < 2 then (List.range 4).map fun port => some (qtInputIndex h pos port) else []) ++
  (if h > 0 then [some (qtOutputIndex (h - 1) (pos / 4) (pos % 4))] else [])

/-- The output channels of a router in the order of the calls of `AddOutputChannel`; `none` is an ejection channel.
`rad-sim/sim/noc/booksim/networks/qtree.cpp:103-112` and `115-147`. -/
def qtOuts (id : Nat) : List (Option Nat) :=
  let h := qtHeight id
  let pos := qtPos id
  (if h = 2 then List.replicate 4 none else []) ++
  (if h < 2 then (List.range 4).map fun port => some (qtOutputIndex h pos port) else []) ++
  (if h > 0 then [some (qtInputIndex (h - 1) (pos / 4) (pos % 4))] else [])

/-- The output port that `qtree_nca` gives, `rad-sim/sim/noc/booksim/routefunc.cpp:106-118`. -/
def qtPort (node dest : Nat) : Nat :=
  let d := (List.range (3 - (qtHeight node + 1))).foldl (fun d _ => d / 4) dest
  if qtPos node = d / 4 then d % 4 else 4

/-- `qtree_nca`, `rad-sim/sim/noc/booksim/routefunc.cpp:76-125`. A failing assertion is `none`. -/
def qtree (rng : Nat → Nat × Nat) (node : Nat) (f : Pkt) : Option Out :=
  if vcOk rng f then some ⟨qtPort node f.dest, (rng f.cls).1, (rng f.cls).2, f.ph⟩ else none

/-- A head arriving at a router is routed there once
(`rad-sim/sim/noc/booksim/routers/iq_router.cpp:429-533`, `VC::Route`). -/
def QtArrives (rng : Nat → Nat × Nat) (node inPort : Nat) (f : Pkt) (h : Head) : Prop :=
  ∃ o, qtree rng node f = some o ∧ h = ⟨node, inPort, f, o⟩

/-- A packet enters at terminal `t`, which injects at port `t % 4` of router `t / 4` of level 2
(`rad-sim/sim/noc/booksim/networks/qtree.cpp:103-108`). -/
def QtEnters (rng : Nat → Nat × Nat) (t : Nat) (h : Head) : Prop :=
  ∃ f, t < 64 ∧ f.dest < 64 ∧ QtArrives rng (2 * 256 + t / 4) (t % 4) f h

/-- The head takes virtual channel `c.2` of the channel `c.1` at its output port and arrives at a router that reads the
channel (`rad-sim/sim/noc/booksim/networks/qtree.cpp:115-147`). -/
def QtTakes (rng : Nat → Nat × Nat) (h : Head) (c : Nat × Nat) (h' : Head) : Prop :=
  (qtOuts h.node).getD h.out.port none = some c.1 ∧ h.out.vcBegin ≤ c.2 ∧ c.2 ≤ h.out.vcEnd ∧
    ∃ v ∈ qtNodes, ∃ q, (qtIns v).getD q none = some c.1 ∧ QtArrives rng v q { h.pkt with vc := c.2 } h'

/-- The head wants to leave at terminal `t`: output port `p < 4` of the router at position `a` of level 2 ejects at terminal
`4 * a + p` (`rad-sim/sim/noc/booksim/networks/qtree.cpp:103-112`). -/
def QtEjects (h : Head) (t : Nat) : Prop :=
  qtHeight h.node = 2 ∧ h.out.port < 4 ∧ t = 4 * qtPos h.node + h.out.port

end RadSim.Routing
