import Verif.Model.Network
import Verif.Model.Routing

/-!
# A mesh of routers

`KNCube`, `rad-sim/sim/noc/booksim/networks/kncube.cpp`, as a wiring of `RadSim.Net`, with the routing functions of
`RadSim.Routing` in the routers.

Simplifications: those of the two parts; the partition `ph` is left out, mesh routing does not use it. A failed assertion
of a routing function offers nothing here; that none fails is a theorem. -/

namespace RadSim.Net

open Router (Flit Hop)
open Routing (Shape Pkt Rf)

/-- The fields of a flit that routers do not change, `rad-sim/sim/noc/booksim/flit.hpp:38-97`: `src`, `dest`, `type`, and
the rest. -/
structure Msg (δ : Type) where
  src : Nat
  dest : Nat
  cls : Nat
  load : δ
  deriving DecidableEq, Repr

/-- `_inject[node]`, numbered after `_chan`, `rad-sim/sim/noc/booksim/networks/network.cpp:130-142`. -/
def injLink (s : Shape) (u : Nat) : Nat := 2 * s.n * s.nodes + u

/-- `_eject[node]`, numbered after `_inject`, `rad-sim/sim/noc/booksim/networks/network.cpp:144-156`. -/
def ejLink (s : Shape) (u : Nat) : Nat := 2 * s.n * s.nodes + s.nodes + u

/-- `KNCube::_BuildNet` for a mesh, `rad-sim/sim/noc/booksim/networks/kncube.cpp:70-169`: for every dimension two input
and two output channels, then the channels of the node; all latencies are 1. -/
def mesh (s : Shape) : Topo where
  size := s.nodes
  links := 2 * s.n * s.nodes + s.nodes + s.nodes
  inputs := fun _ => 2 * s.n + 1
  outputs := fun _ => 2 * s.n + 1
  inLink := fun r i => if i < 2 * s.n then Routing.inputChannel s r i else injLink s r
  outLink := fun r o => if o < 2 * s.n then Routing.outputChannel s r o else ejLink s r
  flitDelay := fun _ => 1
  creditDelay := fun _ => 1

variable {δ ρ ρ' : Type}

/-- The fields of a flit that routing functions read, `rad-sim/sim/noc/booksim/routefunc.cpp:665-703`. -/
def pkt (f : Flit (Msg δ)) : Pkt := ⟨f.data.dest, f.data.cls, f.vc, -1⟩

/-- `OutputSet::AddRange` with the default priority, `rad-sim/sim/noc/booksim/outputset.hpp:46`. -/
def hop : Option Routing.Out → List Hop
  | none => []
  | some o => [⟨o.port, o.vcBegin, o.vcEnd, 0⟩]

/-- All routers use the routing function `fn`, with some random draw at every call,
`rad-sim/sim/noc/booksim/routers/iq_router.cpp:76-84,538`. -/
def Uses (fn : Rf) (x : Env (Msg δ) ρ ρ') : Prop := ∀ r i f, ∃ rnd, x.rf r i f = hop (fn r (pkt f) i rnd)

end RadSim.Net
