import Verif.Model.Mesh

/-!
# A torus of routers

`KNCube` with `_mesh` false, `rad-sim/sim/noc/booksim/networks/kncube.cpp`, and `dim_order_torus` in the routers.

Simplifications: those of `Verif.Model.Mesh`, except that the partition `ph` of a flit matters here. The routers of the model
do not carry it; they recompute it from the virtual channel, which tells it when a class has an even number of channels
(`Routing.partition_of_channel` in `Verif.Lemmas.Torus`). -/

namespace RadSim.Net

open Router (Flit Hop)
open Routing (Shape Pkt available dimOrderTorus)

variable {δ ρ ρ' : Type}

/-- `KNCube::_BuildNet` for a torus, `rad-sim/sim/noc/booksim/networks/kncube.cpp:70-169`: the channels of a mesh, those
between routers with a latency of 2 if `use_noc_latency` is 1. -/
def torus (s : Shape) (useLatency : Bool) : Topo where
  size := s.nodes
  links := 2 * s.n * s.nodes + s.nodes + s.nodes
  inputs := fun _ => 2 * s.n + 1
  outputs := fun _ => 2 * s.n + 1
  inLink := fun r i => if i < 2 * s.n then Routing.inputChannel s r i else injLink s r
  outLink := fun r o => if o < 2 * s.n then Routing.outputChannel s r o else ejLink s r
  flitDelay := fun l => if useLatency ∧ l < 2 * s.n * s.nodes then 2 else 1
  creditDelay := fun l => if useLatency ∧ l < 2 * s.n * s.nodes then 2 else 1

/-- The partition to which a virtual channel belongs, `rad-sim/sim/noc/booksim/routefunc.cpp:1613-1630`. -/
def part (r : Nat × Nat) (v : Nat) : Int := if v < r.1 + available r then 0 else 1

/-- The fields of a flit that `dim_order_torus` reads, `rad-sim/sim/noc/booksim/routefunc.cpp:1569-1636`. -/
def pktT (rng : Nat → Nat × Nat) (f : Flit (Msg δ)) : Pkt := ⟨f.data.dest, f.data.cls, f.vc, part (rng f.data.cls) f.vc⟩

/-- All routers use `dim_order_torus`, with some random draw at every call,
`rad-sim/sim/noc/booksim/routers/iq_router.cpp:76-84,538`. -/
def UsesTorus (s : Shape) (rng : Nat → Nat × Nat) (x : Env (Msg δ) ρ ρ') : Prop :=
  ∀ r i f, ∃ rnd, x.rf r i f = hop (dimOrderTorus s rng r (pktT rng f) i rnd)

end RadSim.Net
