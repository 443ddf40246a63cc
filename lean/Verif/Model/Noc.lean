import Verif.Model.AxisNoc

/-!
# A mesh NoC with adapters of any kind

The NoC of `rad-sim/sim/noc/radsim_noc.cpp` (`RadSim.Net`, a mesh with any routing function) with something at every node that
reads a flit and a credit and writes flits in every period: adapters are a parameter here, `Model/MmNoc.lean` has the ones of
the program. One step is one period of the NoC clock, as in `Model/AxisNoc.lean`: `radsim_noc::Tick`, then the processes of
all adapters. The flits of `Model/AxisNoc.lean` are used (`toNet`, `toBs`).

Simplifications: as in `Model/AxisNoc.lean`. -/

namespace RadSim.Noc

open Router (Flit)
open Routing (Shape Rf)
open Net (Msg injLink ejLink mesh pkt hop each)
open AxisNoc (toNet toBs)

/-- What is at the nodes: the state after reset; a period, given the input, the credits that `ReadCredit` returns and the flit
that `ReadFlit` returns, with the flits handed to `WriteFlit`; and the entry of the node in `_ejected_flits`
(`rad-sim/sim/noc/radsim_noc.cpp:41-220,301-321`). -/
structure Adapters (ι S ε : Type) where
  init : Nat → S
  step : Nat → ι → List Nat → Option BsFlit → S → Except ε (S × List BsFlit)
  credit : S → Option Nat

/-- The shape of the mesh, the configuration of the routers, the routing function, and the adapters,
`rad-sim/sim/noc/radsim_noc.cpp:5-220`. -/
structure Cfg (ι S ε : Type) where
  m : Shape
  b : Router.Cfg
  rf : Rf
  ad : Adapters ι S ε

/-- What the environment supplies in a period: the simulation time, random numbers for the routing function and the
allocators, and the input of every node (`rad-sim/sim/noc/radsim_noc.cpp:301-321`). -/
structure In (ρ ρ' ι : Type) where
  now : Int
  rnd : Nat → Nat → Flit (Msg BsFlit) → Bool
  rva : Nat → ρ
  rsa : Nat → ρ'
  ad : Nat → ι

/-- The state of the system (members of `rad-sim/sim/noc/radsim_noc.hpp:20-60`) and the flits written so far. -/
structure Sys (σ τ S : Type) where
  net : Net.S (Msg BsFlit) σ τ
  ad : Nat → S
  sent : Nat → List BsFlit

variable {σ τ ρ ρ' ι S ε : Type}

/-- After construction and reset, `rad-sim/sim/noc/radsim_noc.cpp:5-220`. -/
def Sys.init (c : Cfg ι S ε) (va : Nat → σ) (sa : Nat → τ) : Sys σ τ S where
  net := .init va sa
  ad := c.ad.init
  sent := fun _ => []

/-- What stops the program: a failure in the NoC, or in an adapter of a node (`rad-sim/sim/noc/radsim_noc.cpp:301-321`). -/
inductive Err (ε : Type)
  | net (e : Net.Err) | node (u : Nat) (e : ε)
  deriving DecidableEq

/-- What `radsim_noc::Tick` finds, `rad-sim/sim/noc/radsim_noc.cpp:301-321`: credits for the entries of `_ejected_flits`;
the adapters write flits after it. -/
def env (c : Cfg ι S ε) (i : In ρ ρ' ι) (x : Sys σ τ S) : Net.Env (Msg BsFlit) ρ ρ' where
  now := i.now
  inject := fun _ => none
  credit := fun l => (c.ad.credit (x.ad (l - ejLink c.m 0))).map ([·])
  rf := fun r p f => hop (c.rf r (pkt f) p (i.rnd r p f))
  rva := i.rva
  rsa := i.rsa

/-- The period of node `u`, which reads the ends of its channels (`rad-sim/sim/noc/booksim/networks/network.cpp:203-222`); a
null pointer from `ReadCredit` is an empty list. -/
def nodePart (c : Cfg ι S ε) (i : In ρ ρ' ι) (net : Net.S (Msg BsFlit) σ τ) (x : Sys σ τ S) (u : Nat) :
    Except (Err ε) (S × List BsFlit) :=
  match c.ad.step u (i.ad u) ((net.cOut (injLink c.m u)).getD []) ((net.fOut (ejLink c.m u)).map toBs) (x.ad u) with
  | .error e => .error (.node u e)
  | .ok y => .ok y

/-- `Network::WriteFlit` of the flits of all nodes, `rad-sim/sim/noc/booksim/networks/network.cpp:196-201`: a second flit in
one period would replace the first. -/
def written (c : Cfg ι S ε) (out : Nat → S × List BsFlit) (net : Net.S (Msg BsFlit) σ τ) : Net.S (Msg BsFlit) σ τ :=
  { net with fIn := fun l =>
      if injLink c.m 0 ≤ l ∧ l < injLink c.m 0 + c.m.nodes then
        (out (l - injLink c.m 0)).2.getLast?.map (toNet (l - injLink c.m 0))
      else net.fIn l }

/-- One period of the NoC clock, `rad-sim/sim/noc/radsim_noc.cpp:301-321` and the processes of the adapters. -/
def step (VA : Alloc.Cls σ ρ) (SA : Alloc.Cls τ ρ') (c : Cfg ι S ε) (i : In ρ ρ' ι) (x : Sys σ τ S) :
    Except (Err ε) (Sys σ τ S) :=
  match Net.tick VA SA (mesh c.m) c.b (env c i x) x.net with
  | .error e => .error (.net e)
  | .ok net =>
    match each (x.ad 0, []) (nodePart c i net x) c.m.nodes with
    | .error e => .error e
    | .ok out =>
      .ok { net := written c out net
            ad := fun u => (out u).1
            sent := fun u => x.sent u ++ (out u).2 }

/-- The state after `n` periods with the inputs `i 0, i 1, ..` (`rad-sim/sim/noc/radsim_noc.cpp:305-320`). -/
def after (VA : Alloc.Cls σ ρ) (SA : Alloc.Cls τ ρ') (c : Cfg ι S ε) (va : Nat → σ) (sa : Nat → τ)
    (i : Nat → In ρ ρ' ι) : Nat → Except (Err ε) (Sys σ τ S)
  | 0 => .ok (.init c va sa)
  | n + 1 =>
    match after VA SA c va sa i n with
    | .error e => .error e
    | .ok x => step VA SA c (i n) x

end RadSim.Noc
