import Verif.Model.AxisMaster
import Verif.Model.Mesh

/-!
# AXI-Stream adapters on a mesh NoC

Puts together the NoC of `rad-sim/sim/noc/radsim_noc.cpp` (`RadSim.Net`, a mesh with any routing function), the source
side adapter of `rad-sim/sim/noc/axis_slave_adapter.cpp` (`RadSim.slaveRun`) and the sink side adapter of
`rad-sim/sim/noc/axis_master_adapter.cpp` (`RadSim.masterRun`), one of each at every node. One step is one period of the
NoC clock: `radsim_noc::Tick`, then the NoC-clock processes of all adapters, with any number of edges of the node and
adapter clocks before and after them.

The adapters see what `Tick` left at the ends of the channels: `Network::ReadFlit` and `Network::ReadCredit`
(`rad-sim/sim/noc/booksim/networks/network.cpp:203-222`) return the `_output` of the channel, `Network::WriteFlit` sets the
`_input` of the injection channel, which `Tick` takes in the next period.

Simplifications: those of the parts; a node has one adapter of each kind (several would share the buffer state of the node,
`rad-sim/sim/noc/radsim_noc.cpp:41-58`); no reset after the start; `Tick` comes before the adapters in every period, which
covers a scheduler with the other order too, as long as it is the same in all periods. -/

namespace RadSim.AxisNoc

open Router (Flit Hop)
open Routing (Shape Rf)
open Net (Msg injLink ejLink mesh pkt hop each)

/-- The number of a flit type, `rad-sim/sim/noc/booksim/flit.hpp:42-47`. -/
def clsOf : FlitType → Nat
  | .readRequest => 0
  | .writeRequest => 1
  | .writeData => 2
  | .readReply => 3
  | .writeReply => 4

/-- The flit as the network sees it, written at node `u`, `rad-sim/sim/noc/axis_slave_adapter.cpp:220-263`. -/
def toNet (u : Nat) (f : BsFlit) : Flit (Msg BsFlit) where
  vc := f.vc
  head := f.head
  tail := f.tail
  pid := f.pid
  hops := 0
  data := ⟨u, f.dest, clsOf f.type, f⟩

/-- The flit as the sink side adapter reads it, `rad-sim/sim/noc/axis_master_adapter.cpp:76-98`: the channel is the last one
it was on; fields that both records have are taken from the one the routers handle. -/
def toBs (f : Flit (Msg BsFlit)) : BsFlit :=
  { f.data.load with head := f.head, tail := f.tail, pid := f.pid.toNat, dest := f.data.dest, vc := f.vc }

/-- The parts of the system: the shape of the mesh, the configuration of the routers, the routing function, and the adapters
at every node, `rad-sim/sim/noc/radsim_noc.cpp:41-220`. -/
structure Cfg where
  m : Shape
  b : Router.Cfg
  rf : Rf
  sc : Nat → SlaveCfg
  mc : Nat → MasterCfg

/-- An edge of the node clock or of the adapter clock at a source side adapter,
`rad-sim/sim/noc/axis_slave_adapter.cpp:113-148,157-199`. -/
inductive SlaveEdge
  | node (beats : Nat → Option AxisTxn) (injFullSeen : Bool)
  | adapter

/-- The process that runs at an edge, `rad-sim/sim/noc/axis_slave_adapter.cpp:62-67`. -/
def SlaveEdge.event : SlaveEdge → SlaveEvent
  | .node b seen => .node b seen
  | .adapter => .adapter

/-- An edge of the node clock or of the adapter clock at a sink side adapter,
`rad-sim/sim/noc/axis_master_adapter.cpp:127-213,262-291`. -/
inductive MasterEdge
  | adapter (commit : Bool)
  | node (ready : Nat → Bool)

/-- The process that runs at an edge, `rad-sim/sim/noc/axis_master_adapter.cpp:52-57`. -/
def MasterEdge.event : MasterEdge → MasterEvent
  | .adapter cm => .adapter cm
  | .node r => .node r

/-- What the environment supplies in a period: the simulation time, random numbers for the routing function and the
allocators, and for every node the edges of the other two clocks before and after the NoC-clock processes
(`rad-sim/sim/noc/radsim_noc.cpp:301-321`). -/
structure In (ρ ρ' : Type) where
  now : Int
  rnd : Nat → Nat → Flit (Msg BsFlit) → Bool
  rva : Nat → ρ
  rsa : Nat → ρ'
  sPre : Nat → List SlaveEdge
  sPost : Nat → List SlaveEdge
  mPre : Nat → List MasterEdge
  mPost : Nat → List MasterEdge

/-- The state of the system (members of `rad-sim/sim/noc/radsim_noc.hpp:20-60`), with what observers at the nodes have
seen: the beats accepted from the modules (`got`), the flits written to the NoC (`sent`), and the history of the sink
side. -/
structure Sys (σ τ : Type) where
  net : Net.S (Msg BsFlit) σ τ
  slave : Nat → SlaveState
  got : Nat → List AxisTxn
  sent : Nat → List BsFlit
  master : Nat → MasterState
  hist : Nat → MasterHist

/-- After construction and reset, `rad-sim/sim/noc/radsim_noc.cpp:5-220`. -/
def Sys.init {σ τ : Type} (c : Cfg) (va : Nat → σ) (sa : Nat → τ) : Sys σ τ where
  net := .init va sa
  slave := fun u => .init (c.sc u)
  got := fun _ => []
  sent := fun _ => []
  master := fun u => .init (c.mc u)
  hist := fun _ => .empty

/-- What stops the program: a failure in the NoC, or in an adapter of a node (assertions and undefined behaviour, as in
`rad-sim/sim/noc/radsim_noc.cpp:301-321`). -/
inductive Err
  | net (e : Net.Err) | slave (u : Nat) (e : SlaveErr) | master (u : Nat) (e : MasterErr)
  deriving DecidableEq

variable {σ τ ρ ρ' : Type}

/-- What `radsim_noc::Tick` finds, `rad-sim/sim/noc/radsim_noc.cpp:301-321`: credits for the entries of `_ejected_flits`;
the adapters write flits after it. -/
def env (c : Cfg) (i : In ρ ρ') (x : Sys σ τ) : Net.Env (Msg BsFlit) ρ ρ' where
  now := i.now
  inject := fun _ => none
  credit := fun l => (x.master (l - ejLink c.m 0)).credit.map ([·])
  rf := fun r p f => hop (c.rf r (pkt f) p (i.rnd r p f))
  rva := i.rva
  rsa := i.rsa

/-- The period of the source side adapter of node `u`, `rad-sim/sim/noc/axis_slave_adapter.cpp:78-282`; a null pointer from
`ReadCredit` is an empty list. -/
def slavePart (c : Cfg) (i : In ρ ρ') (net : Net.S (Msg BsFlit) σ τ) (x : Sys σ τ) (u : Nat) :
    Except Err (SlaveState × List AxisTxn × List BsFlit) :=
  match slaveRun (c.sc u) (x.slave u)
      ((i.sPre u).map SlaveEdge.event ++ .noc ((net.cOut (injLink c.m u)).getD []) :: (i.sPost u).map SlaveEdge.event) with
  | .error e => .error (.slave u e)
  | .ok y => .ok y

/-- The period of the sink side adapter of node `u`, `rad-sim/sim/noc/axis_master_adapter.cpp:65-295`; `tick` is the
collection of its credit in `rad-sim/sim/noc/radsim_noc.cpp:306-314`. -/
def masterPart (c : Cfg) (i : In ρ ρ') (net : Net.S (Msg BsFlit) σ τ) (x : Sys σ τ) (u : Nat) :
    Except Err (MasterState × MasterHist) :=
  match masterRun (c.mc u) (x.master u) (x.hist u)
      (.tick :: (i.mPre u).map MasterEdge.event ++
        .noc ((net.fOut (ejLink c.m u)).map toBs) :: (i.mPost u).map MasterEdge.event) with
  | (_, .error e) => .error (.master u e)
  | (h, .ok s) => .ok (s, h)

/-- `Network::WriteFlit` of the flits of all nodes, `rad-sim/sim/noc/booksim/networks/network.cpp:196-201`: a second flit in
one period would replace the first. -/
def written (c : Cfg) (out : Nat → SlaveState × List AxisTxn × List BsFlit) (net : Net.S (Msg BsFlit) σ τ) :
    Net.S (Msg BsFlit) σ τ :=
  { net with fIn := fun l =>
      if injLink c.m 0 ≤ l ∧ l < injLink c.m 0 + c.m.nodes then
        (out (l - injLink c.m 0)).2.2.getLast?.map (toNet (l - injLink c.m 0))
      else net.fIn l }

/-- One period of the NoC clock, `rad-sim/sim/noc/radsim_noc.cpp:301-321` and the processes of the adapters. -/
def step (VA : Alloc.Cls σ ρ) (SA : Alloc.Cls τ ρ') (c : Cfg) (i : In ρ ρ') (x : Sys σ τ) : Except Err (Sys σ τ) :=
  match Net.tick VA SA (mesh c.m) c.b (env c i x) x.net with
  | .error e => .error (.net e)
  | .ok net =>
    match each (x.slave 0, [], []) (slavePart c i net x) c.m.nodes with
    | .error e => .error e
    | .ok out =>
      match each (x.master 0, .empty) (masterPart c i net x) c.m.nodes with
      | .error e => .error e
      | .ok ms =>
        .ok { net := written c out net
              slave := fun u => (out u).1
              got := fun u => x.got u ++ (out u).2.1
              sent := fun u => x.sent u ++ (out u).2.2
              master := fun u => (ms u).1
              hist := fun u => (ms u).2 }

/-- The state after `n` periods with the inputs `i 0, i 1, ..` (`rad-sim/sim/noc/radsim_noc.cpp:305-320`). -/
def after (VA : Alloc.Cls σ ρ) (SA : Alloc.Cls τ ρ') (c : Cfg) (va : Nat → σ) (sa : Nat → τ) (i : Nat → In ρ ρ') :
    Nat → Except Err (Sys σ τ)
  | 0 => .ok (.init c va sa)
  | n + 1 =>
    match after VA SA c va sa i n with
    | .error e => .error e
    | .ok x => step VA SA c (i n) x

end RadSim.AxisNoc
