import Verif.Model.AxisNoc

/-!
# The example designs `add` and `mult`

Models `rad-sim/example-designs/add` (and `mult`, which differs only in the operation): the FIFO of
`modules/fifo.cpp`, the client of `modules/client.cpp`, the module that computes the result (`modules/adder.cpp`,
`mult/modules/mult.cpp`), the driver of `add_driver.cpp`, and the system in which client and adder talk over the NoC.

Simplifications: the state starts after the reset; the numbers are not negative and less than `2^31` (the driver draws them
from 1 to 10, `rad-sim/example-designs/add/add_driver.cpp:21`); the driver, the client and the adder run on clocks of the
same period and phase, which is not shorter than that of the NoC (`rad-sim/example-designs/add/config.yml:5,10,39`), so that
they have at most one edge in a period of the NoC, and a module reads what the others wrote at earlier edges; prints and
cycle counts are left out. -/

namespace RadSim.AddDesign

open Net (Msg)
open Router (Flit)
open AxisNoc (Cfg In)

/-! ## the FIFO -/

/-- Constructor arguments, `rad-sim/example-designs/add/modules/fifo.cpp:4-18`. -/
structure FifoCfg where
  depth : Nat
  almostFull : Nat
  almostEmpty : Nat

/-- The queue and the outputs, `rad-sim/example-designs/add/modules/fifo.hpp:15-29`. -/
structure Fifo (α : Type) where
  mem : List α
  empty : Bool
  almostEmpty : Bool
  full : Bool
  almostFull : Bool
  rdata : α

/-- After reset, `rad-sim/example-designs/add/modules/fifo.cpp:30-36`. -/
def Fifo.reset {α : Type} (zero : α) : Fifo α := ⟨[], true, true, false, false, zero⟩

/-- The errors that end the program, `rad-sim/example-designs/add/modules/fifo.cpp:42,48` with
`rad-sim/sim/radsim_telemetry.cpp:186-192`. -/
inductive FifoErr
  | underflow | overflow
  deriving DecidableEq, Repr

/-- The outputs for a queue, `rad-sim/example-designs/add/modules/fifo.cpp:52-63`. -/
def Fifo.show {α : Type} (c : FifoCfg) (zero : α) (mem : List α) : Fifo α where
  mem := mem
  empty := mem.isEmpty
  almostEmpty := decide (mem.length ≤ c.almostEmpty)
  full := decide (mem.length = c.depth)
  almostFull := decide (c.almostFull ≤ mem.length)
  rdata := mem.headD zero

/-- A clock edge, `rad-sim/example-designs/add/modules/fifo.cpp:39-66`. -/
def Fifo.tick {α : Type} (c : FifoCfg) (zero : α) (f : Fifo α) (wen ren : Bool) (wdata : α) : Except FifoErr (Fifo α) :=
  let popped : Except FifoErr (List α) :=
    if ren then (match f.mem with
      | [] => .error .underflow
      | _ :: r => .ok r)
    else .ok f.mem
  match popped with
  | .error e => .error e
  | .ok mem =>
    if wen then
      if mem.length = c.depth then .error .overflow
      else .ok (Fifo.show c zero (mem ++ [wdata]))
    else .ok (Fifo.show c zero mem)

/-! ## the client -/

/-- The FIFOs of the client for a given `FIFO_DEPTH`, `rad-sim/example-designs/add/modules/client.cpp:12,26`. -/
def clientFifo (depth : Nat) : FifoCfg := ⟨depth, depth - 1, 0⟩

/-- The two FIFOs, `rad-sim/example-designs/add/modules/client.hpp:17-20`. -/
structure Client where
  data : Fifo Nat
  last : Fifo Bool

/-- After reset, `rad-sim/example-designs/add/modules/client.cpp:12-36`. -/
def Client.reset : Client := ⟨.reset 0, .reset false⟩

/-- `client_ready`, `rad-sim/example-designs/add/modules/client.cpp:106`. -/
def Client.ready (k : Client) : Bool := !k.data.almostFull

/-- What the client shows at its NoC port, `rad-sim/example-designs/add/modules/client.cpp:83-104`; `none` is `tvalid` low. -/
def Client.offer (k : Client) : Option (Nat × Bool) := if k.data.empty then none else some (k.data.rdata, k.last.rdata)

/-- A clock edge at which the driver shows `valid`, `v` and `l` and the adapter shows `tready`,
`rad-sim/example-designs/add/modules/client.cpp:106-114`. -/
def Client.tick (depth : Nat) (k : Client) (valid : Bool) (v : Nat) (l tready : Bool) : Except FifoErr Client :=
  let wen := k.ready && valid
  let ren := k.offer.isSome && tready
  match k.data.tick (clientFifo depth) 0 wen ren v with
  | .error e => .error e
  | .ok data =>
    match k.last.tick (clientFifo depth) false wen ren l with
    | .error e => .error e
    | .ok last => .ok ⟨data, last⟩

/-! ## the driver -/

/-- The process `source` between two edges: the numbers left and the outputs,
`rad-sim/example-designs/add/add_driver.hpp:14,22-24`. -/
structure Source where
  queue : List Nat
  valid : Bool
  tdata : Nat
  tlast : Bool

/-- After the reset of `rad-sim/example-designs/add/add_driver.cpp:36-42`. -/
def Source.reset (l : List Nat) : Source := ⟨l, false, 0, false⟩

/-- A clock edge, `rad-sim/example-designs/add/add_driver.cpp:44-57`: the number shown is removed if the client took it, then
the next is shown. -/
def Source.tick (s : Source) (ready : Bool) : Source :=
  let queue := if s.valid && ready then s.queue.tail else s.queue
  match queue with
  | [] => { s with queue := [], valid := false }
  | v :: r => ⟨v :: r, true, v, decide (r.length + 1 ≤ 1)⟩

/-! ## the adder -/

/-- The two designs: `rad-sim/example-designs/add/modules/adder.cpp:52`, `rad-sim/example-designs/mult/modules/mult.cpp:43`. -/
inductive Op
  | add | mult
  deriving DecidableEq, Repr

/-- The start value, `rad-sim/example-designs/add/modules/adder.cpp:25`, `rad-sim/example-designs/mult/modules/mult.cpp:24`. -/
def Op.unit : Op → Nat
  | .add => 0
  | .mult => 1

/-- The operation, `rad-sim/example-designs/add/modules/adder.cpp:52`, `rad-sim/example-designs/mult/modules/mult.cpp:43`. -/
def Op.apply : Op → Nat → Nat → Nat
  | .add, a, b => a + b
  | .mult, a, b => a * b

/-- `adder_rolling_sum`, `t_finished`, `response_valid`, `response`, `rad-sim/example-designs/add/modules/adder.hpp:16-24`. -/
structure Adder where
  acc : Nat
  finished : Bool
  respValid : Bool
  response : Nat

/-- After reset, `rad-sim/example-designs/add/modules/adder.cpp:25,34-35`. -/
def Adder.reset (o : Op) : Adder := ⟨o.unit, false, false, 0⟩

/-- A clock edge with the beat taken at it, `rad-sim/example-designs/add/modules/adder.cpp:47-64`: `t_finished` is a signal, so
that what is read is its value before the edge. -/
def Adder.tick (o : Op) (a : Adder) (beat : Option AxisOut) : Adder :=
  let (acc, finished) := match beat with
    | none => (a.acc, a.finished)
    | some b => (o.apply a.acc (b.tdata.toNat % 2 ^ 64) % 2 ^ 64, b.tlast)
  if a.finished then ⟨acc, finished, true, acc⟩ else { a with acc, finished }

/-- The process `sink`, `rad-sim/example-designs/add/add_driver.cpp:60-72`: what it has reported. -/
def sinkTick (want : Nat) (a : Adder) : Option Bool → Option Bool
  | some r => some r
  | none => if a.respValid then some (decide (a.response = want)) else none

/-! ## the design on a NoC -/

/-- An edge of the node clock or of the adapter clock at a source side adapter,
`rad-sim/sim/noc/axis_slave_adapter.cpp:62-67`. -/
inductive SEdge
  | node | adapter
  deriving DecidableEq

/-- An edge of the node clock or of the adapter clock at a sink side adapter,
`rad-sim/sim/noc/axis_master_adapter.cpp:52-57`. -/
inductive MEdge
  | node | adapter (commit : Bool)
  deriving DecidableEq

/-- What remains open in a period of the NoC clock (`rad-sim/sim/noc/radsim_noc.cpp:301-321`): time, random numbers, edges,
and the value of `_injection_afifo_full` that `InputReady` of a source side adapter has seen. -/
structure Tick (ρ ρ' : Type) where
  now : Int
  rnd : Nat → Nat → Flit (Msg BsFlit) → Bool
  rva : Nat → ρ
  rsa : Nat → ρ'
  sPre : Nat → List SEdge
  sPost : Nat → List SEdge
  mPre : Nat → List MEdge
  mPost : Nat → List MEdge
  seen : Nat → Bool

/-- The design: the NoC, the node of the client, the node of the adder, the identifier of the RAD, `FIFO_DEPTH`, the operation,
and the numbers, `rad-sim/example-designs/add/add_top.cpp:3-32`, `rad-sim/example-designs/add/add_driver.cpp:18-25`. -/
structure Params where
  noc : Cfg
  client : Nat
  adder : Nat
  rad : Nat
  depth : Nat
  op : Op
  numbers : List Nat

/-- `actual_sum`, `rad-sim/example-designs/add/add_driver.cpp:16-25`. -/
def Params.want (d : Params) : Nat := d.numbers.foldl d.op.apply d.op.unit

/-- The beat of the client, `rad-sim/example-designs/add/modules/client.cpp:84-101`. -/
def clientBeat (d : Params) (v : Nat) (l : Bool) : AxisTxn where
  tdata := BitVec.ofNat _ v
  tdest := BitVec.ofNat _ (d.rad * 16384 + d.adder)
  tid := 0
  tkeep := 0
  tlast := l
  tstrb := 0
  tuser := BitVec.ofNat _ d.client
  id := 0
  type := .readRequest
  iface := 0

/-- What the modules offer at the ports of node `u`: only the client offers something, at its only port,
`rad-sim/example-designs/add/modules/client.cpp:125-126`. -/
def offers (d : Params) (k : Client) (u p : Nat) : Option AxisTxn :=
  if u = d.client ∧ p = 0 then k.offer.map fun y => clientBeat d y.1 y.2 else none

/-- The period as the NoC sees it; the adder is always ready, `rad-sim/example-designs/add/modules/adder.cpp:27-30`. -/
def inOf {ρ ρ' : Type} (d : Params) (t : Tick ρ ρ') (k : Client) : In ρ ρ' where
  now := t.now
  rnd := t.rnd
  rva := t.rva
  rsa := t.rsa
  sPre := fun u => (t.sPre u).map fun
    | .node => .node (offers d k u) (t.seen u)
    | .adapter => .adapter
  sPost := fun u => (t.sPost u).map fun
    | .node => .node (offers d k u) (t.seen u)
    | .adapter => .adapter
  mPre := fun u => (t.mPre u).map fun
    | .node => .node fun _ => true
    | .adapter cm => .adapter cm
  mPost := fun u => (t.mPost u).map fun
    | .node => .node fun _ => true
    | .adapter cm => .adapter cm

/-- The state of the design, `rad-sim/example-designs/add/add_system.cpp:3-28`. -/
structure Sys (σ τ : Type) where
  noc : AxisNoc.Sys σ τ
  src : Source
  client : Client
  adder : Adder
  report : Option Bool

/-- After the reset of `rad-sim/example-designs/add/add_driver.cpp:36-42`. -/
def Sys.init {σ τ : Type} (d : Params) (va : Nat → σ) (sa : Nat → τ) : Sys σ τ :=
  ⟨.init d.noc va sa, .reset d.numbers, .reset, .reset d.op, none⟩

/-- What stops the program: an error in the NoC or its adapters, or one of a FIFO
(`rad-sim/example-designs/add/modules/fifo.cpp:42,48`). -/
inductive Err
  | noc (e : AxisNoc.Err) | fifo (e : FifoErr)

variable {σ τ ρ ρ' : Type}

/-- The handshakes at port 0 of the adder so far (`rad-sim/sim/noc/axis_master_adapter.cpp:264-265`). -/
def taken (d : Params) (x : AxisNoc.Sys σ τ) : List AxisOut :=
  ((x.hist d.adder).delivered.filter fun y => y.1 = 0).map (·.2)

/-- One period of the NoC clock, with the edges of the module clock in it,
`rad-sim/example-designs/add/add_system.cpp:3-28`. -/
def step (VA : Alloc.Cls σ ρ) (SA : Alloc.Cls τ ρ') (d : Params) (t : Tick ρ ρ') (x : Sys σ τ) : Except Err (Sys σ τ) :=
  match AxisNoc.step VA SA d.noc (inOf d t x.client) x.noc with
  | .error e => .error (.noc e)
  | .ok noc =>
    let adder :=
      if MEdge.node ∈ t.mPre d.adder ++ t.mPost d.adder then
        x.adder.tick d.op ((taken d noc).drop (taken d x.noc).length).head?
      else x.adder
    if SEdge.node ∈ t.sPre d.client ++ t.sPost d.client then
      match x.client.tick d.depth x.src.valid x.src.tdata x.src.tlast
          (decide ((x.noc.got d.client).length < (noc.got d.client).length)) with
      | .error e => .error (.fifo e)
      | .ok client => .ok ⟨noc, x.src.tick x.client.ready, client, adder, sinkTick d.want x.adder x.report⟩
    else .ok ⟨noc, x.src, x.client, adder, x.report⟩

/-- The state after `n` periods (`rad-sim/sim/main.cpp:51-53`). -/
def run (VA : Alloc.Cls σ ρ) (SA : Alloc.Cls τ ρ') (d : Params) (va : Nat → σ) (sa : Nat → τ) (t : Nat → Tick ρ ρ') :
    Nat → Except Err (Sys σ τ)
  | 0 => .ok (.init d va sa)
  | n + 1 =>
    match run VA SA d va sa t n with
    | .error e => .error e
    | .ok x => step VA SA d (t n) x

end RadSim.AddDesign
