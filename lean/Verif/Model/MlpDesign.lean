import Verif.Model.MlpCompile

/-!
# The example design `mlp` on a NoC

Models the dispatchers (`rad-sim/example-designs/mlp/modules/dispatcher.cpp`), the collector (`modules/collector.cpp`), the
driver (`mlp_driver.cpp`), and the system in which they and the matrix vector multipliers talk over the NoC.

Simplifications: the state starts after the reset; all modules run on one clock (`mlp.clks`), which is not faster than that of
the NoC, so that it has at most one edge in a period of the NoC; whether the driver has an edge too is an input. The processes
`Assign` of dispatcher and collector are sensitive to all they read, so that their outputs are functions of their inputs.
Every module is on a node of its own (`mlp.place`), at port 0; a node without a port of one of the two kinds has one that
nobody uses. `tkeep` and `tstrb` are left out, as are prints and cycle counts. -/

namespace RadSim.Mlp

open AddDesign (Fifo FifoCfg FifoErr SEdge MEdge)
open Net (Msg each)
open Router (Flit)

/-! ## the driver's side of a dispatcher -/

/-- A line of a file as the driver reads it, `rad-sim/example-designs/mlp/mlp_driver.cpp:9-18`: `operator>>` puts the nearest `int`
into `value` if a number is out of range, and then leaves it for the rest of the line. The lines have `LANES` numbers. -/
def readLine : List Int → Vec
  | [] => []
  | v :: vs =>
    if 2147483648 ≤ v then List.replicate (vs.length + 1) (BitVec.ofInt 32 2147483647)
    else if v < -2147483648 then List.replicate (vs.length + 1) (BitVec.ofInt 32 (-2147483648))
    else BitVec.ofInt 32 v :: readLine vs

/-- The outputs of the driver to a dispatcher, and an element of `written_inputs`,
`rad-sim/example-designs/mlp/mlp_driver.cpp:89-102`. -/
structure Feeder where
  wen : Bool
  wdata : Vec
  written : Nat

/-- After the reset, `rad-sim/example-designs/mlp/mlp_driver.cpp:82-89`. -/
def Feeder.reset : Feeder := ⟨false, [], 0⟩

/-- An edge of the driver's clock in `source`, `rad-sim/example-designs/mlp/mlp_driver.cpp:91-104`. -/
def Feeder.tick (lines : List Vec) (rdy : Bool) (f : Feeder) : Feeder :=
  if rdy && decide (f.written < lines.length) then ⟨true, lines.getD f.written [], f.written + 1⟩
  else { f with wen := false }

/-! ## the dispatcher -/

/-- Arguments of `data_fifo`, `rad-sim/example-designs/mlp/modules/dispatcher.cpp:15-16`,
`rad-sim/example-designs/mlp/modules/collector.cpp:14-15`. -/
def dataCfg (size : Nat) : FifoCfg := ⟨size, size - 1, 0⟩

/-- The vector at the output, if `tvalid`, `rad-sim/example-designs/mlp/modules/dispatcher.cpp:43-67`. -/
def dispOffer (f : Fifo Vec) : Option Vec := if decide (f.rdata.length > 0) && !f.empty then some f.rdata else none

/-- An edge, with the outputs of the driver and whether the NoC takes the beat,
`rad-sim/example-designs/mlp/modules/dispatcher.cpp:15-26,69-70`. -/
def dispTick (size lanes : Nat) (d : Feeder) (tready : Bool) (f : Fifo Vec) : Except FifoErr (Fifo Vec) :=
  f.tick (dataCfg size) (List.replicate lanes 0) d.wen ((dispOffer f).isSome && tready) d.wdata

/-- `data_fifo_rdy`, `rad-sim/example-designs/mlp/modules/dispatcher.cpp:71`. -/
def dispRdy (f : Fifo Vec) : Bool := !f.almostFull

/-! ## the collector -/

/-- `tready`, `rad-sim/example-designs/mlp/modules/collector.cpp:41`. -/
def collReady (f : Fifo Vec) : Bool := !f.almostFull

/-- An edge with the beat at the input, `rad-sim/example-designs/mlp/modules/collector.cpp:14-25,42-54`; `data_fifo_ren` is
`data_fifo_rdy` (`rad-sim/example-designs/mlp/mlp_driver.cpp:150-152`). -/
def collTick (size lanes : Nat) (beat : Option Vec) (f : Fifo Vec) : Except FifoErr (Fifo Vec) :=
  f.tick (dataCfg size) (List.replicate lanes 0) (beat.isSome && collReady f) (!f.empty) (beat.getD [])

/-! ## the driver's side of the collector -/

/-- Variables of `sink`, and what it has reported, `rad-sim/example-designs/mlp/mlp_driver.cpp:111-148`. -/
structure Checker where
  read : Nat
  mistake : Bool
  report : Option Bool

/-- At the start, `rad-sim/example-designs/mlp/mlp_driver.cpp:112-113`. -/
def Checker.reset : Checker := ⟨0, false, none⟩

/-- An edge of the driver's clock in `sink`, `rad-sim/example-designs/mlp/mlp_driver.cpp:116-134`. -/
def Checker.tick (golden : List Vec) (f : Fifo Vec) (k : Checker) : Checker :=
  if k.report.isSome then k
  else if k.read < golden.length then
    if !f.empty && decide (f.rdata.length > 0) then
      ⟨k.read + 1, k.mistake || (List.range f.rdata.length).any (fun i => f.rdata.getD i 0 ≠ (golden.getD k.read []).getD i 0), none⟩
    else k
  else { k with report := some !k.mistake }

/-! ## the design on a NoC -/

/-- The modules, `rad-sim/example-designs/mlp/mlp_top.cpp:36-68`. -/
inductive Block
  | disp (m : Nat) | mvm (l m : Nat) | coll
  deriving DecidableEq

/-- The design: what the compiler knows, the constants, the NoC, the identifier of the RAD, and where the modules are
(`rad-sim/example-designs/mlp/mlp.place:1-16`). -/
structure Params where
  D : Design
  q : Consts
  noc : AxisNoc.Cfg
  rad : Nat
  node : Block → Nat
  block : Nat → Option Block

/-- The lanes of a vector one after the other, from the lowest bit on
(`rad-sim/example-designs/mlp/modules/mvm.cpp:492-495`). -/
def packNat : Vec → Nat
  | [] => 0
  | v :: vs => v.toNat + 2 ^ 32 * packNat vs

/-- `tdata` of a vector, `rad-sim/example-designs/mlp/modules/mvm.cpp:491-496`,
`rad-sim/example-designs/mlp/modules/dispatcher.cpp:44-51`. -/
def pack (lanes : Nat) (v : Vec) : BitVec axisDataW := BitVec.ofNat _ (packNat ((List.range lanes).map fun i => v.getD i 0))

/-- The vector in `tdata`, `rad-sim/example-designs/mlp/modules/mvm.cpp:313-316`,
`rad-sim/example-designs/mlp/modules/collector.cpp:46-52`. -/
def unpack (lanes : Nat) (d : BitVec axisDataW) : Vec :=
  (List.range lanes).map fun i => BitVec.ofNat 32 (d.toNat / 2 ^ (32 * i))

/-- A beat, `rad-sim/example-designs/mlp/modules/mvm.cpp:490-503`,
`rad-sim/example-designs/mlp/modules/dispatcher.cpp:50-61`; `tid` and `tlast` stay 0. -/
def txBeat (d : Params) (dest : Block) (v : Vec) (user : Nat) : AxisTxn where
  tdata := pack d.D.dim v
  tdest := BitVec.ofNat _ (d.rad * 16384 + d.node dest)
  tid := 0
  tkeep := 0
  tlast := false
  tstrb := 0
  tuser := BitVec.ofNat _ user
  id := 0
  type := .readRequest
  iface := 0

/-- The module an instruction names, `rad-sim/example-designs/mlp/modules/mvm.cpp:456-472`; a
negative layer, which no module has and at which the lookup of the name fails, is not told apart from layer 1. -/
def destBlock (layer mvm : BitVec 5) : Block :=
  if layer.toInt = 0 then .coll else .mvm (layer.toInt - 1).toNat mvm.toNat

/-- The state of the design, `rad-sim/example-designs/mlp/mlp_system.cpp:31-50`. -/
structure Sys (σ τ : Type) where
  noc : AxisNoc.Sys σ τ
  feed : Nat → Feeder
  disp : Nat → Fifo Vec
  mvm : Nat → Nat → Sig
  coll : Fifo Vec
  check : Checker

variable {σ τ ρ ρ' : Type}

/-- After the reset of `rad-sim/example-designs/mlp/mlp_driver.cpp:80-87`. -/
def Sys.init (d : Params) (va : Nat → σ) (sa : Nat → τ) : Sys σ τ where
  noc := .init d.noc va sa
  feed := fun _ => .reset
  disp := fun _ => .reset []
  mvm := fun l m => .init (d.D.mvm d.q l m)
  coll := .reset []
  check := .reset

/-- What remains open in a period of the NoC clock (`rad-sim/sim/noc/radsim_noc.cpp:301-321`): time, random numbers, edges, the
value of `_injection_afifo_full` that `InputReady` of a source side adapter has seen, whether modules and driver have an
edge, and what room the adapters show to the modules from this edge on. -/
structure Tick (ρ ρ' : Type) where
  now : Int
  rnd : Nat → Nat → Flit (Msg BsFlit) → Bool
  rva : Nat → ρ
  rsa : Nat → ρ'
  sPre : Nat → List SEdge
  sPost : Nat → List SEdge
  mPre : Nat → List MEdge
  mPost : Nat → List MEdge
  seen : Nat → Bool
  edge : Bool
  drive : Bool
  room : Nat → Bool
  later : Nat → List Bool

/-- What the module at node `u` offers at port `p`, `rad-sim/example-designs/mlp/modules/mvm.cpp:490-512`,
`rad-sim/example-designs/mlp/modules/dispatcher.cpp:45-67`. -/
def offers (d : Params) (x : Sys σ τ) (u p : Nat) : Option AxisTxn :=
  if p = 0 then
    match d.block u with
    | some (.disp m) => (dispOffer (x.disp m)).map fun v => txBeat d (.mvm 0 m) v (3 * 8192)
    | some (.mvm l m) =>
      let w := (x.mvm l m).wire
      if w.txValid then some (txBeat d (destBlock w.txDest.1 w.txDest.2) w.txData w.txUser) else none
    | _ => none
  else none

/-- `tready` of the module at node `u` for port `p`, `rad-sim/example-designs/mlp/modules/mvm.cpp:397-410`,
`rad-sim/example-designs/mlp/modules/collector.cpp:41`. -/
def readies (d : Params) (x : Sys σ τ) (u p : Nat) : Bool :=
  decide (p = 0) &&
    match d.block u with
    | some (.mvm l m) => (x.mvm l m).wire.rxReady
    | some .coll => collReady x.coll
    | _ => false

/-- The period as the NoC sees it (`rad-sim/sim/noc/axis_slave_adapter.cpp:57-67`, `rad-sim/sim/noc/axis_master_adapter.cpp:52-57`). -/
def inOf (d : Params) (t : Tick ρ ρ') (x : Sys σ τ) : AxisNoc.In ρ ρ' where
  now := t.now
  rnd := t.rnd
  rva := t.rva
  rsa := t.rsa
  sPre := fun u => (t.sPre u).map fun
    | .node => .node (offers d x u) (t.seen u)
    | .adapter => .adapter
  sPost := fun u => (t.sPost u).map fun
    | .node => .node (offers d x u) (t.seen u)
    | .adapter => .adapter
  mPre := fun u => (t.mPre u).map fun
    | .node => .node (readies d x u)
    | .adapter cm => .adapter cm
  mPost := fun u => (t.mPost u).map fun
    | .node => .node (readies d x u)
    | .adapter cm => .adapter cm

/-- What stops the program: an error in the NoC or its adapters, in a module, or in a FIFO of a dispatcher or of the collector
(`rad-sim/example-designs/mlp/modules/fifo.cpp:43,49`). -/
inductive SysErr
  | noc (e : AxisNoc.Err) | mvm (l m : Nat) (e : Err) | disp (m : Nat) (e : FifoErr) | coll (e : FifoErr)

/-- The NoC has taken a beat from node `u` in a period (`rad-sim/sim/noc/axis_slave_adapter.cpp:115-143`). -/
def took (x y : AxisNoc.Sys σ τ) (u : Nat) : Bool := decide ((x.got u).length < (y.got u).length)

/-- The beat at the input of the module at node `u`, if `tvalid` (`rad-sim/sim/noc/axis_master_adapter.cpp:284-290`). -/
def shown (x : AxisNoc.Sys σ τ) (u : Nat) : Option AxisOut := (x.master u).port 0

/-- An edge of a matrix vector multiplier on a NoC: `tready` at its output is high iff the NoC takes the beat; `tuser` at its
input keeps its value when `tvalid` falls (`rad-sim/sim/noc/axis_master_adapter.cpp:284-290`). -/
def mvmStep (d : Params) (t : Tick ρ ρ') (x : Sys σ τ) (noc : AxisNoc.Sys σ τ) (l m : Nat) : Except SysErr Sig :=
  let c := d.D.mvm d.q l m
  let u := d.node (.mvm l m)
  let s := settle c (took x.noc noc u) (x.mvm l m) (x.mvm l m)
  let rx : Rx := match shown x.noc u with
    | some o => ⟨true, unpack d.D.dim o.tdata⟩
    | none => ⟨false, []⟩
  let user := match shown noc u with
    | some o => o.tuser.toNat
    | none => s.rxUser
  match cycle c s ⟨rx, user, t.room u, t.later u⟩ with
  | .error e => .error (.mvm l m e)
  | .ok s => .ok s

/-- The lines the driver sends to a dispatcher, `rad-sim/example-designs/mlp/mlp_driver.cpp:51-60`. -/
def Params.lines (d : Params) (m : Nat) : List Vec := (d.D.inputFile m).map readLine

/-- `golden_outputs`, `rad-sim/example-designs/mlp/mlp_driver.cpp:63-68`. -/
def Params.golden (d : Params) : List Vec := d.D.goldenFile.map readLine

/-- An edge of all modules, `rad-sim/example-designs/mlp/mlp_top.cpp:36-68`. -/
def modules (d : Params) (t : Tick ρ ρ') (x : Sys σ τ) (noc : AxisNoc.Sys σ τ) :
    Except SysErr ((Nat → Fifo Vec) × (Nat → Nat → Sig) × Fifo Vec) :=
  match each (x.disp 0) (fun m => (dispTick d.q.fifoSize d.D.dim (x.feed m) (took x.noc noc (d.node (.disp m))) (x.disp m)).mapError
      (.disp m)) (d.D.mvms 0) with
  | .error e => .error e
  | .ok disp =>
    match each (x.mvm 0) (fun l => each (x.mvm 0 0) (mvmStep d t x noc l) (d.D.mvms l)) d.D.layers with
    | .error e => .error e
    | .ok mvm =>
      match collTick d.q.fifoSize d.D.dim ((shown x.noc (d.node .coll)).map fun o => unpack d.D.dim o.tdata) x.coll with
      | .error e => .error (.coll e)
      | .ok coll => .ok (disp, mvm, coll)

/-- One period of the NoC clock, with the edges of the other clocks in it,
`rad-sim/example-designs/mlp/mlp_system.cpp:31-50`. -/
def step (VA : Alloc.Cls σ ρ) (SA : Alloc.Cls τ ρ') (d : Params) (t : Tick ρ ρ') (x : Sys σ τ) : Except SysErr (Sys σ τ) :=
  match AxisNoc.step VA SA d.noc (inOf d t x) x.noc with
  | .error e => .error (.noc e)
  | .ok noc =>
    let feed := if t.drive then fun m => (x.feed m).tick (d.lines m) (dispRdy (x.disp m)) else x.feed
    let check := if t.drive then x.check.tick d.golden x.coll else x.check
    if t.edge then
      match modules d t x noc with
      | .error e => .error e
      | .ok (disp, mvm, coll) => .ok ⟨noc, feed, disp, mvm, coll, check⟩
    else .ok ⟨noc, feed, x.disp, x.mvm, x.coll, check⟩

/-- The state after `n` periods (`rad-sim/sim/main.cpp:50-52`). -/
def sysRun (VA : Alloc.Cls σ ρ) (SA : Alloc.Cls τ ρ') (d : Params) (va : Nat → σ) (sa : Nat → τ) (t : Nat → Tick ρ ρ') :
    Nat → Except SysErr (Sys σ τ)
  | 0 => .ok (.init d va sa)
  | n + 1 =>
    match sysRun VA SA d va sa t n with
    | .error e => .error e
    | .ok x => step VA SA d (t n) x

end RadSim.Mlp
