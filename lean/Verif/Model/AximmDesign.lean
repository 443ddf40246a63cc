import Verif.Model.MmNoc

/-!
# The example design `aximm_hello_world`

A driver reads a trace of reads and writes and hands it to a requester, which sends it over the AXI memory-mapped NoC to a
responder with a storage; the responder answers, and the driver stops the simulation when the requester has got as many
responses as the trace has lines (`rad-sim/example-designs/aximm_hello_world`). The NoC is that of `Model/MmNoc.lean`.

Simplifications: the system is modelled from the end of the reset on; driver and modules are on one clock, and this clock has at
most one edge in a period of the NoC clock (the conditions are in `Spec/AximmDesign.lean`); the counter of responses does not
wrap at 2 ^ 32; `pop` of an empty queue, which is undefined, is an error. Text output is left out, but for the data of the read
responses.
-/

namespace RadSim.Hello

open Router (Flit)
open Net (Msg)
open MmSink (Beat)
open MmNoc (NodeIn SinkEdge)

/-- `Command`, `rad-sim/example-designs/aximm_hello_world/aximm_hello_world_driver.hpp:11-16`; the data of a read is not set. -/
structure Cmd where
  write : Bool
  addr : BitVec 64
  data : BitVec 512
  deriving DecidableEq

/-- The NoC, the trace, the depth of the FIFOs, the nodes the two modules are at and the base addresses of their ports
(`rad-sim/example-designs/aximm_hello_world/aximm_hello_world_top.cpp:3-30`, `rad-sim/sim/design_context.cpp:693-697`). -/
structure Params where
  noc : MmNoc.Cfg
  trace : List Cmd
  depth : Nat
  qNode : Nat
  pNode : Nat
  qBase : BitVec 64
  pBase : BitVec 64

/-! ## the driver -/

/-- Whether `source` has begun to send, and `idx`,
`rad-sim/example-designs/aximm_hello_world/aximm_hello_world_driver.cpp:49-73`. -/
structure Driver where
  started : Bool
  idx : Nat

/-- The command while `req_valid` is high, `rad-sim/example-designs/aximm_hello_world/aximm_hello_world_driver.cpp:57-71`. -/
def Driver.offer (tr : List Cmd) (s : Driver) : Option Cmd := if s.started then tr[s.idx]? else none

/-- An edge of `source`, `rad-sim/example-designs/aximm_hello_world/aximm_hello_world_driver.cpp:58-71`. -/
def Driver.edge (tr : List Cmd) (ready : Bool) (s : Driver) : Driver where
  started := true
  idx := if (s.offer tr).isSome && ready then s.idx + 1 else s.idx

/-! ## the requester -/

/-- The members and the registered outputs of the requester,
`rad-sim/example-designs/aximm_hello_world/modules/requester.hpp:14-33`: the three FIFOs, which are pushed and popped together,
`req_fifo_full`, `aw_accepted`, `id_counter`, what is on the request channels, and the responses received, with the data of the
read responses. -/
structure Requester where
  fifo : List Cmd
  full : Bool
  awAccepted : Bool
  id : BitVec 32
  off : ReqOffer
  got : List (Option (BitVec 512))

/-- After reset, `rad-sim/example-designs/aximm_hello_world/modules/requester.cpp:39-52`. -/
def Requester.init : Requester where
  fifo := []
  full := false
  awAccepted := false
  id := 0
  off := ⟨none, none, none⟩
  got := []

/-- What is written to the address channels, `rad-sim/example-designs/aximm_hello_world/modules/requester.cpp:72-83,89-94`;
`DATAW / 8` is cut to three bits. -/
def addrBeat (d : Params) (id : BitVec 32) (x : Cmd) : AddrBeat where
  id := id.setWidth 8
  addr := d.pBase + x.addr
  burst := 0
  size := 0
  len := 0
  user := d.qBase

/-- What is written to the data channel, `rad-sim/example-designs/aximm_hello_world/modules/requester.cpp:97-100`. -/
def dataBeat (d : Params) (id : BitVec 32) (x : Cmd) : DataBeat where
  id := id.setWidth 8
  data := x.data
  last := true
  user := d.qBase

/-- What is written to the three channels, `rad-sim/example-designs/aximm_hello_world/modules/requester.cpp:67-109`. -/
def reqOffer (d : Params) (id : BitVec 32) (awAccepted : Bool) : List Cmd → ReqOffer
  | [] => ⟨none, none, none⟩
  | x :: _ =>
    if x.write then ⟨none, if awAccepted then none else some (addrBeat d id x), some (dataBeat d id x)⟩
    else ⟨some (addrBeat d id x), none, none⟩

/-- A handshake on AW, W, AR (`rad-sim/example-designs/aximm_hello_world/modules/requester.cpp:111-125`). -/
def isAw : ReqBeat → Bool
  | .aw _ => true
  | _ => false

/-- As above, `rad-sim/example-designs/aximm_hello_world/modules/requester.cpp:116-117`. -/
def isW : ReqBeat → Bool
  | .w _ => true
  | _ => false

/-- As above, `rad-sim/example-designs/aximm_hello_world/modules/requester.cpp:124-125`. -/
def isAr : ReqBeat → Bool
  | .ar _ => true
  | _ => false

/-- The response a requester takes at an edge, `rad-sim/example-designs/aximm_hello_world/modules/requester.cpp:133-147`: that
of R before that of B. -/
def response (seen : List (Beat × Bool)) : List (Option (BitVec 512)) :=
  match seen.findSome? (fun y => match y with | (.rsp (.r x), true) => some x.data | _ => none) with
  | some v => [some v]
  | none => if seen.any (fun y => match y with | (.rsp (.b _), true) => true | _ => false) then [none] else []

/-- An edge of `Tick`, `rad-sim/example-designs/aximm_hello_world/modules/requester.cpp:57-150`: `cmd` is what the driver offers,
`hs` the beats with valid and ready high, `seen` what is on the response channels, with the value of ready. -/
def Requester.edge (d : Params) (cmd : Option Cmd) (hs : List ReqBeat) (seen : List (Beat × Bool)) (s : Requester) :
    Option Requester :=
  let fifo := if s.full then s.fifo else s.fifo ++ cmd.toList
  let s' := { s with
    fifo
    full := decide (d.depth ≤ fifo.length)
    off := reqOffer d s.id s.awAccepted fifo
    got := s.got ++ response seen }
  if hs.any isAw then some { s' with awAccepted := true, id := s.id + 1 }
  else if hs.any isW then
    match fifo with
    | [] => none
    | _ :: rest => some { s' with awAccepted := false, fifo := rest, id := s.id + 1 }
  else if hs.any isAr then
    match fifo with
    | [] => none
    | _ :: rest => some { s' with fifo := rest, id := s.id + 1 }
  else some s'

/-! ## the responder -/

/-- An entry of `resp_type_fifo`, `resp_addr_fifo` and `resp_data_fifo`, which are pushed and popped together,
`rad-sim/example-designs/aximm_hello_world/modules/responder.hpp:25-27`. -/
structure Answer where
  write : Bool
  addr : BitVec 64
  data : BitVec 512
  deriving DecidableEq

/-- The members and the registered outputs of the responder,
`rad-sim/example-designs/aximm_hello_world/modules/responder.hpp:14-41`. -/
structure Responder where
  waddr : List (BitVec 64)
  wdata : List (BitVec 512)
  baddr : List (BitVec 64)
  araddr : List (BitVec 64)
  raddr : List (BitVec 64)
  wreqFull : Bool
  wdataFull : Bool
  rreqFull : Bool
  resp : List Answer
  respFull : Bool
  id : BitVec 32
  storage : BitVec 64 → Option (BitVec 512)
  off : RspOffer

/-- After reset, `rad-sim/example-designs/aximm_hello_world/modules/responder.cpp:42-51`. -/
def Responder.init : Responder where
  waddr := []
  wdata := []
  baddr := []
  araddr := []
  raddr := []
  wreqFull := false
  wdataFull := false
  rreqFull := false
  resp := []
  respFull := false
  id := 0
  storage := fun _ => none
  off := ⟨none, none⟩

/-- The ready signals, `rad-sim/example-designs/aximm_hello_world/modules/responder.cpp:30-37`. -/
def Responder.ready (s : Responder) : MmType → Bool
  | .ar => !s.rreqFull && !s.respFull
  | .aw => !s.wreqFull && !s.respFull
  | .w => !s.wdataFull && !s.respFull
  | _ => false

/-- The beat on AR, AW, W with valid and ready high (`rad-sim/example-designs/aximm_hello_world/modules/responder.cpp:56-71`). -/
def takesAr (seen : List (Beat × Bool)) : Option AddrBeat :=
  seen.findSome? fun y => match y with | (.req (.ar a), true) => some a | _ => none

/-- As above, `rad-sim/example-designs/aximm_hello_world/modules/responder.cpp:63-64`. -/
def takesAw (seen : List (Beat × Bool)) : Option AddrBeat :=
  seen.findSome? fun y => match y with | (.req (.aw a), true) => some a | _ => none

/-- As above, `rad-sim/example-designs/aximm_hello_world/modules/responder.cpp:70-71`. -/
def takesW (seen : List (Beat × Bool)) : Option DataBeat :=
  seen.findSome? fun y => match y with | (.req (.w x), true) => some x | _ => none

/-- The first part of `Tick`, `rad-sim/example-designs/aximm_hello_world/modules/responder.cpp:55-74`: AR before AW before W. -/
def Responder.take (seen : List (Beat × Bool)) (s : Responder) : Responder :=
  match takesAr seen with
  | some a => { s with araddr := s.araddr ++ [a.addr], raddr := s.raddr ++ [a.user] }
  | none =>
    match takesAw seen with
    | some a => { s with waddr := s.waddr ++ [a.addr], baddr := s.baddr ++ [a.user] }
    | none =>
      match takesW seen with
      | some x => { s with wdata := s.wdata ++ [x.data] }
      | none => s

/-- The second part, `rad-sim/example-designs/aximm_hello_world/modules/responder.cpp:76-103`: a read before a write. -/
def Responder.execute (s : Responder) : Responder :=
  match s.raddr, s.araddr with
  | r :: rs, a :: as =>
    { s with raddr := rs, araddr := as, resp := s.resp ++ [⟨false, r, (s.storage a).getD 0⟩] }
  | _, _ =>
    match s.waddr, s.wdata, s.baddr with
    | a :: as, v :: vs, b :: bs =>
      { s with waddr := as, wdata := vs, baddr := bs
               storage := fun x => if x = a then some v else s.storage x
               resp := s.resp ++ [⟨true, b, v⟩] }
    | _, _, _ => s

/-- What is written to the response channels, `rad-sim/example-designs/aximm_hello_world/modules/responder.cpp:105-128`. -/
def rspOffer (id : BitVec 32) : List Answer → RspOffer
  | [] => ⟨none, none⟩
  | x :: _ =>
    if x.write then ⟨none, some ⟨id.setWidth 8, 0, x.addr⟩⟩
    else ⟨some ⟨id.setWidth 8, x.data, 0, true, x.addr⟩, none⟩

/-- An edge of `Tick`, `rad-sim/example-designs/aximm_hello_world/modules/responder.cpp:54-156`: `seen` is what is on the request
channels, with the value of ready, `hs` the responses with valid and ready high. -/
def Responder.edge (d : Params) (seen : List (Beat × Bool)) (hs : List RspBeat) (s : Responder) : Option Responder :=
  let s1 := (s.take seen).execute
  let s2 := { s1 with off := rspOffer s1.id s1.resp }
  let popped : Option Responder :=
    if hs = [] then some s2
    else match s2.resp with
      | [] => none
      | _ :: rest => some { s2 with resp := rest, id := s2.id + 1 }
  popped.map fun s3 => { s3 with
    wreqFull := decide (d.depth ≤ s3.waddr.length)
    wdataFull := decide (d.depth ≤ s3.wdata.length)
    rreqFull := decide (d.depth ≤ s3.araddr.length)
    respFull := decide (d.depth ≤ s3.resp.length) }

/-! ## the system -/

variable {σ τ ρ ρ' : Type}

/-- What remains open in a period of the NoC clock (`rad-sim/sim/noc/radsim_noc.cpp:301-321`): time, random numbers, the edges of
node clock and adapter clock at the source sides and at the sink sides (an edge of the node clock is `none`), before and after the
edge of the NoC clock, and whether the modules have an edge. -/
structure Tick (ρ ρ' : Type) where
  now : Int
  rnd : Nat → Nat → Flit (Msg BsFlit) → Bool
  rva : Nat → ρ
  rsa : Nat → ρ'
  pre : Nat → List (Bool × Bool)
  post : Nat → List (Bool × Bool)
  outPre : Nat → List (Option Bool)
  outPost : Nat → List (Option Bool)
  edge : Bool

/-- The system, `rad-sim/example-designs/aximm_hello_world/aximm_hello_world_system.cpp:3-27`. -/
structure Sys (σ τ : Type) where
  noc : MmNoc.Sys σ τ
  drv : Driver
  req : Requester
  rsp : Responder

/-- After reset, `rad-sim/example-designs/aximm_hello_world/aximm_hello_world_driver.cpp:50-55`. -/
def Sys.init (d : Params) (va : Nat → σ) (sa : Nat → τ) : Sys σ τ where
  noc := Noc.Sys.init d.noc.noc va sa
  drv := ⟨false, 0⟩
  req := .init
  rsp := .init

/-- The signals of a module during a period: `o` up to the edge of its clock, `o'` from it on
(`rad-sim/example-designs/aximm_hello_world/modules/requester.cpp:13`). -/
def fill {α : Type} (o o' : α) : List (Bool × Bool) → List (Bool × Bool × α)
  | [] => []
  | (true, a) :: l => (true, a, o') :: l.map fun x => (x.1, x.2, o')
  | (false, a) :: l => (false, a, o) :: fill o o' l

/-- The edges at a sink side, where the module shows `ready` (`rad-sim/sim/noc/aximm_master_adapter.cpp:41-45`). -/
def sinkEdges (ready : MmType → Bool) (l : List (Option Bool)) : List SinkEdge :=
  l.map fun e => match e with
    | some b => .adapter b
    | none => .node ready

/-- What the adapters of a node see in a period: requester and responder with the outputs before and after their edge
(`rad-sim/sim/design_context.cpp:485-564`). -/
def nodeIn (d : Params) (t : Tick ρ ρ') (x : Sys σ τ) (q : ReqOffer) (p : RspOffer) (u : Nat) : NodeIn :=
  if u = d.qNode then
    let l := fill x.req.off q (t.pre u ++ t.post u)
    ⟨l.take (t.pre u).length, l.drop (t.pre u).length, [], [],
      sinkEdges (fun _ => true) (t.outPre u), sinkEdges (fun _ => true) (t.outPost u)⟩
  else if u = d.pNode then
    let l := fill x.rsp.off p (t.pre u ++ t.post u)
    ⟨[], [], l.take (t.pre u).length, l.drop (t.pre u).length,
      sinkEdges x.rsp.ready (t.outPre u), sinkEdges x.rsp.ready (t.outPost u)⟩
  else ⟨[], [], [], [], [], []⟩

/-- The input of the NoC in a period, `rad-sim/sim/noc/radsim_noc.cpp:301-321`. -/
def input (d : Params) (t : Tick ρ ρ') (x : Sys σ τ) (q : ReqOffer) (p : RspOffer) : MmNoc.In ρ ρ' :=
  ⟨t.now, t.rnd, t.rva, t.rsa, nodeIn d t x q p⟩

/-- What stops the program: a failure of the NoC, or `pop` of an empty queue in a module
(`rad-sim/example-designs/aximm_hello_world/modules/requester.cpp:119-128`,
`rad-sim/example-designs/aximm_hello_world/modules/responder.cpp:133-143`). -/
inductive Err
  | noc (e : Noc.Err MmNoc.Err) | requester | responder
  deriving DecidableEq

/-- The edge of the driver and the modules, given the state of the NoC before the period and one in which this edge has been:
the beats handed over and shown in between are those that the modules see at their edge
(`rad-sim/example-designs/aximm_hello_world/modules/requester.cpp:57-150`,
`rad-sim/example-designs/aximm_hello_world/modules/responder.cpp:54-156`,
`rad-sim/example-designs/aximm_hello_world/aximm_hello_world_driver.cpp:58-71`). -/
def modules (d : Params) (x : Sys σ τ) (y : MmNoc.Sys σ τ) : Except Err (Driver × Requester × Responder) :=
  match x.req.edge d (x.drv.offer d.trace) ((y.ad d.qNode).reqs.drop (x.noc.ad d.qNode).reqs.length)
      ((y.ad d.qNode).hist.shown.drop (x.noc.ad d.qNode).hist.shown.length) with
  | none => .error .requester
  | some q =>
    match x.rsp.edge d ((y.ad d.pNode).hist.shown.drop (x.noc.ad d.pNode).hist.shown.length)
        ((y.ad d.pNode).rsps.drop (x.noc.ad d.pNode).rsps.length) with
    | none => .error .responder
    | some p => .ok (x.drv.edge d.trace (!x.req.full), q, p)

/-- A period of the NoC clock (`rad-sim/sim/noc/radsim_noc.cpp:301-321`). The handshakes at the edge of the modules depend on
what the modules drive before it only, so that they can be found from a period in which the modules keep their outputs; the
period itself is the one with the new outputs from the edge on. -/
def step (VA : Alloc.Cls σ ρ) (SA : Alloc.Cls τ ρ') (d : Params) (t : Tick ρ ρ') (x : Sys σ τ) : Except Err (Sys σ τ) :=
  match Noc.step VA SA d.noc.noc (input d t x x.req.off x.rsp.off) x.noc with
  | .error e => .error (.noc e)
  | .ok y =>
    if t.edge then
      match modules d x y with
      | .error e => .error e
      | .ok (v, q, p) =>
        match Noc.step VA SA d.noc.noc (input d t x q.off p.off) x.noc with
        | .error e => .error (.noc e)
        | .ok z => .ok ⟨z, v, q, p⟩
    else .ok { x with noc := y }

/-- The state after `n` periods (`rad-sim/sim/main.cpp:50-52`). -/
def sysRun (VA : Alloc.Cls σ ρ) (SA : Alloc.Cls τ ρ') (d : Params) (va : Nat → σ) (sa : Nat → τ) (t : Nat → Tick ρ ρ') :
    Nat → Except Err (Sys σ τ)
  | 0 => .ok (.init d va sa)
  | n + 1 =>
    match sysRun VA SA d va sa t n with
    | .error e => .error e
    | .ok x => step VA SA d (t n) x

/-- `sink` of the driver stops the simulation, `rad-sim/example-designs/aximm_hello_world/aximm_hello_world_driver.cpp:75-82`. -/
def Sys.stops (d : Params) (x : Sys σ τ) : Bool := decide (d.trace.length ≤ x.req.got.length)

end RadSim.Hello
