import Verif.Model.Noc
import Verif.Model.AxiMmSink
import Verif.Model.BufferState

/-!
# A mesh NoC with AXI memory-mapped adapters

The NoC of `Model/Noc.lean` with, at every node, an `aximm_slave_adapter` (the module of the node sends requests and gets
responses), an `aximm_master_adapter` (the module of the node gets requests and sends responses), or no adapter: the system of
`rad-sim/sim/noc/radsim_noc.cpp` for a design with AXI memory-mapped ports only. The source sides are those of
`Model/AxiMm.lean`, the sink sides those of `Model/AxiMmSink.lean`; here the buffer state of the node decides whether a flit can
be injected.

In a period of the NoC clock an adapter has any edges of its other clocks before and after the edge of the NoC clock.
Simplifications: those of `Model/AxisNoc.lean`, `Model/AxiMm.lean` and `Model/AxiMmSink.lean`; one adapter per node.
-/

namespace RadSim.MmNoc

open Routing (Shape Rf)

/-- What is at a node, `rad-sim/sim/noc/radsim_noc.cpp:158-259`. -/
inductive Kind
  | none | slave | master
  deriving DecidableEq

/-- An adapter: constructor arguments and knobs, `rad-sim/sim/noc/aximm_slave_adapter.cpp:5-71`,
`rad-sim/sim/noc/aximm_master_adapter.cpp:3-63`. -/
structure NodeCfg where
  kind : Kind
  /-- The virtual channels of the packet types in `_noc_config` -/
  vcs : VcRanges
  /-- `_interface_dataw` -/
  dataw : Nat
  /-- `_injection_afifo_depth` -/
  depth : Nat
  /-- `_freq_ratio` -/
  ratio : Nat
  /-- `_ejection_afifo_depth` -/
  ejDepth : Nat

/-- The source side, `rad-sim/sim/noc/aximm_slave_adapter.cpp:30-60` and `rad-sim/sim/noc/aximm_master_adapter.cpp:46-75`. -/
def NodeCfg.mm (c : NodeCfg) : MmCfg := ⟨c.vcs.begins, c.dataw, c.depth, c.ratio⟩

/-- The sink side, `rad-sim/sim/noc/aximm_slave_adapter.cpp:62-79` and `rad-sim/sim/noc/aximm_master_adapter.cpp:27-45`. -/
def NodeCfg.sink (c : NodeCfg) : MmSink.Cfg := ⟨decide (c.kind = .master), c.vcs, c.ejDepth⟩

/-- An edge of the adapter clock or of the node clock at the sink side,
`rad-sim/sim/noc/aximm_master_adapter.cpp:41-45`. -/
inductive SinkEdge
  | adapter (commit : Bool)
  | node (ready : MmType → Bool)

/-- As an event of the sink side, `rad-sim/sim/noc/aximm_master_adapter.cpp:41-45`. -/
def SinkEdge.event : SinkEdge → MmSink.Event
  | .adapter b => .adapter b
  | .node r => .node r

/-- The edges of the node clock and the adapter clock before and after the edge of the NoC clock, with what the module offers
after them: requests for a slave adapter, responses for a master adapter; and those of the sink side
(`rad-sim/sim/noc/aximm_slave_adapter.cpp:51-79`, `rad-sim/sim/noc/aximm_master_adapter.cpp:41-75`). -/
structure NodeIn where
  reqPre : List (Bool × Bool × ReqOffer)
  reqPost : List (Bool × Bool × ReqOffer)
  rspPre : List (Bool × Bool × RspOffer)
  rspPost : List (Bool × Bool × RspOffer)
  outPre : List SinkEdge
  outPost : List SinkEdge

/-- An edge at the source side of a slave adapter, `rad-sim/sim/noc/aximm_slave_adapter.cpp:51-60`. -/
def reqEdge (x : Bool × Bool × ReqOffer) : ReqEvent := .edge x.1 x.2.1 x.2.2

/-- An edge at the source side of a master adapter, `rad-sim/sim/noc/aximm_master_adapter.cpp:66-75`. -/
def rspEdge (x : Bool × Bool × RspOffer) : RspEvent := .edge x.1 x.2.1 x.2.2

/-- The state of a node: the source sides, the beats accepted from the module so far, the buffer state of the node, the sink
side with what has been seen at it (`rad-sim/sim/noc/aximm_slave_adapter.hpp:25-120`,
`rad-sim/sim/noc/aximm_master_adapter.hpp:25-80`). The source side of the other kind of adapter is not used. -/
structure Node where
  req : ReqState
  reqs : List ReqBeat
  rsp : RspState
  rsps : List RspBeat
  buf : BufState
  sink : MmSink.State
  hist : MmSink.Hist

/-- After construction and reset, `rad-sim/sim/noc/radsim_noc.cpp:41-58,158-259`. -/
def Node.init (c : NodeCfg) : Node where
  req := .init
  reqs := []
  rsp := .init
  rsps := []
  buf := .init
  sink := .init c.sink
  hist := .empty

/-- What stops the program in an adapter: an error of the buffer state or of the sink side
(`rad-sim/sim/noc/booksim/buffer_state.cpp:560-640`, `rad-sim/sim/noc/aximm_master_adapter.cpp:104-257`). -/
inductive Err
  | buf (e : BufErr) | sink (e : MmSink.Err)
  deriving DecidableEq

/-- The flit that `InputInjection` tries to inject, `rad-sim/sim/noc/aximm_slave_adapter.cpp:380-389` and
`rad-sim/sim/noc/aximm_master_adapter.cpp:571-580`. -/
def nextFlit (k : Pkt) : Option ScFlit :=
  match k.toInj, k.fifo with
  | some f, _ => some f
  | none, f :: _ => some f
  | none, [] => none

/-- `InputInjection` and the buffer state, `rad-sim/sim/noc/aximm_slave_adapter.cpp:391-450` and
`rad-sim/sim/noc/aximm_master_adapter.cpp:582-643`: whether the flit is injected, and the buffer state after `TakeBuffer`,
`SendingFlit` and `ProcessCredit`; a null pointer from `ReadCredit` is an empty list. -/
def injectBuf (b : BufCfg) (k : Pkt) (s : BufState) (credits : List Nat) : Except BufErr (Bool × BufState) :=
  let sent : Except BufErr (Bool × BufState) :=
    match nextFlit k with
    | none => .ok (false, s)
    | some f =>
      if !s.isFullFor b f.vc.toNat && (!f.head || !b.waitTail || s.isAvailableFor f.vc.toNat) then
        match (if f.head then s.takeBuffer b f.vc.toNat 0 else .ok s) with
        | .error e => .error e
        | .ok s1 =>
          match s1.sendingFlit b f.vc.toNat f.tail with
          | .error e => .error e
          | .ok s2 => .ok (true, s2)
      else .ok (false, s)
  match sent with
  | .error e => .error e
  | .ok (accept, s') =>
    match s'.processCredit b credits with
    | .error e => .error e
    | .ok s'' => .ok (accept, s'')

/-- A period of the sink side: the credit is collected, then the edges
(`rad-sim/sim/noc/radsim_noc.cpp:301-321`, `rad-sim/sim/noc/aximm_master_adapter.cpp:108-363`). -/
def sinkEvents (i : NodeIn) (arrive : Option BsFlit) : List MmSink.Event :=
  .tick :: (i.outPre.map SinkEdge.event ++ .noc arrive :: i.outPost.map SinkEdge.event)

/-- A period of the source side of a slave adapter (`rad-sim/sim/noc/aximm_slave_adapter.cpp:92-454`). -/
def reqEvents (i : NodeIn) (accept : Bool) : List ReqEvent :=
  i.reqPre.map reqEdge ++ .noc accept :: i.reqPost.map reqEdge

/-- A period of the source side of a master adapter (`rad-sim/sim/noc/aximm_master_adapter.cpp:367-647`). -/
def rspEvents (i : NodeIn) (accept : Bool) : List RspEvent :=
  i.rspPre.map rspEdge ++ .noc accept :: i.rspPost.map rspEdge

/-- A period at a node (`rad-sim/sim/noc/aximm_slave_adapter.cpp:92-689`, `rad-sim/sim/noc/aximm_master_adapter.cpp:108-647`).
At a node without adapters nothing is read or written. -/
def nodeStep (b : BufCfg) (c : NodeCfg) (i : NodeIn) (credits : List Nat) (arrive : Option BsFlit) (s : Node) :
    Except Err (Node × List BsFlit) :=
  match c.kind with
  | .none => .ok (s, [])
  | .slave =>
    match injectBuf b (reqRun c.mm s.req (i.reqPre.map reqEdge)).1.k s.buf credits with
    | .error e => .error (.buf e)
    | .ok (accept, buf) =>
      match MmSink.run c.sink s.sink s.hist (sinkEvents i arrive) with
      | (_, .error e) => .error (.sink e)
      | (hist, .ok sink) =>
        let r := reqRun c.mm s.req (reqEvents i accept)
        .ok ({ s with req := r.1, reqs := s.reqs ++ r.2.1, buf, sink, hist }, r.2.2)
  | .master =>
    match injectBuf b (rspRun c.mm s.rsp (i.rspPre.map rspEdge)).1.k s.buf credits with
    | .error e => .error (.buf e)
    | .ok (accept, buf) =>
      match MmSink.run c.sink s.sink s.hist (sinkEvents i arrive) with
      | (_, .error e) => .error (.sink e)
      | (hist, .ok sink) =>
        let r := rspRun c.mm s.rsp (rspEvents i accept)
        .ok ({ s with rsp := r.1, rsps := s.rsps ++ r.2.1, buf, sink, hist }, r.2.2)

/-- The adapters, `rad-sim/sim/noc/radsim_noc.cpp:158-259`. -/
def adapters (b : BufCfg) (nc : Nat → NodeCfg) : Noc.Adapters NodeIn Node Err where
  init u := .init (nc u)
  step u := nodeStep b (nc u)
  credit s := s.sink.credit

/-- The shape of the mesh, the routers, the routing function and the adapters, `rad-sim/sim/noc/radsim_noc.cpp:5-259`. -/
structure Cfg where
  m : Shape
  b : Router.Cfg
  rf : Rf
  nc : Nat → NodeCfg

/-- The system, `rad-sim/sim/noc/radsim_noc.cpp:5-321`. -/
def Cfg.noc (c : Cfg) : Noc.Cfg NodeIn Node Err := ⟨c.m, c.b, c.rf, adapters c.b.buf c.nc⟩

/-- What the environment supplies in a period (`rad-sim/sim/noc/radsim_noc.cpp:301-321`). -/
abbrev In (ρ ρ' : Type) : Type := Noc.In ρ ρ' NodeIn

/-- The state of the system (`rad-sim/sim/noc/radsim_noc.hpp:20-60`). -/
abbrev Sys (σ τ : Type) : Type := Noc.Sys σ τ Node

variable {σ τ ρ ρ' : Type}

/-- The state after `n` periods, `rad-sim/sim/noc/radsim_noc.cpp:301-321`. -/
def after (VA : Alloc.Cls σ ρ) (SA : Alloc.Cls τ ρ') (c : Cfg) (va : Nat → σ) (sa : Nat → τ) (i : Nat → In ρ ρ') (n : Nat) :
    Except (Noc.Err Err) (Sys σ τ) :=
  Noc.after VA SA c.noc va sa i n

end RadSim.MmNoc
