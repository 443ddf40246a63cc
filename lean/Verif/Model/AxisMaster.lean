import Verif.Model.AxisSlave

/-!
# AXI-Stream master adapter (sink side of the NoC)

Models `rad-sim/sim/noc/axis_master_adapter.cpp` and the credit collection of
`rad-sim/sim/noc/radsim_noc.cpp:301-321`. The clocked processes are step functions, a run is an
arbitrary list of their edges. Resets during operation are not modelled. Telemetry calls and
`_output_packet_ready`/`_stream_id` (written, never read) are left out.

The ejection FIFOs are plain C++ queues shared by two processes, the push counters are signals: a
reader on a coincident edge sees the new FIFO and the old counter. `pushNext` is the value written
last, `push` the value a reader sees; an adapter edge chooses which one it reads (`commit`), which
covers every order of coincident edges.
-/

namespace RadSim

/-- Constructor arguments and knobs, `rad-sim/sim/noc/axis_master_adapter.cpp:3-58`. -/
structure MasterCfg where
  /-- `_num_axis_interfaces` -/
  n : Nat
  /-- `_interface_dataw` -/
  dataw : Nat → Nat
  /-- `_num_vcs` -/
  vcs : Nat
  /-- `_ejection_afifo_depth` -/
  depth : Nat
  /-- `_output_afifo_depth` -/
  outDepth : Nat

/-- The mutable members, `rad-sim/sim/noc/axis_master_adapter.hpp:35-47`; a `sc_packet` is its list
of flits (`rad-sim/sim/noc/sc_flit.hpp:50-66`). `port i` is what interface `i` shows while `tvalid`
is high; `credit` is this node's entry in `*_ejected_flits`. -/
structure MasterState where
  held : Option BsFlit
  fifos : Nat → List ScFlit
  push : Nat → Nat
  pushNext : Nat → Nat
  pop : Nat → Nat
  prio : List Nat
  depack : Bool
  pkt : List ScFlit
  outq : Nat → List (List ScFlit)
  port : Nat → Option AxisOut
  chunk : Nat → Nat
  credit : Option Nat

/-- State after construction and the initial reset,
`rad-sim/sim/noc/axis_master_adapter.cpp:35-50,67-69,122-125,253-258`. -/
def MasterState.init (c : MasterCfg) : MasterState where
  held := none
  fifos := fun _ => []
  push := fun _ => 0
  pushNext := fun _ => 0
  pop := fun _ => 0
  prio := List.range c.vcs
  depack := false
  pkt := []
  outq := fun _ => []
  port := fun _ => none
  chunk := fun _ => 0
  credit := none

/-- What stops the simulation or is undefined in `rad-sim/sim/noc/axis_master_adapter.cpp`: a VC
outside the FIFO vector (line 82), an interface outside the output vector (lines 138, 160, 171),
`front()` of an empty priority queue (128) or ejection FIFO (175) or output FIFO (266), the
assertions of line 198 and of `sc_packet::GetFlit` (268). -/
inductive MasterErr
  | badVc | badInterface | noChannel | popEmpty | outEmpty | counterAssert | emptyPacket
  deriving DecidableEq, Repr

/-- One NoC-clock edge of `OutputEjection`, `rad-sim/sim/noc/axis_master_adapter.cpp:72-117`.
`arrive` is what `_noc->ReadFlit` returns if it is called in this cycle. -/
def ejectStep (c : MasterCfg) (s : MasterState) (arrive : Option BsFlit) :
    Except MasterErr MasterState :=
  let s := { s with push := s.pushNext }
  let cur := match s.held with
    | some f => some f
    | none => arrive
  match cur with
  | none => .ok { s with held := none }
  | some f =>
    if f.vc < c.vcs then
      if (s.fifos f.vc).length < c.depth then
        .ok { s with
          held := none
          fifos := upd s.fifos f.vc (s.fifos f.vc ++ [ejectFlit f])
          pushNext := if f.tail then upd s.pushNext f.vc (s.pushNext f.vc + 1) else s.pushNext }
      else .ok { s with held := some f }
    else .error .badVc

/-- `dest_output_fifo` of a FIFO, `rad-sim/sim/noc/axis_master_adapter.cpp:129-134`. -/
def destOf (s : MasterState) (v : Nat) : Nat :=
  match s.fifos v with
  | [] => 0
  | f :: _ => f.destIf.toNat

/-- `_output_afifos[d].size() < _output_afifo_depth`,
`rad-sim/sim/noc/axis_master_adapter.cpp:138,160,171`. -/
def roomFor (c : MasterCfg) (s : MasterState) (d : Nat) : Except MasterErr Bool :=
  if d < c.n then .ok (decide ((s.outq d).length < c.outDepth)) else .error .badInterface

/-- `fifo_has_complete_packet`, `rad-sim/sim/noc/axis_master_adapter.cpp:135-138,157-160`; the
second operand of `&&` is evaluated only if the first holds. -/
def hasPacket (c : MasterCfg) (s : MasterState) (v d : Nat) : Except MasterErr Bool :=
  if s.pop v < s.push v then roomFor c s d else .ok false

/-- The search loop, `rad-sim/sim/noc/axis_master_adapter.cpp:147-162`, `k` iterations left. -/
def searchLoop (c : MasterCfg) (s : MasterState) :
    Nat → List Nat → Nat → Bool → Except MasterErr (List Nat × Nat × Bool)
  | 0, prio, d, complete => .ok (prio, d, complete)
  | k + 1, prio, d, complete =>
    if complete then .ok (prio, d, complete)
    else
      match rotate1 prio with
      | [] => .error .noChannel
      | v :: vs =>
        match s.fifos v with
        | [] => searchLoop c s k (v :: vs) d false
        | f :: _ =>
          match hasPacket c s v f.destIf.toNat with
          | .error e => .error e
          | .ok b => searchLoop c s k (v :: vs) f.destIf.toNat b

/-- `rad-sim/sim/noc/axis_master_adapter.cpp:171-210`. Also returns the channel a flit was taken
from. `map::insert` (line 182) keeps an entry that is already there. -/
def popPhase (c : MasterCfg) (s : MasterState) (d : Nat) (complete : Bool) :
    Except MasterErr (MasterState × List Nat) :=
  match roomFor c s d with
  | .error e => .error e
  | .ok room =>
    if room && complete then
      match s.prio with
      | [] => .error .noChannel
      | v :: vs =>
        match s.fifos v with
        | [] => .error .popEmpty
        | f :: rest =>
          let credit := match s.credit with
            | some w => some w
            | none => some v
          if f.tail then
            if s.pop v + 1 ≤ s.push v then
              .ok ({ s with
                fifos := upd s.fifos v rest
                credit
                outq := upd s.outq d (s.outq d ++ [s.pkt ++ [f]])
                pkt := []
                depack := false
                pop := upd s.pop v (s.pop v + 1)
                prio := vs ++ [v] }, [v])
            else .error .counterAssert
          else
            .ok ({ s with
              fifos := upd s.fifos v rest
              credit
              pkt := s.pkt ++ [f]
              depack := true }, [v])
    else .ok ({ s with prio := rotate1 s.prio }, [])

/-- One adapter-clock edge of `OutputDepacketization`,
`rad-sim/sim/noc/axis_master_adapter.cpp:127-213`. -/
def depackStep (c : MasterCfg) (s : MasterState) (commit : Bool) :
    Except MasterErr (MasterState × List Nat) :=
  let s := if commit then { s with push := s.pushNext } else s
  match s.prio with
  | [] => .error .noChannel
  | v :: vs =>
    match hasPacket c s v (destOf s v) with
    | .error e => .error e
    | .ok complete =>
      if s.depack then popPhase c s (destOf s v) complete
      else
        match searchLoop c s c.vcs (v :: vs) (destOf s v) complete with
        | .error e => .error e
        | .ok (prio, d, complete) => popPhase c { s with prio } d complete

/-- `num_chunks`, `rad-sim/sim/noc/axis_master_adapter.cpp:271-273`. -/
def numChunks (total nf : Nat) : Nat := (total + (nf - 1)) / nf

/-- First half of `OutputInterface` for one interface,
`rad-sim/sim/noc/axis_master_adapter.cpp:264-282`: the output FIFO and chunk counter after a
handshake, if there is one. -/
def acceptPhase (nf : Nat) (q : List (List ScFlit)) (chunk : Nat) (port : Option AxisOut)
    (ready : Bool) : Except MasterErr (List (List ScFlit) × Nat) :=
  if ready && port.isSome then
    match q with
    | [] => .error .outEmpty
    | p :: rest =>
      if p.length = 0 then .error .emptyPacket
      else if chunk + 1 = numChunks p.length nf then .ok (rest, 0)
      else .ok (p :: rest, chunk + 1)
  else .ok (q, chunk)

/-- Second half, `rad-sim/sim/noc/axis_master_adapter.cpp:284-290`: what the port shows next. -/
def presentPhase (q : List (List ScFlit)) : Except MasterErr (Option AxisOut) :=
  match q with
  | [] => .ok none
  | p :: _ =>
    match axisOutput p with
    | none => .error .emptyPacket
    | some o => .ok (some o)

/-- The interfaces `0..k-1` of one node-clock edge of `OutputInterface`, in order,
`rad-sim/sim/noc/axis_master_adapter.cpp:262-291`. -/
def portLoop (c : MasterCfg) (ready : Nat → Bool) : Nat → MasterState → Except MasterErr MasterState
  | 0, s => .ok s
  | k + 1, s =>
    match portLoop c ready k s with
    | .error e => .error e
    | .ok s =>
      match acceptPhase (numFlits (c.dataw k)) (s.outq k) (s.chunk k) (s.port k) (ready k) with
      | .error e => .error e
      | .ok (q, ch) =>
        match presentPhase q with
        | .error e => .error e
        | .ok p => .ok { s with outq := upd s.outq k q, chunk := upd s.chunk k ch,
                                port := upd s.port k p }

/-- Clock edges. `tick` is the credit collection of `radsim_noc::Tick`
(`rad-sim/sim/noc/radsim_noc.cpp:306-314`), `noc`, `adapter` and `node` the three processes of the
adapter (`rad-sim/sim/noc/axis_master_adapter.cpp:52-57`). -/
inductive MasterEvent
  | noc (arrive : Option BsFlit)
  | adapter (commit : Bool)
  | node (ready : Nat → Bool)
  | tick

/-- What an observer outside the adapter has seen: flits read from the router and flits that were
on the ejection channel in a cycle in which nobody read it (`Channel::WriteOutputs` overwrites the
output, `rad-sim/sim/noc/booksim/channel.hpp:108-124`), handshakes on the ports, channels whose
FIFO a flit was taken from, and credits sent to the router. -/
structure MasterHist where
  accepted : List BsFlit
  dropped : List BsFlit
  delivered : List (Nat × AxisOut)
  pops : List Nat
  credits : List Nat

/-- Nothing seen yet (before `rad-sim/sim/noc/axis_master_adapter.cpp:72`). -/
def MasterHist.empty : MasterHist := ⟨[], [], [], [], []⟩

/-- Handshakes of a node-clock edge: `tready && tvalid`,
`rad-sim/sim/noc/axis_master_adapter.cpp:264-265`. -/
def portHandshakes (c : MasterCfg) (s : MasterState) (ready : Nat → Bool) : List (Nat × AxisOut) :=
  (List.range c.n).filterMap (fun i => if ready i then (s.port i).map (fun o => (i, o)) else none)

/-- One event, with the history extended (`rad-sim/sim/noc/axis_master_adapter.cpp:65-295`,
`rad-sim/sim/noc/radsim_noc.cpp:306-314`). -/
def masterStep (c : MasterCfg) (s : MasterState) (h : MasterHist) :
    MasterEvent → MasterHist × Except MasterErr MasterState
  | .noc arrive =>
    (match s.held with
      | none => { h with accepted := h.accepted ++ arrive.toList }
      | some _ => { h with dropped := h.dropped ++ arrive.toList },
     ejectStep c s arrive)
  | .adapter commit =>
    match depackStep c s commit with
    | .error e => (h, .error e)
    | .ok (s', popped) => ({ h with pops := h.pops ++ popped }, .ok s')
  | .node ready =>
    ({ h with delivered := h.delivered ++ portHandshakes c s ready }, portLoop c ready c.n s)
  | .tick => ({ h with credits := h.credits ++ s.credit.toList }, .ok { s with credit := none })

/-- A run: final state, or the error that stopped it, and the history
(`rad-sim/sim/noc/axis_master_adapter.cpp:65-295`). -/
def masterRun (c : MasterCfg) (s : MasterState) (h : MasterHist) :
    List MasterEvent → MasterHist × Except MasterErr MasterState
  | [] => (h, .ok s)
  | e :: es =>
    match masterStep c s h e with
    | (h', .error err) => (h', .error err)
    | (h', .ok s') => masterRun c s' h' es

end RadSim
