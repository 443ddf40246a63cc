import Verif.Model.AxisPacket
import Verif.Model.BufferState

/-!
# AXI-Stream slave adapter (source side of the NoC)

Models `rad-sim/sim/noc/axis_slave_adapter.cpp`. The three clocked processes are three step
functions; a run is an arbitrary list of their clock edges, so every ratio and phase of the node,
adapter and NoC clocks is covered. Telemetry calls only supply the transaction number, which is
part of the event. `_freq_ratio` and the look-ahead route set are not used by the modelled
behaviour.
-/

namespace RadSim

/-- Constructor arguments and knobs, `rad-sim/sim/noc/axis_slave_adapter.cpp:3-55`. -/
structure SlaveCfg where
  /-- `_num_axis_interfaces` -/
  n : Nat
  /-- `_interface_dataw` -/
  dataw : Nat → Nat
  /-- `_interface_types` -/
  types : Nat → FlitType
  /-- `_noc_config` -/
  vc : VcConfig
  /-- `_injection_afifo_depth` -/
  depth : Nat
  /-- `_rad_id` -/
  radId : Nat
  /-- `_portal_id` -/
  portalId : Nat
  /-- parameters of `_buffer_state` -/
  buf : BufCfg

/-- `_num_flits_per_packet[i]`, `rad-sim/sim/noc/axis_slave_adapter.cpp:27-36`. -/
def SlaveCfg.flits (c : SlaveCfg) (i : Nat) : Nat := numFlits (c.dataw i)

/-- `_input_axis_transactions_afifo_depth`, `rad-sim/sim/noc/axis_slave_adapter.cpp:51`. -/
def inFifoDepth : Nat := 2

/-- `q.push(q.front()); q.pop();` on a `std::queue`, e.g.
`rad-sim/sim/noc/axis_slave_adapter.cpp:92-93`. -/
def rotate1 : List Nat → List Nat
  | [] => []
  | x :: xs => xs ++ [x]

/-- The arbitration loop, `rad-sim/sim/noc/axis_slave_adapter.cpp:86-94`: `k` iterations left.
Returns the queue and the interface chosen, if any. -/
def readyLoop (injFull : Bool) (valid : Nat → Bool) : Nat → List Nat → List Nat × Option Nat
  | 0, q => (q, none)
  | _ + 1, [] => ([], none)
  | k + 1, x :: q =>
    if !injFull && valid x then (x :: q, some x)
    else readyLoop injFull valid k (q ++ [x])

/-- `while (front() != 0) rotate`, `rad-sim/sim/noc/axis_slave_adapter.cpp:96-99`. `none` means the
loop did not end within the given number of iterations. -/
def rotateToZero : Nat → List Nat → Option (List Nat)
  | _, [] => none
  | _, 0 :: q => some (0 :: q)
  | 0, _ :: _ => none
  | k + 1, x :: q => rotateToZero k (q ++ [x])

/-- `InputReady`, `rad-sim/sim/noc/axis_slave_adapter.cpp:78-105`: the new priority queue and the
`tready` outputs. -/
def inputReady (n : Nat) (inFull injFull : Bool) (valid : Nat → Bool) (q : List Nat) :
    Option (List Nat × (Nat → Bool)) :=
  let r := readyLoop injFull valid n q
  match rotateToZero n r.1 with
  | none => none
  | some q' => some (q', fun i => !inFull && r.2 == some i)

/-- The mutable members, `rad-sim/sim/noc/axis_slave_adapter.hpp:40-57`; `toInj` is
`_to_be_injected_flit` guarded by `_injection_flit_ready`. -/
structure SlaveState where
  prio : List Nat
  inFifo : List AxisTxn
  inFull : Bool
  cycle : Nat
  injFifo : List ScFlit
  injFull : Bool
  toInj : Option ScFlit
  buf : BufState

/-- State after construction and the initial reset,
`rad-sim/sim/noc/axis_slave_adapter.cpp:46-55,110,153-154,204`. -/
def SlaveState.init (c : SlaveCfg) : SlaveState where
  prio := List.range c.n
  inFifo := []
  inFull := false
  cycle := 0
  injFifo := []
  injFull := false
  toInj := none
  buf := BufState.init

/-- What stops the simulation: the assertion of `rad-sim/sim/noc/axis_slave_adapter.cpp:146`, the
priority loop of lines 96-99 not ending, and the errors of the credit accounting. -/
inductive SlaveErr
  | fifoAssert
  | readyLoop
  | buf (e : BufErr)
  deriving DecidableEq, Repr

/-- The transaction registered for a beat of interface `i`,
`rad-sim/sim/noc/axis_slave_adapter.cpp:118-138`. -/
def registerTxn (c : SlaveCfg) (i : Nat) (b : AxisTxn) : AxisTxn :=
  { b with type := c.types i, iface := i }

/-- `InputInterface`'s search, `rad-sim/sim/noc/axis_slave_adapter.cpp:115-143`: the first
interface with ready and valid, from interface `i` on, `k` interfaces left. -/
def firstAccepted (ready : Nat → Bool) (beats : Nat → Option AxisTxn) :
    Nat → Nat → Option (Nat × AxisTxn)
  | 0, _ => none
  | k + 1, i =>
    match ready i, beats i with
    | true, some b => some (i, b)
    | _, _ => firstAccepted ready beats k (i + 1)

/-- One node-clock edge: `InputReady` settled before the edge, then `InputInterface`,
`rad-sim/sim/noc/axis_slave_adapter.cpp:113-148`. `injFullSeen` is the value of
`_injection_afifo_full` that `InputReady` last saw; it can be older than `s.injFull` when the
adapter clock ticks at the same instant, so it is left arbitrary. -/
def nodeStep (c : SlaveCfg) (s : SlaveState) (beats : Nat → Option AxisTxn) (injFullSeen : Bool) :
    Except SlaveErr SlaveState :=
  match inputReady c.n s.inFull injFullSeen (fun i => (beats i).isSome) s.prio with
  | none => .error .readyLoop
  | some (prio, ready) =>
    let inFifo :=
      match firstAccepted ready beats c.n 0 with
      | some (i, b) => s.inFifo ++ [registerTxn c i b]
      | none => s.inFifo
    if inFifo.length ≤ inFifoDepth then
      .ok { s with prio, inFifo, inFull := decide (inFifoDepth ≤ inFifo.length) }
    else .error .fifoAssert

/-- One adapter-clock edge: `InputPacketization`,
`rad-sim/sim/noc/axis_slave_adapter.cpp:157-199`. -/
def adapterStep (c : SlaveCfg) (s : SlaveState) : SlaveState :=
  match s.inFifo with
  | [] => { s with injFull := decide (c.depth ≤ s.injFifo.length) }
  | t :: rest =>
    if s.injFifo.length < c.depth then
      let n := c.flits t.iface
      let injFifo := s.injFifo ++ [flitOf c.vc n t s.cycle]
      if s.cycle == n - 1 then
        { s with injFifo, cycle := 0, inFifo := rest, injFull := decide (c.depth ≤ injFifo.length) }
      else
        { s with injFifo, cycle := s.cycle + 1, injFull := decide (c.depth ≤ injFifo.length) }
    else { s with injFull := decide (c.depth ≤ s.injFifo.length) }

/-- First half of `InputInjection`, `rad-sim/sim/noc/axis_slave_adapter.cpp:208-273`: fetch a flit
if none is held, and hand it to the NoC if the buffer state allows. Returns the flits written. -/
def injectPhase (c : SlaveCfg) (s : SlaveState) : Except SlaveErr (SlaveState × List BsFlit) :=
  let fetched : Option ScFlit × List ScFlit :=
    match s.toInj, s.injFifo with
    | some f, q => (some f, q)
    | none, f :: q => (some f, q)
    | none, [] => (none, [])
  match fetched with
  | (none, q) => .ok ({ s with toInj := none, injFifo := q }, [])
  | (some f, q) =>
    let vc := f.vc.toNat
    if !s.buf.isFullFor c.buf vc &&
        (!f.head || !c.buf.waitTail || s.buf.isAvailableFor vc) then
      let taken := if f.head then s.buf.takeBuffer c.buf vc 0 else .ok s.buf
      match taken with
      | .error e => .error (.buf e)
      | .ok b =>
        match b.sendingFlit c.buf vc f.tail with
        | .error e => .error (.buf e)
        | .ok b' =>
          .ok ({ s with toInj := none, injFifo := q, buf := b' },
            [injectFlit c.radId c.portalId f])
    else .ok ({ s with toInj := some f, injFifo := q }, [])

/-- One NoC-clock edge: `InputInjection`, `rad-sim/sim/noc/axis_slave_adapter.cpp:207-281`.
`credit` is what `_noc->ReadCredit` returns, an empty list standing for a null pointer. -/
def nocStep (c : SlaveCfg) (s : SlaveState) (credit : List Nat) :
    Except SlaveErr (SlaveState × List BsFlit) :=
  match injectPhase c s with
  | .error e => .error e
  | .ok (s', out) =>
    match s'.buf.processCredit c.buf credit with
    | .error e => .error (.buf e)
    | .ok b => .ok ({ s' with buf := b }, out)

/-- Clock edges, and clock edges with `rst` high, on which a process runs its reset code instead
(`reset_signal_is(rst, true)`, `rad-sim/sim/noc/axis_slave_adapter.cpp:62-67`). -/
inductive SlaveEvent
  | node (beats : Nat → Option AxisTxn) (injFullSeen : Bool)
  | adapter
  | noc (credit : List Nat)
  | rstNode
  | rstAdapter
  | rstNoc

/-- One event. The reset code is `rad-sim/sim/noc/axis_slave_adapter.cpp:110-111,153-155,204-205`:
it clears the flags but not the FIFOs. -/
def slaveStep (c : SlaveCfg) (s : SlaveState) : SlaveEvent →
    Except SlaveErr (SlaveState × List BsFlit)
  | .node beats seen =>
    match nodeStep c s beats seen with
    | .error e => .error e
    | .ok s' => .ok (s', [])
  | .adapter => .ok (adapterStep c s, [])
  | .noc credit => nocStep c s credit
  | .rstNode => .ok ({ s with inFull := false }, [])
  | .rstAdapter => .ok ({ s with injFull := false, cycle := 0 }, [])
  | .rstNoc => .ok ({ s with toInj := none }, [])

/-- The beats that complete a handshake at an event, as an observer of the ports sees them:
`tready && tvalid` at a node-clock edge (`rad-sim/sim/noc/axis_slave_adapter.cpp:104,116`). -/
def handshakes (c : SlaveCfg) (s : SlaveState) : SlaveEvent → List AxisTxn
  | .node beats seen =>
    match inputReady c.n s.inFull seen (fun i => (beats i).isSome) s.prio with
    | none => []
    | some (_, ready) =>
      (List.range c.n).filterMap (fun i =>
        if ready i then (beats i).map (registerTxn c i) else none)
  | _ => []

/-- A run: final state, beats accepted, flits handed to the NoC
(`rad-sim/sim/noc/axis_slave_adapter.cpp:78-282`). -/
def slaveRun (c : SlaveCfg) (s : SlaveState) : List SlaveEvent →
    Except SlaveErr (SlaveState × List AxisTxn × List BsFlit)
  | [] => .ok (s, [], [])
  | e :: es =>
    match slaveStep c s e with
    | .error err => .error err
    | .ok (s', out) =>
      match slaveRun c s' es with
      | .error err => .error err
      | .ok (s'', acc, outs) => .ok (s'', handshakes c s e ++ acc, out ++ outs)

end RadSim
