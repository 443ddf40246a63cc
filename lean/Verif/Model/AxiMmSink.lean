import Verif.Model.AxiMm

/-!
# AXI memory-mapped adapters: the sink side

Models the three output processes of `rad-sim/sim/noc/aximm_master_adapter.cpp` (requests out of the NoC) and
`rad-sim/sim/noc/aximm_slave_adapter.cpp` (responses out of the NoC), which are the same code for different packet
types. The clocked processes are step functions, a run is an arbitrary list of their edges. Resets during operation and
telemetry calls are left out. As in `Model/AxisMaster.lean`, the ejection FIFOs are plain queues and the push counters
signals: `pushNext` is the value written last, `push` what a reader sees, and an adapter edge chooses which one it reads
(`commit`), which covers every order of coincident edges.
-/

namespace RadSim.MmSink

/-- Constructor arguments and knobs, `rad-sim/sim/noc/aximm_master_adapter.cpp:3-37`,
`rad-sim/sim/noc/aximm_slave_adapter.cpp:5-71`. -/
structure Cfg where
  /-- An `aximm_master_adapter`, which takes requests out of the NoC, or an `aximm_slave_adapter`. -/
  master : Bool
  /-- The virtual channels of the packet types in `_noc_config` -/
  vcs : VcRanges
  /-- `_ejection_afifo_depth` -/
  depth : Nat

/-- The ejection FIFOs in the order of their numbers, `rad-sim/sim/noc/aximm_master_adapter.cpp:34-36,126` and
`rad-sim/sim/noc/aximm_slave_adapter.cpp:69-71,500`. -/
def Cfg.types (c : Cfg) : List MmType := if c.master then [.ar, .aw, .w] else [.r, .b]

/-- `InverseVCMapping`, `rad-sim/sim/noc/aximm_master_adapter.cpp:83-106` and
`rad-sim/sim/noc/aximm_slave_adapter.cpp:459-478`; `none` is the `exit(1)`. -/
def Cfg.classOf (c : Cfg) (v : Nat) : Option MmType :=
  if c.master then inverseReq c.vcs v else inverseRsp c.vcs v

/-- What a port shows while its valid signal is high, `rad-sim/sim/noc/aximm_interface.hpp:8-60`. -/
inductive Beat
  | req (b : ReqBeat)
  | rsp (b : RspBeat)
  deriving DecidableEq

/-- The channel of a beat, `rad-sim/sim/noc/aximm_interface.hpp:8-60`. -/
def Beat.type : Beat → MmType
  | .req (.ar _) => .ar
  | .req (.aw _) => .aw
  | .req (.w _) => .w
  | .rsp (.r _) => .r
  | .rsp (.b _) => .b

/-- The beat made of a packet by `OutputInterface`, `rad-sim/sim/noc/aximm_master_adapter.cpp:256-355` and
`rad-sim/sim/noc/aximm_slave_adapter.cpp:631-681`. The channel is chosen by the type in the first flit; `none` when the
adapter has no branch for the type, or for a packet without flits (see `outStep`). -/
def beatOf (master : Bool) : List ScFlit → Option Beat
  | [] => none
  | f :: fs =>
    let bv := mmReassembleFrom 0 0 (f :: fs)
    match master, f.type with
    | true, .readRequest => some (.req (.ar (addrOut f bv)))
    | true, .writeRequest => some (.req (.aw (addrOut f bv)))
    | true, .writeData => some (.req (.w (dataOut f bv)))
    | false, .writeReply => some (.rsp (.b (respOut f bv)))
    | false, .readReply => some (.rsp (.r (rdOut f bv)))
    | _, _ => none

/-- The members of the sink side, `rad-sim/sim/noc/aximm_master_adapter.hpp:40-51`; a `sc_packet` is its list of flits
(`rad-sim/sim/noc/sc_flit.hpp:50-66`). `cur` is `_output_packet` while `_output_packet_ready`, `port` the one channel
whose valid is high, `credit` this node's entry in `*_ejected_flits`. -/
structure State where
  held : Option BsFlit
  fifos : MmType → List ScFlit
  push : MmType → Nat
  pushNext : MmType → Nat
  pop : MmType → Nat
  prio : List MmType
  depack : Bool
  pkt : List ScFlit
  outq : List (List ScFlit)
  cur : Option (List ScFlit)
  port : Option Beat
  credit : Option Nat

/-- After construction and the initial reset, `rad-sim/sim/noc/aximm_master_adapter.cpp:34-37,110-113,162-165,244-248`
and `rad-sim/sim/noc/aximm_slave_adapter.cpp:63-71,485-488,536-539,619-622`. -/
def State.init (c : Cfg) : State where
  held := none
  fifos := fun _ => []
  push := fun _ => 0
  pushNext := fun _ => 0
  pop := fun _ => 0
  prio := c.types
  depack := false
  pkt := []
  outq := []
  cur := none
  port := none
  credit := none

/-- What stops the simulation or is undefined: the `exit(1)` of `rad-sim/sim/noc/aximm_master_adapter.cpp:104`, `front()`
of an empty ejection FIFO (201), the assertion of line 225, `GetFlit(0)` of an empty packet (257). -/
inductive Err
  | badVc | popEmpty | counterAssert | emptyPacket
  deriving DecidableEq, Repr

/-- Element `k` of one of the vectors over the packet types, `rad-sim/sim/noc/aximm_master_adapter.hpp:43-45`. -/
def put {α : Type} (f : MmType → α) (k : MmType) (x : α) : MmType → α := fun j => if j = k then x else f j

/-- One NoC-clock edge of `OutputEjection`, `rad-sim/sim/noc/aximm_master_adapter.cpp:115-157` and
`rad-sim/sim/noc/aximm_slave_adapter.cpp:490-528`. `arrive` is what `_noc->ReadFlit` returns if it is called. -/
def ejectStep (c : Cfg) (s : State) (arrive : Option BsFlit) : Except Err State :=
  let s := { s with push := s.pushNext }
  let got := match s.held with
    | some f => some f
    | none => arrive
  match got with
  | none => .ok { s with held := none }
  | some f =>
    match c.classOf f.vc with
    | none => .error .badVc
    | some k =>
      if (s.fifos k).length < c.depth then
        .ok { s with
          held := none
          fifos := put s.fifos k (s.fifos k ++ [mmEject f])
          pushNext := if f.tail then put s.pushNext k (s.pushNext k + 1) else s.pushNext }
      else .ok { s with held := some f }

/-- `push(front()); pop()` of the priority queue, `rad-sim/sim/noc/aximm_master_adapter.cpp:184-185,229-230`. -/
def rot : List MmType → List MmType
  | [] => []
  | x :: l => l ++ [x]

/-- `fifo_has_complete_packet` for the FIFO at the front of the queue,
`rad-sim/sim/noc/aximm_master_adapter.cpp:168-171,187-190`. -/
def complete (s : State) : List MmType → Bool
  | [] => false
  | k :: _ => decide (s.pop k < s.push k)

/-- The search loop, `rad-sim/sim/noc/aximm_master_adapter.cpp:181-191` and
`rad-sim/sim/noc/aximm_slave_adapter.cpp:555-565`, with `n` iterations left. -/
def search (s : State) : Nat → List MmType → List MmType
  | 0, prio => prio
  | n + 1, prio => if complete s prio then prio else search s n (rot prio)

/-- `rad-sim/sim/noc/aximm_master_adapter.cpp:196-237` and `rad-sim/sim/noc/aximm_slave_adapter.cpp:570-610`, once the
front of the priority queue is settled. `map::insert` keeps an entry that is already there. Also returns the virtual
channel of the flit taken. -/
def popPhase (s : State) : Except Err (State × List Nat) :=
  match s.prio with
  | [] => .ok (s, [])
  | k :: ks =>
    if s.pop k < s.push k then
      if s.outq.length < 2 then
        match s.fifos k with
        | [] => .error .popEmpty
        | f :: rest =>
          let credit := match s.credit with
            | some v => some v
            | none => some f.vc.toNat
          if f.tail then
            if s.pop k + 1 ≤ s.push k then
              .ok ({ s with
                fifos := put s.fifos k rest
                credit
                outq := s.outq ++ [s.pkt ++ [f]]
                pkt := []
                depack := false
                pop := put s.pop k (s.pop k + 1)
                prio := ks ++ [k] }, [f.vc.toNat])
            else .error .counterAssert
          else
            .ok ({ s with fifos := put s.fifos k rest, credit, pkt := s.pkt ++ [f], depack := true }, [f.vc.toNat])
      else .ok ({ s with depack := true }, [])
    else .ok (s, [])

/-- One adapter-clock edge of `OutputDepacketization`, `rad-sim/sim/noc/aximm_master_adapter.cpp:167-239` and
`rad-sim/sim/noc/aximm_slave_adapter.cpp:541-612`. -/
def depackStep (c : Cfg) (s : State) (commit : Bool) : Except Err (State × List Nat) :=
  let s := if commit then { s with push := s.pushNext } else s
  if s.depack then popPhase s else popPhase { s with prio := search s c.types.length s.prio }

/-- One node-clock edge of `OutputInterface`, `rad-sim/sim/noc/aximm_master_adapter.cpp:250-361` and
`rad-sim/sim/noc/aximm_slave_adapter.cpp:624-688`. `ready` is the value of the ready signals before the edge. Every
branch lowers the other valid signals, so that at most one channel is valid. -/
def outStep (c : Cfg) (s : State) (ready : MmType → Bool) : Except Err State :=
  let got := match s.cur, s.outq with
    | none, p :: q => (some p, q)
    | x, q => (x, q)
  match got with
  | (none, q) => .ok { s with outq := q, cur := none, port := none }
  | (some [], _) => .error .emptyPacket
  | (some p, q) =>
    match beatOf c.master p with
    | none => .ok { s with outq := q, cur := some p, port := none }
    | some b =>
      if ready b.type then .ok { s with outq := q, cur := none, port := some b }
      else .ok { s with outq := q, cur := some p, port := none }

/-- Clock edges. `tick` is the credit collection of `radsim_noc::Tick`
(`rad-sim/sim/noc/radsim_noc.cpp:306-314`), the others the three processes of the adapter
(`rad-sim/sim/noc/aximm_master_adapter.cpp:40-45`, `rad-sim/sim/noc/aximm_slave_adapter.cpp:74-79`). -/
inductive Event
  | noc (arrive : Option BsFlit)
  | adapter (commit : Bool)
  | node (ready : MmType → Bool)
  | tick

/-- What an observer outside the adapter has seen: flits read from the router, flits on the ejection channel in a cycle
in which nobody read it (`rad-sim/sim/noc/booksim/channel.hpp:108-124`), the beats of the clock cycles in which a valid
signal was high with the ready signal at the end of the cycle, the virtual channels of the flits taken out of the ejection
FIFOs (`rad-sim/sim/noc/aximm_master_adapter.cpp:201-206`), and the credits sent to the router. -/
structure Hist where
  accepted : List BsFlit
  dropped : List BsFlit
  shown : List (Beat × Bool)
  pops : List Nat
  credits : List Nat

/-- Nothing seen yet (before `rad-sim/sim/noc/aximm_master_adapter.cpp:115`). -/
def Hist.empty : Hist := ⟨[], [], [], [], []⟩

/-- One event, with the history extended (`rad-sim/sim/noc/aximm_master_adapter.cpp:108-363`,
`rad-sim/sim/noc/aximm_slave_adapter.cpp:483-689`, `rad-sim/sim/noc/radsim_noc.cpp:306-314`). -/
def step (c : Cfg) (s : State) (h : Hist) : Event → Hist × Except Err State
  | .noc arrive =>
    (match s.held with
      | none => { h with accepted := h.accepted ++ arrive.toList }
      | some _ => { h with dropped := h.dropped ++ arrive.toList },
     ejectStep c s arrive)
  | .adapter commit =>
    match depackStep c s commit with
    | .error e => (h, .error e)
    | .ok (s', v) => ({ h with pops := h.pops ++ v }, .ok s')
  | .node ready =>
    ({ h with shown := h.shown ++ s.port.toList.map fun b => (b, ready b.type) }, outStep c s ready)
  | .tick => ({ h with credits := h.credits ++ s.credit.toList }, .ok { s with credit := none })

/-- A run: final state, or the error that stopped it, and the history
(`rad-sim/sim/noc/aximm_master_adapter.cpp:108-363`). -/
def run (c : Cfg) (s : State) (h : Hist) : List Event → Hist × Except Err State
  | [] => (h, .ok s)
  | e :: es =>
    match step c s h e with
    | (h', .error err) => (h', .error err)
    | (h', .ok s') => run c s' h' es

end RadSim.MmSink
