import Verif.Model.AxisPacket

/-!
# AXI memory-mapped adapters: packets and the source side

Models `rad-sim/sim/noc/aximm_slave_adapter.cpp` (requests AR, AW, W into the NoC) and
`rad-sim/sim/noc/aximm_master_adapter.cpp` (responses R, B into the NoC). The two adapters share
the packetisation and injection code, modelled once as `Pkt`. Telemetry calls have no effect on
the modelled behaviour; `_i_unique_sim_id` is left out.
-/

namespace RadSim

/-- `AXI4_PAYLOADW = 512 + 2 + 64 + 1`, `rad-sim/sim/radsim_defines.hpp:49`. -/
abbrev mmPayloadW : Nat := 579

/-- `AXI_TYPE_AR .. AXI_TYPE_B`, `rad-sim/sim/radsim_defines.hpp:58-62`. -/
inductive MmType
  | ar | aw | w | r | b
  deriving DecidableEq, Repr, Inhabited

/-- The numbers of `rad-sim/sim/radsim_defines.hpp:58-62`. -/
def MmType.code : MmType → Nat
  | .ar => 0 | .aw => 1 | .w => 2 | .r => 3 | .b => 4

/-- `flit_type`, `rad-sim/sim/noc/aximm_slave_adapter.cpp:301-303,328` and
`rad-sim/sim/noc/aximm_master_adapter.cpp:498,519`. -/
def MmType.flitType : MmType → FlitType
  | .ar => .readRequest | .aw => .writeRequest | .w => .writeData
  | .r => .readReply | .b => .writeReply

/-- A beat of an address channel, `rad-sim/sim/noc/aximm_interface.hpp` (`ar*`, `aw*`). -/
structure AddrBeat where
  id : BitVec 8
  addr : BitVec 64
  burst : BitVec 2
  size : BitVec 3
  len : BitVec 8
  user : BitVec 64
  deriving DecidableEq, Repr, Inhabited

/-- A beat of the write data channel, `rad-sim/sim/noc/aximm_interface.hpp` (`w*`). -/
structure DataBeat where
  id : BitVec 8
  data : BitVec 512
  last : Bool
  user : BitVec 64
  deriving DecidableEq, Repr, Inhabited

/-- A beat of the read data channel, `rad-sim/sim/noc/aximm_interface.hpp` (`r*`). -/
structure RdBeat where
  id : BitVec 8
  data : BitVec 512
  resp : BitVec 2
  last : Bool
  user : BitVec 64
  deriving DecidableEq, Repr, Inhabited

/-- A beat of the write response channel, `rad-sim/sim/noc/aximm_interface.hpp` (`b*`). -/
structure RespBeat where
  id : BitVec 8
  resp : BitVec 2
  user : BitVec 64
  deriving DecidableEq, Repr, Inhabited

/-- The capture registers `_i_id`, `_i_payload`, `_i_ctrl`, `_i_user`, `_i_resp`, `_i_last`,
`_i_type`, `_i_noc_dest`, `rad-sim/sim/noc/aximm_slave_adapter.hpp:89-98`. Registers that a channel
does not write keep an old value in the code; the packetisation of that channel does not read
them, so they are zero here. -/
structure MmTxn where
  type : MmType
  id : BitVec 8
  payload : BitVec 512
  ctrl : BitVec 13
  user : BitVec 64
  resp : BitVec 2
  last : Bool
  dest : BitVec 21
  deriving DecidableEq, Repr, Inhabited

/-- `GetInputDestinationNode`, the top seven address bits,
`rad-sim/sim/noc/aximm_slave_adapter.cpp:263-266` and
`rad-sim/sim/noc/aximm_master_adapter.cpp:393-396`. -/
def mmNode (addr : BitVec 64) : BitVec 21 := (getRange addr 57 7).setWidth 21

/-- `tmp_ctrl`, `rad-sim/sim/noc/aximm_slave_adapter.cpp:165-174,197-206`. -/
def ctrlOf (a : AddrBeat) : BitVec 13 :=
  let v : BitVec 13 := 0
  let v := setRange v 0 2 a.burst
  let v := setRange v 2 3 a.size
  setRange v 5 8 a.len

/-- Capture of an AR beat, `rad-sim/sim/noc/aximm_slave_adapter.cpp:161-180`. -/
def captureAr (a : AddrBeat) : MmTxn where
  type := .ar
  id := a.id
  payload := a.addr.setWidth 512
  ctrl := ctrlOf a
  user := a.user
  resp := 0
  last := false
  dest := mmNode a.addr

/-- Capture of an AW beat, `rad-sim/sim/noc/aximm_slave_adapter.cpp:195-212`. -/
def captureAw (a : AddrBeat) : MmTxn := { captureAr a with type := .aw }

/-- Capture of a W beat when `_last_awdest` is `d`, `rad-sim/sim/noc/aximm_slave_adapter.cpp:228-237`. -/
def captureW (x : DataBeat) (d : BitVec 21) : MmTxn where
  type := .w
  id := x.id
  payload := x.data
  ctrl := (BitVec.ofBool x.last).setWidth 13
  user := x.user
  resp := 0
  last := x.last
  dest := d

/-- Capture of an R beat, `rad-sim/sim/noc/aximm_master_adapter.cpp:420-429`: the destination is
read from the user bits. -/
def captureR (x : RdBeat) : MmTxn where
  type := .r
  id := x.id
  payload := x.data
  ctrl := 0
  user := x.user
  resp := x.resp
  last := x.last
  dest := mmNode x.user

/-- Capture of a B beat, `rad-sim/sim/noc/aximm_master_adapter.cpp:444-451`. -/
def captureB (x : RespBeat) : MmTxn where
  type := .b
  id := x.id
  payload := 0
  ctrl := 0
  user := x.user
  resp := x.resp
  last := false
  dest := mmNode x.user

/-- `num_flits`, `rad-sim/sim/noc/aximm_slave_adapter.cpp:295-297,321-323` and
`rad-sim/sim/noc/aximm_master_adapter.cpp:494-495,512-514`. -/
def mmFlits (dataw : Nat) : MmType → Nat
  | .ar | .aw => (64 + 13 + 64 + (flitW - 1)) / flitW
  | .w | .r => (dataw + 2 + 64 + 1 + (flitW - 1)) / flitW
  | .b => (2 + 64 + (flitW - 1)) / flitW

/-- `packet_bv`, `rad-sim/sim/noc/aximm_slave_adapter.cpp:298-300,324-327` and
`rad-sim/sim/noc/aximm_master_adapter.cpp:496-497,515-518`, with the slices of
`rad-sim/sim/radsim_defines.hpp:50-55`. -/
def mmPacketBv (t : MmTxn) : BitVec mmPayloadW :=
  let v : BitVec mmPayloadW := 0
  let v := setRange v 1 64 t.user
  match t.type with
  | .ar | .aw => setRange (setRange v 67 13 t.ctrl) 80 64 t.payload
  | .w =>
    let v := setRange v 65 2 (0 : BitVec 2)
    let v := setRange v 0 1 (BitVec.ofBool t.last)
    setRange v 67 512 t.payload
  | .r =>
    let v := setRange v 65 2 t.resp
    let v := setRange v 0 1 (BitVec.ofBool t.last)
    setRange v 67 512 t.payload
  | .b => setRange v 65 2 t.resp

/-- One flit, `rad-sim/sim/noc/aximm_slave_adapter.cpp:307-311,332-336` and
`rad-sim/sim/noc/aximm_master_adapter.cpp:503-507,523-527`. The eight-bit `_i_id` is widened to the
packet id, the type number is the interface number. -/
def mmFlitOf (c : VcConfig) (n : Nat) (t : MmTxn) (i : Nat) : ScFlit where
  head := i == 0
  tail := i == n - 1
  type := t.type.flitType
  vc := BitVec.ofNat 3 (vcidFromType c t.type.flitType)
  dest := t.dest
  destIf := BitVec.ofNat 5 t.type.code
  packetId := t.id.setWidth 32
  simId := 0
  payload := flitSlice (mmPacketBv t) i

/-- All flits of a transaction, pushed in one adapter cycle,
`rad-sim/sim/noc/aximm_slave_adapter.cpp:306-313,331-338` and
`rad-sim/sim/noc/aximm_master_adapter.cpp:502-509,522-529`. -/
def mmPacket (c : VcConfig) (dataw : Nat) (t : MmTxn) : List ScFlit :=
  (List.range (mmFlits dataw t.type)).map (mmFlitOf c (mmFlits dataw t.type) t)

/-! ## packetisation and injection -/

/-- Constructor arguments, `rad-sim/sim/noc/aximm_slave_adapter.cpp:5-48` and
`rad-sim/sim/noc/aximm_master_adapter.cpp:3-63`. -/
structure MmCfg where
  /-- `_noc_config` -/
  vc : VcConfig
  /-- `_interface_dataw` -/
  dataw : Nat
  /-- `_injection_afifo_depth` -/
  depth : Nat
  /-- `_freq_ratio` -/
  ratio : Nat

/-- `_max_flits_per_transaction`, `rad-sim/sim/noc/aximm_slave_adapter.cpp:34-41`. The division is
an integer division before `ceil` is applied. -/
def MmCfg.maxFlits (c : MmCfg) : Nat := (64 + max (64 + 13) (c.dataw + 2 + 1)) / flitW

/-- `_i_valid` with the capture registers, `_packetization_cycle`, `_num_packetization_flits`
(both `uint8_t`), `_injection_afifo_full`, `_injection_afifo`, and `_to_be_injected_flit` guarded
by `_injection_flit_ready`, `rad-sim/sim/noc/aximm_slave_adapter.hpp:89-115`. -/
structure Pkt where
  reg : Option MmTxn
  cycle : BitVec 8
  nflits : BitVec 8
  full : Bool
  fifo : List ScFlit
  toInj : Option ScFlit

/-- After reset, `rad-sim/sim/noc/aximm_slave_adapter.cpp:149,273-275,376`. -/
def Pkt.init : Pkt where
  reg := none
  cycle := 0
  nflits := 0
  full := false
  fifo := []
  toInj := none

/-- `limit`, `rad-sim/sim/noc/aximm_slave_adapter.cpp:346-351`, a `uint8_t`. -/
def pktLimit (c : MmCfg) (nflits : BitVec 8) : BitVec 8 :=
  if c.ratio ≤ nflits.toNat then nflits - 1 else BitVec.ofInt 8 (c.ratio - 1)

/-- `InputPacketization`, one adapter-clock edge, `rad-sim/sim/noc/aximm_slave_adapter.cpp:280-368`
and `rad-sim/sim/noc/aximm_master_adapter.cpp:482-559`. The signals read are the values before the
edge; when both writes to `_packetization_cycle` happen the second would win, but the first needs
the old value to be zero and the second needs it positive. -/
def Pkt.adapterEdge (c : MmCfg) (k : Pkt) : Pkt :=
  let start := k.reg.isSome && k.cycle == 0
  let fifo :=
    match k.reg with
    | some t => if k.cycle == 0 then k.fifo ++ mmPacket c.vc c.dataw t else k.fifo
    | none => k.fifo
  let nflits :=
    match k.reg with
    | some t => if k.cycle == 0 then BitVec.ofNat 8 (mmFlits c.dataw t.type) else k.nflits
    | none => k.nflits
  let cycle :=
    if 0 < k.cycle then (if k.cycle == pktLimit c k.nflits then 0 else k.cycle + 1)
    else if start then k.cycle + 1 else k.cycle
  { k with fifo, nflits, cycle, full := decide (c.depth < fifo.length + c.maxFlits) }

/-- The flit handed to `_noc->WriteFlit`, `rad-sim/sim/noc/aximm_slave_adapter.cpp:399-418` and
`rad-sim/sim/noc/aximm_master_adapter.cpp:590-609`. The RAD and remote fields are not set. -/
def mmInject (f : ScFlit) : BsFlit where
  head := f.head
  tail := f.tail
  type := f.type
  vc := f.vc.toNat
  dest := f.dest.toNat
  destRad := 0
  destRemote := 0
  destInterface := f.destIf.toNat
  pid := f.packetId.toNat
  id := f.simId
  data := f.payload

/-- `InputInjection`, one NoC-clock edge, `rad-sim/sim/noc/aximm_slave_adapter.cpp:380-453` and
`rad-sim/sim/noc/aximm_master_adapter.cpp:571-646`. The test on the buffer state (lines 392-396)
is the argument `accept`: any answer of the buffer state is covered. -/
def Pkt.nocEdge (k : Pkt) (accept : Bool) : Pkt × List BsFlit :=
  let fetched : Option ScFlit × List ScFlit :=
    match k.toInj, k.fifo with
    | some f, q => (some f, q)
    | none, f :: q => (some f, q)
    | none, [] => (none, [])
  match fetched with
  | (none, q) => ({ k with toInj := none, fifo := q }, [])
  | (some f, q) =>
    if accept then ({ k with toInj := none, fifo := q }, [mmInject f])
    else ({ k with toInj := some f, fifo := q }, [])

/-! ## the slave adapter's request ports -/

/-- What the master drives on AR, AW and W (`none`: valid low),
`rad-sim/sim/noc/aximm_interface.hpp`. -/
structure ReqOffer where
  ar : Option AddrBeat
  aw : Option AddrBeat
  w : Option DataBeat
  deriving Inhabited

/-- The state of `aximm_slave_adapter`'s request side: the packetisation part and
`_injection_priority_setting`, `_got_aw`, `_last_awdest`, the port outputs `arready`, `awready`,
`wready`, and the current port inputs, `rad-sim/sim/noc/aximm_slave_adapter.hpp:89-118`. -/
structure ReqState where
  k : Pkt
  prio : Nat
  gotAw : Bool
  lastAw : BitVec 21
  arready : Bool
  awready : Bool
  wready : Bool
  off : ReqOffer

/-- After reset with all valid signals low, `rad-sim/sim/noc/aximm_slave_adapter.cpp:93-96,144-157,
273-277`. -/
def ReqState.init : ReqState where
  k := Pkt.init
  prio := 0
  gotAw := false
  lastAw := 0
  arready := false
  awready := false
  wready := false
  off := ⟨none, none, none⟩

/-- The choice of `InputReady` as (`_arready`, `_awready`, `_wready`),
`rad-sim/sim/noc/aximm_slave_adapter.cpp:98-127`. -/
def reqChoose (prio : Nat) (full gotAw arv awv wv : Bool) : Bool × Bool × Bool :=
  if prio == 0 then
    let ar := !full && arv
    let flag := ar
    let aw := !full && !flag && awv
    let flag := flag || aw
    let w := !full && !flag && wv && gotAw
    (ar, aw, w)
  else if prio == 1 then
    let aw := !full && awv
    let flag := aw
    let w := !full && !flag && wv && gotAw
    let flag := flag || w
    let ar := !full && !flag && arv
    (ar, aw, w)
  else
    let w := !full && wv && gotAw
    let flag := w
    let ar := !full && !flag && arv
    let flag := flag || ar
    let aw := !full && !flag && awv
    (ar, aw, w)

/-- `InputReady`, `rad-sim/sim/noc/aximm_slave_adapter.cpp:92-138`, with `rst` low. -/
def ReqState.inputReady (s : ReqState) : ReqState :=
  let r := reqChoose s.prio s.k.full s.gotAw s.off.ar.isSome s.off.aw.isSome s.off.w.isSome
  { s with
    arready := s.k.cycle == 0 && r.1
    awready := s.k.cycle == 0 && r.2.1
    wready := s.k.cycle == 0 && r.2.2 }

/-- The assertion of `rad-sim/sim/noc/aximm_slave_adapter.cpp:131-133`. -/
def reqAssert (r : Bool × Bool × Bool) : Bool :=
  (((r.1 ^^ r.2.1) ^^ r.2.2) && !(r.1 && r.2.1 && r.2.2)) || (!r.1 && !r.2.1 && !r.2.2)

/-- Whether a signal in the sensitivity list of `InputReady` changed,
`rad-sim/sim/noc/aximm_slave_adapter.cpp:52-54`. `_got_aw` is not in the list. -/
def reqTriggered (s s' : ReqState) : Bool :=
  s.k.full != s'.k.full || s.off.ar.isSome != s'.off.ar.isSome ||
    s.off.aw.isSome != s'.off.aw.isSome || s.off.w.isSome != s'.off.w.isSome ||
    s.prio != s'.prio || s.k.cycle != s'.k.cycle

/-- `InputInterface`, one node-clock edge, `rad-sim/sim/noc/aximm_slave_adapter.cpp:161-253`: the
new values of the capture registers, `_injection_priority_setting` and `_got_aw`. -/
def ReqState.nodeEdge (s : ReqState) : Option MmTxn × Nat × Bool :=
  match s.arready, s.off.ar with
  | true, some a => (some (captureAr a), 1, s.gotAw)
  | _, _ =>
    match s.awready, s.off.aw with
    | true, some a => (some (captureAw a), 2, true)
    | _, _ =>
      match s.wready && s.gotAw, s.off.w with
      | true, some x => (some (captureW x s.lastAw), 0, !x.last)
      | _, _ => (none, s.prio, s.gotAw)

/-- `_last_awdest`, written when an AW is packetised,
`rad-sim/sim/noc/aximm_slave_adapter.cpp:315-318`. -/
def ReqState.lastAwAfter (s : ReqState) : BitVec 21 :=
  match s.k.reg with
  | some t =>
    if s.k.cycle == 0 && t.type == .aw then mmNode (t.payload.setWidth 64) else s.lastAw
  | none => s.lastAw

/-- Clock edges. `edge node adapter off` is an instant at which the node clock, the adapter clock
or both rise, after which the port inputs are `off`: all processes read the signal values from
before the edge. `noc accept` is an edge of the NoC clock
(`rad-sim/sim/noc/aximm_slave_adapter.cpp:51-60`). -/
inductive ReqEvent
  | edge (node adapter : Bool) (off : ReqOffer)
  | noc (accept : Bool)

/-- One event, `rad-sim/sim/noc/aximm_slave_adapter.cpp:92-454`. A port input can also change
without a clock edge (`edge false false off`). -/
def reqStep (c : MmCfg) (s : ReqState) : ReqEvent → ReqState × List BsFlit
  | .edge node adapter off =>
    let n := s.nodeEdge
    let k := if adapter then s.k.adapterEdge c else s.k
    let s' : ReqState := { s with
      k := if node then { k with reg := n.1 } else k
      prio := if node then n.2.1 else s.prio
      gotAw := if node then n.2.2 else s.gotAw
      lastAw := if adapter then s.lastAwAfter else s.lastAw
      off := off }
    (if reqTriggered s s' then s'.inputReady else s', [])
  | .noc accept =>
    let r := s.k.nocEdge accept
    ({ s with k := r.1 }, r.2)

/-- The beats of the three request channels, `rad-sim/sim/noc/aximm_interface.hpp`. -/
inductive ReqBeat
  | ar (a : AddrBeat)
  | aw (a : AddrBeat)
  | w (x : DataBeat)
  deriving DecidableEq

/-- The beats that complete a handshake at an event, as the master sees them: ready and valid both
high at a node-clock edge (`rad-sim/sim/noc/aximm_slave_adapter.cpp:161,192,225`). -/
def reqHandshakes (s : ReqState) : ReqEvent → List ReqBeat
  | .edge true _ _ =>
    (if s.arready then (s.off.ar.map ReqBeat.ar).toList else []) ++
    (if s.awready then (s.off.aw.map ReqBeat.aw).toList else []) ++
    (if s.wready then (s.off.w.map ReqBeat.w).toList else [])
  | _ => []

/-- A run: final state, handshakes, flits handed to the NoC
(`rad-sim/sim/noc/aximm_slave_adapter.cpp:92-454`). -/
def reqRun (c : MmCfg) (s : ReqState) : List ReqEvent → ReqState × List ReqBeat × List BsFlit
  | [] => (s, [], [])
  | e :: es =>
    let r := reqStep c s e
    let q := reqRun c r.1 es
    (q.1, reqHandshakes s e ++ q.2.1, r.2 ++ q.2.2)

/-! ## the master adapter's response ports -/

/-- What the slave drives on R and B, `rad-sim/sim/noc/aximm_interface.hpp`. -/
structure RspOffer where
  r : Option RdBeat
  b : Option RespBeat
  deriving Inhabited

/-- The state of `aximm_master_adapter`'s response side,
`rad-sim/sim/noc/aximm_master_adapter.hpp:53-79`. -/
structure RspState where
  k : Pkt
  prio : Bool
  rready : Bool
  bready : Bool
  off : RspOffer

/-- After reset, `rad-sim/sim/noc/aximm_master_adapter.cpp:368-370,402-413,476-478`. -/
def RspState.init : RspState where
  k := Pkt.init
  prio := false
  rready := false
  bready := false
  off := ⟨none, none⟩

/-- The choice of `InputReady` as (`_rready`, `_bready`),
`rad-sim/sim/noc/aximm_master_adapter.cpp:375-383`. -/
def rspChoose (prio full rv bv : Bool) : Bool × Bool :=
  if !prio then
    let r := !full && rv
    (r, !full && !r && bv)
  else
    let b := !full && bv
    (!full && !b && rv, b)

/-- `InputReady`, `rad-sim/sim/noc/aximm_master_adapter.cpp:367-391`, with `rst` low. -/
def RspState.inputReady (s : RspState) : RspState :=
  let r := rspChoose s.prio s.k.full s.off.r.isSome s.off.b.isSome
  { s with rready := s.k.cycle == 0 && r.1, bready := s.k.cycle == 0 && r.2 }

/-- Whether a signal in the sensitivity list of `InputReady` changed,
`rad-sim/sim/noc/aximm_master_adapter.cpp:67-69`. -/
def rspTriggered (s s' : RspState) : Bool :=
  s.k.full != s'.k.full || s.off.r.isSome != s'.off.r.isSome ||
    s.off.b.isSome != s'.off.b.isSome || s.prio != s'.prio || s.k.cycle != s'.k.cycle

/-- `InputInterface`, one node-clock edge, `rad-sim/sim/noc/aximm_master_adapter.cpp:418-466`. -/
def RspState.nodeEdge (s : RspState) : Option MmTxn × Bool :=
  match s.rready, s.off.r with
  | true, some x => (some (captureR x), true)
  | _, _ =>
    match s.bready, s.off.b with
    | true, some x => (some (captureB x), false)
    | _, _ => (none, s.prio)

/-- Clock edges, as in `ReqEvent` (`rad-sim/sim/noc/aximm_master_adapter.cpp:66-75`). -/
inductive RspEvent
  | edge (node adapter : Bool) (off : RspOffer)
  | noc (accept : Bool)

/-- One event, `rad-sim/sim/noc/aximm_master_adapter.cpp:367-647`. -/
def rspStep (c : MmCfg) (s : RspState) : RspEvent → RspState × List BsFlit
  | .edge node adapter off =>
    let n := s.nodeEdge
    let k := if adapter then s.k.adapterEdge c else s.k
    let s' : RspState := { s with
      k := if node then { k with reg := n.1 } else k
      prio := if node then n.2 else s.prio
      off := off }
    (if rspTriggered s s' then s'.inputReady else s', [])
  | .noc accept =>
    let r := s.k.nocEdge accept
    ({ s with k := r.1 }, r.2)

/-- The beats of the two response channels, `rad-sim/sim/noc/aximm_interface.hpp`. -/
inductive RspBeat
  | r (x : RdBeat)
  | b (x : RespBeat)
  deriving DecidableEq

/-- The beats that complete a handshake at an event
(`rad-sim/sim/noc/aximm_master_adapter.cpp:418,442`). -/
def rspHandshakes (s : RspState) : RspEvent → List RspBeat
  | .edge true _ _ =>
    (if s.rready then (s.off.r.map RspBeat.r).toList else []) ++
    (if s.bready then (s.off.b.map RspBeat.b).toList else [])
  | _ => []

/-- A run: final state, handshakes, flits handed to the NoC
(`rad-sim/sim/noc/aximm_master_adapter.cpp:367-647`). -/
def rspRun (c : MmCfg) (s : RspState) : List RspEvent → RspState × List RspBeat × List BsFlit
  | [] => (s, [], [])
  | e :: es =>
    let r := rspStep c s e
    let q := rspRun c r.1 es
    (q.1, rspHandshakes s e ++ q.2.1, r.2 ++ q.2.2)

/-! ## reassembly at the other end -/

/-- The `sc_flit` rebuilt from an ejected BookSim flit,
`rad-sim/sim/noc/aximm_master_adapter.cpp:131-137` and
`rad-sim/sim/noc/aximm_slave_adapter.cpp:503-509`. -/
def mmEject (b : BsFlit) : ScFlit where
  head := b.head
  tail := b.tail
  type := b.type
  vc := BitVec.ofNat 3 b.vc
  dest := BitVec.ofNat 21 b.dest
  destIf := BitVec.ofNat 5 b.destInterface
  packetId := BitVec.ofNat 32 b.pid
  simId := b.id
  payload := b.data

/-- The loop that rebuilds `temp_bv`, `rad-sim/sim/noc/aximm_master_adapter.cpp:263-270` and
`rad-sim/sim/noc/aximm_slave_adapter.cpp:637-644`, from flit index `i` on. -/
def mmReassembleFrom (bv : BitVec mmPayloadW) (i : Nat) : List ScFlit → BitVec mmPayloadW
  | [] => bv
  | f :: fs =>
    let start := i * flitW
    let stop := min mmPayloadW ((i + 1) * flitW)
    mmReassembleFrom (setRange bv start (stop - start) f.payload) (i + 1) fs

/-- AR and AW outputs, `rad-sim/sim/noc/aximm_master_adapter.cpp:275-287,312-324`: burst, size and
length are taken from `temp_bv`, not from `ctrl_temp`. `f` is the head flit. -/
def addrOut (f : ScFlit) (bv : BitVec mmPayloadW) : AddrBeat where
  id := f.packetId.setWidth 8
  addr := getRange bv 80 64
  burst := getRange bv 0 2
  size := getRange bv 2 3
  len := getRange bv 5 8
  user := getRange bv 1 64

/-- W outputs, `rad-sim/sim/noc/aximm_master_adapter.cpp:348-351`. -/
def dataOut (f : ScFlit) (bv : BitVec mmPayloadW) : DataBeat where
  id := f.packetId.setWidth 8
  data := getRange bv 67 512
  last := getRange bv 0 1 == 1
  user := getRange bv 1 64

/-- R outputs, `rad-sim/sim/noc/aximm_slave_adapter.cpp:673-677`. -/
def rdOut (f : ScFlit) (bv : BitVec mmPayloadW) : RdBeat where
  id := f.packetId.setWidth 8
  data := getRange bv 67 512
  resp := getRange bv 65 2
  last := getRange bv 0 1 == 1
  user := getRange bv 1 64

/-- B outputs, `rad-sim/sim/noc/aximm_slave_adapter.cpp:646-650`. -/
def respOut (f : ScFlit) (bv : BitVec mmPayloadW) : RespBeat where
  id := f.packetId.setWidth 8
  resp := getRange bv 65 2
  user := getRange bv 1 64

/-! ## virtual channels -/

/-- The begin and end of the virtual channels of each packet type, from the BookSim configuration
file (`rad-sim/config.py:178-182`). -/
structure VcRanges where
  first : FlitType → Nat
  last : FlitType → Nat

/-- What `VCIDFromType` sees of the ranges, `rad-sim/sim/noc/noc_utils.cpp:3-15`. -/
def VcRanges.begins (r : VcRanges) : VcConfig where
  readRequestBegin := r.first .readRequest
  writeRequestBegin := r.first .writeRequest
  writeDataBegin := r.first .writeData
  readReplyBegin := r.first .readReply
  writeReplyBegin := r.first .writeReply

/-- `aximm_master_adapter::InverseVCMapping`, `rad-sim/sim/noc/aximm_master_adapter.cpp:83-106`;
`none` is the `exit(1)`. -/
def inverseReq (r : VcRanges) (v : Nat) : Option MmType :=
  if r.first .writeRequest ≤ v ∧ v ≤ r.last .writeRequest then some .aw
  else if r.first .readRequest ≤ v ∧ v ≤ r.last .readRequest then some .ar
  else if r.first .writeData ≤ v ∧ v ≤ r.last .writeData then some .w
  else none

/-- `aximm_slave_adapter::InverseVCMapping`, `rad-sim/sim/noc/aximm_slave_adapter.cpp:459-478`;
`none` is the `exit(1)`. -/
def inverseRsp (r : VcRanges) (v : Nat) : Option MmType :=
  if r.first .readReply ≤ v ∧ v ≤ r.last .readReply then some .r
  else if r.first .writeReply ≤ v ∧ v ≤ r.last .writeReply then some .b
  else none

end RadSim
