import Verif.Model.Bits

/-!
# AXI-Stream beats, flits, packetisation and reassembly

Models `rad-sim/sim/radsim_defines.hpp`, `rad-sim/sim/noc/sc_flit.{hpp,cpp}`,
`rad-sim/sim/noc/noc_utils.cpp` and the data path of `rad-sim/sim/noc/axis_slave_adapter.cpp`
and `rad-sim/sim/noc/axis_master_adapter.cpp`. The widths are those of the checked-in
`radsim_defines.hpp`.
-/

namespace RadSim

/-- `NOC_LINKS_PAYLOAD_WIDTH`, `rad-sim/sim/radsim_defines.hpp:7`. -/
abbrev flitW : Nat := 82
/-- `AXIS_MAX_DATAW`, `rad-sim/sim/radsim_defines.hpp:16`. -/
abbrev axisDataW : Nat := 512
/-- `AXIS_USERW`, `rad-sim/sim/radsim_defines.hpp:18`. -/
abbrev axisUserW : Nat := 75
/-- `AXIS_PAYLOADW = AXIS_MAX_DATAW + AXIS_USERW + 1`, `rad-sim/sim/radsim_defines.hpp:37`. -/
abbrev axisPayloadW : Nat := 588

/-- `Flit::FlitType`, `rad-sim/sim/noc/booksim/flit.hpp` (the `ANY_TYPE` member is never used by
the adapters and is left out). -/
inductive FlitType
  | readRequest | readReply | writeRequest | writeReply | writeData
  deriving DecidableEq, Repr, Inhabited

/-- The five `*_begin_vc` entries of a BookSim configuration, read by
`rad-sim/sim/noc/noc_utils.cpp:3-15`. -/
structure VcConfig where
  readRequestBegin : Nat
  writeRequestBegin : Nat
  writeDataBegin : Nat
  readReplyBegin : Nat
  writeReplyBegin : Nat
  deriving Repr, Inhabited

/-- `VCIDFromType`, `rad-sim/sim/noc/noc_utils.cpp:3-15`. -/
def vcidFromType (c : VcConfig) : FlitType → Nat
  | .readRequest => c.readRequestBegin
  | .writeRequest => c.writeRequestBegin
  | .writeData => c.writeDataBegin
  | .readReply => c.readReplyBegin
  | .writeReply => c.writeReplyBegin

/-- `sc_flit`, `rad-sim/sim/noc/sc_flit.hpp:13-47`. The payload pointer is modelled by its value:
the copy constructor and `operator=` allocate a fresh payload and copy the bits
(`rad-sim/sim/noc/sc_flit.cpp:33-60`), so two live flits never share one. -/
structure ScFlit where
  head : Bool
  tail : Bool
  type : FlitType
  vc : BitVec 3
  dest : BitVec 21
  destIf : BitVec 5
  packetId : BitVec 32
  simId : Nat
  payload : BitVec flitW
  deriving DecidableEq, Repr, Inhabited

/-- `axis_transaction`, `rad-sim/sim/noc/axis_interface.hpp`, as filled in by
`rad-sim/sim/noc/axis_slave_adapter.cpp:118-138`. -/
structure AxisTxn where
  tdata : BitVec axisDataW
  tdest : BitVec 21
  tid : BitVec 32
  tkeep : BitVec 8
  tlast : Bool
  tstrb : BitVec 8
  tuser : BitVec axisUserW
  id : Nat
  type : FlitType
  iface : Nat
  deriving DecidableEq, Repr, Inhabited

/-- What an AXI-Stream master port shows while `tvalid` is high,
`rad-sim/sim/noc/axis_interface.hpp:8-17` as written by
`rad-sim/sim/noc/axis_master_adapter.cpp:238-248`. -/
structure AxisOut where
  tdata : BitVec axisDataW
  tlast : Bool
  tid : BitVec 32
  tdest : BitVec 21
  tuser : BitVec axisUserW
  tstrb : BitVec 8
  tkeep : BitVec 8
  deriving DecidableEq, Repr, Inhabited

/-- The part of BookSim's `Flit` that the adapters fill in and read back,
`rad-sim/sim/noc/axis_slave_adapter.cpp:220-252`. `dest_rad` and `dest_remote` come from
`to_int()` on a seven-bit slice, which sign-extends, hence `Int`. -/
structure BsFlit where
  head : Bool
  tail : Bool
  type : FlitType
  vc : Nat
  dest : Nat
  destRad : Int
  destRemote : Int
  destInterface : Nat
  pid : Nat
  id : Nat
  data : BitVec flitW
  deriving DecidableEq, Repr, Inhabited

/-- Flits per packet of an interface of width `dataw`:
`ceil((AXIS_PAYLOADW - AXIS_MAX_DATAW + dataw) / NOC_LINKS_PAYLOAD_WIDTH)`,
`rad-sim/sim/noc/axis_slave_adapter.cpp:29-32` and `rad-sim/sim/noc/axis_master_adapter.cpp:19-22`.
The floating-point `ceil` is exact at this size. -/
def numFlits (dataw : Nat) : Nat :=
  (axisPayloadW - axisDataW + dataw + (flitW - 1)) / flitW

/-- `packet_bv` as built in `rad-sim/sim/noc/axis_slave_adapter.cpp:166-169`, from the
zero-initialised `sc_bv<AXIS_PAYLOADW>`. -/
def packetBv (t : AxisTxn) : BitVec axisPayloadW :=
  let v : BitVec axisPayloadW := 0
  let v := setRange v 0 1 (BitVec.ofBool t.tlast)
  let v := setRange v 1 axisUserW t.tuser
  setRange v (axisUserW + 1) axisDataW t.tdata

/-- `set_flit_payload`, `rad-sim/sim/noc/noc_utils.cpp:25-31`: bits
`[min((i+1)*82, W) - 1 : i*82]` zero-extended into the 82-bit payload. -/
def flitSlice {w : Nat} (bv : BitVec w) (i : Nat) : BitVec flitW :=
  let start := i * flitW
  let stop := min ((i + 1) * flitW) w
  (getRange bv start (stop - start)).setWidth flitW

/-- The flit created in one packetisation cycle,
`rad-sim/sim/noc/axis_slave_adapter.cpp:173-182`. `tid` (32 bits) is narrowed to the five-bit
`_dest_interface` by the `sc_flit` constructor (`rad-sim/sim/noc/sc_flit.cpp:17-31`). -/
def flitOf (c : VcConfig) (n : Nat) (t : AxisTxn) (cycle : Nat) : ScFlit where
  head := cycle == 0
  tail := cycle == n - 1
  type := t.type
  vc := BitVec.ofNat 3 (vcidFromType c t.type)
  dest := t.tdest
  destIf := t.tid.setWidth 5
  packetId := BitVec.ofNat 32 t.id
  simId := t.id
  payload := flitSlice (packetBv t) cycle

/-- All flits of one beat, in the order in which successive packetisation cycles push them,
`rad-sim/sim/noc/axis_slave_adapter.cpp:157-199` with an injection FIFO that never fills. -/
def packetFlits (c : VcConfig) (n : Nat) (t : AxisTxn) : List ScFlit :=
  (List.range n).map (flitOf c n t)

/-- `DEST_LOCAL_NODE`, `rad-sim/sim/radsim_defines.hpp:46`. -/
def destLocal (d : BitVec 21) : BitVec 7 := getRange d 0 7
/-- `DEST_REMOTE_NODE`, `rad-sim/sim/radsim_defines.hpp:47`. -/
def destRemote (d : BitVec 21) : BitVec 7 := getRange d 7 7
/-- `DEST_RAD`, `rad-sim/sim/radsim_defines.hpp:48`. -/
def destRad (d : BitVec 21) : BitVec 7 := getRange d 14 7

/-- The rewriting done when a beat crosses RADs, `rad-sim/sim/radsim_inter_rad.cpp:103-106`. -/
def bridgeDest (d : BitVec 21) : BitVec 21 :=
  let e := setRange d 0 7 (destRemote d)
  setRange e 7 7 (0 : BitVec 7)

/-- The BookSim flit handed to `_noc->WriteFlit`, `rad-sim/sim/noc/axis_slave_adapter.cpp:220-263`.
The comparison of the seven-bit slice with the unsigned `_rad_id` happens at seven bits, as
`sc_bv` comparison with an integer does. -/
def injectFlit (radId portalId : Nat) (f : ScFlit) : BsFlit where
  head := f.head
  tail := f.tail
  type := f.type
  vc := f.vc.toNat
  dest :=
    if destRad f.dest = BitVec.ofNat 7 radId then ((destLocal f.dest).setWidth 21).toNat
    else (BitVec.ofNat 21 portalId).toNat
  destRad := (destRad f.dest).toInt
  destRemote := (destRemote f.dest).toInt
  destInterface := f.destIf.toNat
  pid := f.packetId.toNat
  id := f.simId
  data := f.payload

/-- The `sc_flit` rebuilt from an ejected BookSim flit,
`rad-sim/sim/noc/axis_master_adapter.cpp:83-98`. -/
def ejectFlit (b : BsFlit) : ScFlit where
  head := b.head
  tail := b.tail
  type := b.type
  vc := BitVec.ofNat 3 b.vc
  dest :=
    let d : BitVec 21 := 0
    let d := setRange d 0 7 (BitVec.ofNat 32 b.dest)
    let d := setRange d 7 7 (BitVec.ofInt 32 b.destRemote)
    setRange d 14 7 (BitVec.ofInt 32 b.destRad)
  destIf := BitVec.ofNat 5 b.destInterface
  packetId := BitVec.ofNat 32 b.pid
  simId := b.id
  payload := b.data

/-- The reassembly loop of `write_sc_packet_to_axis_output`,
`rad-sim/sim/noc/axis_master_adapter.cpp:224-235`, from flit index `i` on. Flits past the end of
the payload give an empty or reversed slice in the code; `setRange` of length zero leaves the
vector alone. -/
def reassembleFrom (bv : BitVec axisPayloadW) (i : Nat) : List ScFlit → BitVec axisPayloadW
  | [] => bv
  | f :: fs =>
    let start := i * flitW
    let stop := min axisPayloadW ((i + 1) * flitW)
    reassembleFrom (setRange bv start (stop - start) f.payload) (i + 1) fs

/-- `write_sc_packet_to_axis_output`, `rad-sim/sim/noc/axis_master_adapter.cpp:216-249`.
A packet without flits leaves `dest` and `dest_interface` uninitialised: `none`. -/
def axisOutput : List ScFlit → Option AxisOut
  | [] => none
  | f :: fs =>
    let bv := reassembleFrom 0 0 (f :: fs)
    some {
      tdata := getRange bv (axisUserW + 1) axisDataW
      tlast := getRange bv 0 1 == 1
      tid := BitVec.ofNat 32 f.destIf.toNat
      tdest := f.dest
      tuser := getRange bv 1 axisUserW
      tstrb := 0
      tkeep := 0 }

end RadSim
