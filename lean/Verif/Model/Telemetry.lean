/-!
# Transaction telemetry and trace recording

Models `rad-sim/sim/radsim_telemetry.cpp:1-112` (`NoCTransactionTelemetry`) and lines 194-226
(`SimTraceRecording`). Times are integers (picoseconds); the C++ code stores the same instants as
`double` nanoseconds, rounding is not modelled. Writing the numbers to a file is not modelled.
-/

namespace RadSim.Telemetry

/-- `NoCTransactionTrace`, `rad-sim/sim/radsim_telemetry.hpp:14-44`, with its default values. -/
structure Entry where
  src : Int := -1
  dest : Int := -1
  hops : Int := 0
  type : Int := 0
  dataw : Int := 0
  noc : Int := 0
  tInit : Int := 0
  tPacket : Int := 0
  tInject : Int := 0
  tEject : Int := 0
  tDepacket : Int := 0
  tReceive : Int := 0
  latency : Int := 0
  deriving DecidableEq, Repr, Inhabited

/-- The static members `global_transaction_id` and `trace_bookkeeping`,
`rad-sim/sim/radsim_telemetry.cpp:3-4`. -/
structure State where
  next : Nat
  book : Nat → Option Entry

/-- `rad-sim/sim/radsim_telemetry.cpp:3-4`. -/
def init : State := ⟨0, fun _ => none⟩

/-- The five calls that only store the current time. -/
inductive Stamp
  | tailPacketization | headInjection | tailEjection | tailDepacketization | receipt
  deriving DecidableEq, Repr

/-- The static member functions that change the record. `rad` is the RAD on behalf of which an
adapter makes the call; the functions have no such argument, it is carried along only to speak
about it. -/
inductive Op
  | initiate (rad : Nat) (src dest type dataw noc : Int)
  | stamp (k : Stamp) (id : Nat)
  | hops (id : Nat) (n : Int)
  deriving DecidableEq, Repr

/-- `operator[]` of the map creates a default entry, e.g. `rad-sim/sim/radsim_telemetry.cpp:26`. -/
def access (s : State) (id : Nat) : Entry := (s.book id).getD {}

/-- Store an entry. -/
def store (s : State) (id : Nat) (e : Entry) : State :=
  { s with book := fun j => if j = id then some e else s.book j }

/-- Body of the five stamping functions, `rad-sim/sim/radsim_telemetry.cpp:24-48`. -/
def stampEntry (t : Int) (e : Entry) : Stamp → Entry
  | .tailPacketization => { e with tPacket := t }
  | .headInjection => { e with tInject := t }
  | .tailEjection => { e with tEject := t }
  | .tailDepacketization => { e with tDepacket := t }
  | .receipt => { e with tReceive := t, latency := t - e.tInit }

/-- One call at time `t`; the returned identifier is the second component.
`RecordTransactionInitiation` is `rad-sim/sim/radsim_telemetry.cpp:10-22`, `UpdateHops` line 51.
`(1 << AXIS_DEST_FIELDW) - 1` is 127 (`rad-sim/sim/radsim_defines.hpp`). Incrementing the `int`
counter past `2^31 - 1` is undefined behaviour (`none`). -/
def call (t : Int) (s : State) : Op → Option (State × Option Nat)
  | .initiate _ src dest type dataw noc =>
    if s.next + 1 < 2 ^ 31 then
      let e : Entry := { src := src, dest := dest % 128, type := type, dataw := dataw, noc := noc, tInit := t }
      some (store { s with next := s.next + 1 } (s.next + 1) e, some (s.next + 1))
    else none
  | .stamp k id => some (store s id (stampEntry t (access s id) k), none)
  | .hops id n => some (store s id { access s id with hops := n }, none)

/-- A sequence of timed calls; also the list of identifiers returned. -/
def run (s : State) : List (Int × Op) → Option (State × List Nat)
  | [] => some (s, [])
  | (t, o) :: os =>
    match call t s o with
    | none => none
    | some (s', r) =>
      match run s' os with
      | none => none
      | some (s'', ids) => some (s'', r.toList ++ ids)

/-- Conversion of an `int` to `unsigned int`. -/
def toU (x : Int) : Nat := (x % 2 ^ 32).toNat

/-- A row of `traffic_bits` and `traffic_num_hops`: NoC, source, destination, bits, hops
(`rad-sim/sim/radsim_telemetry.cpp:70-71`). -/
structure Flow where
  noc : Nat
  src : Nat
  dest : Nat
  bits : Nat
  hops : Nat
  deriving DecidableEq, Repr

/-- Lines 81-85 of `rad-sim/sim/radsim_telemetry.cpp` for one entry, all arithmetic on `unsigned
int`. The two nested vectors of maps are one list of rows, found by key. -/
def addFlow (n s d w h : Nat) : List Flow → List Flow
  | [] => [⟨n, s, d, w, h⟩]
  | f :: fs =>
    if f.noc = n ∧ f.src = s ∧ f.dest = d then { f with bits := (f.bits + w) % 2 ^ 32, hops := h } :: fs
    else f :: addFlow n s d w h fs

/-- The loop body, `rad-sim/sim/radsim_telemetry.cpp:77-86`; `nodes` is the number of nodes of every
NoC of the RAD. An index outside the vectors is `none`. -/
def addEntry (nodes : List Nat) (fs : List Flow) (e : Entry) : Option (List Flow) :=
  match nodes[toU e.noc]? with
  | none => none
  | some m =>
    if toU e.src < m then
      some (addFlow (toU e.noc) (toU e.src) (toU e.dest) (toU e.dataw) (toU (e.hops - 1)) fs)
    else none

/-- The table built by `DumpTrafficFlows`, `rad-sim/sim/radsim_telemetry.cpp:66-86`, from the entries
in the order in which the hash map yields them. -/
def flows (nodes : List Nat) (entries : List Entry) : Option (List Flow) :=
  entries.foldlM (addEntry nodes) []

/-- Names of the modules at the two ends of each printed flow,
`rad-sim/sim/radsim_telemetry.cpp:98-101`: the first element of a set, undefined when the node is
out of range or has no module (`named` false). -/
def printable (named : Nat → Nat → Bool) (fs : List Flow) : Bool :=
  fs.all fun f => named f.noc f.src && named f.noc f.dest

/-- `aggregate_bandwidth` of one NoC without the common factor `1 / (cycle_count * period)`,
`rad-sim/sim/radsim_telemetry.cpp:90,103-104`. Rounding of `double` is not modelled. -/
def aggregate (noc : Nat) (fs : List Flow) : Nat :=
  ((fs.filter fun f => f.noc = noc).map fun f => f.hops * f.bits).sum

/-- `SimTraceRecording`: one list of cycles per trace, `rad-sim/sim/radsim_telemetry.hpp:106-119`. -/
abbrev Traces := List (List Nat)

/-- `SetTraceRecordingSettings`, `rad-sim/sim/radsim_telemetry.cpp:206-210`. -/
def traceInit (n : Nat) : Traces := List.replicate n []

/-- `record_event`, `rad-sim/sim/radsim_telemetry.cpp:212-214`, at the given cycle; an identifier
out of range is undefined (`none`). -/
def recordEvent (tr : Traces) (ev : Nat × Nat) : Option Traces :=
  if ev.1 < tr.length then some (tr.modify ev.1 (· ++ [ev.2])) else none

end RadSim.Telemetry
