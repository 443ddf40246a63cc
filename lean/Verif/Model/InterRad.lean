import Verif.Model.AxisPacket
import Verif.Model.BufferState

/-!
# The bridge between RADs

Models `rad-sim/sim/radsim_inter_rad.cpp:56-186`. One `step` is one rising edge of the bridge
clock, at which both clocked processes `writeFifo` and `readFifo` run. They share the plain C++
variable `fifos_latency_counters`, so their order is visible; it is an argument of `step`.
The initial state is the one after the first edge, at which `writeFifo` only asserts `tready`
and `readFifo` finds empty FIFOs. Printing is left out. The fields `tstrb`, `tkeep` and `tid` are
not copied by the bridge (lines 96-107) and are therefore not part of `Beat`.
-/

namespace RadSim.InterRad

open RadSim

/-- The signals of one slave port as the bridge reads them,
`rad-sim/sim/noc/axis_interface.hpp:58-70`. -/
structure PortIn where
  tvalid : Bool
  tdata : BitVec axisDataW
  tlast : Bool
  tid : BitVec 32
  tdest : BitVec 21
  tuser : BitVec axisUserW
  deriving DecidableEq, Repr, Inhabited

/-- The members of `axis_fields` that the bridge fills in, `rad-sim/sim/radsim_inter_rad.hpp:15-27`. -/
structure Beat where
  tvalid : Bool
  tdata : BitVec axisDataW
  tlast : Bool
  tdest : BitVec 21
  tuser : BitVec axisUserW
  deriving DecidableEq, Repr, Inhabited

/-- The signals driven towards one RAD, `all_axis_master_signals[i]`,
`rad-sim/sim/radsim_inter_rad.hpp:42`; `tvalid` is written separately from the others. -/
structure Out where
  tvalid : Bool
  beat : Beat
  deriving DecidableEq, Repr, Inhabited

/-- The knobs: number of RADs, `inter_rad_latency_cycles`, `inter_rad_bw_accept_cycles`,
`inter_rad_bw_total_cycles`, `inter_rad_fifo_num_slots`
(`rad-sim/sim/radsim_inter_rad.cpp:11,15,87,121,140`). -/
structure Config where
  numRads : Nat
  latency : Nat
  accept : Nat
  total : Nat
  slots : Nat
  deriving DecidableEq, Repr, Inhabited

/-- Members of `RADSimInterRad` (`rad-sim/sim/radsim_inter_rad.hpp:31-55`), the local `bw_counter`
of `writeFifo` and the global drop counter (`rad-sim/sim/radsim_inter_rad.cpp:56-72`).
An `sc_fifo` is its readable contents `fifo`, the items written in the current delta cycle `pend`
and the number of items read in the current delta cycle `taken`. `ready` is the visible value of
the `tready` signals, `nextReady` the value written in the current delta cycle. -/
structure State where
  fifo : Nat → List Beat
  pend : Nat → List Beat
  taken : Nat → Nat
  cnt : Nat → List Nat
  bw : Nat
  ready : Nat → Bool
  nextReady : Nat → Bool
  out : Nat → Out
  drops : Nat

/-- After the first clock edge, `rad-sim/sim/radsim_inter_rad.cpp:67-72`. -/
def init : State where
  fifo := fun _ => []
  pend := fun _ => []
  taken := fun _ => 0
  cnt := fun _ => []
  bw := 0
  ready := fun _ => true
  nextReady := fun _ => true
  out := fun _ => ⟨false, default⟩
  drops := 0

/-- `curr_transaction`, `rad-sim/sim/radsim_inter_rad.cpp:94-107`. -/
def current (p : PortIn) : Beat where
  tvalid := p.tvalid
  tdata := p.tdata
  tlast := p.tlast
  tdest := bridgeDest p.tdest
  tuser := p.tuser

/-- Loop body of `writeFifo` for port `i`, `rad-sim/sim/radsim_inter_rad.cpp:84-119`. `none` is an
out-of-range index into `fifos`. `sc_fifo::nb_write` succeeds iff the readable items plus those
written in this delta cycle do not fill the FIFO; items read in this delta cycle still count. -/
def writePort (c : Config) (inp : Nat → PortIn) (s : State) (i : Nat) : Option State :=
  let s := { s with nextReady := upd s.nextReady i (decide (s.bw < c.accept)) }
  let b := current (inp i)
  if b.tvalid && s.ready i then
    let d := (destRad b.tdest).toNat
    if d < c.numRads then
      if (s.fifo d).length + (s.pend d).length < c.slots then
        some { s with pend := upd s.pend d (s.pend d ++ [b]),
                      cnt := upd s.cnt d (s.cnt d ++ [0]) }
      else some { s with drops := s.drops + 1 }
    else none
  else some s

/-- One iteration of the `while` loop of `writeFifo`, `rad-sim/sim/radsim_inter_rad.cpp:76-129`. -/
def writeFifo (c : Config) (inp : Nat → PortIn) (s : State) : Option State :=
  match (List.range c.numRads).foldlM (writePort c inp) s with
  | none => none
  | some s => some { s with bw := if s.bw ≥ c.total - 1 then 0 else s.bw + 1 }

/-- Loop body of `readFifo` for FIFO `i`, `rad-sim/sim/radsim_inter_rad.cpp:146-181`. `none` is
reading element 0 of an empty vector or an out-of-range index into the master signals. -/
def readPort (c : Config) (s : State) (i : Nat) : Option State :=
  let s := { s with cnt := upd s.cnt i ((s.cnt i).map (· + 1)) }
  let idle := { s with out := upd s.out i { s.out i with tvalid := false } }
  match (s.fifo i).drop (s.taken i) with
  | [] => some idle
  | b :: _ =>
    match s.cnt i with
    | [] => none
    | t :: rest =>
      if t ≥ c.latency then
        let s := { s with cnt := upd s.cnt i rest, taken := upd s.taken i (s.taken i + 1) }
        let d := (destRad b.tdest).toNat
        if b.tvalid then
          if d < c.numRads then some { s with out := upd s.out d ⟨true, b⟩ } else none
        else some { s with out := upd s.out i { s.out i with tvalid := false } }
      else some idle

/-- One iteration of the `while` loop of `readFifo`, `rad-sim/sim/radsim_inter_rad.cpp:141-185`. -/
def readFifo (c : Config) (s : State) : Option State :=
  (List.range c.numRads).foldlM (readPort c) s

/-- One clock edge: both processes in the given order, then the `sc_fifo` and `sc_signal` update
phase. -/
def step (c : Config) (writeFirst : Bool) (inp : Nat → PortIn) (s : State) : Option State :=
  let s := { s with pend := fun _ => [], taken := fun _ => 0, nextReady := s.ready }
  let r := if writeFirst then (writeFifo c inp s).bind (readFifo c)
           else (readFifo c s).bind (writeFifo c inp)
  r.map fun s =>
    { s with fifo := fun d => (s.fifo d).drop (s.taken d) ++ s.pend d
             ready := s.nextReady }

/-- What can be seen on the ports around one edge: `tready` and the inputs before it, the driven
signals after it. -/
structure Obs where
  ready : Nat → Bool
  inp : Nat → PortIn
  out : Nat → Out

/-- A run: process order and inputs for every edge. -/
def run (c : Config) (s : State) : List (Bool × (Nat → PortIn)) → Option (State × List Obs)
  | [] => some (s, [])
  | (wf, inp) :: es =>
    match step c wf inp s with
    | none => none
    | some s' =>
      match run c s' es with
      | none => none
      | some (t, os) => some (t, ⟨s.ready, inp, s'.out⟩ :: os)

end RadSim.InterRad
