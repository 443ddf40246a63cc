import Verif.Model.AxisPacket

/-!
# The portal module

Models `rad-sim/sim/portal.cpp:23-143`. `Tick` handles two directions one after the other with the
same code on disjoint variables; a direction is modelled once and `Dir` says which one where they
differ (reset, line 37). One event is a rising edge of the module clock with the values that the
ports show before it. The initial state is the one after the first edge, which executes only
lines 37-38. Printing is left out.
-/

namespace RadSim.Portal

open RadSim

/-- `portal_axis_fields`, `rad-sim/sim/portal.hpp:13-23` (the members `tvalid` and `tready` are
always true when an entry is pushed). -/
structure Fields where
  tdata : BitVec axisDataW
  tstrb : BitVec 8
  tkeep : BitVec 8
  tlast : Bool
  tid : BitVec 32
  tdest : BitVec 21
  tuser : BitVec axisUserW
  deriving DecidableEq, Repr, Inhabited

/-- `toBridge`: from the local NoC to the other RADs (queue `portal_axis_fifo_noc_incoming`, output
`portal_axis_master`). `toNoc`: the other way (queue `portal_axis_fifo_noc_outgoing`, output
`axis_portal_master_interface`). -/
inductive Dir
  | toBridge | toNoc
  deriving DecidableEq, Repr

/-- One direction: queue and driven output signals. -/
structure Chan where
  q : List Fields
  tvalid : Bool
  out : Fields
  deriving DecidableEq, Repr, Inhabited

/-- Signals nobody has written read zero. -/
def init : Chan := ⟨[], false, ⟨0, 0, 0, false, 0, 0, 0⟩⟩

/-- Driving the front of the queue, `rad-sim/sim/portal.cpp:80-91` and `126-137`: `tstrb`, `tkeep`
and `tid` of the output are not written. -/
def drive (s : Chan) : Chan :=
  match s.q with
  | f :: _ =>
    { s with tvalid := true,
             out := { s.out with tdata := f.tdata, tdest := f.tdest, tuser := f.tuser, tlast := f.tlast } }
  | [] => { s with tvalid := false, out := { s.out with tdata := 0 } }

/-- What the ports show before an edge. `inReady` is the value of the `tready` that `Assign`
(`rad-sim/sim/portal.cpp:23-34`) drives, i.e. the negated reset. -/
structure PortIn where
  rst : Bool
  inValid : Bool
  inBeat : Fields
  outReady : Bool
  deriving DecidableEq, Repr, Inhabited

/-- `Assign`, `rad-sim/sim/portal.cpp:23-34`. -/
def inReady (p : PortIn) : Bool := !p.rst

/-- One clock edge of one direction, `rad-sim/sim/portal.cpp:37-38`, `43-91` and `93-137`. The second
component is the line "reached here but why", printed when an output handshake finds the queue
empty (lines 75-77, 121-123). -/
def tick (d : Dir) (s : Chan) (p : PortIn) : Chan × Bool :=
  if p.rst then
    (match d with
     | .toBridge => { s with tvalid := false }
     | .toNoc => s, false)
  else
    let s1 := if p.inValid && inReady p then { s with q := s.q ++ [p.inBeat] } else s
    let hs := s1.tvalid && p.outReady
    let s2 := if hs then { s1 with q := s1.q.tail } else s1
    (drive s2, hs && s1.q.isEmpty)

/-- What happened at an edge: the beat taken in and the beat handed out, if any, judged from
outside by valid and ready. -/
structure Obs where
  taken : Option Fields
  given : Option Fields
  oops : Bool
  /-- output valid, ready and beat before the edge -/
  before : Bool × Bool × Fields
  /-- output valid and beat after the edge -/
  after : Bool × Fields

/-- A run with what is seen from outside. -/
def run (d : Dir) (s : Chan) : List PortIn → Chan × List Obs
  | [] => (s, [])
  | p :: ps =>
    let o : Obs :=
      { taken := if p.inValid && inReady p then some p.inBeat else none
        given := if s.tvalid && p.outReady then some s.out else none
        oops := (tick d s p).2
        before := (s.tvalid, p.outReady, s.out)
        after := ((tick d s p).1.tvalid, (tick d s p).1.out) }
    let r := run d (tick d s p).1 ps
    (r.1, o :: r.2)

end RadSim.Portal
