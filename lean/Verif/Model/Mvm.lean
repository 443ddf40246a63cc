import Verif.Model.AddDesign

/-!
# The matrix vector multiplier of the example design `mlp`

Models `rad-sim/example-designs/mlp/modules/mvm.cpp` with its FIFOs (`modules/fifo.cpp`), the read side of its register files
(`modules/register_file.cpp`) and its instructions (`modules/instructions.cpp`). The module has a clocked process `Tick` and a
process `Assign` that runs only when a signal of its sensitivity list changes, so that the model follows the delta cycles of
SystemC: `delta` is one of them.

Simplifications: the state starts after the reset; the instructions and the weights are those read from the files at
construction, i.e. no beat with a tag 1 or 4 in `tuser` arrives (nothing in the design sends one, `dispatcher.cpp:62`,
`mvm.cpp:468,476`); both latencies of the register file are the same, as in `register_file.hpp:7-8`, so that its process
`Assign` runs when the last read address changes; `GetPortDestinationID` is left out: a beat carries layer and MVM. -/

namespace RadSim.Mlp

open AddDesign (Fifo FifoCfg FifoErr)

/-- `data_vector<sc_int<32>>`, `rad-sim/example-designs/mlp/modules/sim_utils.hpp:23-43`: empty unless something was written. -/
abbrev Vec := List (BitVec 32)

/-- `mvm_inst`, `rad-sim/example-designs/mlp/modules/instructions.hpp:6-17`. -/
structure Inst where
  en : Bool
  jump : Bool
  reduce : Bool
  accum : Nat
  accumEn : Bool
  release : Bool
  raddr : Nat
  last : Bool
  destLayer : BitVec 5
  destMvm : BitVec 5
  deriving DecidableEq, Repr

/-- The constructor, `rad-sim/example-designs/mlp/modules/instructions.cpp:3-13`. -/
def Inst.default : Inst := ⟨false, false, false, 0, false, false, 0, false, -1, 0⟩

/-- Constants of `rad-sim/example-designs/mlp/modules/mvm.hpp:20-42` and
`rad-sim/example-designs/mlp/modules/register_file.hpp:7`, the constructor arguments that matter, the instruction memory, and the
weights of dot product engine `d` at address `a`. -/
structure Mvm where
  lanes : Nat
  fifoSize : Nat
  computeLatency : Nat
  rfLatency : Nat
  memDepth : Nat
  layer : Nat
  prog : Nat → Inst
  weights : Nat → Nat → Vec

/-- A stage of the pipelines in front of the dot products, `rad-sim/example-designs/mlp/modules/mvm.hpp:75-79`. -/
structure Front where
  valid : Bool
  x : Vec
  red : Vec
  accum : Nat
  accumEn : Bool
  release : Bool
  destLayer : BitVec 5
  destMvm : BitVec 5

/-- A stage of the pipelines behind the dot products, `rad-sim/example-designs/mlp/modules/mvm.hpp:75-79`. -/
structure Back where
  valid : Bool
  result : Vec
  destLayer : BitVec 5
  destMvm : BitVec 5

/-- A stage after construction, `rad-sim/example-designs/mlp/modules/mvm.cpp:45-55`. -/
def Front.idle : Front := ⟨false, [], [], 0, false, false, 0, 0⟩

/-- A stage after construction, `rad-sim/example-designs/mlp/modules/mvm.cpp:48-55`. -/
def Back.idle : Back := ⟨false, [], 0, 0⟩

/-- Arguments of `ififo` and `reduce_fifo`, `rad-sim/example-designs/mlp/modules/mvm.cpp:101,116`. -/
def Mvm.inCfg (c : Mvm) : FifoCfg := ⟨c.fifoSize, c.fifoSize - 4, 0⟩

/-- Arguments of `ofifo`, `dl_fifo` and `dm_fifo`, `rad-sim/example-designs/mlp/modules/mvm.cpp:131-132,147-148,163-164`. -/
def Mvm.outCfg (c : Mvm) : FifoCfg := ⟨c.fifoSize, c.fifoSize - c.computeLatency - c.rfLatency - 4, 0⟩

/-- `rdata` of an empty FIFO, `rad-sim/example-designs/mlp/modules/fifo.cpp:64`. -/
def Mvm.zeros (c : Mvm) : Vec := List.replicate c.lanes 0

/-- What the clocked processes write: signals, queues and accumulators,
`rad-sim/example-designs/mlp/modules/mvm.hpp:50-95`. -/
structure Reg where
  pc : Nat
  acc : Nat → Vec
  front : List Front
  raddrs : List Nat
  back : List Back
  iWen : Bool
  iData : Vec
  rWen : Bool
  rData : Vec
  ififo : Fifo Vec
  rfifo : Fifo Vec
  ofifo : Fifo Vec
  dlfifo : Fifo (List (BitVec 5))
  dmfifo : Fifo (List (BitVec 5))

/-- What `Assign` writes, `rad-sim/example-designs/mlp/modules/mvm.hpp:51-104`. -/
structure Wire where
  inst : Inst
  raddr : Nat
  iRen : Bool
  rRen : Bool
  dotReduce : Bool
  dot : Bool
  oWen : Bool
  oData : Vec
  dlData : List (BitVec 5)
  dmData : List (BitVec 5)
  oRen : Bool
  rxReady : Bool
  txValid : Bool
  txData : Vec
  txUser : Nat
  txDest : BitVec 5 × BitVec 5

/-- All signals, with `tuser` at the input and `tready` at the output, `rad-sim/example-designs/mlp/modules/mvm.hpp:50-104`. -/
structure Sig where
  reg : Reg
  wire : Wire
  rxUser : Nat
  txReady : Bool

/-- The last stage of a pipeline (`rad-sim/example-designs/mlp/modules/mvm.cpp:410-411`). -/
def lastBack (l : List Back) : Back := l.getLastD .idle

/-- The tag in a `tuser` field, `rad-sim/example-designs/mlp/modules/mvm.cpp:302,371`. -/
def tag (user : Nat) : Nat := user / 8192 % 8

/-- What one run of `Assign` without reset writes, `rad-sim/example-designs/mlp/modules/mvm.cpp:370-511`: everything is read
before anything is written. -/
def assign (c : Mvm) (s : Sig) : Wire :=
  let r := s.reg
  let i := s.wire.inst
  let fireR := !r.ififo.empty && !r.rfifo.empty && !r.ofifo.almostFull && i.en && !i.jump && i.reduce
  let fire := !r.ififo.empty && !r.ofifo.almostFull && i.en && !i.jump && !i.reduce
  let b := lastBack r.back
  let dl := r.dlfifo.rdata.headD 0
  let dm := r.dmfifo.rdata.headD 0
  let show? := decide (r.ofifo.rdata.length > 0) && !r.ofifo.empty
  { inst := c.prog r.pc
    raddr := i.raddr
    iRen := if fireR then i.last else if fire then i.last else false
    rRen := fireR
    dotReduce := fireR
    dot := !fireR && fire
    oWen := b.valid
    oData := b.result
    dlData := [b.destLayer]
    dmData := [b.destMvm]
    oRen := s.wire.txValid && s.txReady
    rxReady := if tag s.rxUser = 1 then true
      else if tag s.rxUser = 2 then !r.rfifo.almostFull
      else if tag s.rxUser = 3 then !r.ififo.almostFull
      else decide (tag s.rxUser = 4)
    txValid := show?
    txData := if show? then r.ofifo.rdata else s.wire.txData
    txUser := if show? then (if dl.toInt - 1 = c.layer then 2 * 8192 else 3 * 8192) else s.wire.txUser
    txDest := if show? then (dl, dm) else s.wire.txDest }

/-- Whether a signal in the sensitivity list of `Assign` differs, `rad-sim/example-designs/mlp/modules/mvm.cpp:177-186`;
`ofifo_empty_signal` is not in it. -/
def senses (p s : Sig) : Bool :=
  decide (p.reg.ofifo.almostFull ≠ s.reg.ofifo.almostFull) || decide (p.reg.ofifo.rdata ≠ s.reg.ofifo.rdata) ||
  decide (p.wire.txValid ≠ s.wire.txValid) || decide (p.txReady ≠ s.txReady) || decide (p.rxUser ≠ s.rxUser) ||
  decide (p.reg.ififo.almostFull ≠ s.reg.ififo.almostFull) || decide (p.reg.rfifo.almostFull ≠ s.reg.rfifo.almostFull) ||
  decide ((lastBack p.reg.back).result ≠ (lastBack s.reg.back).result) ||
  decide ((lastBack p.reg.back).valid ≠ (lastBack s.reg.back).valid) ||
  decide (p.reg.ififo.empty ≠ s.reg.ififo.empty) || decide (p.reg.rfifo.empty ≠ s.reg.rfifo.empty) ||
  decide (p.wire.inst ≠ s.wire.inst) || decide (p.reg.pc ≠ s.reg.pc) ||
  decide (p.reg.dlfifo.rdata ≠ s.reg.dlfifo.rdata) || decide (p.reg.dmfifo.rdata ≠ s.reg.dmfifo.rdata) ||
  decide ((lastBack p.reg.back).destLayer ≠ (lastBack s.reg.back).destLayer) ||
  decide ((lastBack p.reg.back).destMvm ≠ (lastBack s.reg.back).destMvm)

/-- A delta cycle: the signals before it are `p` and `s`; the adapter with its only port raises `tready` for a valid beat if it
has room (`rad-sim/sim/noc/axis_slave_adapter.cpp:77-106`, whose sensitivity list has all it reads). -/
def delta (c : Mvm) (room : Bool) (y : Sig × Sig) : Sig × Sig :=
  (y.2, { y.2 with
    wire := if senses y.1 y.2 then assign c y.2 else y.2.wire
    txReady := y.2.wire.txValid && room })

/-- The delta cycles after an event that took the signals from `p` to `s`; `settle_stable` says that four are enough.
(`rad-sim/example-designs/mlp/modules/mvm.cpp:177-186`.) -/
def settle (c : Mvm) (room : Bool) (p s : Sig) : Sig :=
  (delta c room (delta c room (delta c room (delta c room (p, s))))).2

/-- What ends the program or is undefined: an error of a FIFO (`rad-sim/example-designs/mlp/modules/fifo.cpp:42,48`), an address
beyond a memory (`rad-sim/example-designs/mlp/modules/register_file.cpp:75-82`,
`rad-sim/example-designs/mlp/modules/mvm.cpp:252,390`), an element of an empty accumulator
(`rad-sim/example-designs/mlp/modules/mvm.cpp:259`). -/
inductive Err
  | fifo (e : FifoErr) | address | accum
  deriving DecidableEq, Repr

/-- `dot`, `rad-sim/example-designs/mlp/modules/mvm.cpp:195-201`. -/
def dotv (a b : Vec) : BitVec 32 := (List.zipWith (· * ·) a b).sum

/-- The result vector, `rad-sim/example-designs/mlp/modules/mvm.cpp:254-261`; `none` if an element is missing. -/
def result (c : Mvm) (f : Front) (addr : Nat) (a : Vec) : Option Vec :=
  if f.accumEn ∧ a.length < c.lanes then none
  else some ((List.range c.lanes).map fun d =>
    dotv f.x (c.weights d addr) + f.red.getD d 0 + (if f.accumEn then a.getD d 0 else 0))

/-- The stages move on, the first gets `x` (`rad-sim/example-designs/mlp/modules/mvm.cpp:268-297`). -/
def shift {α : Type} (x : α) (l : List α) : List α := (x :: l).take l.length

/-- The first stage after an edge, `rad-sim/example-designs/mlp/modules/mvm.cpp:219-247`. -/
def issue (c : Mvm) (r : Reg) (w : Wire) : Front :=
  let i := w.inst
  if w.dotReduce then ⟨true, r.ififo.rdata, r.rfifo.rdata, i.accum, i.accumEn, i.release, i.destLayer, i.destMvm⟩
  else if w.dot then ⟨true, r.ififo.rdata, c.zeros, i.accum, i.accumEn, i.release, i.destLayer, i.destMvm⟩
  else { r.front.headD .idle with valid := false }

/-- The program counter after an edge, `rad-sim/example-designs/mlp/modules/mvm.cpp:229,243,244-247`. -/
def nextPc (r : Reg) (w : Wire) : Nat :=
  if w.dotReduce || w.dot then r.pc + 1 else if w.inst.en && w.inst.jump then w.inst.raddr else r.pc

/-- The beat at the input of the module during an edge: `tvalid`, and `tdata` by lanes
(`rad-sim/example-designs/mlp/modules/mvm.cpp:299-319`). -/
structure Rx where
  valid : Bool
  data : Vec

/-- The accumulators and the new first element of `result_pipeline`, `rad-sim/example-designs/mlp/modules/mvm.cpp:249-266`. -/
def compute (c : Mvm) (r : Reg) : Except Err ((Nat → Vec) × Vec) :=
  let f := r.front.getLastD .idle
  if f.valid then
    if f.accum ≥ c.memDepth then .error .address
    else match result c f (r.raddrs.getLastD 0) (r.acc f.accum) with
      | none => .error .accum
      | some v => .ok (Function.update r.acc f.accum v, v)
  else .ok (r.acc, (r.back.headD .idle).result)

/-- A rising edge of the clock for all processes of the module, before the delta cycles,
`rad-sim/example-designs/mlp/modules/mvm.cpp:213-363`, `rad-sim/example-designs/mlp/modules/fifo.cpp:38-71`,
`rad-sim/example-designs/mlp/modules/register_file.cpp:72-98`. -/
def edge (c : Mvm) (s : Sig) (rx : Rx) : Except Err Reg := do
  let r := s.reg
  let w := s.wire
  let f := r.front.getLastD .idle
  let takeI := rx.valid && w.rxReady && decide (tag s.rxUser = 3)
  let takeR := rx.valid && w.rxReady && decide (tag s.rxUser = 2)
  if w.raddr ≥ c.memDepth ∨ nextPc r w ≥ c.memDepth then throw .address
  let (acc, res) ← compute c r
  let ififo ← (r.ififo.tick c.inCfg c.zeros r.iWen w.iRen r.iData).mapError .fifo
  let rfifo ← (r.rfifo.tick c.inCfg c.zeros r.rWen w.rRen r.rData).mapError .fifo
  let ofifo ← (r.ofifo.tick c.outCfg c.zeros w.oWen w.oRen w.oData).mapError .fifo
  let dlfifo ← (r.dlfifo.tick c.outCfg [0] w.oWen w.oRen w.dlData).mapError .fifo
  let dmfifo ← (r.dmfifo.tick c.outCfg [0] w.oWen w.oRen w.dmData).mapError .fifo
  return {
    pc := nextPc r w
    acc := acc
    front := shift (issue c r w) r.front
    raddrs := shift w.raddr r.raddrs
    back := shift ⟨f.valid && f.release, res, f.destLayer, f.destMvm⟩ r.back
    iWen := takeI
    iData := if takeI then rx.data else r.iData
    rWen := takeR
    rData := if takeR then rx.data else r.rData
    ififo, rfifo, ofifo, dlfifo, dmfifo }

/-- The clocked part when the reset ends, `rad-sim/example-designs/mlp/modules/mvm.cpp:205-212`,
`rad-sim/example-designs/mlp/modules/fifo.cpp:29-35`, `rad-sim/example-designs/mlp/modules/register_file.cpp:63-70`. -/
def Reg.reset (c : Mvm) : Reg where
  pc := 0
  acc := fun _ => []
  front := List.replicate c.rfLatency .idle
  raddrs := List.replicate c.rfLatency 0
  back := List.replicate c.computeLatency .idle
  iWen := false
  iData := []
  rWen := false
  rData := []
  ififo := .reset []
  rfifo := .reset []
  ofifo := .reset []
  dlfifo := .reset []
  dmfifo := .reset []

/-- What `Assign` wrote during the reset, `rad-sim/example-designs/mlp/modules/mvm.cpp:350-368`; `next_inst` and some others
still have their first values. -/
def Wire.reset : Wire where
  inst := .default
  raddr := 0
  iRen := false
  rRen := false
  dotReduce := false
  dot := false
  oWen := false
  oData := []
  dlData := []
  dmData := []
  oRen := false
  rxReady := false
  txValid := false
  txData := []
  txUser := 0
  txDest := (0, 0)

/-- The signals after the reset: `rst` is in the sensitivity list, `rad-sim/example-designs/mlp/modules/mvm.cpp:178`. -/
def Sig.init (c : Mvm) : Sig :=
  let s : Sig := ⟨.reset c, .reset, 0, false⟩
  settle c false s { s with wire := assign c s }

/-- What happens from an edge of the module clock up to the next: the beat that was at the input, then the tag at the input and
whether the adapter has room after the edge, and how this changes up to the next edge
(`rad-sim/sim/noc/axis_slave_adapter.cpp:58-61`). -/
structure Cycle where
  rx : Rx
  user : Nat
  room : Bool
  later : List Bool

/-- One cycle. (`rad-sim/example-designs/mlp/modules/mvm.cpp:177-190`.) -/
def cycle (c : Mvm) (s : Sig) (t : Cycle) : Except Err Sig :=
  match edge c s t.rx with
  | .error e => .error e
  | .ok r => .ok (t.later.foldl (fun z a => settle c a z z) (settle c t.room s { s with reg := r, rxUser := t.user }))

end RadSim.Mlp
