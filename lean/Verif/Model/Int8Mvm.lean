/-!
# The matrix vector multiplier of the example design `mlp_int8`

Models `rad-sim/example-designs/mlp_int8/modules/sysc_mvm.cpp` with its FIFOs (`modules/fifo.cpp`), pipelines
(`modules/pipeline.cpp`), register files (`modules/register_file.cpp`), datapaths (`modules/datapath.cpp`) and instructions
(`modules/instructions.cpp`). Weights and instructions come over the NoC, as do vectors; the instruction FIFO is a ring: what is
taken from it goes in again behind.

Simplifications: the state starts after the reset. `Assign` is sensitive to every signal it reads
(`sysc_mvm.cpp:171-176`), and so are the processes `Assign` of the pipelines and datapaths, so what they write is a function of
what the clocked processes wrote, and there are no delta cycles here; the process `Assign` of the register files also writes the
memory, and it is followed (`rfSettle`). The datapaths differ in their data only, so they share one valid bit (only that of the
first is read, `sysc_mvm.cpp:354`). Both latencies of the register file are the same in `config.hpp:11-12`, and
`register_file.cpp:36` relies on it. Addresses have 9 bits and the memories 512 words (`config.hpp:8-9`), so that no address is
out of bounds. `full` of the FIFOs is not used. `tstrb`, `tkeep`, `tlast` and `tid` carry nothing. -/

namespace RadSim.Int8

/-- `data_vector<sc_int<8>>`, `rad-sim/example-designs/mlp_int8/modules/sim_utils.hpp`,
`rad-sim/example-designs/mlp_int8/modules/config.hpp:4`: empty unless something was written. -/
abbrev Vec := List (BitVec 8)

/-- `mvm_inst`, `rad-sim/example-designs/mlp_int8/modules/instructions.hpp:6-15`. -/
structure Inst where
  releaseOp : Bool
  releaseDest : BitVec 9
  rfRaddr : BitVec 9
  accumRaddr : BitVec 9
  last : Bool
  release : Bool
  accumEn : Bool
  reduce : Bool
  deriving DecidableEq, Repr

/-- The constructor, `rad-sim/example-designs/mlp_int8/modules/instructions.cpp:3-11`. -/
def Inst.default : Inst := ⟨false, 0, 0, 0, false, false, false, false⟩

/-- `from_bv`, `rad-sim/example-designs/mlp_int8/modules/instructions.cpp:19-28`. -/
def Inst.fromBv (b : Nat) : Inst where
  reduce := b.testBit 0
  accumEn := b.testBit 1
  release := b.testBit 2
  last := b.testBit 3
  accumRaddr := BitVec.ofNat 9 (b >>> 4)
  rfRaddr := BitVec.ofNat 9 (b >>> 13)
  releaseDest := BitVec.ofNat 9 (b >>> 22)
  releaseOp := b.testBit 31

/-- `to_bv`, `rad-sim/example-designs/mlp_int8/modules/instructions.cpp:30-41`. -/
def Inst.toBv (i : Inst) : Nat :=
  i.reduce.toNat + i.accumEn.toNat <<< 1 + i.release.toNat <<< 2 + i.last.toNat <<< 3 + i.accumRaddr.toNat <<< 4 +
    i.rfRaddr.toNat <<< 13 + i.releaseDest.toNat <<< 22 + i.releaseOp.toNat <<< 31

/-- The constants of `rad-sim/example-designs/mlp_int8/modules/config.hpp:6-12`: `LANES` (and `DPES`), `FIFOD`,
`DATAPATH_DELAY`, `RF_RD_LATENCY`, `RF_WR_LATENCY`. -/
structure Mvm where
  lanes : Nat
  fifoDepth : Nat
  delay : Nat
  rdLat : Nat
  wrLat : Nat

/-- Constructor arguments of a FIFO, `rad-sim/example-designs/mlp_int8/modules/fifo.cpp:4`. -/
structure FifoCfg where
  depth : Nat
  almost : Nat

/-- The instruction, input and reduction FIFO, `rad-sim/example-designs/mlp_int8/modules/sysc_mvm.cpp:37,49,62`. -/
def Mvm.inCfg (c : Mvm) : FifoCfg := ⟨c.fifoDepth, c.fifoDepth - 4⟩

/-- The output FIFO, `rad-sim/example-designs/mlp_int8/modules/sysc_mvm.cpp:159`. -/
def Mvm.outCfg (c : Mvm) : FifoCfg := ⟨c.fifoDepth, c.fifoDepth - c.delay - 4⟩

/-- A FIFO: the queue and the signal `odata`, `rad-sim/example-designs/mlp_int8/modules/fifo.hpp:14-29`. The flags are written
together with the queue and follow from it. -/
structure Fifo (α : Type) where
  mem : List α
  odata : α

/-- `empty`, `rad-sim/example-designs/mlp_int8/modules/fifo.cpp:29,49`. -/
def Fifo.empty {α : Type} (f : Fifo α) : Bool := f.mem.isEmpty

/-- `almost_full`, `rad-sim/example-designs/mlp_int8/modules/fifo.cpp:31,51`. -/
def Fifo.almostFull {α : Type} (k : FifoCfg) (f : Fifo α) : Bool := decide (f.mem.length ≥ k.almost)

/-- What ends the simulation or is undefined: the errors of a FIFO (`rad-sim/example-designs/mlp_int8/modules/fifo.cpp:38,44`),
an element that a vector does not have (`rad-sim/example-designs/mlp_int8/modules/datapath.cpp:68`). -/
inductive Err
  | underflow | overflow | element
  deriving DecidableEq, Repr

/-- An edge of the clock, `rad-sim/example-designs/mlp_int8/modules/fifo.cpp:35-57`: pop, then push; `odata` stays what it was
when the queue is empty. -/
def Fifo.tick {α : Type} (k : FifoCfg) (push pop : Bool) (d : α) (f : Fifo α) : Except Err (Fifo α) :=
  if pop && f.mem.isEmpty then .error .underflow
  else
    let m := if pop then f.mem.tail else f.mem
    if push && m.length == k.depth then .error .overflow
    else
      let m := if push then m ++ [d] else m
      .ok ⟨m, m.headD f.odata⟩

/-- An edge of the clock for a pipeline, `rad-sim/example-designs/mlp_int8/modules/pipeline.cpp:29-30`. -/
def pipe {α : Type} (x : α) (l : List α) : List α := (x :: l).take l.length

/-- A beat at the input: `tdata` and `tuser`, `rad-sim/example-designs/mlp_int8/modules/sysc_mvm.cpp:209-217`. -/
structure Beat where
  data : Nat
  user : Nat
  deriving DecidableEq, Repr

/-- `tuser_op`, `rad-sim/example-designs/mlp_int8/modules/sysc_mvm.cpp:319`. -/
def tag (user : Nat) : Nat := user >>> 9 % 4

/-- `tuser_rf_addr`, `rad-sim/example-designs/mlp_int8/modules/sysc_mvm.cpp:318`. -/
def rfAddr (user : Nat) : BitVec 9 := BitVec.ofNat 9 user

/-- `tuser_rf_en`, `rad-sim/example-designs/mlp_int8/modules/sysc_mvm.cpp:320`. -/
def rfEn (user : Nat) (d : Nat) : Bool := user.testBit (11 + d)

/-- `tdata` by lanes, `rad-sim/example-designs/mlp_int8/modules/sysc_mvm.cpp:226-229`. -/
def unpack (c : Mvm) (data : Nat) : Vec := (List.range c.lanes).map fun l => BitVec.ofNat 8 (data >>> (8 * l))

/-- A beat at the output. `dest` is what goes to `tdest`: the number that `sc_int<8>` stands for. -/
structure TxBeat where
  data : Nat
  user : Nat
  dest : Int
  deriving DecidableEq, Repr

/-- `tdata` of a vector, `rad-sim/example-designs/mlp_int8/modules/sysc_mvm.cpp:359-363`. -/
def pack : Vec → Nat
  | [] => 0
  | x :: v => x.toNat + 2 ^ 8 * pack v

/-- The beat for an entry of the output FIFO: the lanes, then destination and operation,
`rad-sim/example-designs/mlp_int8/modules/sysc_mvm.cpp:357-373`. -/
def txBeat (c : Mvm) (v : Vec) : TxBeat where
  data := pack (v.take c.lanes)
  user := if v.getD (c.lanes + 1) 0 ≠ 0 then 2 <<< 9 else 1 <<< 9
  dest := (v.getD c.lanes 0).toInt

/-- What the clocked processes write, `rad-sim/example-designs/mlp_int8/modules/sysc_mvm.hpp:25-81`,
`rad-sim/example-designs/mlp_int8/modules/register_file.hpp:12-18`,
`rad-sim/example-designs/mlp_int8/modules/datapath.hpp:15-19`; `mem` and `acc` of engine `d` at address `a`. `redOp` is
`datapath_reduction_operand`, which keeps its value when there is no vector. -/
structure Sig where
  inst : Fifo Inst
  input : Fifo Vec
  red : Fifo Vec
  out : Fifo Vec
  instPush : Bool
  instData : Inst
  inputPush : Bool
  inputData : Vec
  redPush : Bool
  redData : Vec
  rfWen : Nat → Bool
  rfWdata : Vec
  rfWaddr : BitVec 9
  raddrs : List (BitVec 9)
  waddrs : List (BitVec 9)
  wdatas : List Vec
  wens : List (Nat → Bool)
  mem : Nat → BitVec 9 → Vec
  rdata : Nat → Vec
  instPipe : List Inst
  validPipe : List Bool
  inputPipe : List Vec
  redPipe : List Vec
  redOp : Vec
  acc : Nat → BitVec 9 → BitVec 32
  dpIn : List (BitVec 32)
  dpValid : Bool
  dpPipe : List (List (BitVec 32))
  dpvPipe : List Bool
  instDp : List Inst

/-- `inst_fifo_pop`, `rad-sim/example-designs/mlp_int8/modules/sysc_mvm.cpp:323-324`. -/
def instPop (c : Mvm) (s : Sig) : Bool :=
  !s.inst.empty && !s.input.empty && !s.out.almostFull c.outCfg && (!s.inst.odata.reduce || !s.red.empty)

/-- `reduction_fifo_pop`, `rad-sim/example-designs/mlp_int8/modules/sysc_mvm.cpp:326-327`. -/
def redPop (c : Mvm) (s : Sig) : Bool :=
  !s.inst.empty && !s.input.empty && !s.out.almostFull c.outCfg && s.inst.odata.reduce && !s.red.empty

/-- `input_fifo_pop`, `rad-sim/example-designs/mlp_int8/modules/sysc_mvm.cpp:329-330`. -/
def inputPop (c : Mvm) (s : Sig) : Bool :=
  !s.inst.empty && !s.input.empty && !s.out.almostFull c.outCfg && (!s.inst.odata.reduce || !s.red.empty) && s.inst.odata.last

/-- `tready` at the input for a valid beat, `rad-sim/example-designs/mlp_int8/modules/sysc_mvm.cpp:381-391`. -/
def rxReady (c : Mvm) (s : Sig) (user : Nat) : Bool :=
  if tag user = 0 then !s.inst.almostFull c.inCfg
  else if tag user = 1 then !s.red.almostFull c.inCfg
  else if tag user = 2 then !s.input.almostFull c.inCfg
  else true

/-- `tvalid` at the output, `rad-sim/example-designs/mlp_int8/modules/sysc_mvm.cpp:358,374,376`. -/
def txValid (s : Sig) : Bool := decide (s.out.odata.length > 0) && !s.out.empty

/-- `output_data_fifo_pop`, `rad-sim/example-designs/mlp_int8/modules/sysc_mvm.cpp:378`. -/
def outPop (s : Sig) (ready : Bool) : Bool := !s.out.empty && ready

/-- `output_data_fifo_idata`, `rad-sim/example-designs/mlp_int8/modules/sysc_mvm.cpp:347-353`: 32 and 9 bits are cut to 8. -/
def outData (c : Mvm) (s : Sig) : Vec :=
  ((List.range c.lanes).map fun d => ((s.dpPipe.getLastD []).getD d 0).setWidth 8) ++
    [(s.instDp.getLastD .default).releaseDest.setWidth 8, if (s.instDp.getLastD .default).releaseOp then 1 else 0]

/-- The dot product, `rad-sim/example-designs/mlp_int8/modules/datapath.cpp:61-69`. -/
def dot (c : Mvm) (x w : Vec) : BitVec 32 :=
  ((List.range c.lanes).map fun j => (x.getD j 0).signExtend 32 * (w.getD j 0).signExtend 32).sum

/-- The accumulators after an edge, `rad-sim/example-designs/mlp_int8/modules/datapath.cpp:60-82`. -/
def accNext (c : Mvm) (s : Sig) (d : Nat) (a : BitVec 9) : BitVec 32 :=
  let i := s.instPipe.getLastD .default
  if s.validPipe.getLastD false && decide (a = i.accumRaddr) then
    (if i.accumEn then s.acc d a else 0) +
      (dot c (s.inputPipe.getLastD []) (s.rdata d) + if i.reduce then (s.redOp.getD d 0).signExtend 32 else 0)
  else s.acc d a

/-- Whether the process `Assign` of register file `d` runs: the last stages before and after an edge differ
(`rad-sim/example-designs/mlp_int8/modules/register_file.cpp:35-36`). -/
def rfSenses (p s : Sig) (d : Nat) : Bool :=
  decide (s.raddrs.getLastD 0 ≠ p.raddrs.getLastD 0) || decide (s.waddrs.getLastD 0 ≠ p.waddrs.getLastD 0) ||
    decide (s.wdatas.getLastD [] ≠ p.wdatas.getLastD []) ||
    decide (s.wens.getLastD (fun _ => false) d ≠ p.wens.getLastD (fun _ => false) d)

/-- The process `Assign` of the register files, `rad-sim/example-designs/mlp_int8/modules/register_file.cpp:47-58`: first the
read data, then the write. -/
def rfSettle (p s : Sig) : Sig :=
  { s with
    rdata := fun d => if rfSenses p s d then s.mem d (s.raddrs.getLastD 0) else s.rdata d
    mem := fun d a =>
      if rfSenses p s d && s.wens.getLastD (fun _ => false) d && decide ((s.wdatas.getLastD []).length ≠ 0) &&
        decide (a = s.waddrs.getLastD 0) then s.wdatas.getLastD [] else s.mem d a }

/-- Whether a beat of a kind is taken, `rad-sim/example-designs/mlp_int8/modules/sysc_mvm.cpp:213,223,236,249`. -/
def isTag (took : Option Beat) (n : Nat) : Bool := took.any fun b => decide (tag b.user = n)

/-- What the clocked processes write at an edge when the beat `took` is taken, apart from the FIFOs, and
`datapath_reduction_operand`: `rad-sim/example-designs/mlp_int8/modules/sysc_mvm.cpp:207-284,338-344`,
`rad-sim/example-designs/mlp_int8/modules/register_file.cpp:71-100`,
`rad-sim/example-designs/mlp_int8/modules/datapath.cpp:59-103`. An instruction that is taken goes to the FIFO in place of the one
that is popped. -/
def clocked (c : Mvm) (s : Sig) (took : Option Beat) (inst : Fifo Inst) (input red out : Fifo Vec) : Sig :=
  let data := (took.map (·.data)).getD 0
  let user := (took.map (·.user)).getD 0
  let i := s.instPipe.getLastD .default
  let redPipe := pipe s.red.odata s.redPipe
  { inst, input, red, out
    instPush := if isTag took 0 then true else instPop c s
    instData := if isTag took 0 then .fromBv data else s.inst.odata
    inputPush := isTag took 2
    inputData := if isTag took 2 then unpack c data else s.inputData
    redPush := isTag took 1
    redData := if isTag took 1 then unpack c data else s.redData
    rfWen := fun d => isTag took 3 && rfEn user d
    rfWdata := if isTag took 3 then unpack c data else s.rfWdata
    rfWaddr := if isTag took 3 then rfAddr user else s.rfWaddr
    raddrs := pipe s.inst.odata.rfRaddr s.raddrs
    waddrs := pipe s.rfWaddr s.waddrs
    wdatas := pipe s.rfWdata s.wdatas
    wens := pipe s.rfWen s.wens
    mem := s.mem
    rdata := s.rdata
    instPipe := pipe s.inst.odata s.instPipe
    validPipe := pipe (instPop c s) s.validPipe
    inputPipe := pipe s.input.odata s.inputPipe
    redPipe := redPipe
    redOp := if (redPipe.getLastD []).length > 0 then redPipe.getLastD [] else s.redOp
    acc := accNext c s
    dpIn := (List.range c.lanes).map fun d => accNext c s d i.accumRaddr
    dpValid := s.validPipe.getLastD false && i.release
    dpPipe := pipe s.dpIn s.dpPipe
    dpvPipe := pipe s.dpValid s.dpvPipe
    instDp := pipe i s.instDp }

/-- A rising edge, and what follows; `rx` is the beat at the input, `ready` is `tready` at the output.
`rad-sim/example-designs/mlp_int8/modules/sysc_mvm.cpp:209`, `rad-sim/example-designs/mlp_int8/modules/datapath.cpp:68`,
`rad-sim/example-designs/mlp_int8/modules/fifo.cpp:35-57`. -/
def edge (c : Mvm) (s : Sig) (rx : Option Beat) (ready : Bool) : Except Err Sig := do
  if s.validPipe.getLastD false && decide ((s.inputPipe.getLastD []).length < c.lanes) then throw .element
  let inst ← s.inst.tick c.inCfg s.instPush (instPop c s) s.instData
  let input ← s.input.tick c.inCfg s.inputPush (inputPop c s) s.inputData
  let red ← s.red.tick c.inCfg s.redPush (redPop c s) s.redData
  let out ← s.out.tick c.outCfg (s.dpvPipe.getLastD false) (outPop s ready) (outData c s)
  return rfSettle s (clocked c s (rx.filter fun b => rxReady c s b.user) inst input red out)

/-- When the reset ends, `rad-sim/example-designs/mlp_int8/modules/sysc_mvm.cpp:201-203`,
`rad-sim/example-designs/mlp_int8/modules/fifo.cpp:28-31`, `rad-sim/example-designs/mlp_int8/modules/register_file.cpp:20-24,62-68`,
`rad-sim/example-designs/mlp_int8/modules/datapath.cpp:16,54-55`. The process `Assign` of the register files has run once. -/
def Sig.init (c : Mvm) : Sig where
  inst := ⟨[], .default⟩
  input := ⟨[], []⟩
  red := ⟨[], []⟩
  out := ⟨[], []⟩
  instPush := false
  instData := .default
  inputPush := false
  inputData := []
  redPush := false
  redData := []
  rfWen := fun _ => false
  rfWdata := []
  rfWaddr := 0
  raddrs := List.replicate c.rdLat 0
  waddrs := List.replicate c.wrLat 0
  wdatas := List.replicate c.wrLat []
  wens := List.replicate c.wrLat fun _ => false
  mem := fun _ _ => List.replicate c.lanes 0
  rdata := fun _ => List.replicate c.lanes 0
  instPipe := List.replicate c.rdLat .default
  validPipe := List.replicate c.rdLat false
  inputPipe := List.replicate c.rdLat []
  redPipe := List.replicate c.rdLat []
  redOp := List.replicate c.lanes 0
  acc := fun _ _ => 0
  dpIn := List.replicate c.lanes 0
  dpValid := false
  dpPipe := List.replicate (c.delay - 1) (List.replicate c.lanes 0)
  dpvPipe := List.replicate (c.delay - 1) false
  instDp := List.replicate c.delay .default

/-- What is at the ports during an edge: the beat at the input, if `tvalid`, and `tready` at the output
(`rad-sim/example-designs/mlp_int8/modules/sysc_mvm.cpp:209,378`). -/
structure Cycle where
  rx : Option Beat
  ready : Bool

end RadSim.Int8
