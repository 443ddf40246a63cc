import Verif.Model.NpuInst

/-!
# The instruction decoders of the example design `npu`

Models `rad-sim/example-designs/npu/modules/decoders.cpp:283-908` and `instruction_fifo.cpp`. Each decoder takes macro-ops from a
FIFO and writes a sequence of micro-ops for each. The decoders of the matrix-vector unit's sectors, of the external register file
and of the multi-function units have their own FIFO, filled over the NoC by an adapter; the loader's decoder reads the queue of its
adapter directly (`axis_vector_elementwise.cpp:242-280`).

Simplifications: the four processes `Tick` share their states `READ_INST` and `INIT`, which are modelled once (`Dec.tick`), and
differ in the micro-op they make and in their counters (`Kind`). A register `sc_uint<w>` is a natural number, reduced where it is
written. A comparison such as `counter == size - 1` is one of 64-bit unsigned numbers, since `sc_uint` gives one: with `size = 0`
it compares with `2^64 - 1` (`pred`). The logs and the traces are not modelled. `mop_fifo_wen` and `mop_ren` are functions of
`mop_rdy` and `mop_fifo_almost_full`, to which `Assign` is sensitive, so there are no delta cycles. -/

namespace RadSim.Npu

/-! ## The FIFO -/

/-- `instruction_fifo`, `rad-sim/example-designs/npu/modules/instruction_fifo.cpp:4-11`, with its output signals. `full` and
`almost_empty` are not read by the decoders. -/
structure Fifo (M : Type) where
  mem : List M
  empty : Bool
  almostFull : Bool
  rdata : M

/-- The reset, `rad-sim/example-designs/npu/modules/instruction_fifo.cpp:23-30`; `rdata` is left as it was. -/
def Fifo.reset {M : Type} (f : Fifo M) : Fifo M := { f with mem := [], empty := true, almostFull := false }

/-- `instruction_fifo::Tick`, `rad-sim/example-designs/npu/modules/instruction_fifo.cpp:33-65`. `none` is a call of
`sim_log.log(error, …)`, which ends the simulation. `limit` is `fifo_almost_full_size`, `dflt` the dummy instruction. -/
def Fifo.tick {M : Type} (limit : Nat) (dflt : M) (f : Fifo M) (ren : Bool) (push : Option M) : Option (Fifo M) :=
  if ren = true ∧ f.mem = [] then none
  else
    let m1 := if ren then f.mem.tail else f.mem
    match push with
    | none => some ⟨m1, m1.isEmpty, decide (limit ≤ m1.length), m1.headD dflt⟩
    | some x =>
      if limit < m1.length then none
      else
        let m2 := m1 ++ [x]
        some ⟨m2, m2.isEmpty, decide (limit ≤ m2.length), m2.headD dflt⟩

/-- `MOP_FIFO_ALMOST_FULL_DEPTH`, `rad-sim/example-designs/npu/modules/params.hpp:14-15`. -/
abbrev mopLimit : Nat := 502

/-! ## What the decoders share -/

/-- `DEC_*_READ_INST`, `DEC_*_INIT` and `DEC_*_CORE`, `rad-sim/example-designs/npu/modules/decoders.hpp:14-26`. The state
`DEC_LD_TAG_UPDATE` of the loader is a flag of its counters. -/
inductive Phase where
  | read
  | init
  | core
  deriving DecidableEq, Repr

/-- What one of the four processes `Tick` in `rad-sim/example-designs/npu/modules/decoders.cpp:314-908` has of its own: when a macro-op
is valid and what its state `INIT` writes to the counters; what its last state (or the last two, of the loader) does if `uop_rdy`:
the counters, the micro-op and whether it goes back to `READ_INST`; and what it writes to the counters if not `uop_rdy`. -/
structure Kind (M C U : Type) where
  valid : M → Bool
  start : M → C → C
  core : M → C → Bool → C × U × Bool
  hold : M → C → C

/-- The registers of a decoder, `rad-sim/example-designs/npu/modules/decoders.hpp:114-243`, as far as they are common: the state, the
macro-op in hand, the counters, the variable `first_uop`, the read enable, and the outputs `uop_wen` and `uop_wdata`. -/
structure Dec (M C U : Type) where
  phase : Phase
  nxt : M
  ctr : C
  first : Bool
  ren : Bool
  wen : Bool
  wdata : U

/-- `Tick`, `rad-sim/example-designs/npu/modules/decoders.cpp:332-504`, `546-634`, `680-761` and `784-908`. -/
def Dec.tick {M C U : Type} (K : Kind M C U) (d : Dec M C U) (empty : Bool) (rdata : M) (uopRdy : Bool) : Dec M C U :=
  match d.phase with
  | .read =>
    if empty then { d with wen := false }
    else { d with wen := false, nxt := rdata, phase := .init, ren := true, first := true }
  | .init =>
    if K.valid d.nxt then { d with wen := false, ren := false, phase := .core, ctr := K.start d.nxt d.ctr }
    else { d with wen := false, ren := false, phase := .read }
  | .core =>
    if uopRdy then
      let o := K.core d.nxt d.ctr d.first
      { d with ctr := o.1, wdata := o.2.1, wen := true, first := false, phase := if o.2.2 then .read else .core }
    else { d with wen := false, ctr := K.hold d.nxt d.ctr }

/-- A decoder with its FIFO, `rad-sim/example-designs/npu/modules/decoders.cpp:283-300`. -/
structure Node (M C U : Type) where
  fifo : Fifo M
  dec : Dec M C U

/-- What the rest of the design does in a cycle: `mop_rdy` and `mop_rdata` of the adapter, and `uop_rdy`. -/
structure Env (M : Type) where
  mop : Option M
  uopRdy : Bool

/-- What is written to the FIFO in this cycle, and taken from the adapter: `Assign`,
`rad-sim/example-designs/npu/modules/decoders.cpp:304-312`, `528-536`, `658-666`. -/
def Node.take {M C U : Type} (n : Node M C U) (e : Env M) : Option M := if n.fifo.almostFull then none else e.mop

/-- A clock cycle of the decoder and its FIFO: both read what was written in the cycle before. -/
def Node.step {M C U : Type} (K : Kind M C U) (dflt : M) (n : Node M C U) (e : Env M) : Option (Node M C U) :=
  match n.fifo.tick mopLimit dflt n.dec.ren (n.take e) with
  | none => none
  | some f => some ⟨f, n.dec.tick K n.fifo.empty n.fifo.rdata e.uopRdy⟩

/-- The reset of the processes, `rad-sim/example-designs/npu/modules/decoders.cpp:315-329`, `539-543`, `669-677`: the state and the
counters (given here), but not the read enable; and that of the FIFO. -/
def Node.reset {M C U : Type} (c : C) (n : Node M C U) : Node M C U :=
  ⟨n.fifo.reset, { n.dec with phase := .read, ctr := c }⟩

/-- What was taken and what was written, cycle by cycle. `none` is an error of the FIFO. -/
def Node.run {M C U : Type} (K : Kind M C U) (dflt : M) : Node M C U → List (Env M) → Option (List M × List U × Node M C U)
  | n, [] => some ([], [], n)
  | n, e :: es =>
    match n.step K dflt e with
    | none => none
    | some n' =>
      match Node.run K dflt n' es with
      | none => none
      | some (ms, us, n'') =>
        some ((n.take e).toList ++ ms, (if n'.dec.wen then [n'.dec.wdata] else []) ++ us, n'')

/-- `x - 1` for a value `x` of type `sc_uint`: a 64-bit unsigned number. -/
def pred (x : Nat) : Nat := (x + (2 ^ 64 - 1)) % 2 ^ 64

/-- The base address for the batch entry `b`: the loop over `i < TB_NUM_DOTS` with `if (batch_counter == i)`, which leaves the 0 of
the constructor if there is none, `rad-sim/example-designs/npu/modules/decoders.cpp:579-581`. The sum has 9 bits. -/
def addrAt (base : List Nat) (b i : Nat) : Nat := if b < dots then (base.getD b 0 + i) % 2 ^ 9 else 0

/-! ## The decoder of the external register file -/

/-- The counters, `rad-sim/example-designs/npu/modules/decoders.hpp:163-164`. -/
structure EvrfCtr where
  batch : Nat
  addr : Nat
  deriving DecidableEq, Repr

/-- The batch counter is at its last value: the condition repeated in
`rad-sim/example-designs/npu/modules/decoders.cpp:592-613`. -/
def evrfLast (m : EvrfMop) (c : EvrfCtr) : Bool :=
  (c.batch == dots - 1 && !m.srcSel) || (c.batch == pred m.batch && m.srcSel)

/-- `DEC_EVRF_CORE`, `rad-sim/example-designs/npu/modules/decoders.cpp:577-628`. `EVRF_FROM_MVU` is 0, `EVRF_FROM_VRF` 1,
`EVRF_FLUSH_MVU` 2 (`instructions.hpp:10-12`). -/
def evrfCore (m : EvrfMop) (c : EvrfCtr) (first : Bool) : EvrfCtr × EvrfUop × Bool :=
  let done := c.addr == pred m.vrfSize && evrfLast m c
  (⟨if evrfLast m c then 0 else (c.batch + 1) % 2 ^ 2, if evrfLast m c then (c.addr + 1) % 2 ^ 9 else c.addr⟩,
    { vrfAddr := addrAt m.vrfBase c.batch c.addr
      srcSel := if c.batch < m.batch then m.srcSel.toNat else 2
      tag := m.tag
      first := first
      last := done },
    done)

/-- `evrf_decoder`, `rad-sim/example-designs/npu/modules/decoders.cpp:538-635`. -/
def evrfKind : Kind EvrfMop EvrfCtr EvrfUop where
  valid m := m.op
  start _ _ := ⟨0, 0⟩
  core := evrfCore
  hold _ c := c

/-! ## The decoder of a multi-function unit -/

/-- The counters and what `INIT` latches, `rad-sim/example-designs/npu/modules/decoders.hpp:198-202`. -/
structure MfuCtr where
  batch : Nat
  count : Nat
  size : Nat
  tag : Nat
  op : Nat
  numBatch : Nat
  deriving DecidableEq, Repr

/-- `DEC_MFU_CORE`, `rad-sim/example-designs/npu/modules/decoders.cpp:717-755`. -/
def mfuCore (m : MfuMop) (c : MfuCtr) (first : Bool) : MfuCtr × MfuUop × Bool :=
  let lastB := c.batch == pred c.numBatch
  let done := c.count == pred c.size && lastB
  ({ c with
      batch := if lastB then 0 else (c.batch + 1) % 2 ^ 2
      count := if lastB then (c.count + 1) % 2 ^ 9 else c.count },
    { vrf0Addr := addrAt m.addBase c.batch c.count
      vrf1Addr := addrAt m.mulBase c.batch c.count
      tag := c.tag
      activation := c.op / 2 ^ 4 % 4
      addOp := c.op / 2 % 8
      multOp := c.op % 2
      first := first
      last := done },
    done)

/-- `mfu_decoder`, `rad-sim/example-designs/npu/modules/decoders.cpp:668-762`. -/
def mfuKind : Kind MfuMop MfuCtr MfuUop where
  valid m := m.op / 2 ^ 6 % 2 == 1
  start m _ := ⟨0, 0, m.vrfSize, m.tag, m.op, m.batch⟩
  core := mfuCore
  hold _ c := c

/-! ## The decoder of a sector of the matrix-vector unit -/

/-- `(DPE_NUM_TBS - 1) * TB_NUM_DOTS`, the number of accumulators, `rad-sim/example-designs/npu/modules/params.hpp:62` and `85`. -/
abbrev numAcc : Nat := 12

/-- The counters, `rad-sim/example-designs/npu/modules/decoders.hpp:120-127`. -/
structure MvuCtr where
  batch : Nat
  vrf : Nat
  pipe : Nat
  vrfIdCount : Nat
  vrfId : Nat
  chunkOff : Nat
  pipeOff : Nat
  mrfAddr : Nat
  tag : Nat
  regSel : Bool
  remaining : Nat
  accSize : Nat
  deriving DecidableEq, Repr

/-- `DEC_MVU_INIT`, `rad-sim/example-designs/npu/modules/decoders.cpp:350-366`. -/
def mvuStart (m : MvuMop) (c : MvuCtr) : MvuCtr where
  batch := 0
  vrf := 0
  pipe := 0
  vrfIdCount := 0
  vrfId := 0
  chunkOff := 0
  pipeOff := 0
  mrfAddr := m.mrfBase
  tag := m.tag
  regSel := c.regSel
  remaining := m.wordsPerRow
  accSize := numAcc

/-- What is written to `acc_size` whether or not `uop_rdy`, `rad-sim/example-designs/npu/modules/decoders.cpp:389-395`. It has 5
bits. -/
def mvuAcc (c : MvuCtr) : Nat := if 2 * numAcc ≤ c.remaining then numAcc else c.remaining % 2 ^ 5

/-- `accum_op`, `rad-sim/example-designs/npu/modules/decoders.cpp:397-408`: `SET` 0, `UPD` 1, `WRB` 2, `SWB` 3
(`instructions.hpp:6-9`). -/
def mvuAccOp (m : MvuMop) (c : MvuCtr) : Nat :=
  if c.pipe < c.remaining then
    if c.vrf = 0 ∧ c.vrf = pred m.vrfSize then 3
    else if c.vrf = pred m.vrfSize then 2
    else if c.vrf = 0 then 0
    else 1
  else 0

/-- `DEC_MVU_CORE`, `rad-sim/example-designs/npu/modules/decoders.cpp:373-497`. The sum `mrf_base + mrf_size - 1` is a 64-bit
number. -/
def mvuCore (m : MvuMop) (c : MvuCtr) (first : Bool) : MvuCtr × MvuUop × Bool :=
  let enabled := decide (c.pipe < numAcc)
  let lastP := c.pipe == pred c.accSize
  let lastV := c.vrf == pred m.vrfSize
  let done := c.mrfAddr == pred (m.mrfBase + m.mrfSize)
  let vrf := if lastP then if lastV then 0 else (c.vrf + 1) % 2 ^ 9 else c.vrf
  let chunkOff := if lastV && lastP then (c.chunkOff + numAcc * m.vrfSize) % 2 ^ 10 else c.chunkOff
  let pipeOff := if lastP then 0 else (c.pipeOff + m.vrfSize) % 2 ^ 10
  ({ batch := if enabled then if c.batch = dots - 1 then 0 else (c.batch + 1) % 2 ^ 2 else c.batch
     vrf := vrf
     pipe := if lastP then 0 else (c.pipe + 1) % 2 ^ 9
     vrfIdCount := if enabled then if c.vrfIdCount = dots - 1 then 0 else (c.vrfIdCount + 1) % 2 ^ 9 else c.vrfIdCount
     vrfId :=
       if enabled then
         if c.vrfId = 3 ∧ c.vrfIdCount = dots - 1 then 0
         else if c.vrfIdCount = dots - 1 then (c.vrfId + 1) % 2 ^ 2
         else c.vrfId
       else c.vrfId
     chunkOff := chunkOff
     pipeOff := pipeOff
     mrfAddr := (m.mrfBase + chunkOff + pipeOff + vrf) % 2 ^ 10
     tag := c.tag
     regSel := if lastP || done then !c.regSel else c.regSel
     remaining := if lastV && lastP && decide (2 * numAcc - 1 < c.remaining) then c.remaining - numAcc else c.remaining
     accSize := mvuAcc c },
    { vrfAddr := addrAt m.vrfBase c.batch c.vrf
      vrfRdId := c.vrfId
      regSel := c.regSel
      mrfAddr := c.mrfAddr
      tag := c.tag
      accumOp := mvuAccOp m c
      accumSize := mvuAcc c
      vrfEn := enabled
      first := first
      last := done },
    done)

/-- `sector_and_accum_decoder`, `rad-sim/example-designs/npu/modules/decoders.cpp:314-505`. -/
def mvuKind : Kind MvuMop MvuCtr MvuUop where
  valid m := m.op
  start := mvuStart
  core := mvuCore
  hold _ c := { c with accSize := mvuAcc c }

/-! ## The decoder of the loader -/

/-- The counters and what `INIT` latches, `rad-sim/example-designs/npu/modules/decoders.hpp:236-241`; `update` is the state
`DEC_LD_TAG_UPDATE`. -/
structure LdCtr where
  update : Bool
  tagCount : Nat
  numBatch : Nat
  batch : Nat
  size : Nat
  interrupt : Bool
  output : Bool
  srcSel : Nat
  count : Nat
  deriving DecidableEq, Repr

/-- `DEC_LD_CORE`, `rad-sim/example-designs/npu/modules/decoders.cpp:821-861`. -/
def ldCore (m : LdMop) (c : LdCtr) (first : Bool) : LdCtr × LdUop × Bool :=
  let lastB := c.batch == pred c.numBatch
  ({ c with
      batch := if lastB then 0 else (c.batch + 1) % 2 ^ 2
      count := if lastB then (c.count + 1) % 2 ^ 9 else c.count
      update := c.count == pred c.size && lastB },
    { LdUop.default with
      vrf0Id := m.vrf0Id
      block1Id := m.block1Id
      vrf1Id := m.vrf1Id
      vrf0Addr := addrAt m.vrf0Base c.batch c.count
      vrf1Addr := addrAt m.vrf1Base c.batch c.count
      srcSel := c.srcSel
      output := c.output
      first := first },
    false)

/-- `DEC_LD_TAG_UPDATE`, `rad-sim/example-designs/npu/modules/decoders.cpp:864-902`. `VRF_DEPTH` is 512, `NUM_PIPELINE_BLOCKS` 5,
`LD_TAG_UPDATE` 2; the tag counter has 4 bits. -/
def ldUpdate (c : LdCtr) : LdCtr × LdUop × Bool :=
  let u : LdUop := { LdUop.default with vrf0Addr := 511, vrf1Addr := 511, srcSel := 2, lastFlag := true }
  if c.tagCount = 0 then ({ c with tagCount := (c.tagCount + 1) % 2 ^ 4 }, { u with vrf0Id := 1 }, false)
  else if c.tagCount < 5 - 2 then
    ({ c with tagCount := (c.tagCount + 1) % 2 ^ 4 }, { u with block1Id := c.tagCount, vrf1Id := 1 }, false)
  else (c, { u with block1Id := c.tagCount, vrf1Id := 1, interrupt := c.interrupt, last := true }, true)

/-- `ld_decoder`, `rad-sim/example-designs/npu/modules/decoders.cpp:771-908`. -/
def ldKind : Kind LdMop LdCtr LdUop where
  valid m := m.op
  start m _ := ⟨false, 0, m.batch, 0, m.vrfSize, m.interrupt, m.output, m.srcSel, 0⟩
  core m c first := if c.update then ldUpdate c else ldCore m c first
  hold _ c := c

/-- The loader's decoder with the queue of its adapter, `rad-sim/example-designs/npu/modules/axis_fifo_adapters.cpp`: `mop_rdy` is
`buffer_occupancy > 0`, and `mop_rdata` is what the adapter wrote last. -/
structure LdNode where
  queue : List LdMop
  rdata : LdMop
  dec : Dec LdMop LdCtr LdUop

/-- What arrives in a cycle over the NoC, as a whole payload, and `uop_rdy`. -/
abbrev LdEnv := Env LdMop

/-- What goes into the queue of the adapter: it has room for `AXIS_ADAPTER_BUFFER_CAPACITY` = 2 payloads (`params.hpp:94`), and
`tready` says so. -/
def LdNode.take (n : LdNode) (e : LdEnv) : Option LdMop := if n.queue.length < 2 then e.mop else none

/-- A clock cycle of the loader's decoder and of `axis_slave_fifo_adapter::Tick`,
`rad-sim/example-designs/npu/modules/axis_fifo_adapters.cpp:365-435`: what arrives is pushed, what is read is popped if
`fifo_ren && fifo_rdy`, and the front is shown if there is one. -/
def LdNode.step (n : LdNode) (e : LdEnv) : LdNode :=
  let q1 := n.queue ++ (n.take e).toList
  let q2 := if n.dec.ren && !n.queue.isEmpty then q1.tail else q1
  ⟨q2, q2.headD n.rdata, n.dec.tick ldKind n.queue.isEmpty n.rdata e.uopRdy⟩

/-- What was taken and what was written, cycle by cycle. -/
def LdNode.run : LdNode → List LdEnv → List LdMop × List LdUop × LdNode
  | n, [] => ([], [], n)
  | n, e :: es =>
    let n' := n.step e
    let r := LdNode.run n' es
    ((n.take e).toList ++ r.1, (if n'.dec.wen then [n'.dec.wdata] else []) ++ r.2.1, r.2.2)

end RadSim.Npu
