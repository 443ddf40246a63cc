import Verif.Model.NpuDecode
import Verif.Model.NpuPath

/-!
# The external register file and the multi-function units of the example design `npu`

Models `rad-sim/example-designs/npu/modules/evrf.cpp` and `rad-sim/example-designs/npu/modules/mfu.cpp`, for one core, and the FIFOs of
words `rad-sim/example-designs/npu/modules/fifo.cpp`. Both modules issue micro-ops from a FIFO, read register files, and put words in an output FIFO
after a fixed number of cycles; they are instances (`mfuUnit`, `evrfUnit`) of one model.

Simplifications: the cores, which all get the same signals, are one. Words are values of any type; the vectors that are added or multiplied have the
same number of elements. The write ports of the register files and the tag are inputs of every cycle. Pipelines that follow
each other are one (`compute_data_pipeline` and `compute_to_ofifo_data_pipeline`), pipelines that are read at the same stage are one
(`inst_pipeline`, `inst_valid_pipeline`, `input_to_compute_data_pipeline`). Data next to a false valid bit are left out. -/

namespace RadSim.Npu

/-! ## The FIFO of words -/

/-- `DATA_FIFO_DEPTH`, `rad-sim/example-designs/npu/modules/params.hpp:12`. -/
abbrev dataDepth : Nat := 512

/-- `fifo::Tick`, `rad-sim/example-designs/npu/modules/fifo.cpp:36-72`. `none` is a call of `sim_log.log(error, …)`: underflow or overflow. -/
def Fifo.dataTick {M : Type} (limit : Nat) (zero : M) (f : Fifo M) (ren : Bool) (push : Option M) : Option (Fifo M) :=
  if ren = true ∧ f.mem = [] then none
  else
    let m1 := if ren then f.mem.tail else f.mem
    match push with
    | none => some ⟨m1, m1.isEmpty, decide (limit ≤ m1.length), m1.headD zero⟩
    | some x =>
      if m1.length = dataDepth then none
      else
        let m2 := m1 ++ [x]
        some ⟨m2, m2.isEmpty, decide (limit ≤ m2.length), m2.headD zero⟩

/-! ## A unit -/

/-- What the two modules have of their own: the tag of a micro-op; whether it is of a kind that is issued, whether it takes a word from the input FIFO, whether
it gives a word to the output FIFO; the addresses of its operands; the word it gives, from the word taken and the operands. `A`:
the stages before the register files, `V`: the stages between those and the computation, `E`: the stages from there to the output FIFO. -/
structure VKind (U W : Type) where
  tag : U → Nat
  runs : U → Bool
  takes : U → Bool
  gives : U → Bool
  addr0 : U → Nat
  addr1 : U → Nat
  fn : U → W → W → W → W
  dflt : U
  zero : W
  A : Nat
  V : Nat
  E : Nat

variable {U W : Type}

/-- `EVRF_PIPELINE`, `MFU_PIPELINE`, `rad-sim/example-designs/npu/modules/params.hpp:77-82`. -/
def VKind.N (K : VKind U W) : Nat := K.A + 2 + K.V + K.E

/-- A stage of the pipelines: the micro-op, and, if it has been issued, the word at the end of the input FIFO. -/
structure Slot (U W : Type) where
  uop : U
  word : Option W
  deriving DecidableEq, Repr

/-- The write port of a register file. -/
structure WPort (W : Type) where
  addr : Nat
  data : W
  en : Bool

/-- The inputs in a cycle: a micro-op and a word that are offered, the write ports of the register files, the tag, and whether the next module reads. -/
structure VIn (U W : Type) where
  uop : Option U
  word : Option W
  port0 : WPort W
  port1 : WPort W
  tag : Nat
  ren : Bool

/-- The registers, `rad-sim/example-designs/npu/modules/evrf.hpp:22-57` and `rad-sim/example-designs/npu/modules/mfu.hpp:23-64`. -/
structure VUnit (U W : Type) where
  uf : Fifo U
  inf : Fifo W
  slots : List (Slot U W)
  rf0 : RegFile W
  rf1 : RegFile W
  v0 : List W
  v1 : List W
  outp : List (Option W)
  of : Fifo W

/-- `inst_fifo_ren`, `rad-sim/example-designs/npu/modules/evrf.cpp:242-246` and `rad-sim/example-designs/npu/modules/mfu.cpp:347-348`. -/
def VUnit.issue (K : VKind U W) (s : VUnit U W) (i : VIn U W) : Bool :=
  !s.uf.empty && !s.of.almostFull && decide (K.tag s.uf.rdata ≤ i.tag) && K.runs s.uf.rdata && (!K.takes s.uf.rdata || !s.inf.empty)

/-- What can be seen in a cycle: what is taken in, what goes to the first stage, what is given. -/
structure VOut (U W : Type) where
  uop : Option U
  word : Option W
  slot : Slot U W
  given : Option W

/-- The word for the output FIFO of what has come to the end of the stages, if it is to give one:
`rad-sim/example-designs/npu/modules/evrf.cpp:194-200`, `rad-sim/example-designs/npu/modules/mfu.cpp:296-299`. -/
def VKind.result (K : VKind U W) (x : Slot U W) (r0 r1 : W) : Option W :=
  match x.word with
  | some w => if K.gives x.uop then some (K.fn x.uop w r0 r1) else none
  | none => none

/-- `Tick` and `Assign`, `rad-sim/example-designs/npu/modules/evrf.cpp:189-217`, `235-261`, and `rad-sim/example-designs/npu/modules/mfu.cpp:287-324`,
`342-359`.
The register files are read with the address in stage `A - 1`; the computation is done with what leaves the last stage. -/
def VUnit.tick [DecidableEq W] (K : VKind U W) (s : VUnit U W) (i : VIn U W) : Option (VOut U W × VUnit U W) :=
  let iss := s.issue K i
  let uop := if s.uf.almostFull then none else i.uop
  let word := if s.inf.almostFull then none else i.word
  let slot : Slot U W := ⟨s.uf.rdata, if iss then some s.inf.rdata else none⟩
  let idle : Slot U W := ⟨K.dflt, none⟩
  let read := (s.slots.getD (K.A - 1) idle).uop
  let last := s.slots.getD (K.A + 1 + K.V) idle
  let r0 := (s.rf0.rdata :: s.v0).getD K.V K.zero
  let r1 := (s.rf1.rdata :: s.v1).getD K.V K.zero
  let res := K.result last r0 r1
  let pop := i.ren && !s.of.empty
  match s.uf.tick mopLimit K.dflt iss uop, s.inf.dataTick (dataDepth - K.N) K.zero (iss && K.takes s.uf.rdata) word,
    s.rf0.tick ⟨K.addr0 read, i.port0.addr, i.port0.data, i.port0.en⟩, s.rf1.tick ⟨K.addr1 read, i.port1.addr, i.port1.data, i.port1.en⟩,
    s.of.dataTick (dataDepth - K.N) K.zero pop (s.outp.getD (K.E - 1) none) with
  | some uf, some inf, some rf0, some rf1, some of =>
    some (⟨uop, word, slot, if pop then some s.of.rdata else none⟩,
      { uf := uf
        inf := inf
        slots := shift (K.A + 2 + K.V) slot s.slots
        rf0 := rf0
        rf1 := rf1
        v0 := shift K.V s.rf0.rdata s.v0
        v1 := shift K.V s.rf1.rdata s.v1
        outp := shift K.E res s.outp
        of := of })
  | _, _, _, _, _ => none

/-- A sequence of cycles. -/
def VUnit.run [DecidableEq W] (K : VKind U W) : VUnit U W → List (VIn U W) → Option (List (VOut U W) × VUnit U W)
  | s, [] => some ([], s)
  | s, i :: es =>
    match s.tick K i with
    | none => none
    | some (o, s') =>
      match s'.run K es with
      | none => none
      | some (os, s'') => some (o :: os, s'')

/-! ## The two modules -/

/-- A word: `DPES_PER_SECTOR` numbers of `HIGH_PRECISION` bits, `rad-sim/example-designs/npu/modules/params.hpp:7` and `24-26`. -/
abbrev Vec := List (BitVec 32)

/-- The addition stage of `mfu_compute`, `rad-sim/example-designs/npu/modules/mfu.cpp:31-51`, and the operators of
`rad-sim/example-designs/npu/modules/sim_utils.cpp:64-127`. -/
def mfuSum (op : Nat) (x a : Vec) : Vec :=
  match op with
  | 1 => List.zipWith (· + ·) x a
  | 2 => List.zipWith (· - ·) x a
  | 3 => List.zipWith (· - ·) a x
  | 4 => List.zipWith (fun p q => if q.slt p then p else q) x a
  | _ => x

/-- `mfu_compute`, `rad-sim/example-designs/npu/modules/mfu.cpp:7-62`. The activations are the identity. -/
def mfuCompute (u : MfuUop) (x a m : Vec) : Vec :=
  if u.multOp = 1 then List.zipWith (· * ·) (mfuSum u.addOp x a) m else mfuSum u.addOp x a

/-- The multi-function unit. `MFU_INST_TO_VRFS_PIPLINE` 2, `MFU_VRFS_TO_COMPUTE_PIPELINE` 9, `MFU_COMPUTE_PIPELINE` 10 and
`MFU_COMPUTE_TO_OFIFO_PIPELINE` 2, `rad-sim/example-designs/npu/modules/params.hpp:39-44` and `79`. -/
def mfuUnit : VKind MfuUop Vec where
  tag u := u.tag
  runs _ := true
  takes _ := true
  gives _ := true
  addr0 u := u.vrf0Addr
  addr1 u := u.vrf1Addr
  fn := mfuCompute
  dflt := .default
  zero := List.replicate 4 0
  A := 2
  V := 9
  E := 12

/-- The external register file. `EVRF_FROM_MVU` 0, `EVRF_FROM_VRF` 1, `EVRF_FLUSH_MVU` 2, `rad-sim/example-designs/npu/modules/instructions.hpp:10-12`;
`EVRF_INST_TO_VRF` 4, `EVRF_RF_TO_OFIFO_PIPELINE` 2, `rad-sim/example-designs/npu/modules/params.hpp:37-38`; the choice of the source
`rad-sim/example-designs/npu/modules/evrf.cpp:194-200`. It has one register file; the second is not used. -/
def evrfUnit : VKind EvrfUop Vec where
  tag u := u.tag
  runs u := decide (u.srcSel < 3)
  takes u := u.srcSel == 0 || u.srcSel == 2
  gives u := u.srcSel != 2
  addr0 u := u.vrfAddr
  addr1 _ := 0
  fn u x r _ := if u.srcSel = 1 then r else x
  dflt := .default
  zero := List.replicate 4 0
  A := 4
  V := 0
  E := 2

end RadSim.Npu
