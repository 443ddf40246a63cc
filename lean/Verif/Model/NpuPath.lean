import Verif.Model.NpuAccum
import Verif.Model.NpuRegFile

/-!
# The data path of a sector of the matrix-vector unit of the example design `npu`

Models the pipelines of `rad-sim/example-designs/npu/modules/mvu_sector.cpp`, `dpe.cpp` and the read side of `piso_register_file.cpp`,
with the register files (`RegFile`) and the accumulator (`Acc`). A micro-op read from the FIFO of instructions goes down a pipeline of 36
stages; on the way it makes the dot-product engines load a part of the vectors into one of two banks of registers, multiply a word
of the matrix with the three vectors in a bank, and the accumulator add the products.

Simplifications: one core and one of the four dot-product engines of each tile are modelled; the others have the same inputs but
for the words of their matrices and vectors, and the accumulator adds element by element. One thread is active. The cycles with a
stall change nothing but the queue of tags, so they are left out of a run (`none`). What is in the vectors' register file is an input in
every cycle, since the loader writes to it; the matrices are not written during a run. A result that has not been computed yet
is an empty vector in the source, which the reduction skips; here it is zero. -/

namespace RadSim.Npu

/-- The three results of a dot-product engine, `TB_NUM_DOTS` numbers `sc_int<32>`,
`rad-sim/example-designs/npu/modules/params.hpp:21-27`. -/
structure Dots where
  d0 : BitVec 32
  d1 : BitVec 32
  d2 : BitVec 32
  deriving DecidableEq

/-- One for each of the three vectors, as in the loop of `rad-sim/example-designs/npu/modules/dpe.cpp:95-100`. -/
def Dots.of (f : Nat → BitVec 32) : Dots := ⟨f 0, f 1, f 2⟩

/-- The addition element by element of the accumulator, `rad-sim/example-designs/npu/modules/accum.cpp:61-75`, and of the reduction,
`mvu_sector.cpp:424-427`. -/
instance : Add Dots := ⟨fun x y => ⟨x.d0 + y.d0, x.d1 + y.d1, x.d2 + y.d2⟩⟩

/-- The inputs of a cycle: `inst_fifo_ren` and `inst_fifo_rdata` of the active thread, and the contents of the register files of the
vectors (tile, address, lane), `rad-sim/example-designs/npu/modules/mvu_sector.cpp:501-510`. -/
structure SectorIn where
  valid : Bool
  uop : MvuUop
  vrf : Nat → Nat → Nat → Int

/-- The two banks of registers of a dot-product engine (bank, vector, lane) and the counters of what is loaded next,
`rad-sim/example-designs/npu/modules/dpe.hpp:44-45`. -/
structure Bank where
  regs : Bool → Nat → Nat → Int
  batch : Nat
  tb : Nat

/-- A stage of the delay of the part of a vector, `rad-sim/example-designs/npu/modules/dpe.cpp:57-67`. -/
structure Load where
  valid : Bool
  sel : Bool
  part : Nat → Int

/-- A tile: the two stages of `rdata_pipeline` of the vectors' register file and the two of `vrf_rdata_pipeline`; the delay; the
banks; the register file of the matrix; the results. -/
structure Tile where
  vrf : List (Nat → Int)
  delay : List Load
  bank : Bank
  rf : RegFile (List Int)
  res : List Dots

/-- The pipelines of the sector, `rad-sim/example-designs/npu/modules/mvu_sector.hpp:28-41`, the accumulator, and what is about to be
written to the output FIFO. -/
structure Sector where
  inst : List MvuUop
  valid : List Bool
  addr : List Nat
  tiles : List Tile
  resValid : List Bool
  red : List Dots
  redValid : List Bool
  acc : Acc Dots
  last : List Dots

/-- A pipeline of `n` stages advances, as in `rad-sim/example-designs/npu/modules/mvu_sector.cpp:434-457`. -/
def shift {α : Type} (n : Nat) (x : α) (l : List α) : List α := (x :: l).take n

/-- A part of a vector, `TB_LANES` of the lanes, is loaded, `rad-sim/example-designs/npu/modules/dpe.cpp:69-84`: for one vector after the
other, and then for the next lanes. -/
def Bank.load (b : Bank) (sel : Bool) (part : Nat → Int) : Bank where
  regs s d l := if s = sel ∧ d = b.batch ∧ 10 * b.tb ≤ l ∧ l < 10 * b.tb + 10 then part (l - 10 * b.tb) else b.regs s d l
  batch := if b.batch = 2 then 0 else b.batch + 1
  tb := if b.batch = 2 then (if b.tb = 3 then 0 else b.tb + 1) else b.tb

/-- A dot product, `rad-sim/example-designs/npu/modules/dpe.cpp:96-99`: the sum is cut to 32 bits with each of the 40 products. -/
def dotOf (a b : Nat → Int) : BitVec 32 := (List.range 40).foldl (fun s l => s + BitVec.ofInt 32 (a l * b l)) 0

/-- The products of a word of the matrix with the vectors of a bank, `rad-sim/example-designs/npu/modules/dpe.cpp:92-101`. -/
def Bank.dots (b : Bank) (sel : Bool) (w : List Int) : Dots := .of fun d => dotOf (fun l => w.getD l 0) (b.regs sel d)

/-- A cycle of a tile. `t` is its number; `validB`, `shiftSel`, `validA`, `useSel` are the control signals of the engine,
`rad-sim/example-designs/npu/modules/mvu_sector.cpp:513-520`; `raddr` is the end of the pipeline of matrix addresses, line 190. The vectors'
register file puts 10 of the 40 lanes of a word into its pipeline, `piso_register_file.cpp:66-70` and `106-113`. The engine, `dpe.cpp:54-107`:
what is loaded in a cycle is already multiplied in it. `none` is an address outside the register file. -/
def Tile.tick (c : Tile) (t : Nat) (i : SectorIn) (validB shiftSel validA useSel : Bool) (raddr : Nat) : Option Tile :=
  match c.rf.tick ⟨raddr, c.rf.waddr0, c.rf.wdata0, false⟩ with
  | none => none
  | some rf =>
    let d := c.delay.getD 2 ⟨false, false, fun _ => 0⟩
    let bank := if d.valid then c.bank.load d.sel d.part else c.bank
    some {
      vrf := shift 4 (fun l => i.vrf t i.uop.vrfAddr (10 * i.uop.vrfRdId + l)) c.vrf
      delay := shift 3 ⟨validB, shiftSel, c.vrf.getD 3 fun _ => 0⟩ c.delay
      bank := bank
      rf := rf
      res := shift 9 (if validA then bank.dots useSel c.rf.rdata else c.res.getD 0 (.of fun _ => 0)) c.res }

/-- The tiles, `rad-sim/example-designs/npu/modules/mvu_sector.cpp:150-180`, have the same control signals. -/
def tickTiles (i : SectorIn) (validB shiftSel validA useSel : Bool) (raddr : Nat) : Nat → List Tile → Option (List Tile)
  | _, [] => some []
  | t, c :: cs =>
    match c.tick t i validB shiftSel validA useSel raddr, tickTiles i validB shiftSel validA useSel raddr (t + 1) cs with
    | some c', some cs' => some (c' :: cs')
    | _, _ => none

/-- The sum of the results of the tiles, `rad-sim/example-designs/npu/modules/mvu_sector.cpp:417-430`. -/
def reduceTiles (cs : List Tile) : Dots := cs.foldl (fun s c => s + c.res.getD 8 (.of fun _ => 0)) (.of fun _ => 0)

/-- The inputs of the accumulator, `rad-sim/example-designs/npu/modules/mvu_sector.cpp:229-236` and `522-523`. -/
def Sector.feed (s : Sector) : AccIn Dots :=
  ⟨s.redValid.getD 4 false, (s.inst.getD 31 .default).accumOp, (s.inst.getD 31 .default).accumSize, s.red.getD 4 (.of fun _ => 0)⟩

/-- `mvu_sector::Tick`, `rad-sim/example-designs/npu/modules/mvu_sector.cpp:406-458`, in a cycle without a stall, with the processes of the
modules in it and the signals of `Assign`, lines 513-529. What is written to the output FIFO, and the next state. -/
def Sector.tick (s : Sector) (i : SectorIn) : Option (List Dots × Sector) :=
  match tickTiles i (s.valid.getD 3 false && (s.inst.getD 3 .default).vrfEn) (s.inst.getD 3 .default).regSel (s.valid.getD 17 false)
      (s.inst.getD 17 .default).regSel (s.addr.getD 15 0) 0 s.tiles, s.acc.tick s.feed with
  | some tiles, some acc =>
    some (s.last, {
      inst := shift 32 i.uop s.inst
      valid := shift 18 i.valid s.valid
      addr := shift 16 i.uop.mrfAddr s.addr
      tiles := tiles
      resValid := shift 9 (s.valid.getD 17 false) s.resValid
      red := shift 5 (reduceTiles s.tiles) s.red
      redValid := shift 5 (s.resValid.getD 8 false) s.redValid
      acc := acc
      last := s.acc.out })
  | _, _ => none

/-- What a sequence of cycles writes to the output FIFO; `none` in place of the inputs is a stall. -/
def Sector.run : Sector → List (Option SectorIn) → Option (List Dots × Sector)
  | s, [] => some ([], s)
  | s, none :: es => s.run es
  | s, some i :: es =>
    match s.tick i with
    | none => none
    | some (o, s') =>
      match s'.run es with
      | none => none
      | some (os, s'') => some (o ++ os, s'')

end RadSim.Npu
