/-!
# The output FIFOs of the matrix-vector sectors of the example design `npu`

Models `rad-sim/example-designs/npu/modules/asymmetric_fifo.cpp`, the FIFO that takes wide words and gives narrow ones, and what a sector
writes to it (`rad-sim/example-designs/npu/modules/mvu_sector.cpp`).

Simplifications: elements are values of any type with an addition (`sc_int<32>` in the design, which wraps). A call of
`sim_log.log(error, …)`, which ends the simulation, and an access outside a vector are `none`. `unsigned int` has 32 bits.
-/

namespace RadSim.Npu

variable {α : Type}

/-- Parameters of the constructor, `rad-sim/example-designs/npu/modules/asymmetric_fifo.cpp:4-17`. -/
structure WideCfg where
  cap : Nat
  iwidth : Nat
  owidth : Nat
  limit : Nat
  low : Nat
  deriving DecidableEq, Repr

/-- `width_ratio`, `rad-sim/example-designs/npu/modules/asymmetric_fifo.cpp:12`. -/
def WideCfg.ratio (c : WideCfg) : Nat := c.iwidth / c.owidth

/-- A difference of two `unsigned int`, as in `rad-sim/example-designs/npu/modules/asymmetric_fifo.cpp:49`. -/
def usub (a b : Nat) : Nat := (a + 2 ^ 32 - b) % 2 ^ 32

/-- `mem` and the outputs, `rad-sim/example-designs/npu/modules/asymmetric_fifo.hpp:20-33`. -/
structure WideFifo (α : Type) where
  mem : List (List α)
  empty : Bool
  almostEmpty : Bool
  full : Bool
  almostFull : Bool
  rdata : List α
  deriving DecidableEq, Repr

/-- The constructor and the reset, `rad-sim/example-designs/npu/modules/asymmetric_fifo.cpp:4-36`. -/
def WideFifo.new (c : WideCfg) : Option (WideFifo α) :=
  if c.owidth = 0 ∨ c.iwidth % c.owidth ≠ 0 then none else some ⟨[], true, true, false, false, []⟩

/-- The words that are pushed for one input, `rad-sim/example-designs/npu/modules/asymmetric_fifo.cpp:54-60`. -/
def WideCfg.chunks (c : WideCfg) (zero : α) (w : List α) : List (List α) :=
  (List.range c.ratio).map fun i => (List.range c.owidth).map fun e => w.getD (i * c.owidth + e) zero

/-- The outputs at the end of a cycle, `rad-sim/example-designs/npu/modules/asymmetric_fifo.cpp:64-77`. -/
def WideCfg.show (c : WideCfg) (zero : α) (m : List (List α)) : WideFifo α :=
  ⟨m, m.isEmpty, decide (m.length ≤ c.low), decide (m.length > usub c.cap c.ratio), decide (m.length > usub c.limit c.ratio),
    m.headD (List.replicate c.owidth zero)⟩

/-- A cycle of `Tick`, `rad-sim/example-designs/npu/modules/asymmetric_fifo.cpp:39-79`; `push` is the input if `wen` is set. -/
def WideFifo.tick (c : WideCfg) (zero : α) (f : WideFifo α) (ren : Bool) (push : Option (List α)) : Option (WideFifo α) :=
  if ren = true ∧ f.mem = [] then none
  else
    let m := if ren then f.mem.tail else f.mem
    match push with
    | none => some (c.show zero m)
    | some w =>
      if m.length > usub c.cap c.ratio ∨ w.length < c.ratio * c.owidth then none
      else some (c.show zero (m ++ c.chunks zero w))

/-- `dpe_results_reshaped`, `rad-sim/example-designs/npu/modules/mvu_sector.cpp:418-431`: the results of the dot-product engines of all
tiles, added, with the engines next to each other. `res` is the result of an engine of a tile. -/
def reshaped (add : α → α → α) (zero : α) (dots dpes tiles : Nat) (res : Nat → Nat → List α) : List α :=
  (List.range (dots * dpes)).map fun e =>
    (List.range tiles).foldl (fun acc t =>
      if res (e % dpes) t = [] then acc else add acc ((res (e % dpes) t).getD (e / dpes) zero)) zero

/-- The output FIFOs of a sector, with `DATA_FIFO_DEPTH`, `TB_NUM_DOTS`, `DPES_PER_SECTOR` and `SECTOR_INST_PIPELINE` of
`rad-sim/example-designs/npu/modules/params.hpp:7-21`, `rad-sim/example-designs/npu/modules/mvu_sector.cpp:286-288`. -/
def sectorCfg : WideCfg := ⟨512, 3 * 4, 4, 512 - 37, 0⟩

/-- A cycle of an output FIFO of a sector: the word at the end of the pipelines is written unless an output FIFO is almost full
(`rad-sim/example-designs/npu/modules/mvu_sector.cpp:497-501` and `527-529`; `others` stands for the FIFOs of the other threads and cores), and the
reader, who sees `sector_ofifo_rdy` (`539`), takes a word only from a FIFO that is not empty. -/
def ofifoTick (c : WideCfg) (zero : α) (f : WideFifo α) (others want : Bool) (word : Option (List α)) :
    Option (WideFifo α × Bool × Bool) :=
  let go := !f.almostFull && others
  let ren := want && !f.empty
  (f.tick c zero ren (if go then word else none)).map fun f' => (f', go, ren)

end RadSim.Npu
