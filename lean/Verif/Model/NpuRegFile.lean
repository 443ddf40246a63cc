/-!
# The register file of the example design `npu`

Models `rad-sim/example-designs/npu/modules/register_file.cpp`, of which the matrices of the sectors, the vectors of the external
register file and the operands of the multi-function units are made. An address given in one cycle is in the first of two pipeline
registers in the next, and in the second in the one after that, when the word is to be at the output.

Simplifications: a word is a value of any type with decidable equality, since a signal that is written with the value it has
does not run the process `Assign`. The words written have the width of the file (`temp.size() != 0`, line 55). The reset of the
address registers is not modelled. -/

namespace RadSim.Npu

/-- The registers and the memory, `rad-sim/example-designs/npu/modules/register_file.hpp:13-18`, and the output. -/
structure RegFile (D : Type) where
  mem : List D
  raddr0 : Nat
  raddr1 : Nat
  waddr0 : Nat
  wdata0 : D
  wen0 : Bool
  rdata : D

/-- The inputs in a cycle, `rad-sim/example-designs/npu/modules/register_file.hpp:24-27`. -/
structure RegIn (D : Type) where
  raddr : Nat
  waddr : Nat
  wdata : D
  wen : Bool

/-- One of the signals `Assign` is sensitive to changes, `rad-sim/example-designs/npu/modules/register_file.cpp:35-36`: the
*first* of the two registers of the read address (`RF_WR_LATENCY` is 1, `RF_RD_LATENCY` is 2), and those of the write port. -/
def RegFile.wakes {D : Type} [DecidableEq D] (r : RegFile D) (i : RegIn D) : Bool :=
  decide (r.wdata0 ≠ i.wdata) || r.wen0 != i.wen || r.waddr0 != i.waddr || r.raddr0 != i.raddr

/-- `Tick`, `rad-sim/example-designs/npu/modules/register_file.cpp:72-98`, in a cycle without `clk_en` (the stall), and then `Assign`,
lines 47-58, if it is woken. `none` is one of the two calls of `exit(1)`. -/
def RegFile.tick {D : Type} [DecidableEq D] (r : RegFile D) (i : RegIn D) : Option (RegFile D) :=
  if r.mem.length ≤ i.raddr ∨ r.mem.length ≤ i.waddr then none
  else
    let out := if r.wakes i then r.mem.getD r.raddr0 r.rdata else r.rdata
    let mem := if r.wakes i && i.wen then r.mem.set i.waddr i.wdata else r.mem
    some ⟨mem, i.raddr, r.raddr0, i.waddr, i.wdata, i.wen, out⟩

/-- A sequence of cycles; `none` in place of the inputs is one with `clk_en`, in which nothing is done. -/
def RegFile.run {D : Type} [DecidableEq D] : RegFile D → List (Option (RegIn D)) → Option (RegFile D)
  | r, [] => some r
  | r, none :: es => r.run es
  | r, some i :: es =>
    match r.tick i with
    | none => none
    | some r' => r'.run es

end RadSim.Npu
