import Verif.Model.Mvm

/-!
# The compiler of the example design `mlp`

Models `rad-sim/example-designs/mlp/compiler/gen_testcase.py`: the files it writes as lists of lines, and the modules that the
design builds from them. The random weights and inputs are parameters.

Simplification: `math.ceil` of two divisions in double precision is the exact quotient rounded up (it is, below 2 ^ 52). -/

namespace RadSim.Mlp

/-- The command line (`rad-sim/example-designs/mlp/compiler/gen_testcase.py:17-32`), the constants
(`rad-sim/example-designs/mlp/compiler/gen_testcase.py:8-9`), and the random numbers
(`rad-sim/example-designs/mlp/compiler/gen_testcase.py:49,146`): weight of layer, row and column; test input and element. -/
structure Design where
  dim : Nat
  tests : Nat
  layers : Nat
  input : Nat
  hidden : Nat → Nat
  mvms : Nat → Nat
  weights : Nat → Nat → Nat → Int
  inputs : Nat → Nat → Int

/-- A dimension rounded up, `rad-sim/example-designs/mlp/compiler/gen_testcase.py:46-47,144`. -/
def pad (n dim mvms : Nat) : Nat := (n + dim * mvms - 1) / (dim * mvms) * (dim * mvms)

namespace Design

variable (D : Design)

/-- `layer_input_dim`, `rad-sim/example-designs/mlp/compiler/gen_testcase.py:42-45`. -/
def inDim (l : Nat) : Nat := if l = 0 then D.input else D.hidden (l - 1)

/-- `num_mvms_out`, `rad-sim/example-designs/mlp/compiler/gen_testcase.py:38-41`. -/
def outMvms (l : Nat) : Nat := if l = D.layers - 1 then D.mvms 0 else D.mvms (l + 1)

/-- `padded_dimx`, `rad-sim/example-designs/mlp/compiler/gen_testcase.py:46`. -/
def padX (l : Nat) : Nat := pad (D.inDim l) D.dim (D.mvms l)

/-- `padded_dimy`, `rad-sim/example-designs/mlp/compiler/gen_testcase.py:47`. -/
def padY (l : Nat) : Nat := pad (D.hidden l) D.dim (D.outMvms l)

/-- `padded_weights`, `rad-sim/example-designs/mlp/compiler/gen_testcase.py:48-49`. -/
def matrix (l y x : Nat) : Int := if y < D.hidden l ∧ x < D.inDim l then D.weights l y x else 0

/-- `mvm_idx` at column block `i`, `rad-sim/example-designs/mlp/compiler/gen_testcase.py:62,77-80`. -/
def mvmIdx (mvms : Nat) : Nat → Nat
  | 0 => 0
  | i + 1 => if mvmIdx mvms i = mvms - 1 then 0 else mvmIdx mvms i + 1

/-- A file of weights, `rad-sim/example-designs/mlp/compiler/gen_testcase.py:60-80`. -/
def weightFile (l m d : Nat) : List (List Int) :=
  (List.range (D.padX l / D.dim)).flatMap fun i =>
    if mvmIdx (D.mvms l) i = m then
      (List.range (D.padY l / D.dim)).map fun j =>
        (List.range D.dim).map fun e => D.matrix l (j * D.dim + d) (i * D.dim + e)
    else []

/-- `limx` of the instructions, `rad-sim/example-designs/mlp/compiler/gen_testcase.py:98`. -/
def limx (l : Nat) : Nat := D.padX l / D.dim / D.mvms l

/-- `limy`, `rad-sim/example-designs/mlp/compiler/gen_testcase.py:64,99`. -/
def limy (l : Nat) : Nat := D.padY l / D.dim

/-- `dest_layer` and `dest_mvm`, `rad-sim/example-designs/mlp/compiler/gen_testcase.py:104-112`. -/
def dest (l m j : Nat) : Nat × Nat :=
  if l = D.layers - 1 ∧ m = D.mvms l - 1 then (0, 0)
  else if m = D.mvms l - 1 then (l + 2, j % D.mvms (l + 1))
  else (l + 1, m + 1)

/-- A line of an instruction file, as read by `ParseInstructions`:
`rad-sim/example-designs/mlp/compiler/gen_testcase.py:104-131`, `rad-sim/example-designs/mlp/modules/mvm.cpp:12-36`. -/
def inst (l m i j : Nat) : Inst where
  en := true
  jump := false
  reduce := !(decide (m = 0) || decide (i < D.limx l - 1))
  accum := j
  accumEn := !decide (i = 0)
  release := decide (i = D.limx l - 1)
  raddr := i * D.limy l + j
  last := decide (j = D.limy l - 1)
  destLayer := BitVec.ofNat 5 (D.dest l m j).1
  destMvm := BitVec.ofNat 5 (D.dest l m j).2

/-- An instruction file, `rad-sim/example-designs/mlp/compiler/gen_testcase.py:100-133`. -/
def instFile (l m : Nat) : List Inst :=
  ((List.range (D.limx l)).flatMap fun i => (List.range (D.limy l)).map fun j => D.inst l m i j) ++
    [⟨true, true, false, 0, false, false, 0, false, 0, 0⟩]

/-- A padded test input, `rad-sim/example-designs/mlp/compiler/gen_testcase.py:144-146`. -/
def testInput (k x : Nat) : Int := if x < D.input then D.inputs k x else 0

/-- An input file, `rad-sim/example-designs/mlp/compiler/gen_testcase.py:147-154`. -/
def inputFile (m : Nat) : List (List Int) :=
  (List.range D.tests).flatMap fun k =>
    ((List.range (D.padX 0 / D.dim)).filter fun b => b % D.mvms 0 = m).map fun b =>
      (List.range D.dim).map fun e => D.testInput k (b * D.dim + e)

/-- A column of the padded matrix product, `rad-sim/example-designs/mlp/compiler/gen_testcase.py:159-165`. -/
def testOutput : Nat → Nat → Nat → Int
  | 0, k, x => D.testInput k x
  | l + 1, k, y => ((List.range (D.padX l)).map fun x => D.matrix l y x * testOutput l k x).sum

/-- The file of golden outputs, `rad-sim/example-designs/mlp/compiler/gen_testcase.py:168-173`. -/
def goldenFile : List (List Int) :=
  (List.range D.tests).flatMap fun k =>
    (List.range (D.padY (D.layers - 1) / D.dim)).map fun b =>
      (List.range D.dim).map fun e => D.testOutput D.layers k (b * D.dim + e)

end Design

/-- A line of numbers as a vector of `sc_int<32>` (`rad-sim/example-designs/mlp/modules/register_file.cpp:26-32`,
`rad-sim/example-designs/mlp/mlp_driver.cpp:3-20`). -/
def parse (line : List Int) : Vec := line.map (BitVec.ofInt 32)

/-- The constants of the modules, `rad-sim/example-designs/mlp/modules/mvm.hpp:31-41`,
`rad-sim/example-designs/mlp/modules/register_file.hpp:7`. -/
structure Consts where
  fifoSize : Nat
  computeLatency : Nat
  rfLatency : Nat
  memDepth : Nat

/-- A module as built from its files: memories that are longer than the files hold zeros and disabled instructions
(`rad-sim/example-designs/mlp/modules/mvm.cpp:62-84`, `rad-sim/example-designs/mlp/modules/register_file.cpp:19-23`). -/
def Design.mvm (D : Design) (q : Consts) (l m : Nat) : Mvm where
  lanes := D.dim
  fifoSize := q.fifoSize
  computeLatency := q.computeLatency
  rfLatency := q.rfLatency
  memDepth := q.memDepth
  layer := l
  prog := fun a => (D.instFile l m).getD a .default
  weights := fun d a => ((D.weightFile l m d).map parse).getD a (List.replicate D.dim 0)

end RadSim.Mlp
