import Verif.Model.Int8Mvm

/-!
# The compiler of the example design `mlp_int8`, and the beats of its loaders

Models `rad-sim/example-designs/mlp_int8/compiler/gen_testcase.py`: the files it writes as lists of lines; and the beats that
`modules/weight_loader.cpp` and `modules/inst_loader.cpp` make of the lines that `mlp_driver.cpp` reads; and those of `modules/dispatcher.cpp`. The random weights,
inputs and places are parameters.

Simplifications: `math.ceil` of two divisions in double precision is the exact quotient rounded up (it is, below 2 ^ 52). The
loaders are their encodings; that their FIFOs keep the order is C125 of the same FIFOs in the matrix vector multiplier. -/

namespace RadSim.Int8

/-- The command line (`rad-sim/example-designs/mlp_int8/compiler/gen_testcase.py:17-32`), the constants
(`rad-sim/example-designs/mlp_int8/compiler/gen_testcase.py:8-9`), and the random numbers
(`rad-sim/example-designs/mlp_int8/compiler/gen_testcase.py:46,102,212`): weight of layer, row and column; test input and
element; router of layer and module; router of the collector. -/
structure Design where
  dim : Nat
  tests : Nat
  layers : Nat
  input : Nat
  hidden : Nat → Nat
  mvms : Nat → Nat
  weights : Nat → Nat → Nat → Int
  inputs : Nat → Nat → Int
  place : Nat → Nat → Nat
  collector : Nat

/-- A dimension rounded up, `rad-sim/example-designs/mlp_int8/compiler/gen_testcase.py:99-100,210`. -/
def padTo (n dim mvms : Nat) : Nat := (n + dim * mvms - 1) / (dim * mvms) * (dim * mvms)

/-- `astype(np.int8)`, `rad-sim/example-designs/mlp_int8/compiler/gen_testcase.py:227,231`. -/
def wrap8 (v : Int) : Int := (v + 128) % 256 - 128

namespace Design

variable (D : Design)

/-- `layer_input_dim`, `rad-sim/example-designs/mlp_int8/compiler/gen_testcase.py:95-98`. -/
def inDim (l : Nat) : Nat := if l = 0 then D.input else D.hidden (l - 1)

/-- `num_mvms_out`, `rad-sim/example-designs/mlp_int8/compiler/gen_testcase.py:91-94`. -/
def outMvms (l : Nat) : Nat := if l = D.layers - 1 then 1 else D.mvms (l + 1)

/-- `padded_dimx`, `rad-sim/example-designs/mlp_int8/compiler/gen_testcase.py:99`. -/
def padX (l : Nat) : Nat := padTo (D.inDim l) D.dim (D.mvms l)

/-- `padded_dimy`, `rad-sim/example-designs/mlp_int8/compiler/gen_testcase.py:100`. -/
def padY (l : Nat) : Nat := padTo (D.hidden l) D.dim (D.outMvms l)

/-- `padded_weights`, `rad-sim/example-designs/mlp_int8/compiler/gen_testcase.py:101-102`. -/
def matrix (l y x : Nat) : Int := if y < D.hidden l ∧ x < D.inDim l then D.weights l y x else 0

/-- `mvm_idx` at column block `i`, `rad-sim/example-designs/mlp_int8/compiler/gen_testcase.py:115,130-133`. -/
def mvmIdx (mvms : Nat) : Nat → Nat
  | 0 => 0
  | i + 1 => if mvmIdx mvms i = mvms - 1 then 0 else mvmIdx mvms i + 1

/-- A file of weights, `rad-sim/example-designs/mlp_int8/compiler/gen_testcase.py:114-133`. -/
def weightFile (l m d : Nat) : List (List Int) :=
  (List.range (D.padX l / D.dim)).flatMap fun i =>
    if mvmIdx (D.mvms l) i = m then
      (List.range (D.padY l / D.dim)).map fun j =>
        (List.range D.dim).map fun e => D.matrix l (j * D.dim + d) (i * D.dim + e)
    else []

/-- `limx` of the instructions, `rad-sim/example-designs/mlp_int8/compiler/gen_testcase.py:151`. -/
def limx (l : Nat) : Nat := D.padX l / D.dim / D.mvms l

/-- `limy`, `rad-sim/example-designs/mlp_int8/compiler/gen_testcase.py:117,152`. -/
def limy (l : Nat) : Nat := D.padY l / D.dim

/-- `release_dest`, `rad-sim/example-designs/mlp_int8/compiler/gen_testcase.py:162-174`. -/
def dest (l m j : Nat) : Nat :=
  if l = D.layers - 1 ∧ m = D.mvms l - 1 then D.collector
  else if m = D.mvms l - 1 then D.place (l + 1) (j % D.mvms (l + 1))
  else D.place l (m + 1)

/-- A line of an instruction file, as read by `ParseInstructions`:
`rad-sim/example-designs/mlp_int8/compiler/gen_testcase.py:157-198`, `rad-sim/example-designs/mlp_int8/mlp_driver.cpp:59-79`,
with the widths of `rad-sim/example-designs/mlp_int8/modules/instructions.hpp:6-15`. -/
def inst (l m i j : Nat) : Inst where
  releaseOp := decide (m = D.mvms l - 1)
  releaseDest := BitVec.ofNat 9 (D.dest l m j)
  rfRaddr := BitVec.ofNat 9 (i * D.limy l + j)
  accumRaddr := BitVec.ofNat 9 j
  last := decide (j = D.limy l - 1)
  release := decide (i = D.limx l - 1)
  accumEn := !decide (i = 0)
  reduce := !(decide (m = 0) || decide (i < D.limx l - 1))

/-- An instruction file, `rad-sim/example-designs/mlp_int8/compiler/gen_testcase.py:155-198`. -/
def instFile (l m : Nat) : List Inst :=
  (List.range (D.limx l)).flatMap fun i => (List.range (D.limy l)).map fun j => D.inst l m i j

/-- A padded test input, `rad-sim/example-designs/mlp_int8/compiler/gen_testcase.py:210-212`. -/
def testInput (k x : Nat) : Int := if x < D.input then D.inputs k x else 0

/-- An input file, `rad-sim/example-designs/mlp_int8/compiler/gen_testcase.py:216-220`. -/
def inputFile (m : Nat) : List (List Int) :=
  (List.range D.tests).flatMap fun k =>
    ((List.range (D.padX 0 / D.dim)).filter fun b => b % D.mvms 0 = m).map fun b =>
      (List.range D.dim).map fun e => D.testInput k (b * D.dim + e)

/-- A column of the padded matrix product, `rad-sim/example-designs/mlp_int8/compiler/gen_testcase.py:225-233`. -/
def testOutput : Nat → Nat → Nat → Int
  | 0, k, x => D.testInput k x
  | l + 1, k, y => wrap8 ((List.range (D.padX l)).map fun x => D.matrix l y x * testOutput l k x).sum

/-- The file of golden outputs, `rad-sim/example-designs/mlp_int8/compiler/gen_testcase.py:236-241`. -/
def goldenFile : List (List Int) :=
  (List.range D.tests).flatMap fun k =>
    (List.range (D.padY (D.layers - 1) / D.dim)).map fun b =>
      (List.range D.dim).map fun e => D.testOutput D.layers k (b * D.dim + e)

end Design

/-- A line of numbers as a vector of `sc_int<8>` (`rad-sim/example-designs/mlp_int8/mlp_driver.cpp:24-30,97-103,204,272`). -/
def parse (line : List Int) : Vec := line.map (BitVec.ofInt 8)

/-- A beat of the weight loader, `rad-sim/example-designs/mlp_int8/modules/weight_loader.cpp:121-136`; the address has 9 bits
(`rad-sim/example-designs/mlp_int8/modules/weight_loader.hpp:26`). -/
def loadWeight (d addr : Nat) (v : Vec) : Beat := ⟨pack v, addr % 2 ^ 9 + 3 <<< 9 + 1 <<< (11 + d)⟩

/-- A beat of the instruction loader, `rad-sim/example-designs/mlp_int8/modules/inst_loader.cpp:83-88`. -/
def loadInst (i : Inst) : Beat := ⟨i.toBv, 0⟩

/-- A beat of an input dispatcher, `rad-sim/example-designs/mlp_int8/modules/dispatcher.cpp:43-52`. -/
def loadInput (v : Vec) : Beat := ⟨pack v, 2 <<< 9⟩

/-- The beats of the weight loader for a module, in the order of the driver (`rad-sim/example-designs/mlp_int8/mlp_driver.cpp:9-36`). -/
def Design.weightBeats (D : Design) (l m : Nat) : List Beat :=
  (List.range D.dim).flatMap fun d => ((D.weightFile l m d).mapIdx fun addr line => loadWeight d addr (parse line))

/-- The beats of the instruction loader for a module (`rad-sim/example-designs/mlp_int8/mlp_driver.cpp:49-84`). -/
def Design.instBeats (D : Design) (l m : Nat) : List Beat := (D.instFile l m).map loadInst

/-- The beats of an input dispatcher (`rad-sim/example-designs/mlp_int8/mlp_driver.cpp:266-285`). -/
def Design.inputBeats (D : Design) (m : Nat) : List Beat := (D.inputFile m).map fun line => loadInput (parse line)

end RadSim.Int8
