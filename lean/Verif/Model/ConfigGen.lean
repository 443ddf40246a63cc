import Verif.Model.AxiMm

/-!
# The configuration generator

Models the part of `rad-sim/config.py` that computes values: the virtual channel ranges of
`generate_booksim_config_files`, `get_fraction` and its use in `generate_radsim_config_file`, which
configuration each RAD is given, and the width of the destination field of
`generate_radsim_params_header`. The readers of the generated files are
`rad-sim/sim/noc/booksim/routefunc.cpp` and `rad-sim/sim/noc/radsim_noc.cpp`.

Simplifications. Python integers are unbounded. A double is a non-negative multiple of `2 ^ -1074`, so
there are no infinities and no negative values; `int(a / b)` of a division without remainder is exact.
`math.log(n, 2)` is treated as exact. The text of the files is left out: a file is what its keys are
set to.
-/

namespace RadSim.ConfigGen

/-! ## virtual channel ranges -/

/-- How the generator can stop: its own `exit(1)` or a Python exception. -/
inductive Stop where
  | configError
  | zeroDivision
  | missing
  deriving DecidableEq, Repr

/-- `booksim_flit_types`, `rad-sim/config.py:177`. -/
def flitTypes : List FlitType := [.readRequest, .writeRequest, .writeData, .readReply, .writeReply]

/-- One line `<type>_begin_vc` and one line `<type>_end_vc`, `rad-sim/config.py:180` and `:182`. -/
structure Line where
  type : FlitType
  first : Int
  last : Int
  deriving DecidableEq, Repr

/-- The loop of `rad-sim/config.py:178-182` over the types left, with the count so far and the channels
of each type. -/
def lines (per : Int) : List FlitType → Int → List Line
  | [], _ => []
  | t :: ts, count => ⟨t, count, count + per - 1⟩ :: lines per ts (count + per)

/-- The flow control part of `generate_booksim_config_files`, `rad-sim/config.py:164-182`. The remainder
of Python takes the sign of the divisor; a negative number of types makes the loop empty. -/
def genRanges (vcs types : Int) : Except Stop (List Line) :=
  if types = 0 then .error .zeroDivision
  else if vcs.fmod types ≠ 0 then .error .configError
  else if types > 5 then .error .configError
  else .ok (lines (vcs / types) (flitTypes.take types.toNat) 0)

/-- The values that BookSim starts from, `rad-sim/sim/noc/booksim/booksim_config.cpp:198-207`. -/
def defaults : FlitType → Int × Int
  | .readRequest => (0, 5)
  | .writeRequest => (1, 6)
  | .writeData => (2, 7)
  | .readReply => (8, 13)
  | .writeReply => (10, 15)

/-- `GetInt` of the two keys of a type after the file was parsed: the last line of the type, or the
default. -/
def parsed (file : List Line) (t : FlitType) : Int × Int :=
  match file.reverse.find? fun l => l.type = t with
  | some l => (l.first, l.last)
  | none => defaults t

/-- `InitializeRoutingMap`, `rad-sim/sim/noc/booksim/routefunc.cpp:1989-2028`: values below zero are
replaced. -/
def loaded (vcs : Int) (file : List Line) (t : FlitType) : Int × Int :=
  let p := parsed file t
  let reply := t = .readReply ∨ t = .writeReply
  (if p.1 < 0 then (if reply then vcs.tdiv 2 else 0) else p.1,
   if p.2 < 0 then (if reply then vcs - 1 else vcs.tdiv 2 - 1) else p.2)

/-- The ranges as the adapters use them (`gReadReqBeginVC` and so on). -/
def ranges (vcs : Int) (file : List Line) : VcRanges where
  first t := (loaded vcs file t).1.toNat
  last t := (loaded vcs file t).2.toNat

/-! ## the inter-RAD bandwidth -/

/-- The weight of one in a double, which is a multiple of `2 ^ -1074`. -/
def one : Nat := 2 ^ 1074

/-- The double nearest to `n / d` (in units of `2 ^ -1074`): 53 significant bits, ties to even. -/
def nearest (n d : Nat) : Nat :=
  let sh := (n / d).log2 - 52
  let u := d * 2 ^ sh
  let q := n / u
  let r := n % u
  let up := 2 * r > u ∨ (2 * r = u ∧ q % 2 = 1)
  (if up then q + 1 else q) * 2 ^ sh

/-- `'{:,.3f}'.format(y)`: the thousandths of the double `y`, rounded to nearest, ties to even
(`rad-sim/config.py:317`). -/
def thousandths (y : Nat) : Nat :=
  let q := 1000 * y / one
  let r := 1000 * y % one
  if 2 * r > one ∨ (2 * r = one ∧ q % 2 = 1) then q + 1 else q

/-- The loop `while (remainder % 1 != 0)`, `rad-sim/config.py:322-324`, with the number of iterations
allowed; the result is the remainder and the count. -/
def scale : Nat → Nat → Nat → Option (Nat × Nat)
  | 0, _, _ => none
  | fuel + 1, y, count =>
    if y % one = 0 then some (y, count) else scale fuel (nearest (10 * y) 1) (count + 1)

/-- `get_fraction`, `rad-sim/config.py:314-327`. `none` would be a loop of more than a hundred
iterations, which does not happen. -/
def getFraction (x : Nat) : Option (Nat × Nat) :=
  let remainder := nearest (thousandths (x % one) * one) 1000
  if remainder = 0 then some (x / one, 1)
  else
    (scale 100 remainder 0).map fun (y, count) =>
      let b := count * 10
      (nearest (nearest ((x - x % one) * b) 1 + y) 1 / one, b)

/-- The two values written for `inter_rad_bw`, `rad-sim/config.py:349-357`. -/
def bandwidth (x : Nat) : Option (Nat × Nat) :=
  (getFraction x).map fun (a, b) => if a ≤ b then (a, b) else (1, 1)

/-! ## which configuration each RAD is given -/

/-- One configuration section of the YAML file: its name, the design and the sides of its first NoC.
Stands for all values of the section. -/
structure Section where
  name : Nat
  design : Nat
  dimX : Nat
  dimY : Nat
  deriving DecidableEq, Repr

/-- `config_names.index(name)`, `rad-sim/config.py:97-98`; `none` is the `ValueError`. -/
def index (secs : List Section) (name : Nat) : Option Nat :=
  secs.findIdx? fun s => s.name = name

/-- The side of the square mesh, `rad-sim/config.py:119-123`. -/
def side (s : Section) : Nat := if s.dimY > s.dimX then s.dimY else s.dimX

/-- The state that `generate_booksim_config_files` leaves: the sides written in the files
`noc0_rad<n>_config` and the entry `noc_num_nodes[0]` of the header parameters. -/
structure Files where
  noc : List (Nat × Nat)
  headerNodes : Nat
  deriving DecidableEq, Repr

/-- The loop of `generate_booksim_config_files` over `cluster_configs` for a 2D mesh,
`rad-sim/config.py:96-144`: the file is named after the number of the section. -/
def genBooksim (secs : List Section) : List Nat → Files → Except Stop Files
  | [], f => .ok f
  | name :: rest, f =>
    match index secs name with
    | none => .error .missing
    | some i =>
      match secs[i]? with
      | none => .error .missing
      | some s =>
        genBooksim secs rest
          { f with
            noc := (i, side s) :: f.noc.filter fun e => e.1 ≠ i
            headerNodes := side s * side s }

/-- The file that the NoC of RAD `r` reads, `rad-sim/sim/noc/radsim_noc.cpp:20-24`; `none` if this run
of the generator did not write it. -/
def nocOf (f : Files) (r : Nat) : Option Nat := f.noc.lookup r

/-- The knobs of RAD `r` in `generate_radsim_config_file`, `rad-sim/config.py:332-342`: the keys are
those of section `r` (an `IndexError` if there is none), the values those of the listed section. -/
def knobsOf (secs : List Section) (configs : List Nat) (r : Nat) : Except Stop Section :=
  match configs[r]? with
  | none => .error .missing
  | some name =>
    match index secs name with
    | none => .error .missing
    | some i =>
      match secs[r]?, secs[i]? with
      | some _, some s => .ok s
      | _, _ => .error .missing

/-- The design that `generate_radsim_main` makes for RAD `r`, `rad-sim/config.py:399-406`. -/
def designOf (secs : List Section) (r : Nat) : Except Stop Nat :=
  match secs[r]? with
  | none => .error .missing
  | some s => .ok s.design

/-! ## the destination field -/

/-- `int(math.ceil(math.log(n, 2)))` for `n ≥ 1`, `rad-sim/config.py:245`: the least `w` with
`n ≤ 2 ^ w`. -/
def ceilLog2 (n : Nat) : Nat := if n ≤ 1 then 0 else (n - 1).log2 + 1

/-- `AXIS_DEST_FIELDW`, `rad-sim/config.py:240-245` and `:269`, for one NoC. -/
def destFieldWidth (f : Files) : Nat := ceilLog2 f.headerNodes

end RadSim.ConfigGen
