import Verif.Model.Mesh

/-!
# Output sets and the adaptive routing functions of a mesh

Models `OutputSet` (`rad-sim/sim/noc/booksim/outputset.hpp`, `outputset.cpp`) with the order of its elements, and the
routing functions `min_adapt_mesh` and `planar_adapt_mesh` (`rad-sim/sim/noc/booksim/routefunc.cpp:969-1243`), which add
more than one element.

Simplifications: those of `RadSim.Routing`. No output is faulty (`IsFaultyOutput`, the default of `link_failures` is 0). The
call at injection (`inject`) is left out, as for the other routing functions. -/

namespace RadSim.Routing

open Router (Hop)

/-- A routing function that fills an output set, applied at router `node` to a flit that came in on port `inPort`. -/
abbrev Rs := Nat → Pkt → Nat → Option (List Hop)

/-- `OutputSet::AddRange`, `rad-sim/sim/noc/booksim/outputset.cpp:49-59`: `std::set::insert` with the order of
`rad-sim/sim/noc/booksim/outputset.hpp:61-64`, which compares nothing but priorities and puts higher ones first. The list
has the elements in the order of iteration. Elements that are equal in the order are not inserted. -/
def addRange : List Hop → Hop → List Hop
  | [], h => [h]
  | x :: l, h =>
    if x.pri > h.pri then x :: addRange l h
    else if h.pri > x.pri then h :: x :: l
    else x :: l

/-- The loop over dimensions of `min_adapt_mesh`, `rad-sim/sim/noc/booksim/routefunc.cpp:1028-1065`; the first argument is
the number of iterations left. -/
def minDirs (k vb ve : Nat) : Nat → Nat → Nat → Nat → List Hop → List Hop
  | 0, _, _, _, out => out
  | m + 1, n, cur, dest, out =>
    minDirs k vb ve m (n + 1) (cur / k) (dest / k)
      (if cur % k ≠ dest % k then addRange out ⟨if cur % k < dest % k then 2 * n else 2 * n + 1, vb + 1, ve, 1⟩ else out)

/-- `min_adapt_mesh`, `rad-sim/sim/noc/booksim/routefunc.cpp:969-1068`. The element for the escape channel is added by
`AddRange(out_port, 0, vcBegin, vcBegin)` (line 1009), where the third argument is the end of the range and the fourth the
priority. -/
def minAdaptMesh (s : Shape) (rng : Nat → Nat × Nat) : Rs := fun node f inPort =>
  if vcOk rng f then
    let r := rng f.cls
    if node = f.dest then some (addRange [] ⟨2 * s.n, r.1, r.2, 0⟩)
    else
      let inVc := if inPort = 2 * s.n then r.2 else f.vc
      let out := addRange [] ⟨dorNextMesh s node f.dest false, 0, r.1, r.1⟩
      some (if inVc ≠ r.1 then minDirs s.k r.1 r.2 s.n 0 node f.dest out else out)
  else none

/-- The loop for the plane of `planar_adapt_mesh`, `rad-sim/sim/noc/booksim/routefunc.cpp:1115-1128`; `skip` says that the
first dimension is left out, the first number is that of iterations left. The assertion after the loop fails when no
dimension is found. -/
def planarDim (k : Nat) (skip : Bool) : Nat → Nat → Nat → Nat → Option (Nat × Nat × Nat)
  | 0, _, _, _ => none
  | m + 1, n, cur, dest =>
    if cur % k ≠ dest % k ∧ ¬ (skip = true ∧ n = 0) then some (n, cur, dest)
    else planarDim k skip m (n + 1) (cur / k) (dest / k)

/-- `planar_adapt_mesh` without faulty outputs, `rad-sim/sim/noc/booksim/routefunc.cpp:1072-1243`. The end of the second
range is one less than zero in the source when the class has less than three virtual channels and begins at 0; it is 0
here. -/
def planarAdaptMesh (s : Shape) (rng : Nat → Nat × Nat) : Rs := fun node f inPort =>
  if vcOk rng f then
    let r := rng f.cls
    if node ≠ f.dest then
      let mult := (r.2 + 1 - r.1) / 3
      (planarDim s.k (decide (inPort / 2 = 0 ∧ f.vc < r.1 + 2 * mult)) s.n 0 node f.dest).map fun x =>
        let inc := x.2.1 % s.k < x.2.2 % s.k
        let out := addRange [] ⟨if inc then 2 * x.1 else 2 * x.1 + 1, r.1 + 2 * mult, r.2, 0⟩
        let n := (x.1 + 1) % s.n
        let cur := x.2.1 / s.k
        let dest := x.2.2 / s.k
        let vb := if inc then r.1 else r.1 + mult
        let d1 := if cur % s.k < dest % s.k then some (2 * n) else if cur % s.k ≠ dest % s.k then some (2 * n + 1) else none
        match if d1 = some inPort then none else d1 with
        | none => out
        | some p => addRange out ⟨p, vb, vb + mult - 1, 0⟩
    else some (addRange [] ⟨2 * s.n, r.1, r.2, 0⟩)
  else none

end RadSim.Routing

namespace RadSim.Net

open Routing (Rs)

variable {δ ρ ρ' : Type}

/-- All routers use the routing function `rs`, `rad-sim/sim/noc/booksim/routers/iq_router.cpp:76-84,538`. -/
def UsesSet (rs : Rs) (x : Env (Msg δ) ρ ρ') : Prop := ∀ r i f, x.rf r i f = (rs r (pkt f) i).getD []

end RadSim.Net
