import Verif.Model.NpuPath
import Verif.Spec.NpuAccum

/-!
# What a sector of the matrix-vector unit computes, and what it has to be given for it -/

namespace RadSim.Npu

/-- A sum over `0 … n - 1`. -/
def isum (n : Nat) (f : Nat → Int) : Int := ((List.range n).map f).sum

/-- A word of the rows of a group, multiplied with the same word of the three vectors: `rows g` micro-ops of the macro-op `m`, the
`k`-th of a sequence. -/
structure Blk where
  k : Nat
  m : MvuMop
  reg : Bool
  g : Nat
  v : Nat

/-- The blocks of a sequence of macro-ops, in the order in which the decoder of the sector writes them. -/
def blocksOf : Nat → Bool → List MvuMop → List Blk
  | _, _, [] => []
  | k, reg, m :: ms =>
    ((List.range m.groups).flatMap fun g => (List.range m.vrfSize).map fun v => ⟨k, m, reg, g, v⟩) ++
      blocksOf (k + 1) (reg ^^ (m.groups * m.vrfSize) % 2 == 1) ms

/-- The micro-ops of a block are issued one in each cycle, and while the parts of the vectors are loaded these are in the register
files: `V k t a l` is lane `l` of the word `a` of tile `t` during macro-op `k`. -/
def Carries (V : Nat → Nat → Nat → Nat → Int) (n : Nat) (b : Blk) (xs : List SectorIn) : Prop :=
  xs.length = b.m.rows b.g ∧ ∀ p x, xs[p]? = some x → x.valid = true ∧ x.uop = b.m.uop b.reg b.g b.v p ∧
    (p < 12 → ∀ t, t < n → ∀ l, l < 40 → x.vrf t x.uop.vrfAddr l = V b.k t x.uop.vrfAddr l)

/-- Blocks are issued one after the other; between them there may be cycles in which nothing is issued. -/
inductive Issued (V : Nat → Nat → Nat → Nat → Int) (n : Nat) : List Blk → List SectorIn → Prop
  | done {c : List SectorIn} : (∀ x ∈ c, x.valid = false) → Issued V n [] c
  | gap {bs : List Blk} {x : SectorIn} {c : List SectorIn} : x.valid = false → Issued V n bs c → Issued V n bs (x :: c)
  | block {b : Blk} {bs : List Blk} {xs c : List SectorIn} : Carries V n b xs → Issued V n bs c → Issued V n (b :: bs) (xs ++ c)

/-- The address of a word of the matrix is not given again in the next cycle. -/
def Apart : List SectorIn → Prop
  | x :: y :: c => (x.valid = true → x.uop.mrfAddr ≠ y.uop.mrfAddr) ∧ Apart (y :: c)
  | _ => True

/-- The products of the matrices and vectors, modulo 2^32, row by row: `M t a l` is lane `l` of the word `a` of the matrix of tile `t`.
A row has `vrfSize` words of 40 lanes in each of `n` tiles. -/
def matVec (n : Nat) (M : Nat → Nat → Nat → Int) (V : Nat → Nat → Nat → Nat → Int) : Nat → List MvuMop → List Dots
  | _, [] => []
  | k, m :: ms =>
    ((List.range m.wordsPerRow).map fun r => .of fun d => BitVec.ofInt 32 <|
      isum m.vrfSize fun v => isum n fun t => isum 40 fun l => M t (m.mrfBase + r * m.vrfSize + v) l * V k t (word m.vrfBase d v) l) ++
    matVec n M V (k + 1) ms

end RadSim.Npu
