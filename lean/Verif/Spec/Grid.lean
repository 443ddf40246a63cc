import Mathlib.Algebra.BigOperators.Group.Finset.Basic

/-! # Coordinates and distances on grids and tori of `n` dimensions of size `k` -/

namespace RadSim.Grid

/-- Coordinate of a node in a dimension. -/
def coord (k u d : Nat) : Nat := u / k ^ d % k

/-- Distance of two numbers. -/
def gap (a b : Nat) : Nat := (a - b) + (b - a)

/-- Manhattan distance of two nodes. -/
def manhattan (k n u v : Nat) : Nat := ∑ d ∈ Finset.range n, gap (coord k u d) (coord k v d)

/-- Distance around a ring of `k`. -/
def ringGap (k a b : Nat) : Nat := min (gap a b) (k - gap a b)

/-- Number of links between two nodes of a torus. -/
def torusDist (k n u v : Nat) : Nat := ∑ d ∈ Finset.range n, ringGap k (coord k u d) (coord k v d)

/-- The node `w` is in the bounding box of `a` and `b`. -/
def InBox (k n a b w : Nat) : Prop :=
  ∀ d, d < n → min (coord k a d) (coord k b d) ≤ coord k w d ∧
    coord k w d ≤ max (coord k a d) (coord k b d)

/-- Ranges of virtual channels: those of two classes are equal or do not meet. -/
def Separate (rng : Nat → Nat × Nat) : Prop :=
  ∀ a b, rng a = rng b ∨ (rng a).2 < (rng b).1 ∨ (rng b).2 < (rng a).1

end RadSim.Grid
