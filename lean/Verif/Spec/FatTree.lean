import Verif.Model.FatTree

/-! # Fat tree: what shortest means -/

namespace RadSim.Routing

/-- The deepest level of a tree of radix `k` and `n` levels on which one subtree, of `k ^ (n - A)` terminals, holds terminals `c`
and `d`. -/
def Nearest (k n c d A : Nat) : Prop :=
  A < n ∧ c / k ^ (n - A) = d / k ^ (n - A) ∧ ∀ B, A < B → B < n → c / k ^ (n - B) ≠ d / k ^ (n - B)

/-- A channel leads from router `v` to router `w`. -/
def TreeLink (s : Shape) (v w : Nat) : Prop :=
  ∃ port q, treeLinked s (v / perStage s) port ∧
    treeReceivers s (treeOut s (v / perStage s) (v % perStage s) port) = [(w, q)]

/-- A walk of so many channels from router `v` to router `w`. -/
def TreeWalk (s : Shape) : Nat → Nat → Nat → Prop
  | 0, v, w => v = w
  | m + 1, v, w => ∃ x, TreeLink s v x ∧ TreeWalk s m x w

end RadSim.Routing
