/-!
# Distances in a tree of 64 terminals

Four terminals hang on a router of the last level, sixteen below a pair of routers of the level before.
-/

namespace RadSim.Routing

/-- Number of links between the routers of two terminals. -/
def t4Dist (c d : Nat) : Nat := if c / 4 = d / 4 then 0 else if c / 16 = d / 16 then 2 else 4

/-- A way of `m` links, where `link a b` says that a link leads from `a` to `b`. -/
def Way (link : Nat → Nat → Prop) : Nat → Nat → Nat → Prop
  | 0, a, b => a = b
  | m + 1, a, b => ∃ x, link a x ∧ Way link m x b

end RadSim.Routing
