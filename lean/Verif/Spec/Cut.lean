/-! # The complete packets of a sequence of flits -/

namespace RadSim

variable {α : Type}

/-- Cut a sequence after every tail: the complete packets and what is left. -/
def cut (tail : α → Bool) (l : List α) : List (List α) × List α :=
  l.foldl (fun c x => if tail x then (c.1 ++ [c.2 ++ [x]], []) else (c.1, c.2 ++ [x])) ([], [])

/-- The complete packets. -/
def whole (tail : α → Bool) (l : List α) : List (List α) := (cut tail l).1

end RadSim
