import Verif.Model.NpuThreads

/-!
# What is asked of the choice of the thread in a sector -/

namespace RadSim.Npu

/-- The micro-ops that came for a thread. -/
def given (th : Nat) (es : List ThreadsIn) : List MvuUop := es.filterMap (·.push th)

/-- The micro-ops of a thread among those issued. -/
def issuedOf (th : Nat) (out : List (Nat × MvuUop)) : List MvuUop := (out.filter fun x => x.1 == th).map (·.2)

/-- Another thread follows only on the last micro-op of a macro-op. -/
def Whole : List (Nat × MvuUop) → Prop
  | x :: y :: l => (x.1 ≠ y.1 → x.2.last = true) ∧ Whole (y :: l)
  | _ => True

end RadSim.Npu
