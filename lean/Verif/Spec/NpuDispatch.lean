/-!
# What is to be dispatched -/

namespace RadSim.Npu

/-- The macro-ops for one block in the instructions from `a` to before `c`. -/
def laneProgram {I M : Type} (op : I → Bool) (get : I → M) (mem : List I) (a c : Nat) : List M := (((mem.drop a).take (c - a)).filter op).map get

end RadSim.Npu
