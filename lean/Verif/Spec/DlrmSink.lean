import Verif.Model.DlrmSink

/-
What the check of the driver is for: to tell whether the outputs are the expected ones.
-/
namespace RadSim.Dlrm.Spec

/-- The outputs that the collector shows in the periods before `n`. -/
def shown (ins : Nat → SinkIn) : Nat → List (List Int)
  | 0 => []
  | n + 1 => shown ins n ++ if (ins n).rdy = true ∧ (ins n).data ≠ [] then [(ins n).data] else []

/-- An output is at most as long as the expected one. -/
def NoLonger (golden : List (List Int)) (ins : Nat → SinkIn) : Prop :=
  ∀ (n i : Nat) (o : List Int), (shown ins n)[i]? = some o → ∀ g : List Int, golden[i]? = some g → o.length ≤ g.length

end RadSim.Dlrm.Spec
