import Verif.Model.DlrmCompile

/-
What the allocation of the embedding tables is for: every table has a place of its own.
-/
namespace RadSim.Dlrm.Spec

/-- Two tables in one channel share no word. -/
def Apart (x y : Tab) : Prop :=
  x.fifo = y.fifo → ∀ a, ¬ (x.base ≤ a ∧ a < x.base + x.row.words ∧
    y.base ≤ a ∧ a < y.base + y.row.words)

/-- A table lies in a channel that exists, within its capacity. -/
def Inside (numDdr capDdr numHbm capHbm : Nat) (t : Tab) : Prop :=
  if t.ddr then 0 < t.fifo ∧ t.fifo ≤ numDdr ∧ t.base + t.row.words ≤ capDdr
  else numDdr < t.fifo ∧ t.fifo ≤ numDdr + numHbm ∧ t.base + t.row.words ≤ capHbm

end RadSim.Dlrm.Spec
