import Verif.Model.DlrmCompile
import Verif.Spec.Dlrm

/-
What the instructions of the feature-interaction module are for: per input, the
vectors of all tables one after the other, filled up with zeros to a whole number of
vectors per MVM.
-/
namespace RadSim.Dlrm.Spec

/-- The vectors of the tables, one after the other: the first `len` elements of the
next word of the channel of the table, `pos c` words of channel `c` having been used
before. -/
def contents (σ : Nat → Nat → Nat) : (Nat → Nat) → List Tab → List Nat
  | _, [] => []
  | pos, t :: r =>
    (List.range t.row.len).map (elem (σ (t.fifo - 1) (pos (t.fifo - 1)))) ++
      contents σ (fun c => if t.fifo = c + 1 then pos c + 1 else pos c) r

/-- How many tables channel `c` holds. -/
def tablesOn (c : Nat) (tabs : List Tab) : Nat := (tabs.filter fun t => t.fifo == c + 1).length

/-- The tables can be packed into vectors of `nd` elements without cutting one: `a`
elements of the current vector are taken, by tables in the FIFOs `used`.  A table that
is wider than a vector starts a vector, takes whole vectors and lies in DDR; no two
tables in one vector share a FIFO. -/
def Fits (nd inElems numCh : Nat) : List Nat → Nat → List Tab → Prop
  | _, _, [] => True
  | used, a, t :: r =>
    (0 < t.row.len ∧ t.row.len ≤ inElems ∧ 0 < t.fifo ∧ t.fifo ≤ numCh ∧
      if nd < t.row.len then a = 0 ∧ t.ddr = true ∧ t.row.len % nd = 0
      else a + t.row.len ≤ nd ∧ t.fifo ∉ used) ∧
    Fits nd inElems numCh
      (if nd < t.row.len ∨ a + t.row.len = nd then [] else t.fifo :: used)
      (if nd < t.row.len ∨ a + t.row.len = nd then 0 else a + t.row.len) r

instance decFits (nd inElems numCh : Nat) :
    (used : List Nat) → (a : Nat) → (l : List Tab) → Decidable (Fits nd inElems numCh used a l)
  | _, _, [] => isTrue trivial
  | used, a, t :: r =>
    have := decFits nd inElems numCh
      (if nd < t.row.len ∨ a + t.row.len = nd then [] else t.fifo :: used)
      (if nd < t.row.len ∨ a + t.row.len = nd then 0 else a + t.row.len) r
    inferInstanceAs (Decidable (_ ∧ _))

end RadSim.Dlrm.Spec
