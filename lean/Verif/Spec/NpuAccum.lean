import Verif.Model.NpuAccum
import Verif.Spec.NpuDecode

/-!
# What the accumulator of a sector stands for

One entry after the other is set or added to, at once. -/

namespace RadSim.Npu

/-- The entry whose turn it is, and the entries. -/
structure AccSpec (A : Type) where
  ptr : Nat
  mem : List A

/-- What is made of the entry `k`: `SET` 0 and `SWB` 3 overwrite it, `UPD` 1 and `WRB` 2 add to it. -/
def AccSpec.value {A : Type} [Add A] (m : List A) (k op : Nat) (x : A) : A :=
  if op = 0 ∨ op = 3 then x
  else
    match m[k]? with
    | some r => x + r
    | none => x

/-- A partial sum comes: `WRB` and `SWB` put out what they write. The turns go round from 0 to `size - 1`. -/
def AccSpec.put {A : Type} [Add A] (s : AccSpec A) (i : AccIn A) : List A × AccSpec A :=
  let w := value s.mem s.ptr i.op i.x
  (if i.op = 2 ∨ i.op = 3 then [w] else [], ⟨if s.ptr + 1 = i.size then 0 else s.ptr + 1, s.mem.set s.ptr w⟩)

/-- A sequence of them. -/
def AccSpec.run {A : Type} [Add A] : AccSpec A → List (AccIn A) → List A × AccSpec A
  | s, [] => ([], s)
  | s, i :: is => ((s.put i).1 ++ ((s.put i).2.run is).1, ((s.put i).2.run is).2)

/-- There are at least three entries to go round, and no more than there are; the one whose turn it is is among them. -/
def AccSpec.Fits {A : Type} [Add A] : AccSpec A → List (AccIn A) → Prop
  | _, [] => True
  | s, i :: is => 3 ≤ i.size ∧ i.size ≤ 24 ∧ s.ptr < i.size ∧ (s.put i).2.Fits is

/-- The partial sums for the `V` words of `n` rows: for every word, for every row. -/
def groupIn {A : Type} (n V : Nat) (x : Nat → Nat → A) : List (AccIn A) :=
  (List.range V).flatMap fun v => (List.range n).map fun p => ⟨true, accOp V v, n, x v p⟩

/-- `x (V-1) + (… + (x 1 + x 0))`. -/
def total {A : Type} [Add A] (x : Nat → A) : Nat → A
  | 0 => x 0
  | v + 1 => x (v + 1) + total x v

/-- The partial sums a sector makes for a list of macro-ops: one for each micro-op, with what it says for the accumulator.
`P k r v` is the product of the word `v` of the row `r` for the macro-op `k`. -/
def sectorFeed {A : Type} (P : Nat → Nat → Nat → A) : Nat → List MvuMop → List (AccIn A)
  | _, [] => []
  | k, m :: ms =>
    ((List.range m.groups).flatMap fun g => (List.range m.vrfSize).flatMap fun v => (List.range (m.rows g)).map fun p =>
      ⟨true, (m.uop false g v p).accumOp, (m.uop false g v p).accumSize, P k (12 * g + p) v⟩) ++ sectorFeed P (k + 1) ms

/-- The rows of the products of matrices and vectors: for every macro-op, for every row. -/
def sectorRows {A : Type} [Add A] (P : Nat → Nat → Nat → A) : Nat → List MvuMop → List A
  | _, [] => []
  | k, m :: ms => ((List.range m.wordsPerRow).map fun r => total (P k r) (m.vrfSize - 1)) ++ sectorRows P (k + 1) ms

end RadSim.Npu
