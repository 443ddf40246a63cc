import Mathlib.Data.List.Basic

/-! # Requests to an arbiter and what a grant should be -/

namespace RadSim.Arb

/-- A request: the input, its label and its priority. -/
structure Rq where
  input : Nat
  id : Int
  pri : Int
  deriving DecidableEq, Repr

/-- Requests that `n` inputs may make in a round: at most one per input. -/
def Ok (n : Nat) (rs : List Rq) : Prop :=
  (∀ r ∈ rs, r.input < n) ∧ (rs.map Rq.input).Nodup

/-- A request of highest priority. -/
def Best (rs : List Rq) (w : Rq) : Prop := w ∈ rs ∧ ∀ r ∈ rs, r.pri ≤ w.pri

/-- How far input `i` is behind input `start` going round `n` inputs. -/
def behind (n start i : Nat) : Nat := (i + n - start) % n

/-- The winner among requests of highest priority is the first one from `start` on going round. -/
def FirstFrom (n start : Nat) (rs : List Rq) (w : Rq) : Prop :=
  Best rs w ∧ ∀ r ∈ rs, r.pri = w.pri → r ≠ w → behind n start w.input < behind n start r.input

/-- `i` was granted less recently than `j`, given the grants with the most recent one first. Inputs never
granted come before all others, the larger number first. -/
def LessRecent : List Nat → Nat → Nat → Prop
  | [], i, j => j < i
  | g :: gs, i, j => i ≠ g ∧ (j = g ∨ LessRecent gs i j)

/-- The winner among requests of highest priority is the one granted least recently. -/
def LeastRecent (grants : List Nat) (rs : List Rq) (w : Rq) : Prop :=
  Best rs w ∧ ∀ r ∈ rs, r.pri = w.pri → r ≠ w → LessRecent grants w.input r.input

/-- The inputs granted in the rounds whose grant was used, the most recent one first; `acc` are earlier
ones. A round has its requests and whether the grant was used, and `ws` are the winners. -/
def grants : List (List Rq × Bool) → List (Option Rq) → List Nat → List Nat
  | (_, true) :: l, some w :: ws, acc => grants l ws (w.input :: acc)
  | _ :: l, _ :: ws, acc => grants l ws acc
  | _, _, acc => acc

/-- The input after the one granted last. -/
def start (n : Nat) : List Nat → Nat
  | [] => 0
  | g :: _ => (g + 1) % n

/-- The request of input `i` is among those of highest priority. -/
def Top (rs : List Rq) (i : Nat) : Prop := ∃ r, Best rs r ∧ r.input = i

end RadSim.Arb
