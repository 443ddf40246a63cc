import Mathlib.Data.List.Basic

/-! # Requests to an allocator and matchings -/

namespace RadSim.Alloc

/-- A request of an input for an output: its label and its two priorities. -/
structure Rqst where
  label : Nat
  inPri : Int
  outPri : Int
  deriving DecidableEq, Repr

/-- The requests, by input and output. -/
abbrev Reqs := Nat → Nat → Option Rqst

/-- The two views of an assignment: the output of an input and the input of an output. -/
structure Match where
  inm : Nat → Option Nat
  outm : Nat → Option Nat

/-- Only inputs below `I` request, and only outputs below `O`. -/
def InRange (I O : Nat) (req : Reqs) : Prop := ∀ i o, req i o ≠ none → i < I ∧ o < O

/-- A valid assignment: the two views agree, so no input and no output is used twice, and every pair was
requested. -/
def Valid (req : Reqs) (m : Match) : Prop :=
  (∀ i o, m.inm i = some o ↔ m.outm o = some i) ∧ ∀ i o, m.inm i = some o → req i o ≠ none

/-- No requested pair has both sides free. -/
def Maximal (req : Reqs) (m : Match) : Prop :=
  ∀ i o, req i o ≠ none → m.inm i ≠ none ∨ m.outm o ≠ none

/-- A request that arrives in a round. -/
structure Ask where
  i : Nat
  o : Nat
  rq : Rqst
  deriving DecidableEq, Repr

/-- The requests in place after a list of arrivals: the last one for every pair. -/
def asked : List Ask → Reqs
  | [], _, _ => none
  | a :: l, i, o =>
    match asked l i o with
    | some r => some r
    | none => if a.i = i ∧ a.o = o then some a.rq else none

/-- All arrivals are for existing ports. -/
def Asks (I O : Nat) (l : List Ask) : Prop := ∀ a ∈ l, a.i < I ∧ a.o < O

/-- Something is assigned. -/
def Match.Some (m : Match) : Prop := ∃ i o, m.inm i = some o

/-- `a` has a lower priority than `b`: at the output or, when equal there, at the input. -/
def Rqst.Below (a b : Rqst) : Prop := a.outPri < b.outPri ∨ a.outPri = b.outPri ∧ a.inPri < b.inPri

/-- Every request has a granted request at one of its ports (itself maybe) that is not below it. -/
def Ranked (req : Reqs) (m : Match) : Prop :=
  ∀ i o r, req i o = some r →
    ∃ i' o' r', m.inm i' = some o' ∧ req i' o' = some r' ∧ (i' = i ∨ o' = o) ∧ ¬ r'.Below r

/-- Nothing is assigned. -/
def Match.empty : Match := ⟨fun _ => none, fun _ => none⟩

end RadSim.Alloc
