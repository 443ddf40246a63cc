import Verif.Spec.Arbiter

/-!
# Arbiters

Models `rad-sim/sim/noc/booksim/arbiters/`: the base class, the round-robin, matrix and tree arbiters.

Simplifications. The index `-1` is `none`. Failed assertions, accesses out of range and reads of unset
variables are `none` as result of an operation. Entries of `_request` that are not valid are `none`, their
stale contents are never read. Printing is left out. Machine integers for inputs and counts are natural
numbers, labels and priorities are integers.
-/

namespace RadSim.Arb

/-- Replace one entry of a vector, used for every indexed assignment such as
`rad-sim/sim/noc/booksim/arbiters/arbiter.cpp:60`. -/
def setAt {α : Type} (f : Nat → α) (i : Nat) (a : α) : Nat → α := fun j => if j = i then a else f j

/-- The virtual functions of an arbiter, `rad-sim/sim/noc/booksim/arbiters/arbiter.hpp:61-80`. -/
structure Ops (σ : Type) where
  add : σ → Rq → Option σ
  arbitrate : σ → Option (σ × Option Rq)
  update : σ → Option σ
  clear : σ → σ
  lastWinner : σ → Option Nat
  numReqs : σ → Nat

/-- Fields of the base class, `rad-sim/sim/noc/booksim/arbiters/arbiter.hpp:43-59`. -/
structure Base where
  size : Nat
  request : Nat → Option (Int × Int)
  selected : Option Nat
  numReqs : Nat

/-- The constructor, `rad-sim/sim/noc/booksim/arbiters/arbiter.cpp:44-52`. -/
def Base.init (size : Nat) : Base := ⟨size, fun _ => none, none, 0⟩

/-- `Arbiter::AddRequest`, `rad-sim/sim/noc/booksim/arbiters/arbiter.cpp:54-63`. -/
def Base.add (b : Base) (r : Rq) : Option Base :=
  if r.input < b.size ∧ b.request r.input = none then
    some { b with numReqs := b.numReqs + 1, request := setAt b.request r.input (some (r.id, r.pri)) }
  else none

/-- `Arbiter::Arbitrate`, `rad-sim/sim/noc/booksim/arbiters/arbiter.cpp:65-77`. -/
def Base.arbitrate (b : Base) : Option (Option Rq) :=
  match b.selected with
  | none => if b.numReqs = 0 then some none else none
  | some i => (b.request i).map fun p => some ⟨i, p.1, p.2⟩

/-- `Arbiter::Clear`, `rad-sim/sim/noc/booksim/arbiters/arbiter.cpp:79-89`. -/
def Base.clear (b : Base) : Base :=
  if b.numReqs > 0 then { b with request := fun _ => none, numReqs := 0, selected := none } else b

/-! ## Round robin -/

/-- `RoundRobinArbiter`, `rad-sim/sim/noc/booksim/arbiters/roundrobin_arb.hpp:39-42`, with the fields
`_highest_pri` and `_best_input` that only it uses. -/
structure RR where
  base : Base
  pointer : Nat
  highest : Int
  best : Option Nat

/-- The smallest `int`. -/
def intMin : Int := -2147483648

/-- `RoundRobinArbiter::RoundRobinArbiter`, `rad-sim/sim/noc/booksim/arbiters/roundrobin_arb.cpp:40-43`. -/
def RR.init (size : Nat) : RR := ⟨Base.init size, 0, intMin, none⟩

/-- `RoundRobinArbiter::Supersedes`, `rad-sim/sim/noc/booksim/arbiters/roundrobin_arb.hpp:63-71`. -/
def supersedes (input1 : Nat) (pri1 : Int) (input2 : Nat) (pri2 : Int) (offset size : Nat) : Bool :=
  decide (pri1 > pri2) ||
    (decide (pri1 = pri2) && decide ((input1 + size - offset) % size < (input2 + size - offset) % size))

/-- `RoundRobinArbiter::AddRequest`, `rad-sim/sim/noc/booksim/arbiters/roundrobin_arb.cpp:56-66`. The test
whether the input has a request already is left out, since the base class asserts that it has none. The best
input is missing only when there are no requests. -/
def RR.add (s : RR) (r : Rq) : Option RR :=
  let better := match s.best with
    | none => true
    | some i => decide (s.base.numReqs = 0) || supersedes r.input r.pri i s.highest s.pointer s.base.size
  (s.base.add r).map fun b =>
    if better then { s with base := b, highest := r.pri, best := some r.input } else { s with base := b }

/-- `RoundRobinArbiter::Arbitrate`, `rad-sim/sim/noc/booksim/arbiters/roundrobin_arb.cpp:68-73`. -/
def RR.arbitrate (s : RR) : Option (RR × Option Rq) :=
  let s := { s with base := { s.base with selected := s.best } }
  s.base.arbitrate.map fun w => (s, w)

/-- `RoundRobinArbiter::UpdateState`, `rad-sim/sim/noc/booksim/arbiters/roundrobin_arb.cpp:50-54`. -/
def RR.update (s : RR) : RR :=
  match s.base.selected with
  | none => s
  | some i => { s with pointer := (i + 1) % s.base.size }

/-- `RoundRobinArbiter::Clear`, `rad-sim/sim/noc/booksim/arbiters/roundrobin_arb.cpp:75-80`. -/
def RR.clear (s : RR) : RR := { s with highest := intMin, best := none, base := s.base.clear }

/-- The round-robin arbiter as a class, `rad-sim/sim/noc/booksim/arbiters/roundrobin_arb.hpp:39-73`. -/
def rr : Ops RR := ⟨RR.add, RR.arbitrate, fun s => some s.update, RR.clear, fun s => s.base.selected,
  fun s => s.base.numReqs⟩

/-! ## Matrix -/

/-- `MatrixArbiter`, `rad-sim/sim/noc/booksim/arbiters/matrix_arb.hpp:43-48`. -/
structure Mat where
  base : Base
  matrix : Nat → Nat → Bool
  lastReq : Option Nat

/-- `MatrixArbiter::MatrixArbiter`, `rad-sim/sim/noc/booksim/arbiters/matrix_arb.cpp:38-47`; `resize` fills with
zeros. -/
def Mat.init (size : Nat) : Mat := ⟨Base.init size, fun i j => decide (i < size ∧ j < i), none⟩

/-- `MatrixArbiter::AddRequest`, `rad-sim/sim/noc/booksim/arbiters/matrix_arb.cpp:72-76`. -/
def Mat.add (s : Mat) (r : Rq) : Option Mat :=
  (s.base.add r).map fun b => { s with base := b, lastReq := some r.input }

/-- The inner loop of `MatrixArbiter::Arbitrate`, `rad-sim/sim/noc/booksim/arbiters/matrix_arb.cpp:93-103`:
some request `i` keeps `input` with priority `pri` from being granted. -/
def Mat.blocked (s : Mat) (input : Nat) (pri : Int) : Bool :=
  (List.range s.base.size).any fun i =>
    match s.base.request i with
    | none => false
    | some (_, p) => (decide (p = pri) && s.matrix i input) || decide (p > pri)

/-- The choice of `MatrixArbiter::Arbitrate`, `rad-sim/sim/noc/booksim/arbiters/matrix_arb.cpp:82-112`. -/
def Mat.choice (s : Mat) : Option Nat :=
  if s.base.numReqs < 2 then s.lastReq
  else (List.range s.base.size).find? fun input =>
    match s.base.request input with
    | none => false
    | some (_, p) => !s.blocked input p

/-- `MatrixArbiter::Arbitrate`, `rad-sim/sim/noc/booksim/arbiters/matrix_arb.cpp:78-115`. -/
def Mat.arbitrate (s : Mat) : Option (Mat × Option Rq) :=
  let s := { s with base := { s.base with selected := s.choice } }
  s.base.arbitrate.map fun w => (s, w)

/-- `MatrixArbiter::UpdateState`, `rad-sim/sim/noc/booksim/arbiters/matrix_arb.cpp:60-70`: the row of the
selected input is cleared and its column set, except on the diagonal. -/
def Mat.update (s : Mat) : Mat :=
  match s.base.selected with
  | none => s
  | some w =>
    let m : Nat → Nat → Bool := fun i j =>
      if i < s.base.size ∧ j < s.base.size ∧ i ≠ j then
        if i = w then false else if j = w then true else s.matrix i j
      else s.matrix i j
    { s with matrix := m }

/-- `MatrixArbiter::Clear`, `rad-sim/sim/noc/booksim/arbiters/matrix_arb.cpp:117-121`. -/
def Mat.clear (s : Mat) : Mat := { s with lastReq := none, base := s.base.clear }

/-- The matrix arbiter as a class, `rad-sim/sim/noc/booksim/arbiters/matrix_arb.cpp:38-121`. -/
def mat : Ops Mat := ⟨Mat.add, Mat.arbitrate, fun s => some s.update, Mat.clear, fun s => s.base.selected,
  fun s => s.base.numReqs⟩

/-! ## Tree -/

/-- `TreeArbiter`, `rad-sim/sim/noc/booksim/arbiters/tree_arb.hpp:39-46`, over arbiters of any class. -/
structure Tree (σ : Type) where
  base : Base
  groups : Nat
  groupSize : Nat
  group : Nat → σ
  groupReqs : Nat → Nat
  glob : σ

/-- `TreeArbiter::TreeArbiter`, `rad-sim/sim/noc/booksim/arbiters/tree_arb.cpp:40-53`, after its assertion;
`make` is the constructor of the sub-arbiters. -/
def Tree.init {σ : Type} (make : Nat → σ) (groups groupSize : Nat) : Tree σ :=
  ⟨Base.init (groups * groupSize), groups, groupSize, fun _ => make groupSize, fun _ => 0, make groups⟩

variable {σ : Type} (A : Ops σ)

/-- `TreeArbiter::AddRequest`, `rad-sim/sim/noc/booksim/arbiters/tree_arb.cpp:80-86`. -/
def Tree.add (s : Tree σ) (r : Rq) : Option (Tree σ) :=
  match s.base.add r with
  | none => none
  | some b =>
    let g := r.input / s.groupSize
    match A.add (s.group g) ⟨r.input % s.groupSize, r.id, r.pri⟩ with
    | none => none
    | some x => some { s with base := b, group := setAt s.group g x,
                              groupReqs := setAt s.groupReqs g (s.groupReqs g + 1) }

/-- The loop over the groups of `TreeArbiter::Arbitrate`,
`rad-sim/sim/noc/booksim/arbiters/tree_arb.cpp:92-98`, from group `i` on with `m` groups left. A group without
a winner would leave `group_id` unset. -/
def Tree.gather : Nat → Nat → Tree σ → Option (Tree σ)
  | 0, _, s => some s
  | m + 1, i, s =>
    if s.groupReqs i = 0 then Tree.gather m (i + 1) s
    else
      match A.arbitrate (s.group i) with
      | some (x, some w) =>
        match A.add s.glob ⟨i, w.id, w.pri⟩ with
        | none => none
        | some y => Tree.gather m (i + 1) { s with group := setAt s.group i x, glob := y }
      | _ => none

/-- `TreeArbiter::Arbitrate`, `rad-sim/sim/noc/booksim/arbiters/tree_arb.cpp:88-106`. -/
def Tree.arbitrate (s : Tree σ) : Option (Tree σ × Option Rq) :=
  if s.base.numReqs = 0 then some (s, none)
  else
    match Tree.gather A s.groups 0 s with
    | none => none
    | some s =>
      match A.arbitrate s.glob with
      | some (y, some v) =>
        match A.lastWinner (s.group v.input) with
        | none => none
        | some g =>
          if v.input < s.groups ∧ g < s.groupSize then
            let s := { s with glob := y,
                              base := { s.base with selected := some (v.input * s.groupSize + g) } }
            s.base.arbitrate.map fun w => (s, w)
          else none
      | _ => none

/-- `TreeArbiter::UpdateState`, `rad-sim/sim/noc/booksim/arbiters/tree_arb.cpp:71-78`. -/
def Tree.update (s : Tree σ) : Option (Tree σ) :=
  match s.base.selected with
  | none => some s
  | some _ =>
    match A.lastWinner s.glob with
    | none => none
    | some g =>
      if g < s.groups then
        match A.update (s.group g), A.update s.glob with
        | some x, some y => some { s with group := setAt s.group g x, glob := y }
        | _, _ => none
      else none

/-- `TreeArbiter::Clear`, `rad-sim/sim/noc/booksim/arbiters/tree_arb.cpp:108-119`. -/
def Tree.clear (s : Tree σ) : Tree σ :=
  if s.base.numReqs = 0 then s
  else { s with group := fun i => if i < s.groups then A.clear (s.group i) else s.group i,
                groupReqs := fun i => if i < s.groups then 0 else s.groupReqs i,
                glob := A.clear s.glob, base := s.base.clear }

/-- The tree arbiter as a class, `rad-sim/sim/noc/booksim/arbiters/tree_arb.cpp:40-119`. -/
def tree : Ops (Tree σ) :=
  ⟨Tree.add A, Tree.arbitrate A, Tree.update A, Tree.clear A, fun s => s.base.selected,
  fun s => s.base.numReqs⟩

/-! ## Choice of the class -/

/-- The arbiters that a configuration can name: `round_robin`, `matrix` and `tree(groups,sub)`,
`rad-sim/sim/noc/booksim/arbiters/arbiter.cpp:91-111`. The string itself is not modelled. -/
inductive Kind where
  | roundRobin
  | matrix
  | tree (groups : Nat) (sub : Kind)
  deriving DecidableEq, Repr

/-- The objects of a class, `rad-sim/sim/noc/booksim/arbiters/arbiter.cpp:91-111`. -/
def Kind.State : Kind → Type
  | .roundRobin => RR
  | .matrix => Mat
  | .tree _ k => Tree k.State

/-- The functions of a class, `rad-sim/sim/noc/booksim/arbiters/arbiter.cpp:91-111`. -/
def Kind.ops : (k : Kind) → Ops k.State
  | .roundRobin => rr
  | .matrix => mat
  | .tree _ k => Arb.tree k.ops

/-- `Arbiter::NewArbiter`, `rad-sim/sim/noc/booksim/arbiters/arbiter.cpp:91-111`. -/
def Kind.make : (k : Kind) → Nat → k.State
  | .roundRobin, n => RR.init n
  | .matrix, n => Mat.init n
  | .tree g k, n => Tree.init k.make g (n / g)

/-- The sizes a class can be built with: not zero, and a multiple of the number of groups
(`rad-sim/sim/noc/booksim/arbiters/tree_arb.cpp:43`). -/
def Kind.Fits : Kind → Nat → Prop
  | .roundRobin, n => 0 < n
  | .matrix, n => 0 < n
  | .tree g k, n => 0 < g ∧ g * (n / g) = n ∧ k.Fits g ∧ k.Fits (n / g)

/-! ## Rounds -/

/-- The requests of a round are added one by one, as an allocator does
(`rad-sim/sim/noc/booksim/allocators/separable_input_first.cpp:58-66`). -/
def addAll (s : σ) : List Rq → Option σ
  | [] => some s
  | r :: rs =>
    match A.add s r with
    | none => none
    | some s => addAll s rs

/-- One round: requests, arbitration, update when the allocator uses the grant, clear
(`rad-sim/sim/noc/booksim/allocators/separable_input_first.cpp:56-102`, `separable.cpp:76-86`). -/
def round (s : σ) (rs : List Rq) (upd : Bool) : Option (σ × Option Rq) :=
  match addAll A s rs with
  | none => none
  | some s1 =>
    match A.arbitrate s1 with
    | none => none
    | some (s2, w) =>
      if upd then
        match A.update s2 with
        | none => none
        | some s3 => some (A.clear s3, w)
      else some (A.clear s2, w)

/-- Several rounds, with the winners of all of them. -/
def rounds (s : σ) : List (List Rq × Bool) → Option (σ × List (Option Rq))
  | [] => some (s, [])
  | (rs, upd) :: l =>
    match round A s rs upd with
    | none => none
    | some (s', w) =>
      match rounds s' l with
      | none => none
      | some (s'', ws) => some (s'', w :: ws)

end RadSim.Arb
