import Verif.Spec.Alloc
import Verif.Model.Arbiter

/-!
# Allocators

Models `rad-sim/sim/noc/booksim/allocators/`: the base classes and the iSLIP, PIM, lonely-output, wavefront,
separable and select allocators.

Simplifications. The index `-1` is `none`; failed assertions are `none` as result of an operation. The maps
`_in_req` and `_out_req` of the sparse class hold the same requests by input and by output, so that both
classes are one matrix here; iterating over a map goes through its keys in ascending order, and the sets of
occupied ports are the ports with a request. Random numbers are a parameter. Priorities are integers.
-/

namespace RadSim.Alloc

open Arb (setAt)

/-- Fields of the base class with the request matrix, `rad-sim/sim/noc/booksim/allocators/allocator.hpp:40-56`
and `rad-sim/sim/noc/booksim/allocators/allocator.hpp:95-133`. -/
structure Base where
  inputs : Nat
  outputs : Nat
  req : Reqs
  m : Match
  dirty : Bool

/-- The constructors, `rad-sim/sim/noc/booksim/allocators/allocator.cpp:51-57,114-126,258-264`. -/
def Base.init (inputs outputs : Nat) : Base := ⟨inputs, outputs, fun _ _ => none, Match.empty, false⟩

/-- Write one entry of the request matrix, `rad-sim/sim/noc/booksim/allocators/allocator.cpp:162-164`. -/
def setReq (req : Reqs) (i o : Nat) (r : Option Rqst) : Reqs := fun i' o' => if i' = i ∧ o' = o then r else req i' o'

/-- `AddRequest`, `rad-sim/sim/noc/booksim/allocators/allocator.cpp:68-75,156-165,314-343`. Labels are natural
numbers because the first assertion demands it. -/
def Base.add (b : Base) (i o : Nat) (r : Rqst) : Option Base :=
  if i < b.inputs ∧ o < b.outputs ∧ b.req i o = none then
    some { b with req := setReq b.req i o (some r), dirty := true }
  else none

/-- `DenseAllocator::RemoveRequest`, `rad-sim/sim/noc/booksim/allocators/allocator.cpp:167-173`. -/
def Base.removeDense (b : Base) (i o : Nat) : Option Base :=
  if i < b.inputs ∧ o < b.outputs then some { b with req := setReq b.req i o none } else none

/-- `SparseAllocator::RemoveRequest`, `rad-sim/sim/noc/booksim/allocators/allocator.cpp:345-368`. -/
def Base.removeSparse (b : Base) (i o label : Nat) : Option Base :=
  if i < b.inputs ∧ o < b.outputs ∧ (b.req i o).map Rqst.label = some label then
    some { b with req := setReq b.req i o none }
  else none

/-- `Clear`, `rad-sim/sim/noc/booksim/allocators/allocator.cpp:59-66,128-136,267-283`. -/
def Base.clear (b : Base) : Base :=
  { b with req := fun _ _ => none, m := if b.dirty then Match.empty else b.m, dirty := false }

/-- Assign input `i` to output `o`, for example `rad-sim/sim/noc/booksim/allocators/islip.cpp:153-154`. -/
def Match.link (m : Match) (i o : Nat) : Match := ⟨setAt m.inm i (some o), setAt m.outm o (some i)⟩

/-- The outputs an input requests, in ascending order: the keys of `_in_req[input]`,
`rad-sim/sim/noc/booksim/allocators/allocator.hpp:132`. -/
def outputsOf (b : Base) (i : Nat) : List Nat := (List.range b.outputs).filter fun o => (b.req i o).isSome

/-- The inputs that request an output, in ascending order: the keys of `_out_req[output]`,
`rad-sim/sim/noc/booksim/allocators/allocator.hpp:133`. -/
def inputsOf (b : Base) (o : Nat) : List Nat := (List.range b.inputs).filter fun i => (b.req i o).isSome

/-- The ports in the order in which the round-robin loops visit them,
`rad-sim/sim/noc/booksim/allocators/islip.cpp:73-101`: from the offset to the end, then from the beginning, where the
first one is visited in any case, as long as they are below the offset. -/
def scan (ports : List Nat) (offset : Nat) : List Nat :=
  ports.dropWhile (· < offset) ++
    match ports with
    | [] => []
    | a :: r => a :: r.takeWhile (· < offset)

/-! ## iSLIP -/

/-- `iSLIP_Sparse`, `rad-sim/sim/noc/booksim/allocators/islip.hpp:35-39`. -/
structure Islip where
  base : Base
  iters : Nat
  gptrs : Nat → Nat
  aptrs : Nat → Nat

/-- `iSLIP_Sparse::iSLIP_Sparse`, `rad-sim/sim/noc/booksim/allocators/islip.cpp:36-43`. -/
def Islip.init (inputs outputs iters : Nat) : Islip := ⟨Base.init inputs outputs, iters, fun _ => 0, fun _ => 0⟩

/-- The grant phase, `rad-sim/sim/noc/booksim/allocators/islip.cpp:59-102`: the input each output grants. -/
def Islip.grants (s : Islip) (o : Nat) : Option Nat :=
  if o < s.base.outputs ∧ s.base.m.outm o = none then
    (scan (inputsOf s.base o) (s.gptrs o)).find? fun i => (s.base.m.inm i).isNone
  else none

/-- The accept phase of one input, `rad-sim/sim/noc/booksim/allocators/islip.cpp:122-166`. -/
def Islip.accept (first : Bool) (grants : Nat → Option Nat) (s : Islip) (i : Nat) : Islip :=
  match (scan (outputsOf s.base i) (s.aptrs i)).find? fun o => decide (grants o = some i) with
  | none => s
  | some o =>
    let s := { s with base := { s.base with m := s.base.m.link i o } }
    if first then { s with gptrs := setAt s.gptrs o ((i + 1) % s.base.inputs),
                           aptrs := setAt s.aptrs i ((o + 1) % s.base.outputs) }
    else s

/-- One iteration, `rad-sim/sim/noc/booksim/allocators/islip.cpp:56-168`. -/
def Islip.iterate (first : Bool) (s : Islip) : Islip :=
  (List.range s.base.inputs).foldl (Islip.accept first s.grants) s

/-- Iterations from the second one on, `rad-sim/sim/noc/booksim/allocators/islip.cpp:56`. -/
def Islip.more : Nat → Islip → Islip
  | 0, s => s
  | k + 1, s => Islip.more k (s.iterate false)

/-- `iSLIP_Sparse::Allocate`, `rad-sim/sim/noc/booksim/allocators/islip.cpp:45-168`. -/
def Islip.allocate (s : Islip) : Islip :=
  match s.iters with
  | 0 => s
  | k + 1 => Islip.more k (s.iterate true)

/-! ## PIM -/

/-- The grant phase of `PIM::Allocate`, `rad-sim/sim/noc/booksim/allocators/pim.cpp:59-78`, with the random
offsets of the outputs. -/
def pimGrants (rnd : Nat → Nat) (b : Base) (o : Nat) : Option Nat :=
  if o < b.outputs then
    ((List.range b.inputs).map fun i => (i + rnd o) % b.inputs).find? fun i =>
      (b.req i o).isSome && (b.m.inm i).isNone && (b.m.outm o).isNone
  else none

/-- The accept phase of one input of `PIM::Allocate`, `rad-sim/sim/noc/booksim/allocators/pim.cpp:83-100`, with the
random offsets of the inputs. -/
def pimAccept (rnd : Nat → Nat) (grants : Nat → Option Nat) (b : Base) (i : Nat) : Base :=
  match ((List.range b.outputs).map fun o => (o + rnd i) % b.outputs).find? fun o => decide (grants o = some i) with
  | none => b
  | some o => { b with m := b.m.link i o }

/-- `PIM::Allocate`, `rad-sim/sim/noc/booksim/allocators/pim.cpp:47-101`, with the random offsets of every
iteration. -/
def pimAllocate : List ((Nat → Nat) × (Nat → Nat)) → Base → Base
  | [], b => b
  | (rg, ra) :: l, b => pimAllocate l ((List.range b.inputs).foldl (pimAccept ra (pimGrants rg b)) b)

/-! ## Lonely output -/

/-- `LOA`, `rad-sim/sim/noc/booksim/allocators/loa.hpp:35-40`. -/
structure Loa where
  base : Base
  rptr : Nat → Nat
  gptr : Nat → Nat

/-- The number of requests for an output, `rad-sim/sim/noc/booksim/allocators/loa.cpp:59-64`. -/
def Loa.count (b : Base) (o : Nat) : Nat := (List.range b.inputs).countP fun i => (b.req i o).isSome

/-- The output that an input requests, `rad-sim/sim/noc/booksim/allocators/loa.cpp:69-85`. -/
def Loa.lonely (s : Loa) (i : Nat) : Option Nat :=
  ((List.range s.base.outputs).foldl (fun (acc : Option Nat × Nat) o' =>
    let o := (o' + s.rptr i) % s.base.outputs
    if (s.base.req i o).isSome ∧ Loa.count s.base o < acc.2 then (some o, Loa.count s.base o) else acc)
    (none, s.base.inputs + 1)).1

/-- The grant phase of one output, `rad-sim/sim/noc/booksim/allocators/loa.cpp:90-106`. -/
def Loa.grant (want : Nat → Option Nat) (s : Loa) (o : Nat) : Loa :=
  match ((List.range s.base.inputs).map fun i => (i + s.gptr o) % s.base.inputs).find? fun i =>
      decide (want i = some o) with
  | none => s
  | some i => { s with base := { s.base with m := s.base.m.link i o },
                       rptr := setAt s.rptr i ((s.rptr i + 1) % s.base.outputs),
                       gptr := setAt s.gptr o ((s.gptr o + 1) % s.base.inputs) }

/-- `LOA::Allocate`, `rad-sim/sim/noc/booksim/allocators/loa.cpp:45-110`. -/
def Loa.allocate (s : Loa) : Loa := (List.range s.base.outputs).foldl (Loa.grant s.lonely) s

/-! ## Select -/

/-- `SelAlloc`, `rad-sim/sim/noc/booksim/allocators/selalloc.hpp:35-41`. -/
structure Sel where
  base : Base
  iters : Nat
  aptrs : Nat → Nat
  gptrs : Nat → Nat
  outmask : Nat → Nat

/-- `SelAlloc::SelAlloc`, `rad-sim/sim/noc/booksim/allocators/selalloc.cpp:36-45`. -/
def Sel.init (inputs outputs iters : Nat) : Sel :=
  ⟨Base.init inputs outputs, iters, fun _ => 0, fun _ => 0, fun _ => 0⟩

/-- The first of the ports with the highest priority among those that qualify,
`rad-sim/sim/noc/booksim/allocators/selalloc.cpp:89-116,156-184`. -/
def selBest (pri : Nat → Int) (ok : Nat → Bool) (ports : List Nat) : Option Nat :=
  (ports.foldl (fun (acc : Option Nat × Int) p =>
    if ok p ∧ (pri p > acc.2 ∨ acc.1 = none) then (some p, pri p) else acc) (none, 0)).1

/-- The priority of a request at the output or at the input, 0 when there is none (never read),
`rad-sim/sim/noc/booksim/allocators/selalloc.cpp:110,178`. -/
def priOf (f : Rqst → Int) (r : Option Rqst) : Int := match r with | none => 0 | some r => f r

/-- The grant phase, `rad-sim/sim/noc/booksim/allocators/selalloc.cpp:67-121`; an output without a new grant
keeps the one of the previous iteration. -/
def Sel.grants (s : Sel) (old : Nat → Option Nat) (o : Nat) : Option Nat :=
  if o < s.base.outputs ∧ s.base.m.outm o = none ∧ s.outmask o = 0 then
    match selBest (fun i => priOf Rqst.outPri (s.base.req i o)) (fun i => (s.base.m.inm i).isNone)
        (scan (inputsOf s.base o) (s.gptrs o)) with
    | none => old o
    | some i => some i
  else old o

/-- The accept phase of one input, `rad-sim/sim/noc/booksim/allocators/selalloc.cpp:143-198`. -/
def Sel.accept (first : Bool) (grants : Nat → Option Nat) (s : Sel) (i : Nat) : Sel :=
  match selBest (fun o => priOf Rqst.inPri (s.base.req i o)) (fun o => decide (grants o = some i))
      (scan (outputsOf s.base i) (s.aptrs i)) with
  | none => s
  | some o =>
    let s := { s with base := { s.base with m := s.base.m.link i o } }
    if first then { s with gptrs := setAt s.gptrs o ((i + 1) % s.base.inputs),
                           aptrs := setAt s.aptrs i ((o + 1) % s.base.outputs) }
    else s

/-- Iterations, `rad-sim/sim/noc/booksim/allocators/selalloc.cpp:64-200`. -/
def Sel.loop : Nat → Bool → (Nat → Option Nat) → Sel → Sel
  | 0, _, _, s => s
  | k + 1, first, old, s =>
    let g := s.grants old
    Sel.loop k false g ((List.range s.base.inputs).foldl (Sel.accept first g) s)

/-- `SelAlloc::Allocate`, `rad-sim/sim/noc/booksim/allocators/selalloc.cpp:47-215`. -/
def Sel.allocate (s : Sel) : Sel := Sel.loop s.iters true (fun _ => none) s

/-! ## Wavefront -/

/-- `Wavefront`, `rad-sim/sim/noc/booksim/allocators/wavefront.hpp:35-46`. The set of priorities is a list
in descending order. -/
structure Wf where
  base : Base
  last : Option (Nat × Nat)
  priorities : List (Int × Int)
  skipDiags : Bool
  square : Nat
  pri : Nat
  numRequests : Nat

/-- `Wavefront::Wavefront`, `rad-sim/sim/noc/booksim/allocators/wavefront.cpp:37-43`. -/
def Wf.init (inputs outputs : Nat) (skipDiags : Bool) : Wf :=
  ⟨Base.init inputs outputs, none, [], skipDiags, max inputs outputs, 0, 0⟩

/-- The order of pairs of integers in `std::set`, `rad-sim/sim/noc/booksim/allocators/wavefront.hpp:40`. -/
def pairLt (a b : Int × Int) : Bool := decide (a.1 < b.1) || (decide (a.1 = b.1) && decide (a.2 < b.2))

/-- Insertion into the set, `rad-sim/sim/noc/booksim/allocators/wavefront.cpp:52`. -/
def insertPri (x : Int × Int) : List (Int × Int) → List (Int × Int)
  | [] => [x]
  | y :: l => if x = y then y :: l else if pairLt y x then x :: y :: l else y :: insertPri x l

/-- `Wavefront::AddRequest`, `rad-sim/sim/noc/booksim/allocators/wavefront.cpp:45-53`. -/
def Wf.add (s : Wf) (i o : Nat) (r : Rqst) : Option Wf :=
  (s.base.add i o r).map fun b =>
    { s with base := b, numRequests := s.numRequests + 1, last := some (i, o),
             priorities := insertPri (r.outPri, r.inPri) s.priorities }

/-- `RemoveRequest` of a wavefront allocator is the one of the dense class,
`rad-sim/sim/noc/booksim/allocators/allocator.cpp:167-173`. -/
def Wf.remove (s : Wf) (i o : Nat) : Option Wf := (s.base.removeDense i o).map fun b => { s with base := b }

/-- `Clear` of a wavefront allocator is the one of the dense class,
`rad-sim/sim/noc/booksim/allocators/allocator.cpp:128-136`. -/
def Wf.clear (s : Wf) : Wf := { s with base := s.base.clear }

/-- The cells of the request matrix in the order of the two inner loops,
`rad-sim/sim/noc/booksim/allocators/wavefront.cpp:80-82`. -/
def cells (square pri : Nat) : List (Nat × Nat) :=
  (List.range square).flatMap fun p => (List.range square).map fun o => ((pri + p + (square - o)) % square, o)

/-- The body of the loops, `rad-sim/sim/noc/booksim/allocators/wavefront.cpp:83-94`: the assignment so far and
`first_diag`. -/
def Wf.visit (b : Base) (acc : Match × Option Nat) (x : (Int × Int) × (Nat × Nat)) : Match × Option Nat :=
  let i := x.2.1
  let o := x.2.2
  match b.req i o with
  | none => acc
  | some r =>
    if i < b.inputs ∧ o < b.outputs ∧ acc.1.inm i = none ∧ acc.1.outm o = none ∧ r.inPri = x.1.2 ∧ r.outPri = x.1.1 then
      (acc.1.link i o, match acc.2 with | none => some (i + o) | some d => some d)
    else acc

/-- `Wavefront::Allocate`, `rad-sim/sim/noc/booksim/allocators/wavefront.cpp:55-109`. -/
def Wf.allocate (s : Wf) : Option Wf :=
  if s.numRequests = 0 then some s
  else
    let res : Option (Match × Option Nat) :=
      if s.numRequests = 1 then s.last.map fun x => (s.base.m.link x.1 x.2, some (x.1 + x.2))
      else some ((s.priorities.flatMap fun q => (cells s.square s.pri).map fun c => (q, c)).foldl
        (Wf.visit s.base) (s.base.m, none))
    match res with
    | some (m, some d) =>
      some { s with base := { s.base with m := m }, numRequests := 0, last := none, priorities := [],
                    pri := ((if s.skipDiags then d else s.pri) + 1) % s.square }
    | _ => none

/-! ## Separable -/

/-- The two stages of a separable allocator: one arbiter per port of the side that chooses first and one per
port of the other side, `rad-sim/sim/noc/booksim/allocators/separable.cpp:40-62`. -/
structure Sep (σ : Type) where
  base : Base
  inputArb : Nat → σ
  outputArb : Nat → σ

/-- `SeparableAllocator::SeparableAllocator`, `rad-sim/sim/noc/booksim/allocators/separable.cpp:40-62`. -/
def Sep.init {σ : Type} (make : Nat → σ) (inputs outputs : Nat) : Sep σ :=
  ⟨Base.init inputs outputs, fun _ => make outputs, fun _ => make inputs⟩

variable {σ : Type} (A : Arb.Ops σ)

/-- The first stage, `rad-sim/sim/noc/booksim/allocators/separable_input_first.cpp:51-81` and
`rad-sim/sim/noc/booksim/allocators/separable_output_first.cpp:51-81`, for the ports `l` of the first side. `req` gives the label and
the two priorities by first and second port, `n` is the number of ports of the second side. -/
def stage1 (req : Nat → Nat → Option (Nat × Int × Int)) (n : Nat) :
    List Nat → (Nat → σ) → (Nat → σ) → Option ((Nat → σ) × (Nat → σ))
  | [], a, b => some (a, b)
  | x :: l, a, b =>
    match Arb.addAll A (a x) ((List.range n).filterMap fun y =>
        (req x y).map fun r => (⟨y, r.1, r.2.1⟩ : Arb.Rq)) with
    | none => none
    | some ax =>
      match A.arbitrate ax with
      | some (ax, some w) =>
        match req x w.input with
        | none => none
        | some r =>
          if (r.1 : Int) = w.id then
            match A.add (b w.input) ⟨x, r.1, r.2.2⟩ with
            | none => none
            | some bw => stage1 req n l (setAt a x ax) (setAt b w.input bw)
          else none
      | _ => none

/-- The second stage, `rad-sim/sim/noc/booksim/allocators/separable_input_first.cpp:83-102` and
`rad-sim/sim/noc/booksim/allocators/separable_output_first.cpp:83-102`, for the ports `l` of the second side. The assignment is from
the first to the second side. -/
def stage2 : List Nat → (Nat → σ) → (Nat → σ) → Match → Option ((Nat → σ) × (Nat → σ) × Match)
  | [], a, b, m => some (a, b, m)
  | y :: l, a, b, m =>
    match A.arbitrate (b y) with
    | none => none
    | some (by_, none) => stage2 l a (setAt b y by_) m
    | some (by_, some w) =>
      if m.inm w.input = none ∧ m.outm y = none then
        match A.update (a w.input), A.update by_ with
        | some ax, some by_ => stage2 l (setAt a w.input ax) (setAt b y by_) (m.link w.input y)
        | _, _ => none
      else none

/-- `SeparableInputFirstAllocator::Allocate`,
`rad-sim/sim/noc/booksim/allocators/separable_input_first.cpp:49-103`. -/
def Sep.allocateInputFirst (s : Sep σ) : Option (Sep σ) :=
  let b := s.base
  let req := fun i o => (b.req i o).map fun r => (r.label, r.inPri, r.outPri)
  match stage1 A req b.outputs ((List.range b.inputs).filter fun i => outputsOf b i ≠ []) s.inputArb s.outputArb with
  | none => none
  | some (ia, oa) =>
    match stage2 A ((List.range b.outputs).filter fun o => inputsOf b o ≠ []) ia oa b.m with
    | none => none
    | some (ia, oa, m) => some ⟨{ b with m := m }, ia, oa⟩

/-- `SeparableOutputFirstAllocator::Allocate`,
`rad-sim/sim/noc/booksim/allocators/separable_output_first.cpp:49-103`: the same with the sides exchanged. -/
def Sep.allocateOutputFirst (s : Sep σ) : Option (Sep σ) :=
  let b := s.base
  let req := fun o i => (b.req i o).map fun r => (r.label, r.outPri, r.inPri)
  match stage1 A req b.inputs ((List.range b.outputs).filter fun o => inputsOf b o ≠ []) s.outputArb s.inputArb with
  | none => none
  | some (oa, ia) =>
    match stage2 A ((List.range b.inputs).filter fun i => outputsOf b i ≠ []) oa ia ⟨b.m.outm, b.m.inm⟩ with
    | none => none
    | some (oa, ia, m) => some ⟨{ b with m := ⟨m.outm, m.inm⟩ }, ia, oa⟩

/-- `SeparableAllocator::Clear`, `rad-sim/sim/noc/booksim/allocators/separable.cpp:76-86`. -/
def Sep.clear (s : Sep σ) : Sep σ :=
  { base := s.base.clear,
    inputArb := fun i => if A.numReqs (s.inputArb i) = 0 then s.inputArb i else A.clear (s.inputArb i),
    outputArb := fun o => if A.numReqs (s.outputArb o) = 0 then s.outputArb o else A.clear (s.outputArb o) }

/-! ## Rounds -/

/-- The virtual functions of an allocator, `rad-sim/sim/noc/booksim/allocators/allocator.hpp:61-80`. `ρ` are the
random numbers that an allocation draws. -/
structure Cls (σ ρ : Type) where
  base : σ → Base
  add : σ → Ask → Option σ
  remove : σ → Ask → Option σ
  clear : σ → σ
  allocate : ρ → σ → Option σ

variable {ρ : Type} (C : Cls σ ρ)

/-- A new request, which replaces one for the same pair of ports,
`rad-sim/sim/noc/booksim/routers/iq_router.cpp:1266-1306`. Requests that do not supersede the earlier one make no call
and are left out. -/
def put (s : σ) (a : Ask) : Option σ :=
  match (C.base s).req a.i a.o with
  | none => C.add s a
  | some r => (C.remove s { a with rq := r }).bind fun s => C.add s a

/-- The requests of a cycle. -/
def putAll : σ → List Ask → Option σ
  | s, [] => some s
  | s, a :: l => (put C s a).bind fun s => putAll s l

/-- One cycle of a router, `rad-sim/sim/noc/booksim/routers/iq_router.cpp:241-251,704,1487`: `Clear`, requests,
`Allocate`, which is not called without any virtual channel that waits; the state and the assignment. -/
def round (s : σ) (l : List Ask) (call : Bool) (x : ρ) : Option (σ × Match) :=
  match putAll C (C.clear s) l with
  | none => none
  | some s => if l = [] ∧ call = false then some (s, (C.base s).m)
    else (C.allocate x s).map fun s => (s, (C.base s).m)

/-- Several cycles. -/
def rounds : σ → List (List Ask × Bool × ρ) → Option (σ × List Match)
  | s, [] => some (s, [])
  | s, (l, call, x) :: t =>
    match round C s l call x with
    | none => none
    | some (s, m) => (rounds s t).map fun y => (y.1, m :: y.2)

/-- `iSLIP_Sparse` as an allocator, `rad-sim/sim/noc/booksim/allocators/islip.hpp:35-46`. -/
def islip : Cls Islip Unit where
  base := Islip.base
  add := fun s a => (s.base.add a.i a.o a.rq).map fun b => { s with base := b }
  remove := fun s a => (s.base.removeSparse a.i a.o a.rq.label).map fun b => { s with base := b }
  clear := fun s => { s with base := s.base.clear }
  allocate := fun _ s => some s.allocate

/-- `PIM` with its number of iterations as an allocator, `rad-sim/sim/noc/booksim/allocators/pim.hpp:35-45`. -/
def pim (iters : Nat) : Cls Base (Nat → (Nat → Nat) × (Nat → Nat)) where
  base := id
  add := fun s a => s.add a.i a.o a.rq
  remove := fun s a => s.removeDense a.i a.o
  clear := Base.clear
  allocate := fun r s => some (pimAllocate ((List.range iters).map r) s)

/-- `LOA` as an allocator, `rad-sim/sim/noc/booksim/allocators/loa.hpp:35-47`. -/
def loa : Cls Loa Unit where
  base := Loa.base
  add := fun s a => (s.base.add a.i a.o a.rq).map fun b => { s with base := b }
  remove := fun s a => (s.base.removeDense a.i a.o).map fun b => { s with base := b }
  clear := fun s => { s with base := s.base.clear }
  allocate := fun _ s => some s.allocate

/-- `SelAlloc` as an allocator, `rad-sim/sim/noc/booksim/allocators/selalloc.hpp:35-53`. -/
def sel : Cls Sel Unit where
  base := Sel.base
  add := fun s a => (s.base.add a.i a.o a.rq).map fun b => { s with base := b }
  remove := fun s a => (s.base.removeSparse a.i a.o a.rq.label).map fun b => { s with base := b }
  clear := fun s => { s with base := s.base.clear }
  allocate := fun _ s => some s.allocate

/-- `Wavefront` as an allocator, `rad-sim/sim/noc/booksim/allocators/wavefront.hpp:35-55`. -/
def wf : Cls Wf Unit where
  base := Wf.base
  add := fun s a => s.add a.i a.o a.rq
  remove := fun s a => s.remove a.i a.o
  clear := Wf.clear
  allocate := fun _ s => s.allocate

/-- The separable allocators with arbiter class `A`,
`rad-sim/sim/noc/booksim/allocators/separable_input_first.hpp:41-50` and
`rad-sim/sim/noc/booksim/allocators/separable_output_first.hpp:39-48`. -/
def sep (inputFirst : Bool) : Cls (Sep σ) Unit where
  base := Sep.base
  add := fun s a => (s.base.add a.i a.o a.rq).map fun b => { s with base := b }
  remove := fun s a => (s.base.removeSparse a.i a.o a.rq.label).map fun b => { s with base := b }
  clear := Sep.clear A
  allocate := fun _ s => if inputFirst then Sep.allocateInputFirst A s else Sep.allocateOutputFirst A s

end RadSim.Alloc
