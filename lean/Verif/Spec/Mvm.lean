import Verif.Model.Mvm
import Mathlib.Algebra.BigOperators.Group.Finset.Basic
import Mathlib.Data.BitVec
import Mathlib.Logic.Relation

/-!
# What a matrix vector multiplier is to do

A program runs instruction by instruction over a list of input vectors and a list of vectors to be added, without clocks,
pipelines or FIFOs. -/

namespace RadSim.Mlp

/-- A result with its destination. -/
structure Out where
  vec : Vec
  layer : BitVec 5
  mvm : BitVec 5
  deriving DecidableEq, Repr

/-- The state between two instructions: the vectors not yet used up, and all results so far. -/
structure Ref where
  pc : Nat
  acc : Nat → Option Vec
  ins : List Vec
  reds : List Vec
  out : List Out

/-- At the start. -/
def Ref.start (ins reds : List Vec) : Ref := ⟨0, fun _ => none, ins, reds, []⟩

/-- Row `d` of the block of weights at an address times a vector. -/
def product (c : Mvm) (addr : Nat) (x : Vec) (d : Nat) : BitVec 32 :=
  ∑ j ∈ Finset.range c.lanes, x.getD j 0 * (c.weights d addr).getD j 0

/-- The vector an instruction computes from an input vector, a vector to be added and an accumulator. -/
def value (c : Mvm) (i : Inst) (x : Vec) (red acc : Option Vec) : Vec :=
  (List.range c.lanes).map fun d =>
    product c i.raddr x d + (red.map (·.getD d 0)).getD 0 + (if i.accumEn then (acc.map (·.getD d 0)).getD 0 else 0)

/-- After an instruction with result `v`: it goes to the accumulator and, if released, out; the input vector is used up by the
last instruction that needs it. -/
def Ref.put (s : Ref) (i : Inst) (v : Vec) (reds : List Vec) : Ref where
  pc := s.pc + 1
  acc := fun a => if a = i.accum then some v else s.acc a
  ins := if i.last then s.ins.tail else s.ins
  reds := reds
  out := s.out ++ if i.release then [⟨v, i.destLayer, i.destMvm⟩] else []

/-- The next state, if the instruction is enabled and has what it needs. -/
def Ref.next (c : Mvm) (s : Ref) : Option Ref :=
  let i := c.prog s.pc
  if !i.en then none
  else if i.jump then some { s with pc := i.raddr }
  else match s.ins with
    | [] => none
    | x :: _ =>
      if i.reduce then
        match s.reds with
        | [] => none
        | y :: ys => some (s.put i (value c i x (some y) (s.acc i.accum)) ys)
      else some (s.put i (value c i x none (s.acc i.accum)) s.reds)

/-- The states a program comes through. -/
def Ref.Reach (c : Mvm) : Ref → Ref → Prop := Relation.ReflTransGen fun s s' => s.next c = some s'

/-- The program leaves its memory, or addresses beyond a memory, or adds an accumulator that was never written. -/
def Ref.Fault (c : Mvm) (s : Ref) : Prop :=
  c.memDepth ≤ s.pc ∨ c.memDepth ≤ (c.prog s.pc).raddr ∨
    ((c.prog s.pc).en = true ∧ (c.prog s.pc).jump = false ∧
      (c.memDepth ≤ (c.prog s.pc).accum ∨ ((c.prog s.pc).accumEn = true ∧ s.acc (c.prog s.pc).accum = none)))

/-- The program never faults on these vectors. -/
def Sound (c : Mvm) (ins reds : List Vec) : Prop := ∀ r, Ref.Reach c (Ref.start ins reds) r → ¬ r.Fault c

/-- The constants fit together: the vectors of weights have an element for each lane, the pipelines have stages, and the FIFOs
are longer than the pipelines. -/
structure Mvm.Fits (c : Mvm) : Prop where
  lanes : 0 < c.lanes
  weights : ∀ d a, (c.weights d a).length = c.lanes
  compute : 0 < c.computeLatency
  read : 0 < c.rfLatency
  fifo : c.computeLatency + c.rfLatency + 5 ≤ c.fifoSize

/-- A result that nobody can tell from the output of the empty FIFOs: all elements are 0, and it goes to the collector. -/
def Mvm.null (c : Mvm) : Out := ⟨List.replicate c.lanes 0, 0, 0⟩

/-- What is seen from outside in a run: input vectors taken, vectors to be added taken, and beats handed over with the tag in
`tuser`. -/
structure Seen where
  ins : List Vec
  reds : List Vec
  sent : List (Out × Nat)

/-- What a cycle adds to it: the handshakes at the edge. -/
def Seen.add (h : Seen) (s : Sig) (t : Cycle) : Seen where
  ins := h.ins ++ if t.rx.valid && s.wire.rxReady && decide (s.rxUser / 2 ^ 13 % 8 = 3) then [t.rx.data] else []
  reds := h.reds ++ if t.rx.valid && s.wire.rxReady && decide (s.rxUser / 2 ^ 13 % 8 = 2) then [t.rx.data] else []
  sent := h.sent ++ if s.wire.txValid && s.txReady then
    [(⟨s.wire.txData, s.wire.txDest.1, s.wire.txDest.2⟩, s.wire.txUser)] else []

/-- A run of `n` cycles from the end of the reset. -/
def run (c : Mvm) (t : Nat → Cycle) : Nat → Except Err (Sig × Seen)
  | 0 => .ok (.init c, ⟨[], [], []⟩)
  | n + 1 =>
    match run c t n with
    | .error e => .error e
    | .ok (s, h) =>
      match cycle c s (t n) with
      | .error e => .error e
      | .ok s' => .ok (s', h.add s (t n))

/-- A result as a beat: a vector for the same layer is to be added there, any other is an input. -/
def Mvm.wire (c : Mvm) (o : Out) : Out × Nat := (o, if o.layer.toInt = c.layer + 1 then 2 * 2 ^ 13 else 3 * 2 ^ 13)

/-- In a run the program does not fault on the vectors that arrive. -/
def Mvm.Runs (c : Mvm) (t : Nat → Cycle) : Prop :=
  ∀ n s h, run c t n = .ok (s, h) → Sound c (h.add s (t n)).ins (h.add s (t n)).reds

/-- In a run no result is one of those that cannot be told from an empty FIFO. -/
def Mvm.Shows (c : Mvm) (t : Nat → Cycle) : Prop :=
  ∀ n s h, run c t n = .ok (s, h) → ∀ r, Ref.Reach c (Ref.start (h.add s (t n)).ins (h.add s (t n)).reds) r → c.null ∉ r.out

/-- The adapter has room at the end of a cycle. -/
def Cycle.open (t : Cycle) : Bool := t.later.getLastD t.room

/-- The adapter has room again and again. -/
def Drains (t : Nat → Cycle) : Prop := ∀ n, ∃ m ≥ n, (t m).open = true

end RadSim.Mlp
