import Verif.Model.Int8Mvm
import Mathlib.Algebra.BigOperators.Group.Finset.Basic
import Mathlib.Data.BitVec
import Mathlib.Logic.Relation

/-!
# What a matrix vector multiplier of `mlp_int8` is to do

The beats it takes are instructions, vectors to be added, input vectors and weights. The instructions run one by one, over and
over, on the input vectors and the vectors to be added, in arithmetic on 8 bits, without clocks, pipelines or FIFOs. -/

namespace RadSim.Int8

/-- What a beat is: 0 an instruction, 1 a vector to be added, 2 an input vector, 3 a word of weights. -/
def Beat.kind (b : Beat) : Nat := b.user / 2 ^ 9 % 2 ^ 2

/-- The vector in a beat. -/
def Beat.vec (c : Mvm) (b : Beat) : Vec := (List.range c.lanes).map fun l => BitVec.ofNat 8 (b.data / 2 ^ (8 * l) % 2 ^ 8)

/-- The instruction in a beat. -/
def Beat.inst (b : Beat) : Inst where
  reduce := decide (b.data % 2 = 1)
  accumEn := decide (b.data / 2 % 2 = 1)
  release := decide (b.data / 2 ^ 2 % 2 = 1)
  last := decide (b.data / 2 ^ 3 % 2 = 1)
  accumRaddr := BitVec.ofNat 9 (b.data / 2 ^ 4 % 2 ^ 9)
  rfRaddr := BitVec.ofNat 9 (b.data / 2 ^ 13 % 2 ^ 9)
  releaseDest := BitVec.ofNat 9 (b.data / 2 ^ 22 % 2 ^ 9)
  releaseOp := decide (b.data / 2 ^ 31 % 2 = 1)

/-- The program in a list of beats. -/
def programOf (bs : List Beat) : List Inst := (bs.filter fun b => b.kind = 0).map Beat.inst

/-- The vectors to be added in a list of beats. -/
def addsOf (c : Mvm) (bs : List Beat) : List Vec := (bs.filter fun b => b.kind = 1).map (Beat.vec c)

/-- The input vectors in a list of beats. -/
def inputsOf (c : Mvm) (bs : List Beat) : List Vec := (bs.filter fun b => b.kind = 2).map (Beat.vec c)

/-- Whether a beat has the weights of engine `d` at address `a`. -/
def Beat.loads (b : Beat) (d : Nat) (a : BitVec 9) : Bool :=
  decide (b.kind = 3 ∧ b.user / 2 ^ (11 + d) % 2 = 1 ∧ b.user % 2 ^ 9 = a.toNat)

/-- The weights of engine `d` at address `a` after a list of beats: those that came last. -/
def weights (c : Mvm) (bs : List Beat) (d : Nat) (a : BitVec 9) : Vec :=
  match bs.reverse.find? fun b => b.loads d a with
  | some b => b.vec c
  | none => List.replicate c.lanes 0

/-- A result with its destination, and whether it is an input there or to be added. -/
structure Out where
  vec : Vec
  dest : Nat
  input : Bool
  deriving DecidableEq, Repr

/-- The state between two instructions: the vectors not yet used up, the accumulators by address and lane, and all results so
far. -/
structure Ref where
  pc : Nat
  acc : BitVec 9 → Nat → BitVec 8
  ins : List Vec
  reds : List Vec
  out : List Out

/-- At the start. -/
def Ref.start (ins reds : List Vec) : Ref := ⟨0, fun _ _ => 0, ins, reds, []⟩

/-- Lane `d` of what an instruction computes from an input vector, a vector to be added and an accumulator. -/
def value (c : Mvm) (w : Nat → BitVec 9 → Vec) (i : Inst) (x red : Vec) (acc : Nat → BitVec 8) (d : Nat) : BitVec 8 :=
  (∑ j ∈ Finset.range c.lanes, x.getD j 0 * (w d i.rfRaddr).getD j 0) + (if i.reduce then red.getD d 0 else 0) +
    (if i.accumEn then acc d else 0)

/-- After an instruction with result `v`: it goes to the accumulator and, if released, out; the input vector is used up by the
last instruction that needs it. -/
def Ref.put (c : Mvm) (s : Ref) (i : Inst) (v : Nat → BitVec 8) (reds : List Vec) : Ref where
  pc := s.pc + 1
  acc := fun a => if a = i.accumRaddr then v else s.acc a
  ins := if i.last then s.ins.tail else s.ins
  reds := reds
  out := s.out ++ if i.release then [⟨(List.range c.lanes).map v, i.releaseDest.toNat, i.releaseOp⟩] else []

/-- The next state, if there is an instruction that has what it needs; behind the last instruction comes the first. -/
def Ref.next (c : Mvm) (p : List Inst) (w : Nat → BitVec 9 → Vec) (s : Ref) : Option Ref :=
  match p[s.pc % p.length]?, s.ins with
  | some i, x :: _ =>
    if i.reduce then
      match s.reds with
      | [] => none
      | y :: ys => some (s.put c i (value c w i x y (s.acc i.accumRaddr)) ys)
    else some (s.put c i (value c w i x [] (s.acc i.accumRaddr)) s.reds)
  | _, _ => none

/-- The states a program comes through. -/
def Ref.Reach (c : Mvm) (p : List Inst) (w : Nat → BitVec 9 → Vec) : Ref → Ref → Prop :=
  Relation.ReflTransGen fun s s' => s.next c p w = some s'

/-- The states that a list of beats allows. -/
def Ref.After (c : Mvm) (bs : List Beat) (r : Ref) : Prop :=
  Ref.Reach c (programOf bs) (weights c bs) (Ref.start (inputsOf c bs) (addsOf c bs)) r

/-- The beat says what the result is. A destination needs to be less than 128. -/
structure Carries (c : Mvm) (b : TxBeat) (o : Out) : Prop where
  vec : ∀ l < c.lanes, b.data / 2 ^ (8 * l) % 2 ^ 8 = (o.vec.getD l 0).toNat
  kind : b.user / 2 ^ 9 % 2 ^ 2 = if o.input then 2 else 1
  dest : o.dest < 128 → b.dest = o.dest

/-- Weights and instructions come before all input vectors. -/
def Ordered (bs : List Beat) : Prop :=
  ∃ p q, bs = p ++ q ∧ (∀ b ∈ p, b.kind ≠ 2) ∧ ∀ b ∈ q, b.kind = 1 ∨ b.kind = 2

/-- The constants fit together. -/
structure Mvm.Fits (c : Mvm) : Prop where
  lanes : 0 < c.lanes
  delay : 2 ≤ c.delay
  read : 0 < c.rdLat
  short : c.rdLat ≤ 4
  write : c.wrLat = c.rdLat
  fifo : c.delay + 5 ≤ c.fifoDepth

/-- What is seen from outside in a run: the beats taken and the beats handed over. -/
structure Seen where
  taken : List Beat
  sent : List TxBeat

/-- What a cycle adds to it: the handshakes at the edge. -/
def Seen.add (c : Mvm) (h : Seen) (s : Sig) (t : Cycle) : Seen where
  taken := h.taken ++ (t.rx.filter fun b => rxReady c s b.user).toList
  sent := h.sent ++ if txValid s && t.ready then [txBeat c s.out.odata] else []

/-- A run of `n` cycles from the end of the reset. -/
def run (c : Mvm) (t : Nat → Cycle) : Nat → Except Err (Sig × Seen)
  | 0 => .ok (.init c, ⟨[], []⟩)
  | n + 1 =>
    match run c t n with
    | .error e => .error e
    | .ok (s, h) =>
      match edge c s (t n).rx (t n).ready with
      | .error e => .error e
      | .ok s' => .ok (s', h.add c s (t n))

/-- The adapter has room again and again. -/
def Drains (t : Nat → Cycle) : Prop := ∀ n, ∃ m ≥ n, (t m).ready = true

end RadSim.Int8
