import Verif.Spec.Int8Mvm
import Verif.Model.Int8Compile

/-! # What the design `mlp_int8` is to compute -/

namespace RadSim.Int8

namespace Design

variable (D : Design)

/-- The number of values between the layers: inputs of layer `l`, outputs of the layer before. -/
def width : Nat → Nat
  | 0 => D.input
  | l + 1 => D.hidden l

/-- The outputs of layer `l` on test input `k`: products with the unpadded matrices, in integers. -/
def net : Nat → Nat → Nat → Int
  | 0, k, x => D.inputs k x
  | l + 1, k, y => ∑ x ∈ Finset.range (D.width l), D.weights l y x * net l k x

/-- What the compiler asks for: positive dimensions and numbers of modules, and every block at one of 16 routers of its own. And
what it does not check: the program of a module fits into its instruction FIFO, and the weights into the register files. -/
structure Ok (c : Mvm) : Prop where
  fits : c.Fits
  dim : D.dim = c.lanes
  layers : 0 < D.layers
  input : 0 < D.input
  hidden : ∀ l < D.layers, 0 < D.hidden l
  mvms : ∀ l < D.layers, 0 < D.mvms l
  place : ∀ l < D.layers, ∀ m < D.mvms l, D.place l m < 16
  collector : D.collector < 16
  distinct : ∀ l < D.layers, ∀ m < D.mvms l, ∀ m' < D.mvms l, D.place l m = D.place l m' → m = m'
  room : ∀ l < D.layers, D.limx l * D.limy l + 4 ≤ c.fifoDepth
  words : ∀ l < D.layers, D.limx l * D.limy l ≤ 512

end Design

/-- The beats of a module for one router and of one kind, as they arrive. -/
def toward (node kind : Nat) (sent : List TxBeat) : List Beat :=
  sent.filterMap fun b => if b.dest = (node : Int) ∧ b.user / 2 ^ 9 % 2 ^ 2 = kind then some ⟨b.data, b.user⟩ else none

/-- The beats of one kind. -/
def only (kind : Nat) (bs : List Beat) : List Beat := bs.filter fun b => b.kind = kind

/-- All beats that a module has taken, and the one at its input. -/
def Seen.shown (h : Seen) (t : Cycle) : List Beat := h.taken ++ t.rx.toList

/-- The NoC between the modules is in order, loses nothing and invents nothing: of each kind, what a module is shown is a
beginning of what was sent to it. Instructions and weights come from the loaders; the modules of a layer get inputs from the last
module of the layer before and vectors to be added from the module before; the first layer gets the lines of the input files. No
input is shown to a module that has not got all its instructions and weights, which is what the driver pauses for
(`rad-sim/example-designs/mlp_int8/mlp_driver.cpp:257-260`). -/
structure Wired (D : Design) (c : Mvm) (t : Nat → Nat → Nat → Cycle) : Prop where
  insts : ∀ l < D.layers, ∀ m < D.mvms l, ∀ n s h, run c (t l m) n = .ok (s, h) → only 0 (h.shown (t l m n)) <+: D.instBeats l m
  weights : ∀ l < D.layers, ∀ m < D.mvms l, ∀ n s h, run c (t l m) n = .ok (s, h) → only 3 (h.shown (t l m n)) <+: D.weightBeats l m
  loaded : ∀ l < D.layers, ∀ m < D.mvms l, ∀ n s h, run c (t l m) n = .ok (s, h) → ∀ p b q, h.shown (t l m n) = p ++ b :: q →
    b.kind = 2 → only 0 p = D.instBeats l m ∧ only 3 p = D.weightBeats l m
  first : ∀ m < D.mvms 0, ∀ n s h, run c (t 0 m) n = .ok (s, h) → only 2 (h.shown (t 0 m n)) <+: D.inputBeats m
  input : ∀ l, l + 1 < D.layers → ∀ m < D.mvms (l + 1), ∀ n s h s' h', run c (t (l + 1) m) n = .ok (s, h) →
    run c (t l (D.mvms l - 1)) n = .ok (s', h') →
    only 2 (h.shown (t (l + 1) m n)) <+: toward (D.place (l + 1) m) 2 h'.sent
  add : ∀ l < D.layers, ∀ m, m + 1 < D.mvms l → ∀ n s h s' h', run c (t l (m + 1)) n = .ok (s, h) →
    run c (t l m) n = .ok (s', h') → only 1 (h.shown (t l (m + 1) n)) <+: toward (D.place l (m + 1)) 1 h'.sent
  none : ∀ l < D.layers, ∀ n s h, run c (t l 0) n = .ok (s, h) → only 1 (h.shown (t l 0 n)) = []

/-- A beat comes to the input of a module some time. -/
def Comes (t : Nat → Cycle) (n : Nat) : Prop := ∃ n' ≥ n, (t n').rx.isSome

/-- The NoC does not stop: as long as a module has not taken all that was sent to it, a beat comes to its input some time. -/
structure Delivers (D : Design) (c : Mvm) (t : Nat → Nat → Nat → Cycle) : Prop where
  insts : ∀ l < D.layers, ∀ m < D.mvms l, ∀ n s h, run c (t l m) n = .ok (s, h) →
    (only 0 h.taken).length < (D.instBeats l m).length → Comes (t l m) n
  weights : ∀ l < D.layers, ∀ m < D.mvms l, ∀ n s h, run c (t l m) n = .ok (s, h) →
    (only 3 h.taken).length < (D.weightBeats l m).length → Comes (t l m) n
  first : ∀ m < D.mvms 0, ∀ n s h, run c (t 0 m) n = .ok (s, h) → (only 2 h.taken).length < (D.inputBeats m).length → Comes (t 0 m) n
  input : ∀ l, l + 1 < D.layers → ∀ m < D.mvms (l + 1), ∀ n s h s' h', run c (t (l + 1) m) n = .ok (s, h) →
    run c (t l (D.mvms l - 1)) n = .ok (s', h') →
    (only 2 h.taken).length < (toward (D.place (l + 1) m) 2 h'.sent).length → Comes (t (l + 1) m) n
  add : ∀ l < D.layers, ∀ m, m + 1 < D.mvms l → ∀ n s h s' h', run c (t l (m + 1)) n = .ok (s, h) →
    run c (t l m) n = .ok (s', h') →
    (only 1 h.taken).length < (toward (D.place l (m + 1)) 1 h'.sent).length → Comes (t l (m + 1)) n

/-- No FIFO at an input can become almost full: for each layer the blocks of all test inputs fit. -/
def Small (D : Design) (c : Mvm) : Prop :=
  ∀ l < D.layers, D.tests * D.limx l + 4 ≤ c.fifoDepth ∧ (1 < D.mvms l → D.tests * D.limy l + 4 ≤ c.fifoDepth)

end RadSim.Int8
