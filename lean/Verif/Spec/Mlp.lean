import Verif.Spec.Mvm
import Verif.Model.MlpCompile

/-! # What the design `mlp` is to compute -/

namespace RadSim.Mlp

namespace Design

variable (D : Design)

/-- The outputs of layer `l` on test input `k`: products with the unpadded matrices. -/
def net : Nat → Nat → Nat → Int
  | 0, k, x => D.inputs k x
  | l + 1, k, y => ∑ x ∈ Finset.range (D.inDim l), D.weights l y x * net l k x

/-- What the compiler asks for: positive dimensions and numbers of modules, and no more blocks than routers; and what the
comment on the memory depth asks for. -/
structure Ok (q : Consts) : Prop where
  dim : 0 < D.dim
  layers : 0 < D.layers
  input : 0 < D.input
  hidden : ∀ l < D.layers, 0 < D.hidden l
  mvms : ∀ l < D.layers, 0 < D.mvms l
  blocks : ∑ l ∈ Finset.range D.layers, D.mvms l + D.mvms 0 + 1 ≤ 16
  compute : 0 < q.computeLatency
  read : 0 < q.rfLatency
  fifo : q.computeLatency + q.rfLatency + 5 ≤ q.fifoSize
  depth : ∀ l < D.layers, D.limx l * D.limy l < q.memDepth

end Design

/-- The beats of a module for one place: layer and number as in the instructions, and the tag. -/
def toward (layer mvm tag : Nat) (sent : List (Out × Nat)) : List Vec :=
  sent.filterMap fun b =>
    if b.1.layer.toNat = layer ∧ b.1.mvm.toNat = mvm ∧ b.2 = tag * 2 ^ 13 then some b.1.vec else none

/-- The NoC between the modules is in order, loses nothing and invents nothing: what a module takes in its first `n + 1` cycles
is a beginning of what was sent to it in the first `n`. The modules of a layer get inputs from the last module of the layer
before and vectors to be added from the module before; the first layer gets the lines of the input files. -/
structure Wired (D : Design) (q : Consts) (t : Nat → Nat → Nat → Cycle) : Prop where
  first : ∀ m < D.mvms 0, ∀ n s h, run (D.mvm q 0 m) (t 0 m) n = .ok (s, h) →
    (h.add s (t 0 m n)).ins <+: (D.inputFile m).map parse
  input : ∀ l, l + 1 < D.layers → ∀ m < D.mvms (l + 1), ∀ n s h s' h', run (D.mvm q (l + 1) m) (t (l + 1) m) n = .ok (s, h) →
    run (D.mvm q l (D.mvms l - 1)) (t l (D.mvms l - 1)) n = .ok (s', h') →
    (h.add s (t (l + 1) m n)).ins <+: toward (l + 2) m 3 h'.sent
  add : ∀ l < D.layers, ∀ m, m + 1 < D.mvms l → ∀ n s h s' h', run (D.mvm q l (m + 1)) (t l (m + 1)) n = .ok (s, h) →
    run (D.mvm q l m) (t l m) n = .ok (s', h') → (h.add s (t l (m + 1) n)).reds <+: toward (l + 1) (m + 1) 2 h'.sent
  none : ∀ l < D.layers, ∀ n s h, run (D.mvm q l 0) (t l 0) n = .ok (s, h) → (h.add s (t l 0 n)).reds = []

/-- A beat with a vector is at the input of a module. -/
def offered (s : Sig) (t : Cycle) : Prop := t.rx.valid = true ∧ (s.rxUser / 2 ^ 13 % 8 = 2 ∨ s.rxUser / 2 ^ 13 % 8 = 3)

/-- The NoC does not stop: as long as a module has not taken all that was sent to it, a beat comes to its input some time. -/
structure Delivers (D : Design) (q : Consts) (t : Nat → Nat → Nat → Cycle) : Prop where
  first : ∀ m < D.mvms 0, ∀ n s h, run (D.mvm q 0 m) (t 0 m) n = .ok (s, h) → h.ins.length < (D.inputFile m).length →
    ∃ n' s' h', n ≤ n' ∧ run (D.mvm q 0 m) (t 0 m) n' = .ok (s', h') ∧ offered s' (t 0 m n')
  input : ∀ l, l + 1 < D.layers → ∀ m < D.mvms (l + 1), ∀ n s h s' h', run (D.mvm q (l + 1) m) (t (l + 1) m) n = .ok (s, h) →
    run (D.mvm q l (D.mvms l - 1)) (t l (D.mvms l - 1)) n = .ok (s', h') → h.ins.length < (toward (l + 2) m 3 h'.sent).length →
    ∃ n' s' h', n ≤ n' ∧ run (D.mvm q (l + 1) m) (t (l + 1) m) n' = .ok (s', h') ∧ offered s' (t (l + 1) m n')
  add : ∀ l < D.layers, ∀ m, m + 1 < D.mvms l → ∀ n s h s' h', run (D.mvm q l (m + 1)) (t l (m + 1)) n = .ok (s, h) →
    run (D.mvm q l m) (t l m) n = .ok (s', h') → h.reds.length < (toward (l + 1) (m + 1) 2 h'.sent).length →
    ∃ n' s' h', n ≤ n' ∧ run (D.mvm q l (m + 1)) (t l (m + 1)) n' = .ok (s', h') ∧ offered s' (t l (m + 1) n')

/-- No FIFO at an input can become almost full: for each layer the blocks of all test inputs fit. -/
def Small (D : Design) (q : Consts) : Prop :=
  ∀ l < D.layers, D.tests * D.limx l + 4 < q.fifoSize ∧ (1 < D.mvms l → D.tests * D.limy l + 4 < q.fifoSize)

end RadSim.Mlp
