import Verif.Model.DlrmFi

/-
What the feature-interaction module is for, said without its FIFOs, signals and
clock: a stream of words per memory channel goes in, and the `k`-th vector out is
put together from them as instruction `k mod length` says.
-/
namespace RadSim.Dlrm.Spec

/-- Element `e` of a word: bits `16e .. 16e+15`. -/
def elem (w e : Nat) : Nat := w / 2 ^ (16 * e) % 2 ^ 16

/-- How many words an instruction takes off channel `c`. -/
def popsIn (c : Nat) (inst : Inst) : Nat :=
  (inst.filter fun st => st.pop && st.fifo == c + 1).length

/-- The instruction that makes the `k`-th vector. -/
def instAt (prog : List Inst) (k : Nat) : Inst := (prog[k % prog.length]?).getD []

/-- How many words the first `k` vectors take off channel `c`. -/
def popsBefore (prog : List Inst) (c : Nat) : Nat → Nat
  | 0 => 0
  | k + 1 => popsBefore prog c k + popsIn c (instAt prog k)

/-- The vector that a list of steps makes from the streams `σ`, when `pos c` words
of channel `c` have been taken off before. -/
def assemble (σ : Nat → Nat → Nat) (pos : Nat → Nat) : Inst → List Nat
  | [] => []
  | st :: r =>
    (List.range' st.start (st.stop + 1 - st.start)).map
        (fun e => if st.fifo = 0 then 0 else elem (σ (st.fifo - 1) (pos (st.fifo - 1))) e)
      ++ assemble σ (fun c => if st.pop ∧ st.fifo = c + 1 then pos c + 1 else pos c) r

/-- The `k`-th vector. -/
def vector (prog : List Inst) (σ : Nat → Nat → Nat) (k : Nat) : List Nat :=
  assemble σ (fun c => popsBefore prog c k) (instAt prog k)

/-- A word holds a vector, with zeros behind its last element. -/
def Holds (w : Nat) (v : List Nat) : Prop := ∀ e, elem w e = (v[e]?).getD 0

/-- Channel `c` carries the stream `σ c`. -/
def Feeds (cfg : Cfg) (ins : Nat → FiIn) (σ : Nat → Nat → Nat) : Prop :=
  ∀ c < cfg.numCh, ∀ n i w, (arrived cfg ins c n)[i]? = some w → w = σ c i

/-- The sender shows a word only while the module is ready for it. -/
def Polite (cfg : Cfg) (ins : Nat → FiIn) : Prop :=
  ∀ n s, fiAt cfg ins n = .ok s → ∀ c < cfg.numCh, (ins n).rvalid c = true → rready s c = true

/-- An instruction that cannot go wrong: it names channels that exist, stays
within the words and within the vector, and looks at no FIFO again after popping
it. -/
structure Sound (cfg : Cfg) (inst : Inst) : Prop where
  channel : ∀ st ∈ inst, st.fifo ≤ cfg.numCh
  within : ∀ st ∈ inst, st.start ≤ st.stop → st.stop < cfg.inElems
  fits : (inst.map fun st => st.stop + 1 - st.start).sum ≤ cfg.outElems
  once : inst.Pairwise fun a b => a.fifo ≠ 0 → a.pop = true → b.fifo ≠ a.fifo

/-- The words that the first `K` vectors are made of have come in. -/
def Supplied (cfg : Cfg) (arr : Nat → Nat) (K : Nat) : Prop :=
  ∀ j < K, ∀ st ∈ instAt cfg.prog j, st.fifo ≠ 0 →
    popsBefore cfg.prog (st.fifo - 1) j < arr (st.fifo - 1)

/-- A sender that follows the AXI rule: what it shows stays until it is taken. -/
def Steady (cfg : Cfg) (ins : Nat → FiIn) : Prop :=
  ∀ n s, fiAt cfg ins n = .ok s → ∀ c < cfg.numCh, (ins n).rvalid c = true →
    rready s c = false → (ins (n + 1)).rvalid c = true ∧ (ins (n + 1)).rdata c = (ins n).rdata c

end RadSim.Dlrm.Spec
