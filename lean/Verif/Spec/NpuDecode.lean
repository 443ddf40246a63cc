import Verif.Model.NpuInst

/-!
# What the macro-ops of the example design `npu` stand for

Written as nested loops over the words of a vector and the entries of a batch, without the counters of the decoders. -/

namespace RadSim.Npu

/-- The pairs `(i, b)`, `i < n` outside, `b < k` inside. -/
def grid (n k : Nat) : List (Nat × Nat) := (List.range n).flatMap fun i => (List.range k).map fun b => (i, b)

/-- The word `i` of the batch entry `b`, in a register file of 512 words. -/
def word (base : List Nat) (b i : Nat) : Nat := (base.getD b 0 + i) % 512

/-- Every number has the width of its field. -/
def MvuMop.Wf (m : MvuMop) : Prop :=
  m.vrfBase.length = 3 ∧ (∀ b ∈ m.vrfBase, b < 512) ∧ m.vrfSize < 2048 ∧ m.mrfBase < 1024 ∧ m.mrfSize < 2048 ∧
    m.wordsPerRow < 2048 ∧ m.tag < 1024

/-- Every number has the width of its field. -/
def EvrfMop.Wf (m : EvrfMop) : Prop :=
  m.vrfBase.length = 3 ∧ (∀ b ∈ m.vrfBase, b < 512) ∧ m.vrfSize < 2048 ∧ m.tag < 1024 ∧ m.batch < 4

/-- Every number has the width of its field. -/
def MfuMop.Wf (m : MfuMop) : Prop :=
  m.addBase.length = 3 ∧ (∀ b ∈ m.addBase, b < 512) ∧ m.mulBase.length = 3 ∧ (∀ b ∈ m.mulBase, b < 512) ∧
    m.vrfSize < 2048 ∧ m.tag < 1024 ∧ m.op < 128 ∧ m.batch < 4

/-- Every number has the width of its field. -/
def LdMop.Wf (m : LdMop) : Prop :=
  m.vrf0Id < 16 ∧ m.block1Id < 256 ∧ m.vrf1Id < 16 ∧ m.vrf0Base.length = 3 ∧ (∀ b ∈ m.vrf0Base, b < 512) ∧
    m.vrf1Base.length = 3 ∧ (∀ b ∈ m.vrf1Base, b < 512) ∧ m.vrfSize < 2048 ∧ m.srcSel < 4 ∧ m.batch < 4

/-! ## The sectors of the matrix-vector unit -/

/-- The number of groups of rows: each has 12 rows, one for each accumulator, and the last has what is left over, too. -/
def MvuMop.groups (m : MvuMop) : Nat := m.wordsPerRow / 12

/-- The rows of a group. -/
def MvuMop.rows (m : MvuMop) (g : Nat) : Nat := if g + 1 = m.groups then 12 + m.wordsPerRow % 12 else 12

/-- What the compiler makes (`rad-sim/example-designs/npu/compiler/compiler.py:461-465` and `2321-2326`): there are at least 12
rows, the matrix has as many words as rows times words of a row, and it is inside the memory of 1024 words. -/
def MvuMop.Legal (m : MvuMop) : Prop :=
  1 ≤ m.vrfSize ∧ 12 ≤ m.wordsPerRow ∧ m.mrfSize = m.wordsPerRow * m.vrfSize ∧ m.mrfBase + m.mrfSize ≤ 1024

/-- What the accumulator of a row is to do with the word `v` of the row: `SET` 0 with the first, `UPD` 1, `WRB` 2 with the last, `SWB`
3 if it is both. -/
def accOp (n v : Nat) : Nat := if n = 1 then 3 else if v + 1 = n then 2 else if v = 0 then 0 else 1

/-- The micro-op for the word `v` of the row `p` of group `g`. While it works on one word of the vectors it loads the next into
the other of two sets of registers (`reg`), 4 parts of each of the 3 vectors of the batch, with the first 12 rows of a group. -/
def MvuMop.uop (m : MvuMop) (reg : Bool) (g v p : Nat) : MvuUop where
  vrfAddr := word m.vrfBase (if p < 12 then p % 3 else 0) v
  vrfRdId := if p < 12 then p / 3 else 0
  regSel := reg ^^ (g * m.vrfSize + v) % 2 == 1
  mrfAddr := m.mrfBase + (12 * g + p) * m.vrfSize + v
  tag := m.tag
  accumOp := accOp m.vrfSize v
  accumSize := m.rows g
  vrfEn := decide (p < 12)
  first := g == 0 && v == 0 && p == 0
  last := g + 1 == m.groups && v + 1 == m.vrfSize && p + 1 == m.rows g

/-- The micro-ops of a macro-op, and the set of registers for the next: for every group of rows, for every word of a row, for every
row of the group. -/
def MvuMop.expand (reg : Bool) (m : MvuMop) : List MvuUop × Bool :=
  if m.op then
    ((List.range m.groups).flatMap fun g => (List.range m.vrfSize).flatMap fun v =>
      (List.range (m.rows g)).map fun p => m.uop reg g v p, reg ^^ (m.groups * m.vrfSize) % 2 == 1)
  else ([], reg)

/-! ## The external register file -/

/-- How many batch entries each word is read for: all three of them if they come from the matrix-vector unit, which always makes
three, else as many as the instruction says. -/
def EvrfMop.width (m : EvrfMop) : Nat := if m.srcSel then m.batch else 3

/-- The decoder comes to an end with it. -/
def EvrfMop.Legal (m : EvrfMop) : Prop := 1 ≤ m.vrfSize ∧ m.vrfSize ≤ 512 ∧ 1 ≤ m.width ∧ m.batch < 4

/-- The micro-ops of a macro-op: for every word, for every batch entry; the entries beyond the batch are thrown away. -/
def EvrfMop.expand (m : EvrfMop) : List EvrfUop :=
  if m.op then
    (grid m.vrfSize m.width).map fun (i, b) =>
      { vrfAddr := word m.vrfBase b i
        srcSel := if m.batch ≤ b then 2 else if m.srcSel then 1 else 0
        tag := m.tag
        first := i == 0 && b == 0
        last := i + 1 == m.vrfSize && b + 1 == m.width }
  else []

/-! ## The multi-function units -/

/-- The decoder comes to an end with it. -/
def MfuMop.Legal (m : MfuMop) : Prop := 1 ≤ m.vrfSize ∧ m.vrfSize ≤ 512 ∧ 1 ≤ m.batch ∧ m.batch < 4

/-- The micro-ops of a macro-op. The operation has a valid bit, two bits for the activation, three for the adder, one for the
multiplier. -/
def MfuMop.expand (m : MfuMop) : List MfuUop :=
  if m.op.testBit 6 then
    (grid m.vrfSize m.batch).map fun (i, b) =>
      { vrf0Addr := word m.addBase b i
        vrf1Addr := word m.mulBase b i
        tag := m.tag
        activation := (m.op.testBit 4).toNat + 2 * (m.op.testBit 5).toNat
        addOp := (m.op.testBit 1).toNat + 2 * (m.op.testBit 2).toNat + 4 * (m.op.testBit 3).toNat
        multOp := (m.op.testBit 0).toNat
        first := i == 0 && b == 0
        last := i + 1 == m.vrfSize && b + 1 == m.batch }
  else []

/-! ## The loader -/

/-- The decoder comes to an end with it. -/
def LdMop.Legal (m : LdMop) : Prop := 1 ≤ m.vrfSize ∧ m.vrfSize ≤ 512 ∧ 1 ≤ m.batch ∧ m.batch < 4

/-- A micro-op that tells a block that the vector is written: block 0 (the matrix-vector unit) is addressed by `vrf0_id`, the
others by `block1_id` and `vrf1_id`. The last of them raises the interrupt, if one is wanted. -/
def tagUpdate (block : Nat) (interrupt : Bool) : LdUop where
  vrf0Id := if block = 0 then 1 else 0
  block1Id := block
  vrf1Id := if block = 0 then 0 else 1
  vrf0Addr := 511
  vrf1Addr := 511
  srcSel := 2
  lastFlag := true
  interrupt := interrupt && block == 3
  output := false
  first := false
  last := block == 3

/-- The micro-ops of a macro-op: the words, then one update for each of the four blocks that have tags. -/
def LdMop.expand (m : LdMop) : List LdUop :=
  if m.op then
    ((grid m.vrfSize m.batch).map fun (i, b) =>
      { vrf0Id := m.vrf0Id
        block1Id := m.block1Id
        vrf1Id := m.vrf1Id
        vrf0Addr := word m.vrf0Base b i
        vrf1Addr := word m.vrf1Base b i
        srcSel := m.srcSel
        lastFlag := false
        interrupt := false
        output := m.output
        first := i == 0 && b == 0
        last := false }) ++ (List.range 4).map fun k => tagUpdate k m.interrupt
  else []

end RadSim.Npu
