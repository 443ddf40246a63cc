import Verif.Model.NpuVew
import Verif.Props.NpuRegFile

/-!
# What the external register file and the multi-function units of the `npu` are to compute -/

namespace RadSim.Npu

variable {U W : Type}

/-- The operand a micro-op is to have: the word at its address, with the writes of the first `n` cycles done. -/
def operand (mem : List W) (port : VIn U W → WPort W) (es : List (VIn U W)) (n a : Nat) : Option W :=
  (written mem ((es.take n).map fun i => some ⟨0, (port i).addr, (port i).data, (port i).en⟩))[a]?

/-- The word that is to come of what has gone to the first stage in cycle `c`. `A + 1` cycles after it the operands are read. -/
def vewResult (K : VKind U W) (s : VUnit U W) (es : List (VIn U W)) (os : List (VOut U W)) (c : Nat) : Option W :=
  match os[c]? with
  | none => none
  | some o =>
    match o.slot.word with
    | none => none
    | some w =>
      if K.gives o.slot.uop then
        some (K.fn o.slot.uop w ((operand s.rf0.mem VIn.port0 es (c + K.A + 1) (K.addr0 o.slot.uop)).getD K.zero)
          ((operand s.rf1.mem VIn.port1 es (c + K.A + 1) (K.addr1 o.slot.uop)).getD K.zero))
      else none

/-- Two micro-ops on end do not have the same address of an operand that the first of them uses. What follows a micro-op may be one that waits for
its tag or for a word, or the dummy. -/
def OperandsApart (use0 use1 : U → Bool) (K : VKind U W) (os : List (VOut U W)) : Prop :=
  ∀ c o p, os[c]? = some o → os[c + 1]? = some p → o.slot.word.isSome = true → K.gives o.slot.uop = true →
    (use0 o.slot.uop = true → K.addr0 o.slot.uop ≠ K.addr0 p.slot.uop) ∧ (use1 o.slot.uop = true → K.addr1 o.slot.uop ≠ K.addr1 p.slot.uop)

end RadSim.Npu
