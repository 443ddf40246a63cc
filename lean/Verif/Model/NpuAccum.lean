import Verif.Model.NpuDecode

/-!
# The accumulator of a sector of the matrix-vector unit of the example design `npu`

Models `rad-sim/example-designs/npu/modules/accum.cpp`. Every cycle it may get one partial sum, which it sets or adds to one of 24
entries of a scratchpad, in turn; it is a pipeline of three stages, in which the entry is read at the first and written at the last.

Simplifications: an entry holds one vector of each of the two cores; here it is a value of any type with an addition (the source
adds the 12 elements of each, numbers of 32 bits, and all of them have the same length but before the first value arrives). The
inputs of the pipeline stages that have not been written since the start of the simulation have any value. -/

namespace RadSim.Npu

/-- `2 * NUM_ACCUM`, the entries of the scratchpad, `rad-sim/example-designs/npu/modules/accum.cpp:18` and `params.hpp:85`. -/
abbrev accDepth : Nat := 24

/-- A stage of the four pipelines, `rad-sim/example-designs/npu/modules/accum.hpp:13-16`. -/
structure AccStage (A : Type) where
  addr : Nat
  valid : Bool
  op : Nat
  x : A

/-- The registers of the accumulator, `rad-sim/example-designs/npu/modules/accum.hpp:11-18`. -/
structure Acc (A : Type) where
  raddr : Nat
  s0 : AccStage A
  s1 : AccStage A
  s2 : AccStage A
  rdata : A
  wdata : A
  mem : List A

/-- The inputs in a cycle: `valid_in`, `accum_op`, `accum_size`, `accum_in`. -/
structure AccIn (A : Type) where
  valid : Bool
  op : Nat
  size : Nat
  x : A

/-- `ACCUM_OP_SET` or `ACCUM_OP_SWB`, `rad-sim/example-designs/npu/modules/accum.cpp:61-62`. -/
def accSets (op : Nat) : Bool := op == 0 || op == 3

/-- `ACCUM_OP_WRB` or `ACCUM_OP_SWB`, `rad-sim/example-designs/npu/modules/accum.cpp:105-106`. -/
def accWrites (op : Nat) : Bool := op == 2 || op == 3

/-- `accum::Assign`, `rad-sim/example-designs/npu/modules/accum.cpp:104-113`: the output in a cycle without `clk_en` (which is the
stall of the sector). -/
def Acc.out {A : Type} (a : Acc A) : List A := if a.s2.valid && accWrites a.s2.op then [a.wdata] else []

/-- `accum::Tick`, `rad-sim/example-designs/npu/modules/accum.cpp:43-92`, in a cycle without `clk_en`; with it nothing is done. `none`
is the `exit(1)` of line 46 and an access outside the scratchpad. `accum_raddr` has 5 bits. -/
def Acc.tick {A : Type} [Add A] (a : Acc A) (i : AccIn A) : Option (Acc A) :=
  if accDepth < i.size then none
  else
    match a.mem[a.s0.addr]? with
    | none => none
    | some r =>
      if a.s2.valid = true ∧ a.mem.length ≤ a.s2.addr then none
      else
        some {
          raddr := if i.valid then (if a.raddr == pred i.size then 0 else (a.raddr + 1) % 2 ^ 5) else a.raddr
          s0 := ⟨a.raddr, i.valid, i.op, i.x⟩
          s1 := a.s0
          s2 := a.s1
          rdata := r
          wdata := if accSets a.s1.op then a.s1.x else a.s1.x + a.rdata
          mem := if a.s2.valid then a.mem.set a.s2.addr a.wdata else a.mem }

/-- What a sequence of cycles puts out; `none` in place of the inputs is a cycle with `clk_en`. -/
def Acc.run {A : Type} [Add A] : Acc A → List (Option (AccIn A)) → Option (List A × Acc A)
  | a, [] => some ([], a)
  | a, none :: es => a.run es
  | a, some i :: es =>
    match a.tick i with
    | none => none
    | some a' =>
      match a'.run es with
      | none => none
      | some (o, a'') => some (a.out ++ o, a'')

/-- The reset, `rad-sim/example-designs/npu/modules/accum.cpp:34-39`; the scratchpad is left as it was. -/
def Acc.reset {A : Type} (a : Acc A) : Acc A :=
  { a with
    raddr := 0
    s0 := { a.s0 with addr := 0, valid := false, op := 0 }
    s1 := { a.s1 with addr := 0, valid := false, op := 0 }
    s2 := { a.s2 with addr := 0, valid := false, op := 0 } }

end RadSim.Npu
