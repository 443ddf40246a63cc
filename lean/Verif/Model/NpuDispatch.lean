import Verif.Model.NpuDecode

/-!
# The dispatcher of the VLIW instructions of the example design `npu`

Models `vliw_inst_dispatch` of `rad-sim/example-designs/npu/modules/decoders.cpp:199-270`: for every block there is a program counter, a flag and a FIFO, and all of them read one
memory. What one block has is called a lane here; the lanes differ in the macro-op they take out of an instruction and in the test whether there is one.

Simplification: the reader of a FIFO takes a macro-op only when the FIFO says that there is one (`Assign`, lines 272-283, and the decoders of C132 and C133). -/

namespace RadSim.Npu

/-- What can go wrong: a FIFO is full or empty (`sim_log.log(error, …)`), or the instruction memory, a `std::vector`, is read outside. -/
inductive DispError where
  | fifo
  | outside
  deriving DecidableEq, Repr

/-- The registers of a lane, `rad-sim/example-designs/npu/modules/decoders.hpp:34-69`: `dispatch_flag`, `pc`, `mop_fifo_wen`, `mop_fifo_wdata`, and the FIFO. -/
structure Lane (M : Type) where
  flag : Bool
  pc : Nat
  wen : Bool
  wdata : M
  f : Fifo M

/-- The inputs in a cycle: the instruction memory as it is after the write of line 245, `start`, `start_pc`, `end_pc`, and whether the reader wants a macro-op. -/
structure LaneIn (I : Type) where
  mem : List I
  start : Bool
  startPc : Nat
  endPc : Nat
  ren : Bool

/-- What can be seen in a cycle: the macro-op given to the reader, and whether the start has been taken. -/
structure LaneOut (M : Type) where
  given : Option M
  begun : Bool
  deriving DecidableEq

/-- The new flag, program counter and write enable: `dispatch_logic`, `rad-sim/example-designs/npu/modules/decoders.cpp:199-226`. -/
def Lane.next {I M : Type} (s : Lane M) (i : LaneIn I) (op : Bool) : Bool × Nat × Bool :=
  if s.flag then
    if s.f.almostFull then (true, s.pc, false)
    else if s.pc < i.endPc then (true, s.pc + 1, op)
    else (false, i.startPc, op)
  else if i.start then (true, i.startPc, false)
  else (false, s.pc, false)

/-- A lane in `Tick`, `rad-sim/example-designs/npu/modules/decoders.cpp:243-269`, with its FIFO. `op` and `get` are the test and the macro-op of the lane. -/
def Lane.tick {I M : Type} (op : I → Bool) (get : I → M) (dflt : M) (s : Lane M) (i : LaneIn I) : Except DispError (LaneOut M × Lane M) :=
  match i.mem[s.pc]? with
  | none => .error .outside
  | some x =>
    let n := s.next i (op x)
    let pop := i.ren && !s.f.empty
    match s.f.tick mopLimit dflt pop (if s.wen then some s.wdata else none) with
    | none => .error .fifo
    | some f => .ok (⟨if pop then some s.f.rdata else none, !s.flag && i.start⟩, ⟨n.1, n.2.1, n.2.2, get x, f⟩)

/-- A sequence of cycles. -/
def Lane.run {I M : Type} (op : I → Bool) (get : I → M) (dflt : M) : Lane M → List (LaneIn I) → Except DispError (List (LaneOut M) × Lane M)
  | s, [] => .ok ([], s)
  | s, i :: es =>
    match s.tick op get dflt i with
    | .error e => .error e
    | .ok (o, s') =>
      match s'.run op get dflt es with
      | .error e => .error e
      | .ok (os, s'') => .ok (o :: os, s'')

/-- After the reset, `rad-sim/example-designs/npu/modules/decoders.cpp:228-241` and `rad-sim/example-designs/npu/modules/instruction_fifo.cpp:23-30`; `wen` is a signal that nothing has written. -/
def Lane.reset {M : Type} (dflt : M) : Lane M := ⟨false, 0, false, dflt, ⟨[], true, false, dflt⟩⟩

/-- What the driver does: it writes the program from address 0 on and gives its size as `end_pc`, `rad-sim/example-designs/npu/npu_driver.cpp:78-79` and `88-103`; here a memory and the
program written over it, and the cycles from the start on. -/
def driverIn {I : Type} (old prog : List I) (n : Nat) : List (LaneIn I) :=
  ⟨prog ++ old.drop prog.length, true, 0, prog.length, true⟩ :: List.replicate n ⟨prog ++ old.drop prog.length, false, 0, prog.length, true⟩

end RadSim.Npu
