import Verif.Model.NpuPath

/-!
# The choice of the thread in a sector of the matrix-vector unit of the example design `npu`

Models the part of `rad-sim/example-designs/npu/modules/mvu_sector.cpp` that decides of which thread a micro-op is issued: the FIFOs of
instructions, `active_thread`, `thread_locked`, `thread_order`, and the way of the flag `last_uop` down the pipeline.

Simplifications: `current_tag` and `sector_stall` are inputs of every cycle. Of the pipeline only what the choice reads is kept: whether the
micro-op in a stage was issued, makes the accumulator put out a word, and is the last of its macro-op. -/

namespace RadSim.Npu

/-- The inputs of a cycle: `sector_stall`; for each thread what comes to its FIFO of instructions, and its tag,
`rad-sim/example-designs/npu/modules/mvu_sector.hpp:20-78`. -/
structure ThreadsIn where
  stall : Bool
  push : Nat → Option MvuUop
  tag : Nat → Nat

/-- The registers, `rad-sim/example-designs/npu/modules/mvu_sector.hpp:20-78`. `done` is what `ofifo_wen_val && last_uop` is going to be, for the
stages 0 to 35 of the pipeline of instructions. -/
structure Threads where
  fifos : List (Fifo MvuUop)
  active : Nat
  locked : Bool
  order : List Nat
  done : List Bool

/-- Whether a thread has a micro-op that its tag lets go, `rad-sim/example-designs/npu/modules/mvu_sector.cpp:395-396` and `505-506`. -/
def Threads.ready (s : Threads) (i : ThreadsIn) (th : Nat) : Bool :=
  match s.fifos[th]? with
  | none => false
  | some f => !f.empty && decide (f.rdata.tag ≤ i.tag th)

/-- The loop over the queue of threads, `rad-sim/example-designs/npu/modules/mvu_sector.cpp:391-402`: the thread found, and the queue. -/
def pickThread (rdy : Nat → Bool) : Nat → List Nat → Option Nat × List Nat
  | 0, q => (none, q)
  | _ + 1, [] => (none, [])
  | n + 1, th :: q => if rdy th then (some th, q ++ [th]) else pickThread rdy n (q ++ [th])

/-- The FIFOs in a cycle, `rad-sim/example-designs/npu/modules/mvu_sector.cpp:131-144`; `ren` is the thread that reads. -/
def tickFifos (i : ThreadsIn) (ren : Option Nat) : Nat → List (Fifo MvuUop) → Option (List (Fifo MvuUop))
  | _, [] => some []
  | th, f :: fs =>
    match f.tick mopLimit .default (ren == some th) (i.push th), tickFifos i ren (th + 1) fs with
    | some f', some fs' => some (f' :: fs')
    | _, _ => none

/-- The accumulator puts out a word for the operations `ACCUM_OP_WRB` and `ACCUM_OP_SWB`,
`rad-sim/example-designs/npu/modules/accum.cpp:100-115`. -/
def MvuUop.ends (u : MvuUop) : Bool := u.last && decide (2 ≤ u.accumOp)

/-- What is issued in a cycle, `rad-sim/example-designs/npu/modules/mvu_sector.cpp:501-506`: the thread and its micro-op. -/
def Threads.issue (s : Threads) (i : ThreadsIn) : Option (Nat × MvuUop) :=
  if !i.stall && s.ready i s.active then (s.fifos[s.active]?).map fun f => (s.active, f.rdata) else none

/-- A cycle, `rad-sim/example-designs/npu/modules/mvu_sector.cpp:379-404`. The test of `thread_locked` sees what it was before the
cycle. -/
def Threads.tick (s : Threads) (i : ThreadsIn) : Option (Option (Nat × MvuUop) × Threads) :=
  match tickFifos i ((s.issue i).map (·.1)) 0 s.fifos with
  | none => none
  | some fifos =>
    if i.stall then some (none, { s with fifos := fifos })
    else
      let unlock := s.done.getD 35 false && !s.ready i s.active
      let found := if s.locked then (none, s.order) else pickThread (s.ready i) 4 s.order
      some (s.issue i, {
        fifos := fifos
        active := found.1.getD s.active
        locked := if found.1.isSome then true else if unlock then false else s.locked
        order := found.2
        done := shift 36 (match s.issue i with | some (_, u) => u.ends | none => false) s.done })

/-- What is issued in a sequence of cycles. -/
def Threads.run : Threads → List ThreadsIn → Option (List (Nat × MvuUop) × Threads)
  | s, [] => some ([], s)
  | s, i :: es =>
    match s.tick i with
    | none => none
    | some (o, s') =>
      match s'.run es with
      | none => none
      | some (os, s'') => some (o.toList ++ os, s'')

/-- After the reset, `rad-sim/example-designs/npu/modules/mvu_sector.cpp:345-360` with the queue of lines 245-246, for any contents of the FIFOs' outputs
`rdata`. -/
def Threads.reset (r : MvuUop) : Threads :=
  ⟨List.replicate 4 ⟨[], true, false, r⟩, 0, true, [0, 1, 2, 3], List.replicate 36 false⟩

end RadSim.Npu
