import Verif.Model.NpuLoader

/-!
# The second write-back channel of the example design `npu`

Models, for a sector and a core, how the words that the loader has written to an output FIFO of its second channel come to the external register file and the two multi-function units: the
part of `Assign` for it in `rad-sim/example-designs/npu/modules/evrf.cpp:263-294` and `rad-sim/example-designs/npu/modules/mfu.cpp:361-407`, the read enable of
`rad-sim/example-designs/npu/modules/axis_vector_elementwise.cpp:325-342`, and the FIFOs. The block of a word is 1 for the external register file, 2 and 3 for the multi-function units.

Simplifications: the loader is what writes to the first FIFO; that it never writes to a full one is C140, and here such a word is not taken. The word shown at the end of an empty FIFO is the one without
elements. -/

namespace RadSim.Npu

/-- The FIFO of the loader and those of the three modules. -/
structure WbCore where
  src : Fifo Word
  rx1 : Fifo Word
  rx2 : Fifo Word
  rx3 : Fifo Word

/-- What can be seen in a cycle: the word that the loader has written and those that the modules write to their register files. -/
structure WbOut where
  word : Option Word
  w1 : Option Word
  w2 : Option Word
  w3 : Option Word
  deriving DecidableEq

/-- A module takes the word shown by the loader, `rad-sim/example-designs/npu/modules/evrf.cpp:271-279`, `rad-sim/example-designs/npu/modules/mfu.cpp:370-378`. -/
def wbTakes (src : Fifo Word) (r : Int) (f : Fifo Word) : Bool := !src.empty && !f.almostFull && src.rdata != [] && src.rdata.getD 0 0 / 4 == r

/-- The external register file writes the word at the end of its FIFO, `rad-sim/example-designs/npu/modules/evrf.cpp:282-293`. -/
def evrfPops (f : Fifo Word) : Bool := !f.empty && f.rdata != []

/-- A multi-function unit does, `rad-sim/example-designs/npu/modules/mfu.cpp:381` and `396`: to the register file of the adder if the last two bits of the first element are 1 or 3, to that of the
multiplier if they are more than 1. -/
def mfuPops (f : Fifo Word) : Bool := !f.empty && f.rdata != [] && f.rdata.getD 0 0 % 4 != 0

/-- `EVRF_PIPELINE`, `rad-sim/example-designs/npu/modules/params.hpp:78`. -/
abbrev evrfStages : Nat := 8

/-- `MFU_PIPELINE`, `rad-sim/example-designs/npu/modules/params.hpp:82`. -/
abbrev mfuStages : Nat := 25

/-- A cycle in which the loader has a word to write, or none. -/
def WbCore.tick (s : WbCore) (push : Option Word) : Option (WbOut × WbCore) :=
  let t1 := wbTakes s.src 1 s.rx1
  let t2 := wbTakes s.src 2 s.rx2
  let t3 := wbTakes s.src 3 s.rx3
  let word := if s.src.mem.length < dataDepth then push else none
  match s.src.dataTick (dataDepth - ldStages) [] (t1 || t2 || t3) word,
    s.rx1.dataTick (dataDepth - evrfStages) [] (evrfPops s.rx1) (if t1 then some s.src.rdata else none),
    s.rx2.dataTick (dataDepth - mfuStages) [] (mfuPops s.rx2) (if t2 then some s.src.rdata else none),
    s.rx3.dataTick (dataDepth - mfuStages) [] (mfuPops s.rx3) (if t3 then some s.src.rdata else none) with
  | some src, some rx1, some rx2, some rx3 =>
    some (⟨word, if evrfPops s.rx1 then some s.rx1.rdata else none, if mfuPops s.rx2 then some s.rx2.rdata else none,
      if mfuPops s.rx3 then some s.rx3.rdata else none⟩, ⟨src, rx1, rx2, rx3⟩)
  | _, _, _, _ => none

/-- A sequence of cycles. -/
def WbCore.run : WbCore → List (Option Word) → Option (List WbOut × WbCore)
  | s, [] => some ([], s)
  | s, i :: es =>
    match s.tick i with
    | none => none
    | some (o, s') =>
      match s'.run es with
      | none => none
      | some (os, s'') => some (o :: os, s'')

/-- After the reset, `rad-sim/example-designs/npu/modules/fifo.cpp:30-36`. -/
def WbCore.reset : WbCore := ⟨⟨[], true, false, []⟩, ⟨[], true, false, []⟩, ⟨[], true, false, []⟩, ⟨[], true, false, []⟩⟩

/-- The address that the register files of all cores of the external register file get in a cycle, from the words that are written for the cores: there is one signal for all of them, and the last to
write it wins, `rad-sim/example-designs/npu/modules/evrf.cpp:264` and `291`, `rad-sim/example-designs/npu/modules/evrf.hpp:41`. -/
def evrfAddr (old : Int) (ws : List (Option Word)) : Int :=
  ws.foldl (fun a w => match w with
    | some w => w.getD 1 0 % 2 ^ 9
    | none => a) old

/-- The tag of a module in the next cycle: it looks at the word for the first core only, `rad-sim/example-designs/npu/modules/evrf.cpp:180-187`, `rad-sim/example-designs/npu/modules/mfu.cpp:278-285`. -/
def nextTag (tag : Nat) (w : Option Word) : Nat :=
  match w with
  | some w => if w.getD 2 0 % 2 = 1 then tag + 1 else tag
  | none => tag

end RadSim.Npu
