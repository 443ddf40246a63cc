import Verif.Model.NpuVew

/-!
# The loader of the example design `npu`

Models `rad-sim/example-designs/npu/modules/loader.cpp`, for any number of cores and sectors, and what the modules that get its words make
of their first elements: `rad-sim/example-designs/npu/modules/evrf.cpp:270-293`, `rad-sim/example-designs/npu/modules/mfu.cpp:363-406`,
`rad-sim/example-designs/npu/modules/mvu_sector.cpp:366-370` and `543-563`.

Simplifications: words are lists of integers. The registers `wb0_fifo_wdata` and `wb1_fifo_wdata`, written with what leaves the last stage but one, are not
kept: what is written to the FIFOs a cycle later is computed from the last stage. The input FIFOs are numbered, those of the external inputs (one for a core) first; the
output FIFOs are those of the external outputs (one for a core), of the first channel (one for a core) and of the second (one for a sector and a core). The word shown at the end of an empty FIFO is the one
without elements, for which the FIFO has zeros; it is never used. A word comes to an input FIFO only when it is not almost full. -/

namespace RadSim.Npu

/-- A word. -/
abbrev Word := List Int

/-- `sc_int<8>` of a number, `rad-sim/example-designs/npu/modules/params.hpp:25-27`. -/
def narrow (v : Int) : Int := (v + 128) % 256 - 128

/-- `LD_PIPELINE`, `rad-sim/example-designs/npu/modules/params.hpp:45`. -/
abbrev ldStages : Nat := 8

/-! ## The words for the two channels -/

/-- `pack_data_and_dest_info_ch0`, `rad-sim/example-designs/npu/modules/loader.cpp:225-241`, for a vector of `n` elements. `vrf0_addr` has nine bits. If no data has
ever come, line 291, the register still has the vector without elements. -/
def packCh0 (n : Nat) (u : LdUop) (d : Word) : Word :=
  if d = [] then []
  else
    [narrow (u.vrf0Id - 1), narrow (u.vrf0Addr % 2 ^ 8 : Nat), narrow (u.vrf0Addr / 2 ^ 8 % 2 : Nat), if u.lastFlag then 1 else 0] ++
      (List.range n).map fun e => narrow (d.getD e 0)

/-- `pack_data_and_dest_info_ch1`, `rad-sim/example-designs/npu/modules/loader.cpp:243-268`, for the sector `k`, of `p` elements. The fourth element is that of a
new vector, 0. -/
def packCh1 (p k : Nat) (u : LdUop) (d : Word) : Word :=
  if d = [] then []
  else
    [(u.vrf1Id : Int) + (if u.block1Id = 1 then 1 <<< 2 else if u.block1Id = 2 then 2 <<< 2 else 3 <<< 2 : Nat), u.vrf1Addr, if u.lastFlag then 1 else 0, 0] ++
      (List.range p).map fun e => d.getD (k * p + e) 0

/-! ## The module -/

/-- The numbers of cores, of sectors, and of elements for a sector. -/
structure LdShape where
  cores : Nat
  sectors : Nat
  width : Nat

/-- The number of input FIFOs. -/
def LdShape.nIn (K : LdShape) : Nat := K.cores + K.sectors * K.cores

/-- The source an input FIFO belongs to: `LD_FROM_IN` 0, `LD_FROM_WB` 1, `rad-sim/example-designs/npu/modules/instructions.hpp:21-23`. -/
def LdShape.src (K : LdShape) (k : Nat) : Nat := if k < K.cores then 0 else 1

/-- The number of output FIFOs. -/
def LdShape.nOut (K : LdShape) : Nat := 2 * K.cores + K.sectors * K.cores

/-- A micro-op gives a word to an output FIFO, `rad-sim/example-designs/npu/modules/loader.cpp:313-315`. -/
def LdShape.sel (K : LdShape) (j : Nat) (u : LdUop) : Bool :=
  if j < K.cores then u.output else if j < 2 * K.cores then u.vrf0Id != 0 else u.vrf1Id != 0

/-- The word, from the vectors of the cores, `rad-sim/example-designs/npu/modules/loader.cpp:134-182` and `285-307`. -/
def LdShape.val (K : LdShape) (j : Nat) (u : LdUop) (d : List Word) : Word :=
  if j < K.cores then d.getD j []
  else if j < 2 * K.cores then packCh0 (K.sectors * K.width) u (d.getD (j - K.cores) [])
  else packCh1 K.width ((j - 2 * K.cores) / K.cores) u (d.getD ((j - 2 * K.cores) % K.cores) [])

/-- The vectors of the cores from the words at the ends of the input FIFOs, `rad-sim/example-designs/npu/modules/loader.cpp:325-340`. -/
def LdShape.gather (K : LdShape) (s : Nat) (ws : List Word) : List Word :=
  (List.range K.cores).map fun c =>
    if s = 0 then (List.range (K.sectors * K.width)).map fun e => (ws.getD c []).getD e 0
    else (List.range (K.sectors * K.width)).map fun e => (ws.getD (K.cores + e / K.width * K.cores + c) []).getD (e % K.width) 0

/-- A stage of the pipelines: `inst_pipeline`, `inst_valid_pipeline`, `data_pipeline`. -/
structure LdSlot where
  uop : LdUop
  valid : Bool
  data : List Word
  deriving DecidableEq

/-- The registers, `rad-sim/example-designs/npu/modules/loader.hpp:17-54`. -/
structure Loader where
  uf : Fifo LdUop
  ins : List (Fifo Word)
  slots : List LdSlot
  outs : List (Fifo Word)

/-- The inputs in a cycle: a micro-op, words for the input FIFOs, which of the output FIFOs are read. -/
structure LoaderIn where
  uop : Option LdUop
  word : Nat → Option Word
  ren : Nat → Bool

/-- What can be seen in a cycle: what is taken in, what is issued with the words at the ends of the input FIFOs, what is given. -/
structure LoaderOut where
  uop : Option LdUop
  word : List (Option Word)
  slot : LdSlot
  heads : List Word
  given : List (Option Word)

/-- FIFOs in a cycle. -/
def tickAll (limit : Nat) (zero : Word) (ren : Nat → Bool) (push : Nat → Option Word) : Nat → List (Fifo Word) → Option (List (Fifo Word))
  | _, [] => some []
  | k, f :: fs =>
    match f.dataTick limit zero (ren k) (push k), tickAll limit zero ren push (k + 1) fs with
    | some f', some fs' => some (f' :: fs')
    | _, _ => none

/-- All input FIFOs of a source have a word, `rad-sim/example-designs/npu/modules/loader.cpp:378-387`. -/
def Loader.srcReady (K : LdShape) (s : Loader) (c : Nat) : Bool := (List.range s.ins.length).all fun k => K.src k != c || !(s.ins.getD k ⟨[], true, false, []⟩).empty

/-- `inst_fifo_ren`, `rad-sim/example-designs/npu/modules/loader.cpp:393-396`. `LD_TAG_UPDATE` is 2. -/
def Loader.issue (K : LdShape) (s : Loader) : Bool :=
  !s.uf.empty && s.outs.all (fun f => !f.almostFull) &&
    ((s.srcReady K 0 && s.uf.rdata.srcSel == 0) || (s.srcReady K 1 && s.uf.rdata.srcSel == 1) || s.uf.rdata.srcSel == 2)

/-- What a stage gives to an output FIFO. -/
def LdSlot.out (K : LdShape) (x : LdSlot) (j : Nat) : Option Word := if x.valid && K.sel j x.uop then some (K.val j x.uop x.data) else none

/-- The reset value of a stage, `rad-sim/example-designs/npu/modules/loader.cpp:272-278`; a vector that has never been written has no elements. -/
def LdSlot.idle : LdSlot := ⟨.default, false, []⟩

/-- `Tick` and `Assign`, `rad-sim/example-designs/npu/modules/loader.cpp:282-346` and `364-413`, with the FIFOs. -/
def Loader.tick (K : LdShape) (s : Loader) (i : LoaderIn) : Option (LoaderOut × Loader) :=
  let iss := s.issue K
  let heads := s.ins.map (·.rdata)
  let uop := if s.uf.almostFull then none else i.uop
  let word := fun k => if (s.ins.getD k ⟨[], true, true, []⟩).almostFull then none else i.word k
  let slot : LdSlot := ⟨s.uf.rdata, iss, if iss && decide (s.uf.rdata.srcSel < 2) then K.gather s.uf.rdata.srcSel heads else (s.slots.getD 0 .idle).data⟩
  let last := s.slots.getD (ldStages - 1) .idle
  let pop := fun j => i.ren j && !(s.outs.getD j ⟨[], true, false, []⟩).empty
  match s.uf.tick mopLimit .default iss uop,
    tickAll (dataDepth - ldStages) [] (fun k => iss && K.src k == s.uf.rdata.srcSel) word 0 s.ins,
    tickAll (dataDepth - ldStages) [] pop (last.out K) 0 s.outs with
  | some uf, some ins, some outs =>
    some (⟨uop, (List.range s.ins.length).map word, slot, heads,
      (List.range s.outs.length).map fun j => if pop j then (s.outs[j]?).map (·.rdata) else none⟩,
      { uf := uf, ins := ins, slots := shift ldStages slot s.slots, outs := outs })
  | _, _, _ => none

/-- A sequence of cycles. -/
def Loader.run (K : LdShape) : Loader → List LoaderIn → Option (List LoaderOut × Loader)
  | s, [] => some ([], s)
  | s, i :: es =>
    match s.tick K i with
    | none => none
    | some (o, s') =>
      match s'.run K es with
      | none => none
      | some (os, s'') => some (o :: os, s'')

/-! ## What becomes of the words -/

/-- What a module is to do with a word: the number of its register file, the address, the vector, and whether its tag is to be advanced. -/
structure WriteBack where
  block : Int
  file : Int
  addr : Int
  tag : Bool
  data : Word
  deriving DecidableEq, Repr

/-- A word of the second channel: the block is compared with 1 for the external register file, `rad-sim/example-designs/npu/modules/evrf.cpp:272-275`, and with 2 and 3 for
the multi-function units, `rad-sim/example-designs/npu/modules/mfu.cpp:371-374`; the other fields are in `evrf.cpp:182` and `283-289`, `mfu.cpp:280`, `381-387` and `396-402`. -/
def readCh1 (p : Nat) (w : Word) : WriteBack :=
  ⟨w.getD 0 0 / 2 ^ 2, w.getD 0 0 % 2 ^ 2, w.getD 1 0 % 2 ^ 9, w.getD 2 0 % 2 == 1, (List.range p).map fun e => w.getD (4 + e) 0⟩

/-- A word of the first channel, in a sector, `rad-sim/example-designs/npu/modules/mvu_sector.cpp:367` and `548-563`: the file is the number of the tile. -/
def readCh0 (n : Nat) (w : Word) : WriteBack :=
  ⟨0, w.getD 0 0, w.getD 1 0 % 2 ^ 8 + w.getD 2 0 % 2 * 2 ^ 8, w.getD 3 0 % 2 == 1, (List.range n).map fun e => w.getD (4 + e) 0⟩

end RadSim.Npu
