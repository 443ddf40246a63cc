import Verif.Model.NpuLoader

/-!
# The first write-back channel of the example design `npu`, in the sectors of the matrix-vector unit

Models, for a thread and a core, how the words that the loader has sent to the first sector come to the register files of all sectors: the part of `Assign` for it in
`rad-sim/example-designs/npu/modules/mvu_sector.cpp:531-571`, the tag in `363-378`, the FIFOs `wb_ififos` and `sector_chain_ofifos` of `251-283`, and their connection from sector to sector in
`rad-sim/example-designs/npu/npu_top.cpp:33-58`.

Simplifications: the word that the adapter before the first sector (C138) shows in a cycle is an input. The word shown at the end of an empty FIFO is the one without elements. The write port of a register file is
that of C135; here a word is in the register file when it has been written to the port. -/

namespace RadSim.Npu

/-- `SECTOR_INST_PIPELINE`, `rad-sim/example-designs/npu/modules/params.hpp:76`. -/
abbrev sectorStages : Nat := 37

/-- What can go wrong: a FIFO is full or empty, or there is no register file with the number, `vrf_wdata_signal[thread_id][core_id][vrf_id]` being outside of the vector,
`rad-sim/example-designs/npu/modules/mvu_sector.cpp:559-561`. -/
inductive ChainError where
  | fifo
  | outside
  deriving DecidableEq, Repr

/-- The two FIFOs of a sector. -/
structure ChainSector where
  rx : Fifo Word
  tx : Fifo Word

/-- The word at the end of the FIFO is written, `rad-sim/example-designs/npu/modules/mvu_sector.cpp:546-549`. -/
def ChainSector.writes (s : ChainSector) : Bool := s.rx.rdata != [] && !s.rx.empty && !s.tx.almostFull

/-- The register file of the word is there; `TILES` of them are. -/
def tileThere (tiles : Nat) (w : Word) : Bool := decide (0 ≤ w.getD 0 0) && decide (w.getD 0 0 < tiles)

/-- The sectors in a cycle, from the one that is shown the word `offer` on: whether it takes it, what each of them writes, and the next state. The last one does not pass its words on
(line 541), and its second FIFO is not read. -/
def chainTick (tiles : Nat) : Option Word → List ChainSector → Except ChainError (Bool × List (Option Word) × List ChainSector)
  | _, [] => .ok (false, [], [])
  | offer, s :: ss =>
    let t := offer.isSome && !s.rx.almostFull
    let w := if s.writes then some s.rx.rdata else none
    if s.writes && !tileThere tiles s.rx.rdata then .error .outside
    else
      match chainTick tiles (if s.tx.empty then none else some s.tx.rdata) ss with
      | .error e => .error e
      | .ok (t', ws, ss') =>
        match s.rx.dataTick (dataDepth - sectorStages) [] s.writes (if t then offer else none),
          s.tx.dataTick (dataDepth - sectorStages) [] t' (if ss.isEmpty then none else w) with
        | some rx, some tx => .ok (t, w :: ws, ⟨rx, tx⟩ :: ss')
        | _, _ => .error .fifo

/-- A sequence of cycles: in each the word that is taken and those that the sectors write. -/
def chainRun (tiles : Nat) : List (Option Word) → List ChainSector → Except ChainError (List (Option Word × List (Option Word)) × List ChainSector)
  | [], ss => .ok ([], ss)
  | i :: es, ss =>
    match chainTick tiles i ss with
    | .error e => .error e
    | .ok (t, ws, ss') =>
      match chainRun tiles es ss' with
      | .error e => .error e
      | .ok (os, ss'') => .ok ((if t then i else none, ws) :: os, ss'')

/-- `n` sectors after the reset. -/
def chainReset (n : Nat) : List ChainSector := List.replicate n ⟨⟨[], true, false, []⟩, ⟨[], true, false, []⟩⟩

/-- The register files of a sector after a word is written: the address is put together from two elements, and only the file of the number is enabled, `rad-sim/example-designs/npu/modules/mvu_sector.cpp:550-564`. -/
def fileWrite (lanes : Nat) (m : Int → Int → Word) (w : Word) : Int → Int → Word := fun f a =>
  if f = w.getD 0 0 ∧ a = w.getD 1 0 % 2 ^ 8 + w.getD 2 0 % 2 * 2 ^ 8 then (List.range lanes).map fun e => w.getD (4 + e) 0 else m f a

/-- The tag of a sector after a cycle in which the given word is written for the first core, `rad-sim/example-designs/npu/modules/mvu_sector.cpp:366-372`. `none` is the error "Tag value is overflowing!";
`MAX_TAG` is 512, `rad-sim/example-designs/npu/modules/params.hpp:19`. -/
def sectorTag : List (Option Word) → Nat → Option Nat
  | [], tag => some tag
  | none :: ws, tag => sectorTag ws tag
  | some w :: ws, tag => if w != [] && w.getD 3 0 % 2 == 1 then (if tag = 511 then none else sectorTag ws (tag + 1)) else sectorTag ws tag

/-- `mrf_wen_signal` of an engine and a tile of a sector, `rad-sim/example-designs/npu/modules/mvu_sector.cpp:487-490`, for the given numbers of engines for a sector and of sectors. -/
def mrfSelect (dpes sectors wid sector dpe tile : Nat) : Bool := wid == tile * dpes * sectors + sector * dpes + dpe

end RadSim.Npu
