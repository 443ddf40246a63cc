import Verif.Model.NpuLoader
import Verif.Spec.NpuDecode

/-!
# What the loader of the `npu` is to do with its words -/

namespace RadSim.Npu

/-- The word that what is issued in a cycle takes from an input FIFO: those of the external inputs are the first, one for a core. -/
def LoaderOut.took (K : LdShape) (k : Nat) (o : LoaderOut) : Option Word :=
  if o.slot.valid && (if k < K.cores then 0 else 1) == o.slot.uop.srcSel then o.heads[k]? else none

/-- A word made to have `n` elements. -/
def fitWord (n : Nat) (w : Word) : Word := (w ++ List.replicate n 0).take n

/-- The vector of a core: that of its external input, or those of the sectors for this core on end. -/
def ldCollect (K : LdShape) (s : Nat) (ws : List Word) (c : Nat) : Word :=
  if s = 0 then fitWord (K.sectors * K.width) (ws.getD c [])
  else (List.range K.sectors).flatMap fun k => fitWord K.width (ws.getD (K.cores + k * K.cores + c) [])

/-- The vectors a micro-op has: those it takes, or, for the update of a tag, those of the micro-op before. -/
def ldVectors (K : LdShape) (d : List Word) (o : LoaderOut) : List Word :=
  if o.slot.valid && decide (o.slot.uop.srcSel < 2) then (List.range K.cores).map (ldCollect K o.slot.uop.srcSel o.heads) else d

/-- What is issued in a sequence of cycles: the micro-ops, each with the vector it has for a core. -/
def ldIssued (K : LdShape) (c : Nat) : List Word → List LoaderOut → List (LdUop × Word)
  | _, [] => []
  | d, o :: os => (if o.slot.valid then [(o.slot.uop, (ldVectors K d o).getD c [])] else []) ++ ldIssued K c (ldVectors K d o) os

/-- What a word of the first channel is to say. -/
def toSector (u : LdUop) (d : Word) : WriteBack := ⟨0, (u.vrf0Id : Int) - 1, u.vrf0Addr, u.lastFlag, d.map narrow⟩

/-- What a word of the second channel for sector `k` is to say. -/
def toVector (p k : Nat) (u : LdUop) (d : Word) : WriteBack := ⟨u.block1Id, u.vrf1Id, u.vrf1Addr, u.lastFlag, (d.drop (k * p)).take p⟩

/-- A micro-op tells a block that its vector is written. Block 0 is the matrix-vector unit. -/
def LdUop.tells (b : Nat) (u : LdUop) : Bool := u.lastFlag && (if b = 0 then u.vrf0Id != 0 else u.vrf1Id != 0 && u.block1Id == b)

/-- Those of a macro-op that bring words. -/
def LdMop.words (m : LdMop) : List LdUop := m.expand.filter fun u => !u.lastFlag

end RadSim.Npu
