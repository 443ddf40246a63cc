/-!
# The instructions of the example design `npu`

Models `rad-sim/example-designs/npu/modules/instructions.cpp` and `instructions.hpp`: macro-ops, which the dispatcher sends over
the NoC as bit vectors, and micro-ops, which the decoders make of them.

Simplifications: a number of type `sc_uint<w>` is a natural number, and `Wf` says that it has `w` bits; what is written to one is
reduced. A bit vector is a natural number. The vectors of `TB_NUM_DOTS` base addresses are lists. The base class
`std::error_code` of the instructions carries nothing. The comparisons `operator==` compare every field, so that a signal of an
instruction changes whenever the instruction does; they are not modelled. -/

namespace RadSim.Npu

/-- `TB_NUM_DOTS`, `rad-sim/example-designs/npu/modules/params.hpp:21`. -/
abbrev dots : Nat := 3

/-- Writing `v` to the range of `w` bits from bit `lo` on, as `mop_bv.range(lo + w - 1, lo) = v`,
`rad-sim/example-designs/npu/modules/instructions.cpp:174`. -/
def setRange (bv lo w v : Nat) : Nat :=
  bv % 2 ^ lo + v % 2 ^ w * 2 ^ lo + bv / 2 ^ (lo + w) * 2 ^ (lo + w)

/-- Reading the range of `w` bits from bit `lo` on, as `mop_bv.range(lo + w - 1, lo).to_uint()`,
`rad-sim/example-designs/npu/modules/instructions.cpp:193`. -/
def getRange (bv lo w : Nat) : Nat := bv / 2 ^ lo % 2 ^ w

/-- The sequence of range writes in `convert_to_bv`, each followed by `start_idx += w`,
`rad-sim/example-designs/npu/modules/instructions.cpp:169-188`. The pairs are width and value. -/
def pack : List (Nat × Nat) → Nat → Nat → Nat
  | [], _, bv => bv
  | (w, v) :: fs, idx, bv => pack fs (idx + w) (setRange bv idx w v)

/-- The sequence of range reads in `load_from_bv`, each followed by `start_idx += w`,
`rad-sim/example-designs/npu/modules/instructions.cpp:190-207`. -/
def unpack : List Nat → Nat → Nat → List Nat
  | [], _, _ => []
  | w :: ws, idx, bv => getRange bv idx w :: unpack ws (idx + w) bv

/-- `mvu_mop`, `rad-sim/example-designs/npu/modules/instructions.hpp:100-108`. -/
structure MvuMop where
  vrfBase : List Nat
  vrfSize : Nat
  mrfBase : Nat
  mrfSize : Nat
  wordsPerRow : Nat
  tag : Nat
  op : Bool
  deriving DecidableEq, Repr

/-- The constructor, `rad-sim/example-designs/npu/modules/instructions.cpp:128-129`. -/
def MvuMop.default : MvuMop := ⟨List.replicate dots 0, 0, 0, 0, 0, 0, false⟩

/-- `mvu_mop::convert_to_bv`, `rad-sim/example-designs/npu/modules/instructions.cpp:169-188`. -/
def MvuMop.toBv (m : MvuMop) : Nat :=
  pack (m.vrfBase.map (fun b => (9, b)) ++
    [(11, m.vrfSize), (10, m.mrfBase), (11, m.mrfSize), (11, m.wordsPerRow), (10, m.tag), (1, m.op.toNat)]) 0 0

/-- `mvu_mop::load_from_bv`, `rad-sim/example-designs/npu/modules/instructions.cpp:190-207`. -/
def MvuMop.ofBv (bv : Nat) : MvuMop :=
  match unpack [9, 9, 9, 11, 10, 11, 11, 10, 1] 0 bv with
  | [a, b, c, vs, mb, ms, wp, t, o] => ⟨[a, b, c], vs, mb, ms, wp, t, o != 0⟩
  | _ => MvuMop.default

/-- `evrf_mop`, `rad-sim/example-designs/npu/modules/instructions.hpp:124-131`. -/
structure EvrfMop where
  vrfBase : List Nat
  vrfSize : Nat
  srcSel : Bool
  tag : Nat
  op : Bool
  batch : Nat
  deriving DecidableEq, Repr

/-- The constructor, `rad-sim/example-designs/npu/modules/instructions.cpp:209`. -/
def EvrfMop.default : EvrfMop := ⟨List.replicate dots 0, 0, false, 0, false, 0⟩

/-- `evrf_mop::convert_to_bv`, `rad-sim/example-designs/npu/modules/instructions.cpp:247-264`. -/
def EvrfMop.toBv (m : EvrfMop) : Nat :=
  pack (m.vrfBase.map (fun b => (9, b)) ++
    [(11, m.vrfSize), (1, m.srcSel.toNat), (10, m.tag), (1, m.op.toNat), (2, m.batch)]) 0 0

/-- `evrf_mop::load_from_bv`, `rad-sim/example-designs/npu/modules/instructions.cpp:266-281`. -/
def EvrfMop.ofBv (bv : Nat) : EvrfMop :=
  match unpack [9, 9, 9, 11, 1, 10, 1, 2] 0 bv with
  | [a, b, c, vs, ss, t, o, ba] => ⟨[a, b, c], vs, ss != 0, t, o != 0, ba⟩
  | _ => EvrfMop.default

/-- `mfu_mop`, `rad-sim/example-designs/npu/modules/instructions.hpp:147-154`. -/
structure MfuMop where
  addBase : List Nat
  mulBase : List Nat
  vrfSize : Nat
  tag : Nat
  op : Nat
  batch : Nat
  deriving DecidableEq, Repr

/-- The constructor, `rad-sim/example-designs/npu/modules/instructions.cpp:283`. -/
def MfuMop.default : MfuMop := ⟨List.replicate dots 0, List.replicate dots 0, 0, 0, 0, 0⟩

/-- `mfu_mop::convert_to_bv`, `rad-sim/example-designs/npu/modules/instructions.cpp:329-348`. -/
def MfuMop.toBv (m : MfuMop) : Nat :=
  pack (m.addBase.map (fun b => (9, b)) ++ (m.mulBase.map (fun b => (9, b)) ++
    [(11, m.vrfSize), (10, m.tag), (7, m.op), (2, m.batch)])) 0 0

/-- `mfu_mop::load_from_bv`, `rad-sim/example-designs/npu/modules/instructions.cpp:350-367`. -/
def MfuMop.ofBv (bv : Nat) : MfuMop :=
  match unpack [9, 9, 9, 9, 9, 9, 11, 10, 7, 2] 0 bv with
  | [a, b, c, d, e, f, vs, t, o, ba] => ⟨[a, b, c], [d, e, f], vs, t, o, ba⟩
  | _ => MfuMop.default

/-- `ld_mop`, `rad-sim/example-designs/npu/modules/instructions.hpp:170-182`. -/
structure LdMop where
  vrf0Id : Nat
  block1Id : Nat
  vrf1Id : Nat
  vrf0Base : List Nat
  vrf1Base : List Nat
  vrfSize : Nat
  srcSel : Nat
  op : Bool
  batch : Nat
  interrupt : Bool
  output : Bool
  deriving DecidableEq, Repr

/-- The constructor, `rad-sim/example-designs/npu/modules/instructions.cpp:369-380`. -/
def LdMop.default : LdMop := ⟨0, 0, 0, List.replicate dots 0, List.replicate dots 0, 0, 0, false, 0, false, false⟩

/-- `ld_mop::convert_to_bv`, `rad-sim/example-designs/npu/modules/instructions.cpp:439-468`. -/
def LdMop.toBv (m : LdMop) : Nat :=
  pack ([(4, m.vrf0Id), (8, m.block1Id), (4, m.vrf1Id)] ++ (m.vrf0Base.map (fun b => (9, b)) ++
    (m.vrf1Base.map (fun b => (9, b)) ++
      [(11, m.vrfSize), (2, m.srcSel), (1, m.op.toNat), (2, m.batch), (1, m.interrupt.toNat), (1, m.output.toNat)]))) 0 0

/-- `ld_mop::load_from_bv`, `rad-sim/example-designs/npu/modules/instructions.cpp:470-500`. -/
def LdMop.ofBv (bv : Nat) : LdMop :=
  match unpack [4, 8, 4, 9, 9, 9, 9, 9, 9, 11, 2, 1, 2, 1, 1] 0 bv with
  | [v0, b1, v1, a, b, c, d, e, f, vs, ss, o, ba, i, r] =>
    ⟨v0, b1, v1, [a, b, c], [d, e, f], vs, ss, o != 0, ba, i != 0, r != 0⟩
  | _ => LdMop.default

/-- `mvu_uop`, `rad-sim/example-designs/npu/modules/instructions.hpp:30-41`. -/
structure MvuUop where
  vrfAddr : Nat
  vrfRdId : Nat
  regSel : Bool
  mrfAddr : Nat
  tag : Nat
  accumOp : Nat
  accumSize : Nat
  vrfEn : Bool
  first : Bool
  last : Bool
  deriving DecidableEq, Repr

/-- The constructor, `rad-sim/example-designs/npu/modules/instructions.cpp:3-13`. -/
def MvuUop.default : MvuUop := ⟨0, 0, false, 0, 0, 0, 0, false, false, false⟩

/-- `evrf_uop`, `rad-sim/example-designs/npu/modules/instructions.hpp:49-55`. -/
structure EvrfUop where
  vrfAddr : Nat
  srcSel : Nat
  tag : Nat
  first : Bool
  last : Bool
  deriving DecidableEq, Repr

/-- The constructor, `rad-sim/example-designs/npu/modules/instructions.cpp:41`. -/
def EvrfUop.default : EvrfUop := ⟨0, 0, 0, false, false⟩

/-- `mfu_uop`, `rad-sim/example-designs/npu/modules/instructions.hpp:63-72`. -/
structure MfuUop where
  vrf0Addr : Nat
  vrf1Addr : Nat
  tag : Nat
  activation : Nat
  addOp : Nat
  multOp : Nat
  first : Bool
  last : Bool
  deriving DecidableEq, Repr

/-- The constructor, `rad-sim/example-designs/npu/modules/instructions.cpp:61-62`. -/
def MfuUop.default : MfuUop := ⟨0, 0, 0, 0, 0, 0, false, false⟩

/-- `ld_uop`, `rad-sim/example-designs/npu/modules/instructions.hpp:80-92`. -/
structure LdUop where
  vrf0Id : Nat
  block1Id : Nat
  vrf1Id : Nat
  vrf0Addr : Nat
  vrf1Addr : Nat
  srcSel : Nat
  lastFlag : Bool
  interrupt : Bool
  output : Bool
  first : Bool
  last : Bool
  deriving DecidableEq, Repr

/-- The constructor, `rad-sim/example-designs/npu/modules/instructions.cpp:87-98`. -/
def LdUop.default : LdUop := ⟨0, 0, 0, 0, 0, 0, false, false, false, false, false⟩

end RadSim.Npu
