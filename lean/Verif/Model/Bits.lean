/-!
# Bit-vector slices

`sc_bv<W>` values are modelled by `BitVec W`. SystemC's `range(hi, lo)` used on the right of
an assignment is `getRange`, used on the left it is `setRange`. Assigning a value of another
width truncates or zero-extends, which is `BitVec.setWidth`.
-/

namespace RadSim

/-- `t.range(lo + len - 1, lo)` as an rvalue, e.g. `AXIS_TUSER(t)` in
`rad-sim/sim/radsim_defines.hpp:37-55`. -/
def getRange {n : Nat} (v : BitVec n) (lo len : Nat) : BitVec len :=
  v.extractLsb' lo len

/-- `t.range(lo + len - 1, lo) = x` as an lvalue, e.g. `AXIS_TLAST(packet_bv) = ...` in
`rad-sim/sim/noc/axis_slave_adapter.cpp:167-169` and `packet_bv.range(end_idx - 1, start_idx) =`
in `rad-sim/sim/noc/axis_master_adapter.cpp:232`. The right-hand side is truncated or
zero-extended to the slice, as SystemC does. -/
def setRange {n m : Nat} (v : BitVec n) (lo len : Nat) (x : BitVec m) : BitVec n :=
  let mask : BitVec n := ((BitVec.allOnes len).setWidth n) <<< lo
  (v &&& ~~~mask) ||| ((((x.setWidth len).setWidth n) <<< lo) &&& mask)

end RadSim
