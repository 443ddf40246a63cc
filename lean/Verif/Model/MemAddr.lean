import Mathlib.Data.Nat.Log

/-!
# DRAM address fields

Models the address functions of the memory controller (`rad-sim/sim/dram/mem_controller.cpp:100-127,
298-348`) and of DRAMsim3 (`rad-sim/sim/dram/DRAMsim3/src/configuration.cc:34-43,346-403` and
`dram_system.cc:28-31`). Machine words are natural numbers below `2 ^ 64`; reduction is explicit.
Floating-point `log2` followed by truncation is taken to be exact.
-/

namespace RadSim.Dram

/-- The six two-letter tokens of an address mapping. Other tokens make DRAMsim3 stop
(`rad-sim/sim/dram/DRAMsim3/src/configuration.cc:382-385`) and are not representable. -/
inductive Field
  | ch | ra | bg | ba | ro | co
  deriving DecidableEq, Repr

/-- The numbers of a `.ini` file that matter for addresses, and the order of the fields, top first. -/
structure Geometry where
  channels : Nat
  ranks : Nat
  bankgroups : Nat
  banksPerGroup : Nat
  rows : Nat
  columns : Nat
  burstLength : Nat
  busWidth : Nat
  order : List Field
  deriving Repr

/-- `LogBase2`, `rad-sim/sim/dram/DRAMsim3/src/common.cc:50-57`. -/
def logBase2 (n : Nat) : Nat := if h : n > 1 then logBase2 (n / 2) + 1 else 0
termination_by n
decreasing_by omega

/-- `field_widths` of DRAMsim3, `rad-sim/sim/dram/DRAMsim3/src/configuration.cc:351-361`. Fewer columns
than the burst length would give a negative width; subtraction stops at zero here. -/
def Geometry.dramWidth (g : Geometry) : Field → Nat
  | .ch => logBase2 g.channels
  | .ra => logBase2 g.ranks
  | .bg => logBase2 g.bankgroups
  | .ba => logBase2 g.banksPerGroup
  | .ro => logBase2 g.rows
  | .co => logBase2 g.columns - logBase2 g.burstLength

/-- `shift_bits`, `rad-sim/sim/dram/DRAMsim3/src/configuration.cc:349-350`. -/
def Geometry.dramShift (g : Geometry) : Nat := logBase2 (g.busWidth / 8 * g.burstLength)

/-- `_field_widths` of the controller, `rad-sim/sim/dram/mem_controller.cpp:100-120`. -/
def Geometry.ctrlWidth (g : Geometry) : Field → Nat
  | .ch => Nat.log 2 g.channels
  | .ra => Nat.log 2 g.ranks
  | .bg => Nat.log 2 g.bankgroups
  | .ba => Nat.log 2 g.banksPerGroup
  | .ro => Nat.log 2 g.rows
  | .co => Nat.log 2 (2 ^ (Nat.log 2 g.columns - Nat.log 2 g.burstLength))

/-- `_field_widths["bl"]`, `rad-sim/sim/dram/mem_controller.cpp:121-122`. -/
def Geometry.ctrlShift (g : Geometry) : Nat := Nat.log 2 (g.burstLength * g.busWidth / 8)

/-- `x & ((1 << w) - 1)`: the shift of an `int` is defined for widths up to 30. -/
def low (x w : Nat) : Option Nat := if w ≤ 30 then some (x % 2 ^ w) else none

/-- The loop that assigns positions, `rad-sim/sim/dram/DRAMsim3/src/configuration.cc:377-388`: from the
last token upwards. -/
def positions (w : Field → Nat) (order : List Field) : (Field → Option Nat) × Nat :=
  order.reverse.foldl
    (fun p f => (fun x => if x = f then some p.2 else p.1 x, p.2 + w f)) (fun _ => none, 0)

/-- One line of `Config::AddressMapping`, `rad-sim/sim/dram/DRAMsim3/src/configuration.cc:34-43`, or
`GetChannel`, `dram_system.cc:28-31`. A token missing from the order makes `field_pos.at` throw
(`none`), as does a number of tokens other than six (lines 363-367). -/
def Geometry.dramField (g : Geometry) (addr : Nat) (f : Field) : Option Nat :=
  if g.order.length = 6 then
    match (positions g.dramWidth g.order).1 f with
    | none => none
    | some p => low (addr / 2 ^ g.dramShift / 2 ^ p) (g.dramWidth f)
  else none

/-- The splitting part of `mem_controller::AddressMapping`, `rad-sim/sim/dram/mem_controller.cpp:303-317`:
fixed order, low first. -/
def splitOrder : List Field := [.co, .ba, .ro, .bg, .ra, .ch]

/-- The shifts and masks of lines 305-317: what is left of the address when field `f` is reached. -/
def splitAt (w : Field → Nat) (f : Field) : List Field → Nat → Nat
  | [], x => x
  | g :: gs, x => if g = f then x else splitAt w f gs (x / 2 ^ w g)

/-- `field_values[f]`. -/
def Geometry.fieldValue (g : Geometry) (addr : Nat) (f : Field) : Option Nat :=
  low (splitAt g.ctrlWidth f splitOrder (addr / 2 ^ g.ctrlShift)) (g.ctrlWidth f)

/-- The arranging loop, `rad-sim/sim/dram/mem_controller.cpp:319-328`, in 64-bit arithmetic. -/
def Geometry.arrange (g : Geometry) (addr ch : Nat) : List Field → Nat → Option Nat
  | [], x => some x
  | f :: fs, x =>
    if f = .ch then g.arrange addr ch fs ((x * 2 ^ g.ctrlWidth f + ch) % 2 ^ 64)
    else
      match g.fieldValue addr f with
      | none => none
      | some v => g.arrange addr ch fs ((x * 2 ^ g.ctrlWidth f + v) % 2 ^ 64)

/-- `mem_controller::AddressMapping`, `rad-sim/sim/dram/mem_controller.cpp:298-332`. -/
def Geometry.addressMapping (g : Geometry) (addr ch : Nat) : Option Nat :=
  match low addr g.ctrlShift with
  | none => none
  | some b =>
    match g.arrange addr ch g.order 0 with
    | none => none
    | some x => some ((x * 2 ^ g.ctrlShift + b) % 2 ^ 64)

/-- The loop of `ChannelFromAddr`, `rad-sim/sim/dram/mem_controller.cpp:335-343`, over the tokens from
the last one. -/
def skipBits (w : Field → Nat) : List Field → Nat → Nat
  | [], n => n
  | f :: fs, n => if f ≠ .ch then skipBits w fs (n + w f) else n

/-- `mem_controller::ChannelFromAddr`, `rad-sim/sim/dram/mem_controller.cpp:334-348`. -/
def Geometry.channelFromAddr (g : Geometry) (addr : Nat) : Option Nat :=
  low (addr / 2 ^ skipBits g.ctrlWidth g.order.reverse g.ctrlShift) (g.ctrlWidth .ch)

end RadSim.Dram
