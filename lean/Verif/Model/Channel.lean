/-!
# Channels between routers and the simulation time

Models `Channel`, `rad-sim/sim/noc/booksim/channel.hpp:47-126`, which carries flits and credits, and `GetSimTime`,
`rad-sim/sim/radsim_utils.cpp:16-19`. A tick is one iteration of `radsim_noc::Tick`,
`rad-sim/sim/noc/radsim_noc.cpp:301-321`: what was sent since the last tick is read, and what is due can be received
before the next one. Simplifications: an item is a value, not a pointer; the trace output of `FlitChannel` is left out. -/

namespace RadSim.Channel

/-- `INT_MAX` of a 32-bit `int`, the type of `rad-sim/sim/noc/booksim/channel.hpp:75`. -/
def intMax : Int := 2147483647

/-- `GetSimTime` at a time of `v` picoseconds, `rad-sim/sim/radsim_utils.cpp:16-19`: a 64-bit value converted to `int`,
which keeps the low 32 bits. -/
def simTime (v : Nat) : Int :=
  if v % 4294967296 < 2147483648 then (v % 4294967296 : Nat) else (v % 4294967296 : Nat) - 4294967296

/-- The state of a channel, `rad-sim/sim/noc/booksim/channel.hpp:72-75`; `_input` is empty between ticks. -/
abbrev Queue (α : Type) := List (Int × α)

/-- `Channel::ReadInputs`, `rad-sim/sim/noc/booksim/channel.hpp:101-107`. No value when `GetSimTime() + _delay`
overflows, which has undefined behaviour. -/
def read {α : Type} (d now : Int) (x : Option α) (q : Queue α) : Option (Queue α) :=
  match x with
  | none => some q
  | some x => if now + d ≤ intMax then some (q ++ [(now + d - 1, x)]) else none

/-- `Channel::WriteOutputs`, `rad-sim/sim/noc/booksim/channel.hpp:109-124`. -/
def write {α : Type} (now : Int) : Queue α → Queue α × Option α
  | [] => ([], none)
  | (t, x) :: q => if now < t then ((t, x) :: q, none) else (q, some x)

/-- One tick, `rad-sim/sim/noc/booksim/channel.hpp:101-124`: `x` was sent since the last tick. -/
def tick {α : Type} (d now : Int) (x : Option α) (q : Queue α) : Option (Queue α × Option α) :=
  (read d now x q).map (write now)

/-- The first ticks from an empty channel (`rad-sim/sim/noc/booksim/channel.hpp:78-81`): the queue after tick `n - 1`
and what came out in it. -/
def run {α : Type} (d : Int) (now : Nat → Int) (inp : Nat → Option α) : Nat → Option (Queue α × Option α)
  | 0 => some ([], none)
  | n + 1 => (run d now inp n).bind fun s => tick d (now n) (inp n) s.1

/-- What comes out in tick `n`, `rad-sim/sim/noc/booksim/channel.hpp:95-98`. -/
def output {α : Type} (d : Int) (now : Nat → Int) (inp : Nat → Option α) (n : Nat) : Option α :=
  (run d now inp (n + 1)).bind Prod.snd

end RadSim.Channel
