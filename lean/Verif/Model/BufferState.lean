/-!
# BookSim `BufferState` with the private buffer policy

Models `rad-sim/sim/noc/booksim/buffer_state.{hpp,cpp}`: the credit accounting kept by the sender
for the virtual channel buffers of the next router. Each call of `Error` (which prints and exits)
and each failed `assert` is an explicit outcome. `_last_id`/`_last_pid` and the `TRACK_BUFFERS`
statistics are left out: nothing modelled here reads them.
-/

namespace RadSim

/-- Update a function at one point: `v[i] = x` on a `std::vector`, used for
`rad-sim/sim/noc/booksim/buffer_state.hpp:162-168` (`_vc_occupancy`, `_in_use_by`, `_tail_sent`). -/
def upd {α : Type} (f : Nat → α) (i : Nat) (x : α) : Nat → α := fun j => if j = i then x else f j

/-- The parameters `BufferState` and `PrivateBufferPolicy` read from the configuration,
`rad-sim/sim/noc/booksim/buffer_state.cpp:86-97,539-550`. -/
structure BufCfg where
  /-- `num_vcs` -/
  vcs : Nat
  /-- `buf_size` -/
  bufSize : Int
  /-- `vc_buf_size` -/
  vcBufSize : Int
  /-- `wait_for_tail_credit` -/
  waitTail : Bool
  deriving Repr, Inhabited

/-- `BufferState::_size`, `rad-sim/sim/noc/booksim/buffer_state.cpp:543-546`. -/
def BufCfg.size (c : BufCfg) : Int := if c.bufSize < 0 then c.vcs * c.vcBufSize else c.bufSize

/-- `PrivateBufferPolicy::_vc_buf_size`, `rad-sim/sim/noc/booksim/buffer_state.cpp:89-95`. -/
def BufCfg.perVc (c : BufCfg) : Int :=
  if c.bufSize ≤ 0 then c.vcBufSize else c.bufSize / c.vcs

/-- The ways in which the accounting stops the program:
`rad-sim/sim/noc/booksim/buffer_state.cpp:102-106,583-602,624-629,644,654-660`. -/
inductive BufErr
  | badVc | idleCredit | occUnderflow | vcUnderflow | notInUse | overflow | vcOverflow | takenInUse
  deriving DecidableEq, Repr

/-- The mutable fields of `BufferState`, `rad-sim/sim/noc/booksim/buffer_state.hpp:159-168`. -/
structure BufState where
  occ : Int
  vcOcc : Nat → Int
  inUse : Nat → Int
  tailSent : Nat → Bool

/-- The constructor, `rad-sim/sim/noc/booksim/buffer_state.cpp:539-558`. -/
def BufState.init : BufState where
  occ := 0
  vcOcc := fun _ => 0
  inUse := fun _ => -1
  tailSent := fun _ => false

/-- `BufferState::IsFullFor` with the private policy,
`rad-sim/sim/noc/booksim/buffer_state.cpp:109-112`. -/
def BufState.isFullFor (c : BufCfg) (s : BufState) (vc : Nat) : Bool := decide (c.perVc ≤ s.vcOcc vc)

/-- `BufferState::AvailableFor` with the private policy,
`rad-sim/sim/noc/booksim/buffer_state.cpp:114-117`. -/
def BufState.availableFor (c : BufCfg) (s : BufState) (vc : Nat) : Int := c.perVc - s.vcOcc vc

/-- `BufferState::IsAvailableFor`, `rad-sim/sim/noc/booksim/buffer_state.hpp:211-214`. -/
def BufState.isAvailableFor (s : BufState) (vc : Nat) : Bool := decide (s.inUse vc < 0)

/-- One iteration of the loop of `BufferState::ProcessCredit`,
`rad-sim/sim/noc/booksim/buffer_state.cpp:579-613`. The private policy does nothing in
`FreeSlotFor` (`rad-sim/sim/noc/booksim/buffer_state.cpp:59-60`). -/
def BufState.creditVc (c : BufCfg) (s : BufState) (vc : Nat) : Except BufErr BufState :=
  if ¬ vc < c.vcs then .error .badVc
  else if c.waitTail && decide (s.inUse vc < 0) then .error .idleCredit
  else if s.occ - 1 < 0 then .error .occUnderflow
  else if s.vcOcc vc - 1 < 0 then .error .vcUnderflow
  else if c.waitTail && decide (s.vcOcc vc - 1 = 0) && s.tailSent vc then
    if s.inUse vc < 0 then .error .notInUse
    else .ok { s with occ := s.occ - 1, vcOcc := upd s.vcOcc vc (s.vcOcc vc - 1),
                      inUse := upd s.inUse vc (-1) }
  else .ok { s with occ := s.occ - 1, vcOcc := upd s.vcOcc vc (s.vcOcc vc - 1) }

/-- `BufferState::ProcessCredit`, `rad-sim/sim/noc/booksim/buffer_state.cpp:572-617`. The credit's
`std::set<int>` is given as the list of its elements. -/
def BufState.processCredit (c : BufCfg) (s : BufState) : List Nat → Except BufErr BufState
  | [] => .ok s
  | vc :: vcs =>
    match s.creditVc c vc with
    | .ok s' => s'.processCredit c vcs
    | .error e => .error e

/-- `BufferState::SendingFlit` with `PrivateBufferPolicy::SendingFlit`,
`rad-sim/sim/noc/booksim/buffer_state.cpp:99-107,620-650`. -/
def BufState.sendingFlit (c : BufCfg) (s : BufState) (vc : Nat) (tail : Bool) :
    Except BufErr BufState :=
  if ¬ vc < c.vcs then .error .badVc
  else if s.occ + 1 > c.size then .error .overflow
  else if s.vcOcc vc + 1 > c.perVc then .error .vcOverflow
  else
    let s' := { s with occ := s.occ + 1, vcOcc := upd s.vcOcc vc (s.vcOcc vc + 1) }
    if tail then
      if c.waitTail then .ok { s' with tailSent := upd s.tailSent vc true }
      else if s.inUse vc < 0 then .error .notInUse
      else .ok { s' with tailSent := upd s.tailSent vc true, inUse := upd s.inUse vc (-1) }
    else .ok s'

/-- `BufferState::TakeBuffer`, `rad-sim/sim/noc/booksim/buffer_state.cpp:652-664`; the adapters
call it with the default tag 0 (`rad-sim/sim/noc/booksim/buffer_state.hpp:192`). -/
def BufState.takeBuffer (c : BufCfg) (s : BufState) (vc : Nat) (tag : Int) :
    Except BufErr BufState :=
  if ¬ vc < c.vcs then .error .badVc
  else if s.inUse vc ≥ 0 then .error .takenInUse
  else .ok { s with inUse := upd s.inUse vc tag, tailSent := upd s.tailSent vc false }

/-- A call on a `BufferState`, one constructor per public mutator of
`rad-sim/sim/noc/booksim/buffer_state.hpp:189-192`. -/
inductive BufOp
  | take (vc : Nat) (tag : Int)
  | send (vc : Nat) (tail : Bool)
  | credit (vcs : List Nat)
  deriving DecidableEq, Repr

/-- Dispatch of one call, `rad-sim/sim/noc/booksim/buffer_state.cpp:572-664`. -/
def BufState.step (c : BufCfg) (s : BufState) : BufOp → Except BufErr BufState
  | .take vc tag => s.takeBuffer c vc tag
  | .send vc tail => s.sendingFlit c vc tail
  | .credit vcs => s.processCredit c vcs

/-- A sequence of calls, `rad-sim/sim/noc/booksim/buffer_state.cpp:572-664`; stops at the first
error as the program does. -/
def BufState.run (c : BufCfg) (s : BufState) : List BufOp → Except BufErr BufState
  | [] => .ok s
  | op :: ops =>
    match s.step c op with
    | .ok s' => s'.run c ops
    | .error e => .error e

end RadSim
