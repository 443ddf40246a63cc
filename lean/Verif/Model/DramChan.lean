import Verif.Spec.DramChan

/-!
# DRAMsim3: banks and channels

Models `BankState` (`rad-sim/sim/dram/DRAMsim3/src/bankstate.cc`), `Timing` (`timing.cc`) and `ChannelState`
(`channel_state.cc`). Cycles are natural numbers; sums are reduced modulo `2 ^ 64` as in C++. Simplifications: the
arithmetic on `int` does not overflow; the fields that a refresh command sets to `-1` are zero here, none of them is
read; statistics are left out. `AbruptExit` ends the program and is an error here. -/

namespace RadSim.DramSim

/-- `AbruptExit`, `rad-sim/sim/dram/DRAMsim3/src/common.cc:77-80`. -/
inductive Stop
  | abort
  deriving DecidableEq, Repr

/-- `Command`, `rad-sim/sim/dram/DRAMsim3/src/common.h:68-105`. An invalid command is `none` where it can occur. -/
structure Command where
  cmd : Cmd
  addr : Addr
  hex : Nat
  deriving DecidableEq, Repr

/-- `BankState::State`, `rad-sim/sim/dram/DRAMsim3/src/bankstate.h:13`; no bank is ever in `PD` or `SIZE`. -/
inductive BState
  | opened | closed | sref
  deriving DecidableEq, Repr

/-- `BankState`, `rad-sim/sim/dram/DRAMsim3/src/bankstate.h:26-38`. An `open_row_` of `-1` is `none`. -/
structure Bank where
  state : BState
  timing : Cmd → Nat
  row : Option Nat
  hits : Nat

/-- The constructor, `rad-sim/sim/dram/DRAMsim3/src/bankstate.cc:5-19`. -/
def Bank.init : Bank := { state := .closed, timing := fun _ => 0, row := none, hits := 0 }

/-- `required_type`, `rad-sim/sim/dram/DRAMsim3/src/bankstate.cc:24-86`. -/
def Bank.required (b : Bank) (c : Command) : Except Stop Cmd :=
  match b.state, c.cmd with
  | .closed, .read | .closed, .readPre | .closed, .write | .closed, .writePre => .ok .act
  | .closed, .refresh | .closed, .refBank | .closed, .srefIn => .ok c.cmd
  | .opened, .read | .opened, .readPre | .opened, .write | .opened, .writePre =>
    .ok (if b.row = some c.addr.row then c.cmd else .pre)
  | .opened, .refresh | .opened, .refBank | .opened, .srefIn => .ok .pre
  | .sref, .read | .sref, .readPre | .sref, .write | .sref, .writePre => .ok .srefOut
  | _, _ => .error .abort

/-- `BankState::GetReadyCommand`, `rad-sim/sim/dram/DRAMsim3/src/bankstate.cc:22-94`. -/
def Bank.getReady (b : Bank) (c : Command) (clk : Nat) : Except Stop (Option Command) := do
  let t ← b.required c
  return if b.timing t ≤ clk then some { c with cmd := t } else none

/-- `BankState::UpdateState`, `rad-sim/sim/dram/DRAMsim3/src/bankstate.cc:96-165`. -/
def Bank.updateState (b : Bank) (c : Command) : Except Stop Bank :=
  match b.state, c.cmd with
  | .opened, .read | .opened, .write => .ok { b with hits := b.hits + 1 }
  | .opened, .readPre | .opened, .writePre | .opened, .pre => .ok { b with state := .closed, row := none, hits := 0 }
  | .closed, .refresh | .closed, .refBank => .ok b
  | .closed, .act => .ok { b with state := .opened, row := some c.addr.row }
  | .closed, .srefIn => .ok { b with state := .sref }
  | .sref, .srefOut => .ok { b with state := .closed }
  | _, _ => .error .abort

/-- `BankState::UpdateTiming`, `rad-sim/sim/dram/DRAMsim3/src/bankstate.cc:167-171`. -/
def Bank.updateTiming (b : Bank) (c : Cmd) (t : Nat) : Bank :=
  { b with timing := fun x => if x = c then max (b.timing c) t else b.timing x }

/-- `clk + cmd_timing.second` in `uint64_t`, for example `rad-sim/sim/dram/DRAMsim3/src/channel_state.cc:194`. -/
def later (clk : Nat) (d : Int) : Nat := ((clk + d) % 18446744073709551616).toNat

/-- The inner loops, for example `rad-sim/sim/dram/DRAMsim3/src/channel_state.cc:192-195`. -/
def Bank.delay (b : Bank) (clk : Nat) (l : List (Cmd × Int)) : Bank :=
  l.foldl (fun b x => b.updateTiming x.1 (later clk x.2)) b

namespace Times

/-- `read_to_read_l`, `rad-sim/sim/dram/DRAMsim3/src/timing.cc:13,70`; the same as `write_to_write_l`, 28 and 72. -/
def sameToSame_l (p : Times) : Int := if p.groups = 1 then max p.burst p.tCCD_S else max p.burst p.tCCD_L
/-- `read_to_read_s`, `rad-sim/sim/dram/DRAMsim3/src/timing.cc:14`; the same as `write_to_write_s`, 29. -/
def sameToSame_s (p : Times) : Int := max p.burst p.tCCD_S
/-- `read_to_read_o`, `rad-sim/sim/dram/DRAMsim3/src/timing.cc:15`. -/
def readToRead_o (p : Times) : Int := p.burst + p.tRTRS
/-- `read_delay`, `rad-sim/sim/dram/DRAMsim3/src/configuration.cc:341`. -/
def readDelay (p : Times) : Int := p.RL + p.burst
/-- `write_delay`, `rad-sim/sim/dram/DRAMsim3/src/configuration.cc:342`. -/
def writeDelay (p : Times) : Int := p.WL + p.burst
/-- `read_to_write`, `rad-sim/sim/dram/DRAMsim3/src/timing.cc:16-17`. -/
def readToWrite (p : Times) : Int := p.RL + p.burst - p.WL + p.tRTRS
/-- `read_to_write_o`, `rad-sim/sim/dram/DRAMsim3/src/timing.cc:18-19`. -/
def readToWrite_o (p : Times) : Int := p.readDelay + p.burst + p.tRTRS - p.writeDelay
/-- `read_to_precharge`, `rad-sim/sim/dram/DRAMsim3/src/timing.cc:20`. -/
def readToPre (p : Times) : Int := p.AL + p.tRTP
/-- `readp_to_act`, `rad-sim/sim/dram/DRAMsim3/src/timing.cc:21-22`. -/
def readpToAct (p : Times) : Int := p.AL + p.burst + p.tRTP + p.tRP
/-- `write_to_read_l`, `rad-sim/sim/dram/DRAMsim3/src/timing.cc:24,71`. -/
def writeToRead_l (p : Times) : Int := if p.groups = 1 then p.writeDelay + p.tWTR_S else p.writeDelay + p.tWTR_L
/-- `write_to_read_s`, `rad-sim/sim/dram/DRAMsim3/src/timing.cc:25`. -/
def writeToRead_s (p : Times) : Int := p.writeDelay + p.tWTR_S
/-- `write_to_read_o`, `rad-sim/sim/dram/DRAMsim3/src/timing.cc:26-27`. -/
def writeToRead_o (p : Times) : Int := p.writeDelay + p.burst + p.tRTRS - p.readDelay
/-- `write_to_write_o`, `rad-sim/sim/dram/DRAMsim3/src/timing.cc:30`. -/
def writeToWrite_o (p : Times) : Int := p.burst
/-- `write_to_precharge`, `rad-sim/sim/dram/DRAMsim3/src/timing.cc:31`. -/
def writeToPre (p : Times) : Int := p.WL + p.burst + p.tWR
/-- `read_to_activate`, `rad-sim/sim/dram/DRAMsim3/src/timing.cc:35`. -/
def readToAct (p : Times) : Int := p.readToPre + p.tRP
/-- `write_to_activate`, `rad-sim/sim/dram/DRAMsim3/src/timing.cc:36`. -/
def writeToAct (p : Times) : Int := p.writeToPre + p.tRP
/-- `activate_to_activate_l`, `rad-sim/sim/dram/DRAMsim3/src/timing.cc:39,73`. -/
def actToAct_l (p : Times) : Int := if p.groups = 1 then p.tRRD_S else p.tRRD_L
/-- `activate_to_read`, `rad-sim/sim/dram/DRAMsim3/src/timing.cc:42-49`. -/
def actToRead (p : Times) : Int := if p.gddr || p.hbm then p.tRCDRD else p.tRCD - p.AL
/-- `activate_to_write`, `rad-sim/sim/dram/DRAMsim3/src/timing.cc:42-49`. -/
def actToWrite (p : Times) : Int := if p.gddr || p.hbm then p.tRCDWR else p.tRCD - p.AL
/-- The condition for `tPPD`, `rad-sim/sim/dram/DRAMsim3/src/timing.cc:212`. -/
def hasPPD (p : Times) : Bool := p.gddr || p.lpddr4

/-- Four entries of the same form, for example `rad-sim/sim/dram/DRAMsim3/src/timing.cc:86-89`. -/
def columns (r w : Int) : List (Cmd × Int) := [(.read, r), (.write, w), (.readPre, r), (.writePre, w)]

/-- `same_bank`, `rad-sim/sim/dram/DRAMsim3/src/timing.cc:77-83,104-110,131-136,157-162,183-191,204-209`. There is no
entry for `REFRESH_BANK`. -/
def sameBank (p : Times) : Cmd → List (Cmd × Int)
  | .read => columns p.sameToSame_l p.readToWrite ++ [(.pre, p.readToPre)]
  | .write => columns p.writeToRead_l p.sameToSame_l ++ [(.pre, p.writeToPre)]
  | .readPre => [(.act, p.readpToAct), (.refresh, p.readToAct), (.refBank, p.readToAct), (.srefIn, p.readToAct)]
  | .writePre => [(.act, p.writeToAct), (.refresh, p.writeToAct), (.refBank, p.writeToAct), (.srefIn, p.writeToAct)]
  | .act => (.act, p.tRC) :: columns p.actToRead p.actToWrite ++ [(.pre, p.tRAS)]
  | .pre => [(.act, p.tRP), (.refresh, p.tRP), (.refBank, p.tRP), (.srefIn, p.tRP)]
  | _ => []

/-- `other_banks_same_bankgroup`,
`rad-sim/sim/dram/DRAMsim3/src/timing.cc:84-89,111-116,137-142,163-168,193-196,211-216,232-236`. -/
def otherBanks (p : Times) : Cmd → List (Cmd × Int)
  | .read | .readPre => columns p.sameToSame_l p.readToWrite
  | .write | .writePre => columns p.writeToRead_l p.sameToSame_l
  | .act => [(.act, p.actToAct_l), (.refBank, p.tRC)]
  | .pre => if p.hasPPD then [(.pre, p.tPPD)] else []
  | .refBank => [(.act, p.tRFC), (.refBank, p.tREFI)]
  | _ => []

/-- `other_bankgroups_same_rank`,
`rad-sim/sim/dram/DRAMsim3/src/timing.cc:90-95,117-122,143-148,169-174,198-201,218-221,238-242`. -/
def otherGroups (p : Times) : Cmd → List (Cmd × Int)
  | .read | .readPre => columns p.sameToSame_s p.readToWrite
  | .write | .writePre => columns p.writeToRead_s p.sameToSame_s
  | .act => [(.act, p.tRRD_S), (.refBank, p.tRC)]
  | .pre => if p.hasPPD then [(.pre, p.tPPD)] else []
  | .refBank => [(.act, p.tRFC), (.refBank, p.tREFI)]
  | _ => []

/-- `other_ranks`, `rad-sim/sim/dram/DRAMsim3/src/timing.cc:96-101,123-128,149-154,175-180`. -/
def otherRanks (p : Times) : Cmd → List (Cmd × Int)
  | .read | .readPre => columns p.readToRead_o p.readToWrite_o
  | .write | .writePre => columns p.writeToRead_o p.writeToWrite_o
  | _ => []

/-- `same_rank`, `rad-sim/sim/dram/DRAMsim3/src/timing.cc:225-230,246-264`. -/
def sameRank (p : Times) : Cmd → List (Cmd × Int)
  | .refBank => [(.act, p.tRFCb), (.refresh, p.tRFCb), (.refBank, p.tRFCb), (.srefIn, p.tRFCb)]
  | .refresh => [(.act, p.tRFC), (.refresh, p.tRFC), (.srefIn, p.tRFC)]
  | .srefIn => [(.srefOut, p.tCKESR)]
  | .srefOut => [(.act, p.tXS), (.refresh, p.tXS), (.refBank, p.tXS), (.srefIn, p.tXS)]
  | _ => []

end Times

/-- `ChannelState`, `rad-sim/sim/dram/DRAMsim3/src/channel_state.h:44-49`. -/
structure Chan where
  bank : Nat → Nat → Nat → Bank
  sref : Nat → Bool
  refreshQ : List Command
  fourAw : Nat → List Nat
  thirtyTwoAw : Nat → List Nat

namespace Chan

/-- The constructor, `rad-sim/sim/dram/DRAMsim3/src/channel_state.cc:4-22`. -/
def init : Chan :=
  { bank := fun _ _ _ => .init, sref := fun _ => false, refreshQ := [], fourAw := fun _ => [],
    thirtyTwoAw := fun _ => [] }

/-- The places of the loops over the banks of a rank, for example
`rad-sim/sim/dram/DRAMsim3/src/channel_state.cc:80-81`. -/
def places (p : Times) : List (Nat × Nat) :=
  (List.range p.groups).flatMap fun j => (List.range p.banksPerGroup).map fun k => (j, k)

/-- `IsFAWReady` and `Is32AWReady`, `rad-sim/sim/dram/DRAMsim3/src/channel_state.cc:297-314`, for a window of `n`. -/
def windowReady (n : Nat) (l : List Nat) (clk : Nat) : Bool :=
  match l with
  | [] => true
  | t :: _ => !(clk < t && n ≤ l.length)

/-- `ActivationWindowOk`, `rad-sim/sim/dram/DRAMsim3/src/channel_state.cc:271-280`. -/
def activationOk (p : Times) (s : Chan) (r clk : Nat) : Bool :=
  windowReady 4 (s.fourAw r) clk && (!p.gddr || windowReady 32 (s.thirtyTwoAw r) clk)

/-- The loops of `GetReadyCommand` over a rank, `rad-sim/sim/dram/DRAMsim3/src/channel_state.cc:79-101`: `n` is
`num_ready` and `last` is `ready_cmd`. -/
def rankReady (p : Times) (s : Chan) (c : Command) (clk : Nat) :
    List (Nat × Nat) → Nat → Option Command → Except Stop (Option Command)
  | [], n, last => .ok (if n = p.groups * p.banksPerGroup then last else none)
  | (j, k) :: l, n, _ => do
    match ← (s.bank c.addr.rank j k).getReady c clk with
    | none => rankReady p s c clk l n none
    | some x =>
      if x.cmd ≠ c.cmd then
        return some { x with addr := { rank := c.addr.rank, group := j, bank := k, row := 0, col := 0 } }
      else rankReady p s c clk l (n + 1) (some x)

/-- `GetReadyCommand`, `rad-sim/sim/dram/DRAMsim3/src/channel_state.cc:76-115`. -/
def getReady (p : Times) (s : Chan) (c : Command) (clk : Nat) : Except Stop (Option Command) :=
  if c.cmd.isRank then rankReady p s c clk (places p) 0 none
  else do
    match ← (s.bank c.addr.rank c.addr.group c.addr.bank).getReady c clk with
    | none => return none
    | some x => return if x.cmd = .act && !activationOk p s x.addr.rank clk then none else some x

/-- One bank is replaced. -/
def setBank (s : Chan) (r j k : Nat) (b : Bank) : Chan :=
  { s with bank := fun r' j' k' => if r' = r ∧ j' = j ∧ k' = k then b else s.bank r' j' k' }

/-- The loop of `UpdateState` over a rank, `rad-sim/sim/dram/DRAMsim3/src/channel_state.cc:119-123`. -/
def rankState (s : Chan) (c : Command) : List (Nat × Nat) → Except Stop Chan
  | [] => .ok s
  | (j, k) :: l => do
    let b ← (s.bank c.addr.rank j k).updateState c
    rankState (s.setBank c.addr.rank j k b) c l

/-- `RankNeedRefresh` and `BankNeedRefresh` with `need` false, `rad-sim/sim/dram/DRAMsim3/src/channel_state.cc:50-56,
66-71`: the first entry that fits is removed. -/
def unqueue (s : Chan) (f : Command → Bool) : Chan := { s with refreshQ := s.refreshQ.eraseP f }

/-- `UpdateState`, `rad-sim/sim/dram/DRAMsim3/src/channel_state.cc:117-138`. -/
def updateState (p : Times) (s : Chan) (c : Command) : Except Stop Chan :=
  if c.cmd.isRank then do
    let s ← rankState s c (places p)
    return match c.cmd with
      | .refresh => s.unqueue fun q => q.addr.rank = c.addr.rank
      | .srefIn => { s with sref := fun r => if r = c.addr.rank then true else s.sref r }
      | _ => { s with sref := fun r => if r = c.addr.rank then false else s.sref r }
  else do
    let b ← (s.bank c.addr.rank c.addr.group c.addr.bank).updateState c
    let s := s.setBank c.addr.rank c.addr.group c.addr.bank b
    return if c.cmd = .refBank then s.unqueue fun q => SameBank q.addr c.addr else s

/-- The banks that fulfil a condition are delayed: the frame of the loops of
`rad-sim/sim/dram/DRAMsim3/src/channel_state.cc:188-263`. -/
def delay (s : Chan) (clk : Nat) (f : Nat → Nat → Nat → Bool) (l : List (Cmd × Int)) : Chan :=
  { s with bank := fun r j k => if f r j k then (s.bank r j k).delay clk l else s.bank r j k }

/-- A place exists: the bounds of the loops of `rad-sim/sim/dram/DRAMsim3/src/channel_state.cc:188-263`. -/
def exist (p : Times) (r j k : Nat) : Bool := r < p.ranks && j < p.groups && k < p.banksPerGroup

/-- `UpdateActivationTimes` for one of the two lists, `rad-sim/sim/dram/DRAMsim3/src/channel_state.cc:283-286,
288-292`. -/
def pushWindow (l : List Nat) (clk : Nat) (w : Int) : List Nat :=
  (match l with
    | [] => []
    | t :: l' => if t ≤ clk then l' else l) ++ [later clk w]

/-- `UpdateActivationTimes`, `rad-sim/sim/dram/DRAMsim3/src/channel_state.cc:282-295`. -/
def updateActivation (p : Times) (s : Chan) (r clk : Nat) : Chan :=
  { s with
    fourAw := fun x => if x = r then pushWindow (s.fourAw r) clk p.tFAW else s.fourAw x
    thirtyTwoAw := fun x =>
      if x = r && p.gddr then pushWindow (s.thirtyTwoAw r) clk p.t32AW else s.thirtyTwoAw x }

/-- The four updates after a command for a bank, `rad-sim/sim/dram/DRAMsim3/src/channel_state.cc:152-173,188-248`. -/
def bankTiming (p : Times) (s : Chan) (c : Command) (clk : Nat) : Chan :=
  let a := c.addr
  let s := s.delay clk (fun r j k => r = a.rank && j = a.group && k = a.bank) (p.sameBank c.cmd)
  let s := s.delay clk (fun r j k => exist p r j k && r = a.rank && j = a.group && k ≠ a.bank) (p.otherBanks c.cmd)
  let s := s.delay clk (fun r j k => exist p r j k && r = a.rank && j ≠ a.group) (p.otherGroups c.cmd)
  s.delay clk (fun r j k => exist p r j k && r ≠ a.rank) (p.otherRanks c.cmd)

/-- `UpdateTiming`, `rad-sim/sim/dram/DRAMsim3/src/channel_state.cc:140-186`; the case of an activation falls through
to the other commands for a bank. -/
def updateTiming (p : Times) (s : Chan) (c : Command) (clk : Nat) : Chan :=
  match c.cmd with
  | .act => bankTiming p (updateActivation p s c.addr.rank clk) c clk
  | .read | .readPre | .write | .writePre | .pre | .refBank => bankTiming p s c clk
  | .refresh | .srefIn | .srefOut =>
    s.delay clk (fun r j k => exist p r j k && r = c.addr.rank) (p.sameRank c.cmd)

/-- `UpdateTimingAndStates`, `rad-sim/sim/dram/DRAMsim3/src/channel_state.cc:265-269`. -/
def update (p : Times) (s : Chan) (c : Command) (clk : Nat) : Except Stop Chan := do
  return updateTiming p (← updateState p s c) c clk

end Chan

/-- What a controller does to a channel: cycles pass, a command is asked for and, if one is ready, issued, as in
`rad-sim/sim/dram/DRAMsim3/src/controller.cc:65-149,229-266`, or a refresh is noted
(`rad-sim/sim/dram/DRAMsim3/src/channel_state.cc:46-48,62-64`). -/
inductive Op
  | wait (n : Nat)
  | ask (c : Command)
  | note (c : Command)
  deriving Repr

/-- A channel with its clock and the commands issued so far, newest first. -/
structure Sim where
  chan : Chan
  clk : Nat
  hist : List Event

/-- The start, `rad-sim/sim/dram/DRAMsim3/src/controller.cc:9-32`. -/
def Sim.init : Sim := { chan := .init, clk := 0, hist := [] }

/-- One operation: `GetReadyCommand` and, for a valid answer, `UpdateTimingAndStates`,
`rad-sim/sim/dram/DRAMsim3/src/controller.cc:73-82,265`. -/
def Sim.step (p : Times) (s : Sim) : Op → Except Stop Sim
  | .wait n => .ok { s with clk := s.clk + n }
  | .note c => .ok { s with chan := { s.chan with refreshQ := s.chan.refreshQ ++ [c] } }
  | .ask c => do
    match ← s.chan.getReady p c s.clk with
    | none => return s
    | some x =>
      let ch ← s.chan.update p x s.clk
      return { s with chan := ch, hist := { time := s.clk, cmd := x.cmd, addr := x.addr } :: s.hist }

/-- Several operations, the repeated calls of `rad-sim/sim/dram/DRAMsim3/src/controller.cc:65-149`. -/
def Sim.exec (p : Times) : Sim → List Op → Except Stop Sim
  | s, [] => .ok s
  | s, o :: l => do exec p (← s.step p o) l

end RadSim.DramSim
