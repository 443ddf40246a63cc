import Verif.Model.DramChan

/-!
# DRAMsim3: refresh, command queues and the controller of a channel

Models `Refresh` (`rad-sim/sim/dram/DRAMsim3/src/refresh.cc`), `CommandQueue` (`command_queue.cc`), `Controller`
(`controller.cc`) and the clock of a memory system with one channel (`dram_system.cc`). The controller and its command
queue have a clock each, which always agree, so there is one here. Simplifications: statistics, traces and thermal
models are left out; a multimap is a list in the order of insertion; the capacity of a reserved vector is what was asked
for. The commands issued so far are kept in the state for the theorems only. -/

namespace RadSim.DramSim

/-- `RefreshPolicy`, `rad-sim/sim/dram/DRAMsim3/src/configuration.h:27-32`, those that `refresh.cc` knows. -/
inductive Policy
  | simultaneous | staggered | bankStaggered
  deriving DecidableEq, Repr

/-- The part of `Config` that the controller reads, `rad-sim/sim/dram/DRAMsim3/src/configuration.cc:221-243`, with the
timing parameters and the address mapping (`configuration.cc:34-43`). -/
structure Cfg where
  p : Times
  map : Nat → Addr
  perRank : Bool
  closePage : Bool
  queueSize : Nat
  transSize : Nat
  unified : Bool
  dual : Bool
  policy : Policy
  selfRefresh : Bool
  threshold : Nat

/-- How a program can end: `AbruptExit` (`rad-sim/sim/dram/DRAMsim3/src/common.cc:77-80`), `exit(1)`
(`controller.cc:240-243,255-258`, `command_queue.cc:206-207`) or a division by zero (`refresh.cc:22`). -/
inductive Fault
  | abort | exit | divide
  deriving DecidableEq, Repr

/-- The two kinds of results are joined; `AbruptExit`, `rad-sim/sim/dram/DRAMsim3/src/common.cc:77-80`. -/
def lift {α : Type} : Except Stop α → Except Fault α
  | .ok x => .ok x
  | .error .abort => .error .abort

/-! ## refresh.cc -/

/-- `Refresh`, `rad-sim/sim/dram/DRAMsim3/src/refresh.h:17-24`. -/
structure Refresh where
  clk : Nat
  rank : Nat
  group : Nat
  bank : Nat
  deriving DecidableEq, Repr

/-- `refresh_interval_`, `rad-sim/sim/dram/DRAMsim3/src/refresh.cc:12-18`. -/
def Cfg.interval (c : Cfg) : Int :=
  match c.policy with
  | .simultaneous => c.p.tREFI
  | .bankStaggered => c.p.tREFIb
  | .staggered => c.p.tREFI.tdiv c.p.ranks

/-- `IterateNext`, `rad-sim/sim/dram/DRAMsim3/src/refresh.cc:62-82`. -/
def Refresh.next (c : Cfg) (r : Refresh) : Refresh :=
  match c.policy with
  | .bankStaggered =>
    let g := (r.group + 1) % c.p.groups
    if g = 0 then
      let b := (r.bank + 1) % c.p.banksPerGroup
      if b = 0 then { r with group := g, bank := b, rank := (r.rank + 1) % c.p.ranks }
      else { r with group := g, bank := b }
    else { r with group := g }
  | _ => { r with rank := (r.rank + 1) % c.p.ranks }

/-- A refresh command; the fields that are `-1` in `rad-sim/sim/dram/DRAMsim3/src/channel_state.cc:46-48,62-64` are
zero here. -/
def refreshOf (k : Cmd) (r g b : Nat) : Command := { cmd := k, addr := ⟨r, g, b, 0, 0⟩, hex := 0 }

/-- `InsertRefresh`, `rad-sim/sim/dram/DRAMsim3/src/refresh.cc:29-60`: the commands added to the refresh queue. -/
def Refresh.insert (c : Cfg) (asleep : Nat → Bool) (r : Refresh) : List Command × Refresh :=
  match c.policy with
  | .simultaneous =>
    (match (List.range c.p.ranks).find? fun i => !asleep i with
      | some i => [refreshOf .refresh i 0 0]
      | none => [], r)
  | .staggered => (if asleep r.rank then [] else [refreshOf .refresh r.rank 0 0], r.next c)
  | .bankStaggered => (if asleep r.rank then [] else [refreshOf .refBank r.rank r.group r.bank], r.next c)

/-- `Refresh::ClockTick`, `rad-sim/sim/dram/DRAMsim3/src/refresh.cc:21-27`. The interval is converted to `uint64_t`. -/
def Refresh.tick (c : Cfg) (asleep : Nat → Bool) (r : Refresh) : Except Fault (List Command × Refresh) :=
  let i := later 0 c.interval
  if i = 0 then .error .divide
  else if r.clk % i = 0 ∧ 0 < r.clk then
    let x := r.insert c asleep
    .ok (x.1, { x.2 with clk := r.clk + 1 })
  else .ok ([], { r with clk := r.clk + 1 })

/-! ## command_queue.cc -/

/-- `Transaction`, `rad-sim/sim/dram/DRAMsim3/src/common.h:107-126`, without `added_cycle`, which only statistics read. -/
structure Trans where
  addr : Nat
  write : Bool
  complete : Nat
  deriving DecidableEq, Repr

/-- `Controller` and `CommandQueue`, `rad-sim/sim/dram/DRAMsim3/src/controller.h:43-78`, `command_queue.h:47-59`. `used`
is the negation of `rank_q_empty`. -/
structure Ctrl where
  sim : Sim
  ref : Refresh
  queues : Nat → List Command
  index : Nat
  inRef : Bool
  refQs : List Nat
  used : Nat → Bool
  idle : Nat → Nat
  unifiedQ : List Trans
  readQ : List Trans
  writeBuf : List Trans
  pendRd : List Trans
  pendWr : List Trans
  returnQ : List Trans
  draining : Int

namespace Ctrl

/-- The constructors, `rad-sim/sim/dram/DRAMsim3/src/controller.cc:12-43`, `command_queue.cc:5-34`, `refresh.cc:4-19`. -/
def init : Ctrl :=
  { sim := .init, ref := ⟨0, 0, 0, 0⟩, queues := fun _ => [], index := 0, inRef := false, refQs := [],
    used := fun _ => false, idle := fun _ => 0, unifiedQ := [], readQ := [], writeBuf := [], pendRd := [], pendWr := [],
    returnQ := [], draining := 0 }

/-- `banks`, `rad-sim/sim/dram/DRAMsim3/src/configuration.cc:100`. -/
def banks (c : Cfg) : Nat := c.p.groups * c.p.banksPerGroup

/-- `num_queues_`, `rad-sim/sim/dram/DRAMsim3/src/command_queue.cc:16-21`. -/
def numQueues (c : Cfg) : Nat := if c.perRank then c.p.ranks else banks c * c.p.ranks

/-- `GetQueueIndex`, `rad-sim/sim/dram/DRAMsim3/src/command_queue.cc:164-171`. -/
def queueIndex (c : Cfg) (a : Addr) : Nat :=
  if c.perRank then a.rank else a.rank * banks c + a.group * c.p.banksPerGroup + a.bank

/-- `GetRefQIndices`, `rad-sim/sim/dram/DRAMsim3/src/command_queue.cc:146-162`. -/
def refIndices (c : Cfg) (r : Command) : List Nat :=
  if r.cmd = .refresh then
    if c.perRank then [r.addr.rank] else (List.range (numQueues c)).filter fun i => i / banks c = r.addr.rank
  else [queueIndex c r.addr]

/-- `ArbitratePrecharge`, `rad-sim/sim/dram/DRAMsim3/src/command_queue.cc:77-110`: `pre` are the entries before `x` and
`post` those behind it. -/
def arbitratePre (ch : Chan) (pre : List Command) (x : Command) (post : List Command) : Bool :=
  let b := ch.bank x.addr.rank x.addr.group x.addr.bank
  pre.all (fun y => ¬ SameBank y.addr x.addr) &&
    (!(x :: post).any (fun y => b.row = some y.addr.row && SameBank y.addr x.addr) || 4 ≤ b.hits)

/-- `HasRWDependency`, `rad-sim/sim/dram/DRAMsim3/src/command_queue.cc:218-230`; ranks are not compared. -/
def hasDependency (pre : List Command) (x : Command) : Bool :=
  pre.any fun y => y.cmd.isRead && y.addr.row = x.addr.row && y.addr.col = x.addr.col && y.addr.bank = x.addr.bank &&
    y.addr.group = x.addr.group

/-- `GetFirstReadyInQueue`, `rad-sim/sim/dram/DRAMsim3/src/command_queue.cc:178-196`, behind the entries `pre`. -/
def firstReady (c : Cfg) (ch : Chan) (clk : Nat) (pre : List Command) :
    List Command → Except Stop (Option Command)
  | [] => .ok none
  | x :: post => do
    match ← ch.getReady c.p x clk with
    | none => firstReady c ch clk (pre ++ [x]) post
    | some y =>
      if y.cmd = .pre then
        if arbitratePre ch pre x post then return some y else firstReady c ch clk (pre ++ [x]) post
      else if y.cmd.isWrite && hasDependency pre x then firstReady c ch clk (pre ++ [x]) post
      else return some y

/-- One queue is replaced. -/
def setQueue (s : Ctrl) (i : Nat) (l : List Command) : Ctrl :=
  { s with queues := fun j => if j = i then l else s.queues j }

/-- `EraseRWCommand`, `rad-sim/sim/dram/DRAMsim3/src/command_queue.cc:198-208`. -/
def eraseRW (c : Cfg) (s : Ctrl) (x : Command) : Except Fault Ctrl :=
  let i := queueIndex c x.addr
  let fits := fun y : Command => x.hex = y.hex && x.cmd = y.cmd
  if (s.queues i).any fits then .ok (s.setQueue i ((s.queues i).eraseP fits)) else .error .exit

/-- `GetNextQueue`, `rad-sim/sim/dram/DRAMsim3/src/command_queue.cc:138-144`. -/
def advance (c : Cfg) (s : Ctrl) : Ctrl :=
  { s with index := if s.index + 1 = numQueues c then 0 else s.index + 1 }

/-- The loop of `GetCommandToIssue`, `rad-sim/sim/dram/DRAMsim3/src/command_queue.cc:36-54`. -/
def getCommandLoop (c : Cfg) : Nat → Ctrl → Except Fault (Option Command × Ctrl)
  | 0, s => .ok (none, s)
  | n + 1, s => do
    let s := s.advance c
    if s.inRef && s.refQs.contains s.index then getCommandLoop c n s
    else
      match ← lift (firstReady c s.sim.chan s.sim.clk [] (s.queues s.index)) with
      | none => getCommandLoop c n s
      | some x => if x.cmd.isRead || x.cmd.isWrite then return (some x, ← s.eraseRW c x) else return (some x, s)

/-- `GetCommandToIssue`, `rad-sim/sim/dram/DRAMsim3/src/command_queue.cc:36-54`. -/
def getCommand (c : Cfg) (s : Ctrl) : Except Fault (Option Command × Ctrl) := getCommandLoop c (numQueues c) s

/-- `FinishRefresh`, `rad-sim/sim/dram/DRAMsim3/src/command_queue.cc:56-75`, for the first entry `r` of the refresh
queue. -/
def finishRefresh (c : Cfg) (s : Ctrl) (r : Command) : Except Fault (Option Command × Ctrl) := do
  let s := if s.inRef then s else { s with inRef := true, refQs := s.refQs ++ refIndices c r }
  match ← lift (s.sim.chan.getReady c.p r s.sim.clk) with
  | none => return (none, s)
  | some x =>
    if x.cmd = .refresh || x.cmd = .refBank then return (some x, { s with inRef := false, refQs := [] })
    else return (some x, s)

/-- `WillAcceptCommand`, `rad-sim/sim/dram/DRAMsim3/src/command_queue.cc:112-115`. -/
def acceptsCommand (c : Cfg) (s : Ctrl) (a : Addr) : Bool := (s.queues (queueIndex c a)).length < c.queueSize

/-- `QueueEmpty`, `rad-sim/sim/dram/DRAMsim3/src/command_queue.cc:117-124`. -/
def queueEmpty (c : Cfg) (s : Ctrl) : Bool := (List.range (numQueues c)).all fun i => (s.queues i).isEmpty

/-- `AddCommand`, `rad-sim/sim/dram/DRAMsim3/src/command_queue.cc:127-136`. -/
def addCommand (c : Cfg) (s : Ctrl) (x : Command) : Ctrl :=
  let i := queueIndex c x.addr
  if (s.queues i).length < c.queueSize then
    { s.setQueue i (s.queues i ++ [x]) with used := fun r => if r = x.addr.rank then true else s.used r }
  else s

/-! ## controller.cc -/

/-- `WillAcceptTransaction`, `rad-sim/sim/dram/DRAMsim3/src/controller.cc:151-159`. -/
def accepts (c : Cfg) (s : Ctrl) (write : Bool) : Bool :=
  if c.unified then s.unifiedQ.length < c.transSize
  else if write then s.writeBuf.length < c.transSize else s.readQ.length < c.transSize

/-- `AddTransaction`, `rad-sim/sim/dram/DRAMsim3/src/controller.cc:161-195`. -/
def add (c : Cfg) (s : Ctrl) (a : Nat) (write : Bool) : Ctrl :=
  let t : Trans := ⟨a, write, 0⟩
  let d : Trans := ⟨a, write, later s.sim.clk 1⟩
  if write then
    let s :=
      if (s.pendWr.countP fun x => x.addr = a) = 0 then
        if c.unified then { s with pendWr := s.pendWr ++ [t], unifiedQ := s.unifiedQ ++ [t] }
        else { s with pendWr := s.pendWr ++ [t], writeBuf := s.writeBuf ++ [t] }
      else s
    { s with returnQ := s.returnQ ++ [d] }
  else if 0 < s.pendWr.countP fun x => x.addr = a then { s with returnQ := s.returnQ ++ [d] }
  else
    let s := { s with pendRd := s.pendRd ++ [t] }
    if (s.pendRd.countP fun x => x.addr = a) = 1 then
      if c.unified then { s with unifiedQ := s.unifiedQ ++ [t] } else { s with readQ := s.readQ ++ [t] }
    else s

/-- `ReturnDoneTrans`, `rad-sim/sim/dram/DRAMsim3/src/controller.cc:45-63`. -/
def returnDone (s : Ctrl) (clk : Nat) : Option (Trans × Ctrl) :=
  match s.returnQ.find? fun t => t.complete ≤ clk with
  | none => none
  | some t => some (t, { s with returnQ := s.returnQ.eraseP fun t => t.complete ≤ clk })

/-- `TransToCommand`, `rad-sim/sim/dram/DRAMsim3/src/controller.cc:268-278`. -/
def toCommand (c : Cfg) (t : Trans) : Command :=
  { cmd := if c.closePage then (if t.write then .writePre else .readPre) else (if t.write then .write else .read)
    addr := c.map t.addr, hex := t.addr }

/-- `IssueCommand`, `rad-sim/sim/dram/DRAMsim3/src/controller.cc:229-266`. -/
def issue (c : Cfg) (s : Ctrl) (x : Command) : Except Fault Ctrl := do
  let s ←
    if x.cmd.isRead then
      if (s.pendRd.countP fun t => t.addr = x.hex) = 0 then .error .exit
      else
        .ok { s with
          returnQ := s.returnQ ++
            (s.pendRd.filter fun t => t.addr = x.hex).map fun t => { t with complete := later s.sim.clk c.p.readDelay }
          pendRd := s.pendRd.filter fun t => t.addr ≠ x.hex }
    else if x.cmd.isWrite then
      if s.pendWr.any fun t => t.addr = x.hex then
        .ok { s with pendWr := s.pendWr.eraseP fun t => t.addr = x.hex }
      else .error .exit
    else .ok s
  let ch ← lift (s.sim.chan.update c.p x s.sim.clk)
  return { s with sim := { s.sim with chan := ch, hist := ⟨s.sim.clk, x.cmd, x.addr⟩ :: s.sim.hist } }

/-- The loop of `ScheduleTransaction`, `rad-sim/sim/dram/DRAMsim3/src/controller.cc:210-226`: the first transaction that
a command queue can take, and the rest of the queue without it. -/
def pick (c : Cfg) (s : Ctrl) : List Trans → Option (Trans × List Trans)
  | [] => none
  | t :: l =>
    if s.acceptsCommand c (toCommand c t).addr then some (t, l)
    else (pick c s l).map fun x => (x.1, t :: x.2)

/-- `ScheduleTransaction`, `rad-sim/sim/dram/DRAMsim3/src/controller.cc:197-227`. -/
def schedule (c : Cfg) (s : Ctrl) : Ctrl :=
  let s :=
    if s.draining = 0 ∧ !c.unified then
      if c.transSize ≤ s.writeBuf.length ∨ (8 < s.writeBuf.length ∧ s.queueEmpty c) then
        { s with draining := s.writeBuf.length }
      else s
    else s
  if c.unified then
    match s.pick c s.unifiedQ with
    | none => s
    | some (t, l) => { s.addCommand c (toCommand c t) with unifiedQ := l }
  else if 0 < s.draining then
    match s.pick c s.writeBuf with
    | none => s
    | some (t, l) =>
      if 0 < s.pendRd.countP fun x => x.addr = t.addr then { s with draining := 0 }
      else { s.addCommand c (toCommand c t) with writeBuf := l, draining := s.draining - 1 }
  else
    match s.pick c s.readQ with
    | none => s
    | some (t, l) => { s.addCommand c (toCommand c t) with readQ := l }

/-- `IsAllBankIdleInRank`, `rad-sim/sim/dram/DRAMsim3/src/channel_state.cc:24-33`. -/
def rankIdle (c : Cfg) (s : Ctrl) (r : Nat) : Bool :=
  (Chan.places c.p).all fun x => (s.sim.chan.bank r x.1 x.2).state ≠ .opened

/-- The first part of the power updates, `rad-sim/sim/dram/DRAMsim3/src/controller.cc:95-110`. -/
def countIdle (c : Cfg) (s : Ctrl) : Ctrl :=
  { s with idle := fun r =>
      if s.sim.chan.sref r then s.idle r else if s.rankIdle c r then s.idle r + 1 else 0 }

/-- The second part of the power updates, `rad-sim/sim/dram/DRAMsim3/src/controller.cc:112-142`, for a list of ranks. -/
def powerLoop (c : Cfg) : List Nat → Ctrl → Except Fault Ctrl
  | [], s => .ok s
  | r :: l, s =>
    let ask (k : Cmd) : Except Fault Ctrl := do
      match ← lift (s.sim.chan.getReady c.p (refreshOf k r 0 0) s.sim.clk) with
      | some x => s.issue c x
      | none => powerLoop c l s
    if s.sim.chan.sref r then
      if s.used r then ask .srefOut else powerLoop c l s
    else if !s.used r && c.threshold ≤ s.idle r then ask .srefIn
    else powerLoop c l s

/-- The choice and the issue of commands, `rad-sim/sim/dram/DRAMsim3/src/controller.cc:69-93`, with `cmd_issued`. -/
def issuePart (c : Cfg) (s : Ctrl) : Except Fault (Bool × Ctrl) := do
  let (x, s) ←
    match s.sim.chan.refreshQ with
    | [] => s.getCommand c
    | r :: _ => do
      match ← s.finishRefresh c r with
      | (some x, s) => pure (some x, s)
      | (none, s) => s.getCommand c
  match x with
  | none => return (false, s)
  | some x =>
    let s ← s.issue c x
    if c.dual then
      match ← s.getCommand c with
      | (none, s) => return (true, s)
      | (some y, s) =>
        if (y.cmd.isRead || y.cmd.isWrite) ≠ (x.cmd.isRead || x.cmd.isWrite) then return (true, ← s.issue c y)
        else return (true, s)
    else return (true, s)

/-- `ClockTick`, `rad-sim/sim/dram/DRAMsim3/src/controller.cc:65-149`. -/
def tick (c : Cfg) (s : Ctrl) : Except Fault Ctrl := do
  let (l, r) ← s.ref.tick c s.sim.chan.sref
  let s := { s with
    ref := r
    sim := { s.sim with chan := { s.sim.chan with refreshQ := s.sim.chan.refreshQ ++ l } } }
  let (issued, s) ← s.issuePart c
  let s := s.countIdle c
  let s ← if c.selfRefresh && !issued then powerLoop c (List.range c.p.ranks) s else .ok s
  let s := s.schedule c
  return { s with sim := { s.sim with clk := s.sim.clk + 1 } }

end Ctrl

/-! ## dram_system.cc -/

/-- A memory system with one channel, with the transactions accepted and the ones returned so far, newest first. -/
structure Mem where
  ctrl : Ctrl
  accepted : List (Nat × Bool)
  returned : List (Nat × Bool)

/-- What a user does: offers a transaction, after asking whether it is accepted, or lets a cycle pass. -/
inductive Use
  | offer (addr : Nat) (write : Bool)
  | tick
  deriving DecidableEq, Repr

namespace Mem

/-- `JedecDRAMSystem`, `rad-sim/sim/dram/DRAMsim3/src/dram_system.cc:93-112`. -/
def init : Mem := { ctrl := .init, accepted := [], returned := [] }

/-- The loop that returns what is done, `rad-sim/sim/dram/DRAMsim3/src/dram_system.cc:147-156`, at most `n` times. -/
def returnLoop : Nat → Mem → Mem
  | 0, m => m
  | n + 1, m =>
    match m.ctrl.returnDone m.ctrl.sim.clk with
    | none => m
    | some (t, s) => returnLoop n { m with ctrl := s, returned := (t.addr, t.write) :: m.returned }

/-- `WillAcceptTransaction` and `AddTransaction`, or `ClockTick`, `rad-sim/sim/dram/DRAMsim3/src/dram_system.cc:119-167`.
The loop ends because every turn takes an entry from the return queue. -/
def step (c : Cfg) (m : Mem) : Use → Except Fault Mem
  | .offer a w =>
    .ok (if m.ctrl.accepts c w then { m with ctrl := m.ctrl.add c a w, accepted := (a, w) :: m.accepted } else m)
  | .tick => do
    let m := returnLoop m.ctrl.returnQ.length m
    return { m with ctrl := ← m.ctrl.tick c }

/-- Many steps, as in `rad-sim/sim/dram/mem_controller.cpp:490-588`. -/
def exec (c : Cfg) : Mem → List Use → Except Fault Mem
  | m, [] => .ok m
  | m, u :: l => do exec c (← m.step c u) l

end Mem

end RadSim.DramSim
