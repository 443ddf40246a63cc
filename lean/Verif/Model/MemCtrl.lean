/-!
# The memory controller, one channel

Models `rad-sim/sim/dram/mem_controller.cpp:170-270,350-620`. Channels share only the toggle
`_read_before_write` and the DRAM model, so one channel is modelled. The DRAM model is the environment:
at every clock edge it chooses the callbacks made by `ClockTick` and whether it would accept a
transaction. `Tick` and `MemTick` are started by the same edge; they share queues, so their order is a
choice of the environment. Signals are read with their values before the edge. `Assign` runs after the
edge when one of the signals it is sensitive to changed. A failing `assert` and the use of an element of
an empty queue are `none`, except the read in line 202, see `drain`. Addresses are natural numbers; the
translation of addresses is a parameter. The fields `log...` are histories that the code does not keep.
-/

namespace RadSim.MemCtrl

/-- `_addressable_size_bytes`, `_input_queue_size`, `_output_queue_size` and `AddressMapping` of the
channel, `rad-sim/sim/dram/mem_controller.hpp:61-78`. -/
structure Cfg where
  wordBytes : Nat
  inSize : Nat
  outSize : Nat
  translate : Nat → Nat

/-- An element of `_read_address_queue` and `_outstanding_read_requests`. -/
structure Req where
  addr : Nat
  resp : Nat
  last : Bool
  deriving DecidableEq, Repr

/-- An element of `_output_read_responses`. -/
structure Resp (δ : Type) where
  resp : Nat
  data : δ
  last : Bool
  deriving DecidableEq, Repr

/-- What happens to the contents: a write completes, a read is answered. -/
inductive Ev (δ : Type)
  | wrote (addr : Nat) (data : δ)
  | answered (addr resp : Nat) (data : δ) (last : Bool)
  deriving DecidableEq, Repr

/-- The queues and contents of a channel, `rad-sim/sim/dram/mem_controller.hpp:36-60`.
`_out_of_order_read_requests` is a function, an absent entry being zero. -/
structure Queues (δ : Type) where
  wa : List (Nat × Bool) := []
  wd : List (Nat × δ) := []
  ra : List Req := []
  ow : List (Nat × δ × Bool) := []
  rd : List Req := []
  ooo : Nat → Nat := fun _ => 0
  mem : Nat → Option δ := fun _ => none
  outR : List (Resp δ) := []
  outW : List Nat := []
  stale : Nat := 0
  log : List (Ev δ) := []

/-- The signals `Assign` is sensitive to, `rad-sim/sim/dram/mem_controller.cpp:133-143`. -/
structure Occ where
  wa : Nat := 0
  wd : Nat := 0
  ra : Nat := 0
  nOutW : Nat := 0
  nOutR : Nat := 0
  outW : Nat := 0
  outR : Nat := 0
  deriving DecidableEq, Repr

/-- Output ports of the channel. -/
structure Ports (δ : Type) where
  awready : Bool := false
  wready : Bool := false
  arready : Bool := false
  bvalid : Bool := false
  buser : Nat := 0
  rvalid : Bool := false
  rdata : Option δ := none
  rlast : Bool := false
  ruser : Nat := 0
  deriving DecidableEq, Repr

/-- State of the channel; `readFirst` is `_read_before_write`. -/
structure State (δ : Type) where
  q : Queues δ := {}
  occ : Occ := {}
  ports : Ports δ := {}
  readFirst : Bool := true

/-- Input ports of the channel at an edge. -/
structure In (δ : Type) where
  awvalid : Bool := false
  awaddr : Nat := 0
  awsize : Nat := 0
  awlen : Nat := 0
  wvalid : Bool := false
  wdata : δ
  wuser : Nat := 0
  arvalid : Bool := false
  araddr : Nat := 0
  arsize : Nat := 0
  arlen : Nat := 0
  aruser : Nat := 0
  bready : Bool := false
  rready : Bool := false

/-- A callback of the DRAM model. -/
inductive Cb
  | read (addr : Nat)
  | write (addr : Nat)
  deriving DecidableEq, Repr

/-- What the DRAM model does at an edge: callbacks, willingness to accept, the value found past the end of
the queue in line 202, and the order of the two processes. -/
structure Env where
  cbs : List Cb := []
  accR : Bool := true
  accW : Bool := true
  garbage : Nat := 0
  tickFirst : Bool := true

variable {δ : Type}

/-- Function update. -/
def setAt {β : Type} (f : Nat → β) (a : Nat) (b : β) : Nat → β := fun x => if x = a then b else f x

/-- `transaction_size * transaction_length`, `rad-sim/sim/dram/mem_controller.cpp:395-401` and `424-430`;
`ceil` of the quotient is exact. -/
def burstSize (c : Cfg) (size len : Nat) : Nat := (2 ^ size + c.wordBytes - 1) / c.wordBytes * (len + 1)

/-- The loop over a burst, `rad-sim/sim/dram/mem_controller.cpp:402-408` and `431-437`: translated address
and last flag. Addresses wrap at 64 bits; the product `b * _addressable_size_bytes` is assumed to fit 32
bits. -/
def expand (c : Cfg) (base size len : Nat) : List (Nat × Bool) :=
  (List.range (burstSize c size len)).map fun b =>
    (c.translate ((base + b * c.wordBytes) % 2 ^ 64), b == burstSize c size len - 1)

/-- Contents of an address, zero when not initialised, `rad-sim/sim/dram/mem_controller.cpp:177-183`. -/
def contents (zero : δ) (mem : Nat → Option δ) (a : Nat) : δ := (mem a).getD zero

/-- Answering the front request: pop and push of lines 195-197 and 214-226. -/
def answer (zero : δ) (q : Queues δ) (r : Req) (rest : List Req) : Queues δ :=
  { q with rd := rest, outR := q.outR ++ [⟨r.resp, contents zero q.mem r.addr, r.last⟩],
           log := q.log ++ [.answered r.addr r.resp (contents zero q.mem r.addr) r.last] }

/-- The `do ... while` loop, `rad-sim/sim/dram/mem_controller.cpp:199-229`, over the outstanding requests.
When none is left, `front()` in line 202 is undefined; the address read there is `garbage`, the access is
counted, and popping the empty queue (line 224) is `none`. -/
def drain (zero : δ) (garbage : Nat) : List Req → Queues δ → Option (Queues δ)
  | [], q => if q.ooo garbage = 0 then some { q with stale := q.stale + 1 } else none
  | r :: rest, q =>
    if q.ooo r.addr ≠ 0 then
      drain zero garbage rest (answer zero { q with ooo := setAt q.ooo r.addr (q.ooo r.addr - 1) } r rest)
    else some q

/-- `MemReadCallback`, `rad-sim/sim/dram/mem_controller.cpp:170-256`. -/
def readCallback (zero : δ) (garbage : Nat) (q : Queues δ) (a : Nat) : Option (Queues δ) :=
  match q.rd with
  | [] => none
  | r :: rest =>
    if r.addr ≠ a then some { q with ooo := setAt q.ooo a (q.ooo a + 1) }
    else drain zero garbage rest (answer zero q r rest)

/-- `MemWriteCallback`, `rad-sim/sim/dram/mem_controller.cpp:258-270`. -/
def writeCallback (q : Queues δ) (a : Nat) : Option (Queues δ) :=
  match q.ow with
  | [] => none
  | (resp, d, last) :: rest =>
    some { q with ow := rest, outW := if last then q.outW ++ [resp] else q.outW,
                  mem := setAt q.mem a (some d), log := q.log ++ [.wrote a d] }

/-- One callback. -/
def callback (zero : δ) (garbage : Nat) (q : Queues δ) : Cb → Option (Queues δ)
  | .read a => readCallback zero garbage q a
  | .write a => writeCallback q a

/-- `_dramsim->ClockTick()`, `rad-sim/sim/dram/mem_controller.cpp:507`. -/
def callbacks (zero : δ) (garbage : Nat) (q : Queues δ) (cbs : List Cb) : Option (Queues δ) :=
  cbs.foldlM (callback zero garbage) q

/-- What the outside sees of an edge: requests taken, responses handed over, transactions given to the
DRAM model. -/
structure Out (δ : Type) where
  aw : Bool := false
  w : Bool := false
  ar : Bool := false
  b : Option Nat := none
  r : Option (Nat × Option δ × Bool) := none
  issuedR : Option Nat := none
  issuedW : Option (Nat × δ) := none

/-- Issue a read, `rad-sim/sim/dram/mem_controller.cpp:513-523` and `564-574`. -/
def issueRead (e : Env) (q : Queues δ) : Queues δ × Option Nat :=
  match q.ra with
  | [] => (q, none)
  | r :: rest => if e.accR then ({ q with ra := rest, rd := q.rd ++ [r] }, some r.addr) else (q, none)

/-- Issue a write, `rad-sim/sim/dram/mem_controller.cpp:526-537` and `550-561`; the front of an empty
address queue is undefined. -/
def issueWrite (e : Env) (q : Queues δ) : Option (Queues δ × Option (Nat × δ)) :=
  match q.wd with
  | [] => some (q, none)
  | (resp, d) :: wd =>
    match q.wa with
    | [] => none
    | (a, last) :: wa =>
      if e.accW then some ({ q with wa := wa, wd := wd, ow := q.ow ++ [(resp, d, last)] }, some (a, d))
      else some (q, none)

/-- The body of `MemTick`, `rad-sim/sim/dram/mem_controller.cpp:499-585`. In the write-first branch the
outstanding counters are only updated when no write data is waiting and a read is (lines 563-580). -/
def memTick (zero : δ) (e : Env) (readFirst : Bool) (q : Queues δ) (o : Occ) :
    Option (Queues δ × Occ × Option Nat × Option (Nat × δ)) :=
  let o := { o with outW := q.outW.length, outR := q.outR.length }
  match callbacks zero e.garbage q e.cbs with
  | none => none
  | some q =>
    if readFirst then
      if q.ra ≠ [] then
        let (q, i) := issueRead e q
        some (q, { o with nOutW := q.ow.length, nOutR := q.rd.length }, i, none)
      else
        match issueWrite e q with
        | none => none
        | some (q, i) => some (q, { o with nOutW := q.ow.length, nOutR := q.rd.length }, none, i)
    else
      if q.wd ≠ [] then
        match issueWrite e q with
        | none => none
        | some (q, i) => some (q, o, none, i)
      else if q.ra ≠ [] then
        let (q, i) := issueRead e q
        some (q, { o with nOutW := q.ow.length, nOutR := q.rd.length }, i, none)
      else some (q, o, none, none)

/-- `awready_flag`, `rad-sim/sim/dram/mem_controller.cpp:385-386`. -/
def awFlag (c : Cfg) (old : Occ) : Bool := decide (old.wa < c.inSize)

/-- `wready_flag`, `rad-sim/sim/dram/mem_controller.cpp:381-390`. -/
def wFlag (c : Cfg) (old : Occ) (q : Queues δ) : Bool :=
  decide (old.wa > 0) && decide (old.wd < c.inSize) && decide (q.ow.length + q.outW.length < c.outSize)

/-- `arready_flag`, `rad-sim/sim/dram/mem_controller.cpp:377-380,391`. -/
def arFlag (c : Cfg) (q : Queues δ) : Bool :=
  decide (q.ra.length < c.inSize) && decide (q.rd.length + q.outR.length < c.outSize)

/-- Lines 393-412: write address channel. -/
def takeAw (c : Cfg) (i : In δ) (flag : Bool) (q : Queues δ) : Queues δ :=
  if i.awvalid && flag then { q with wa := q.wa ++ expand c i.awaddr i.awsize i.awlen } else q

/-- Lines 413-420: write data channel. -/
def takeW (i : In δ) (flag : Bool) (q : Queues δ) : Queues δ :=
  if i.wvalid && flag then { q with wd := q.wd ++ [(i.wuser, i.wdata)] } else q

/-- Lines 421-446: read address channel. -/
def takeAr (c : Cfg) (i : In δ) (flag : Bool) (q : Queues δ) : Queues δ :=
  if i.arvalid && flag then
    { q with ra := q.ra ++ (expand c i.araddr i.arsize i.arlen).map fun x => ⟨x.1, i.aruser, x.2⟩ }
  else q

/-- Lines 447-453: write responses; `pop` of an empty queue is undefined. -/
def giveB (i : In δ) (old : Ports δ) (q : Queues δ) : Option (Queues δ) :=
  if old.bvalid && i.bready then
    match q.outW with
    | [] => none
    | _ :: rest => some { q with outW := rest }
  else some q

/-- Lines 454-460: read responses. -/
def giveR (i : In δ) (old : Ports δ) (q : Queues δ) : Option (Queues δ) :=
  if old.rvalid && i.rready then
    match q.outR with
    | [] => none
    | _ :: rest => some { q with outR := rest }
  else some q

/-- Lines 462-473: the response ports. -/
def drivePorts (q : Queues δ) (p : Ports δ) : Ports δ :=
  let p := { p with bvalid := decide (q.outW.length > 0), rvalid := decide (q.outR.length > 0) }
  match q.outR with
  | [] => p
  | r :: _ => { p with rdata := some r.data, rlast := r.last, ruser := r.resp }

/-- The body of `Tick`, `rad-sim/sim/dram/mem_controller.cpp:375-487`. -/
def tick (c : Cfg) (i : In δ) (old : Occ) (oldP : Ports δ) (q : Queues δ) (o : Occ) :
    Option (Queues δ × Occ × Ports δ × Out δ) :=
  let fAw := awFlag c old
  let fW := wFlag c old q
  let fAr := arFlag c q
  let q := takeAr c i fAr (takeW i fW (takeAw c i fAw q))
  let o := { o with wa := q.wa.length, wd := q.wd.length, ra := q.ra.length }
  match giveB i oldP q with
  | none => none
  | some q =>
    match giveR i oldP q with
    | none => none
    | some q =>
      some (q, o, drivePorts q oldP,
        { aw := i.awvalid && fAw, w := i.wvalid && fW, ar := i.arvalid && fAr,
          b := if oldP.bvalid && i.bready then some oldP.buser else none,
          r := if oldP.rvalid && i.rready then some (oldP.ruser, oldP.rdata, oldP.rlast) else none })

/-- `x - 16` on `unsigned int`, for `x` below `2^32`. -/
def minus16 (x : Nat) : Nat := if x < 16 then 4294967280 + x else x - 16

/-- `Assign` outside reset, `rad-sim/sim/dram/mem_controller.cpp:595-619`. -/
def assign (c : Cfg) (o : Occ) (q : Queues δ) (p : Ports δ) : Ports δ :=
  { p with
    awready := decide (o.wa < minus16 c.inSize)
    wready := decide (o.wa > 0) && decide (o.wd < minus16 c.inSize) &&
      decide (o.nOutW + o.outW < minus16 c.outSize)
    arready := decide (o.ra < minus16 c.inSize) && decide (o.nOutR + o.outR < minus16 c.outSize)
    buser := match q.outW with
      | [] => p.buser
      | u :: _ => u }

/-- One rising edge with `rst` low. -/
def step (c : Cfg) (zero : δ) (s : State δ) (i : In δ) (e : Env) : Option (State δ × Out δ) :=
  let finish (q : Queues δ) (o : Occ) (p : Ports δ) (out : Out δ) : State δ × Out δ :=
    ({ q := q, occ := o, ports := if o ≠ s.occ then assign c o q p else p, readFirst := !s.readFirst }, out)
  if e.tickFirst then
    match tick c i s.occ s.ports s.q s.occ with
    | none => none
    | some (q, o, p, out) =>
      match memTick zero e s.readFirst q o with
      | none => none
      | some (q, o, ir, iw) => some (finish q o p { out with issuedR := ir, issuedW := iw })
  else
    match memTick zero e s.readFirst s.q s.occ with
    | none => none
    | some (q, o, ir, iw) =>
      match tick c i s.occ s.ports q o with
      | none => none
      | some (q, o, p, out) => some (finish q o p { out with issuedR := ir, issuedW := iw })

/-- Reset, `rad-sim/sim/dram/mem_controller.cpp:351-373,491-497,589-594`: queues and occupancies are
cleared; `_out_of_order_read_requests`, the contents and the DRAM model are not. -/
def reset (s : State δ) : State δ :=
  { s with q := { s.q with wa := [], wd := [], ra := [], ow := [], rd := [], outR := [], outW := [] }
           occ := {}
           ports := { s.ports with awready := false, wready := false, arready := false, bvalid := false,
                                   rvalid := false } }

/-- After construction, the contents given by the initialisation file (lines 3-31,129-131), the first
reset, and the run of `Assign` caused by releasing it. -/
def start (c : Cfg) (mem : Nat → Option δ) : State δ :=
  let q : Queues δ := { mem := mem }
  { q := q, ports := assign c {} q {} }

/-- A run from `s`; the outputs edge by edge. -/
def run (c : Cfg) (zero : δ) (s : State δ) : List (In δ × Env) → Option (State δ × List (Out δ))
  | [] => some (s, [])
  | (i, e) :: es =>
    match step c zero s i e with
    | none => none
    | some (s', o) =>
      match run c zero s' es with
      | none => none
      | some (s'', os) => some (s'', o :: os)

end RadSim.MemCtrl
