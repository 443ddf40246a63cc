import Verif.Model.BufferState
import Verif.Model.Alloc

/-!
# The input-queued router

Models `rad-sim/sim/noc/booksim/routers/iq_router.cpp` with `vc.cpp`, `buffer.cpp` and `router.cpp` of
`rad-sim/sim/noc/booksim`, for the configurations that `rad-sim/config.py:185-195` writes: `routing_delay` at least 1
(no lookahead routing), `speculative = 0`, `hold_switch_for_packet = 0`, `noq = 0`, `priority = none`, speedups 1 and
private buffers, which are the values of `rad-sim/sim/noc/booksim/booksim_config.cpp:85-139` for the options that the
script does not write. Every failed `assert` and every call of `Error` is an explicit outcome.

Simplifications: the statistics, the watch output and the stall counters are left out, all stall codes are one
outcome. Comparing the pointer of the front flit of a buffer with a flit just added to it is modelled by the length of
the buffer. An allocator is any class of `RadSim.Alloc`; the request that it holds for a pair of ports is the last one
that was put. -/

namespace RadSim.Router

/-- A flit, `rad-sim/sim/noc/booksim/flit.hpp:38-97`. `data` stands for the fields the router does not change: ids,
destination, payload. -/
structure Flit (δ : Type) where
  vc : Nat
  head : Bool
  tail : Bool
  pid : Int
  hops : Nat
  data : δ
  deriving DecidableEq, Repr

/-- `OutputSet::sSetElement`, `rad-sim/sim/noc/booksim/outputset.hpp:37-43`. -/
structure Hop where
  port : Nat
  vcStart : Nat
  vcEnd : Nat
  pri : Int
  deriving DecidableEq, Repr

/-- `VC::eVCState`, `rad-sim/sim/noc/booksim/vc.hpp:40-42`. -/
inductive St
  | idle | routing | vcAlloc | active
  deriving DecidableEq, Repr

/-- A virtual channel buffer, `rad-sim/sim/noc/booksim/vc.hpp:52-72`: `_state`, `_buffer`, `_route_set`, `_out_port` and
`_out_vc`, `_expected_pid`. -/
structure Vc (δ : Type) where
  st : St
  q : List (Flit δ)
  route : List Hop
  out : Option (Nat × Nat)
  exp : Int
  deriving DecidableEq, Repr

/-- `VC::VC`, `rad-sim/sim/noc/booksim/vc.cpp:48-71`. -/
def Vc.init {δ : Type} : Vc δ := ⟨.idle, [], [], none, -1⟩

/-- The last component of the queue entries of the router: -1, one of the codes of a stall
(`rad-sim/sim/noc/booksim/routers/router.cpp:51-56`), or the assigned output. -/
inductive Res
  | pending | stall | got (o : Nat)
  deriving DecidableEq, Repr

/-- An entry of `_route_vcs`, `_vc_alloc_vcs` or `_sw_alloc_vcs`,
`rad-sim/sim/noc/booksim/routers/iq_router.hpp:64-70`. The first queue does not use `res`. -/
structure Wait where
  time : Int
  i : Nat
  v : Nat
  res : Res
  deriving DecidableEq, Repr

/-- An entry of `_crossbar_flits`, `rad-sim/sim/noc/booksim/routers/iq_router.hpp:71`. -/
structure Cross (δ : Type) where
  time : Int
  f : Flit δ
  i : Nat
  o : Nat
  deriving DecidableEq, Repr

/-- An entry of `_proc_credits`, `rad-sim/sim/noc/booksim/routers/iq_router.hpp:62`. -/
structure Cred where
  time : Int
  vcs : List Nat
  o : Nat
  deriving DecidableEq, Repr

/-- The configuration, `rad-sim/sim/noc/booksim/routers/router.cpp:62-72` and
`rad-sim/sim/noc/booksim/routers/iq_router.cpp:54-74,163`. -/
structure Cfg where
  inputs : Nat
  outputs : Nat
  buf : BufCfg
  /-- `output_buffer_size` -/
  outSize : Int
  routeDelay : Int
  vaDelay : Int
  saDelay : Int
  /-- `st_prepare_delay + st_final_delay` -/
  xbDelay : Int
  creditDelay : Int

/-- The number of virtual channels of a port. -/
abbrev Cfg.vcs (c : Cfg) : Nat := c.buf.vcs

/-- The ways in which the router stops the program: a failed assertion, `Flit buffer overflow.`
(`rad-sim/sim/noc/booksim/buffer.cpp:69-71`), an unexpected packet ID (`rad-sim/sim/noc/booksim/vc.cpp:84-89`), an error
of the accounting of the next buffer, a failure of an allocator. -/
inductive Err
  | assertion | overflow | packetId | buf (e : BufErr) | alloc
  deriving DecidableEq, Repr

/-- The router, `rad-sim/sim/noc/booksim/routers/iq_router.hpp:41-110`, and `Buffer::_occupancy`
(`rad-sim/sim/noc/booksim/buffer.hpp:41`) of every input. -/
structure R (δ σ τ : Type) where
  vcs : Nat → Nat → Vc δ
  occ : Nat → Int
  next : Nat → BufState
  routeQ : List Wait
  vaQ : List Wait
  saQ : List Wait
  xbQ : List (Cross δ)
  credQ : List Cred
  outBuf : Nat → List (Flit δ)
  outCred : Nat → List Nat
  credBuf : Nat → List (List Nat)
  va : σ
  sa : τ
  rr : Nat → Nat
  active : Bool

/-- `IQRouter::IQRouter`, `rad-sim/sim/noc/booksim/routers/iq_router.cpp:50-184`; `_sw_rr_offset` is 0 for speedup 1. -/
def R.init {δ σ τ : Type} (va : σ) (sa : τ) : R δ σ τ where
  vcs := fun _ _ => .init
  occ := fun _ => 0
  next := fun _ => .init
  routeQ := []
  vaQ := []
  saQ := []
  xbQ := []
  credQ := []
  outBuf := fun _ => []
  outCred := fun _ => []
  credBuf := fun _ => []
  va := va
  sa := sa
  rr := fun _ => 0
  active := false

/-- What the environment supplies in one tick: the simulation time, the outputs of the flit channels, the outputs of
the credit channels, the routing function (it may read the state of the network or draw random numbers, so it is given
anew in every tick) and the random numbers of the allocators. -/
structure In (δ ρ ρ' : Type) where
  now : Int
  flit : Nat → Option (Flit δ)
  credit : Nat → Option (List Nat)
  rf : Nat → Flit δ → List Hop
  rva : ρ
  rsa : ρ'

/-- What the router sends in one tick: flits to its output channels and credits to its input channels. -/
structure Out (δ : Type) where
  flit : Nat → Option (Flit δ)
  credit : Nat → Option (List Nat)

/-- `assert(b)`. -/
def require {α : Type} (b : Bool) (e : Err) (k : Except Err α) : Except Err α := if b then k else .error e

variable {δ σ τ ρ ρ' : Type}

/-- Change one virtual channel buffer, `rad-sim/sim/noc/booksim/buffer.hpp:42-110`. -/
def R.setVc (s : R δ σ τ) (i v : Nat) (x : Vc δ) : R δ σ τ := { s with vcs := upd s.vcs i (upd (s.vcs i) v x) }

/-- `VC::AddFlit`, `rad-sim/sim/noc/booksim/vc.cpp:80-108`. -/
def Vc.add (x : Vc δ) (f : Flit δ) : Except Err (Vc δ) :=
  if x.exp ≥ 0 then
    if f.pid ≠ x.exp then .error .packetId
    else .ok { x with q := x.q ++ [f], exp := if f.tail then -1 else x.exp }
  else .ok { x with q := x.q ++ [f], exp := if f.tail then x.exp else f.pid }

/-- `IQRouter::_InputQueuing` for one flit, `rad-sim/sim/noc/booksim/routers/iq_router.cpp:344-423`, with
`Buffer::AddFlit`, `rad-sim/sim/noc/booksim/buffer.cpp:67-77`. -/
def enqueue (c : Cfg) (s : R δ σ τ) (i : Nat) (f : Flit δ) : Except Err (R δ σ τ) :=
  require (i < c.inputs) .assertion <|
  require (f.vc < c.vcs) .assertion <|
  require (s.occ i < c.buf.size) .overflow <|
  match (s.vcs i f.vc).add f with
  | .error e => .error e
  | .ok x =>
    let s := { s with occ := upd s.occ i (s.occ i + 1) }
    if x.st = .idle then
      require (x.q.length = 1) .assertion <|
      require f.head .assertion <|
      .ok { s.setVc i f.vc { x with st := .routing } with routeQ := s.routeQ ++ [⟨-1, i, f.vc, .pending⟩] }
    else if x.st = .active ∧ x.q.length = 1 then
      .ok { s.setVc i f.vc x with saQ := s.saQ ++ [⟨-1, i, f.vc, .pending⟩] }
    else .ok (s.setVc i f.vc x)

/-- The flits of `_in_queue_flits` in the order of the map, `rad-sim/sim/noc/booksim/routers/iq_router.cpp:344-423`. -/
def enqueueAll (c : Cfg) : R δ σ τ → List (Nat × Flit δ) → Except Err (R δ σ τ)
  | s, [] => .ok s
  | s, (i, f) :: l =>
    match enqueue c s i f with
    | .error e => .error e
    | .ok s => enqueueAll c s l

/-- The credits that are due, `rad-sim/sim/noc/booksim/routers/iq_router.cpp:425-456`. -/
def credits (c : Cfg) (now : Int) : R δ σ τ → List Cred → Except Err (R δ σ τ)
  | s, [] => .ok { s with credQ := [] }
  | s, x :: l =>
    if now < x.time then .ok { s with credQ := x :: l }
    else
      require (x.o < c.outputs) .assertion <|
      match (s.next x.o).processCredit c.buf x.vcs with
      | .error e => .error (.buf e)
      | .ok b => credits c now { s with next := upd s.next x.o b } l

/-- The assertions about the front flit of a waiting virtual channel,
`rad-sim/sim/noc/booksim/routers/iq_router.cpp:478-491,570-585`: ports in range, buffer not empty, the expected state,
the virtual channel of the flit and, before the channel is active, a head flit. -/
def frontOk (c : Cfg) (s : R δ σ τ) (i v : Nat) (st : St) : Bool :=
  decide (i < c.inputs) && decide (v < c.vcs) && decide ((s.vcs i v).st = st) &&
    match (s.vcs i v).q with
    | [] => false
    | f :: _ => decide (f.vc = v) && (f.head || decide (st = .active))

/-- Whether an entry has no time yet. -/
def Wait.fresh (w : Wait) : Bool := decide (w.time < 0)

/-- `IQRouter::_RouteEvaluate`, `rad-sim/sim/noc/booksim/routers/iq_router.cpp:464-500`. -/
def routeEval (c : Cfg) (now : Int) (s : R δ σ τ) : Except Err (R δ σ τ) :=
  let new := s.routeQ.takeWhile Wait.fresh
  require (new.all fun w => frontOk c s w.i w.v .routing) .assertion <|
  .ok { s with
        routeQ := (new.map fun w => { w with time := now + c.routeDelay - 1 }) ++ s.routeQ.dropWhile Wait.fresh }

/-- `IQRouter::_RouteUpdate`, `rad-sim/sim/noc/booksim/routers/iq_router.cpp:502-549`, with `VC::Route`,
`rad-sim/sim/noc/booksim/vc.cpp:188-193`. -/
def routeUpd (c : Cfg) (now : Int) (rf : Nat → Flit δ → List Hop) : R δ σ τ → List Wait → Except Err (R δ σ τ)
  | s, [] => .ok { s with routeQ := [] }
  | s, w :: l =>
    if w.time < 0 ∨ now < w.time then .ok { s with routeQ := w :: l }
    else
      require (now = w.time) .assertion <|
      require (frontOk c s w.i w.v .routing) .assertion <|
      match (s.vcs w.i w.v).q with
      | [] => .error .assertion
      | f :: _ =>
        routeUpd c now rf
          { s.setVc w.i w.v { s.vcs w.i w.v with
              st := .vcAlloc
              route := rf w.i f
              out := none } with
            vaQ := s.vaQ ++ [⟨-1, w.i, w.v, .pending⟩] } l

/-- The output virtual channels of a route set, `rad-sim/sim/noc/booksim/routers/iq_router.cpp:607-632`. -/
def outVcs (h : Hop) : List Nat := List.range' h.vcStart (h.vcEnd + 1 - h.vcStart)

/-- The assertions on an element of a route set, `rad-sim/sim/noc/booksim/routers/iq_router.cpp:612-629`. -/
def hopOk (c : Cfg) (h : Hop) : Bool :=
  decide (h.port < c.outputs) && decide (h.vcStart < c.vcs) && decide (h.vcEnd < c.vcs) && decide (h.vcStart ≤ h.vcEnd)

/-- The requests of one virtual channel to the VC allocator, `rad-sim/sim/noc/booksim/routers/iq_router.cpp:607-691`. -/
def vaAsks (c : Cfg) (s : R δ σ τ) (i v : Nat) : List Alloc.Ask :=
  (s.vcs i v).route.flatMap fun h =>
    ((outVcs h).filter fun w => (s.next h.port).isAvailableFor w).map fun w =>
      ⟨i * c.vcs + v, h.port * c.vcs + w, ⟨0, h.pri, 0⟩⟩

/-- The result of VC allocation for one entry: a stall when no channel was available, else the assigned output,
`rad-sim/sim/noc/booksim/routers/iq_router.cpp:692-695,719-774`. -/
def vaRes (c : Cfg) (s : R δ σ τ) (m : Alloc.Match) (i v : Nat) : Res :=
  if vaAsks c s i v = [] then .stall
  else match m.inm (i * c.vcs + v) with
    | some o => .got o
    | none => .stall

/-- Grants that have become void while the allocation was under way, only with a delay above 1,
`rad-sim/sim/noc/booksim/routers/iq_router.cpp:777-840`. -/
def vaRecheck (c : Cfg) (now : Int) (s : R δ σ τ) (w : Wait) : Wait :=
  if now < w.time then w
  else match w.res with
    | .got o => if (s.next (o / c.vcs)).isAvailableFor (o % c.vcs) then w else { w with res := .stall }
    | _ => w

/-- The pairs that a list of requests is about. -/
def pairs (l : List Alloc.Ask) : List (Nat × Nat) := l.map fun a => (a.i, a.o)

/-- `_vc_allocator->Clear()` and `IQRouter::_VCAllocEvaluate`, `rad-sim/sim/noc/booksim/routers/iq_router.cpp:240-244,
556-841`. A second request of the same pair of ports would fail (`hopOk` of a routing function with overlapping
ranges), which is the outcome `alloc`. -/
def vaEval (C : Alloc.Cls σ ρ) (c : Cfg) (now : Int) (x : ρ) (s : R δ σ τ) : Except Err (R δ σ τ) :=
  let new := s.vaQ.takeWhile Wait.fresh
  require (new.all fun w => frontOk c s w.i w.v .vcAlloc && decide (w.res = .pending) &&
    (s.vcs w.i w.v).route.all (hopOk c)) .assertion <|
  let asks := new.flatMap fun w => vaAsks c s w.i w.v
  require (decide (pairs asks).Nodup) .alloc <|
  match Alloc.round C s.va asks (!s.vaQ.isEmpty) x with
  | none => .error .alloc
  | some (va, m) =>
    let q := (new.map fun w => { w with time := now + c.vaDelay - 1, res := vaRes c s m w.i w.v }) ++
      s.vaQ.dropWhile Wait.fresh
    .ok { s with va := va, vaQ := if c.vaDelay ≤ 1 then q else q.map (vaRecheck c now s) }

/-- A virtual channel that was granted the output virtual channel `ow`,
`rad-sim/sim/noc/booksim/routers/iq_router.cpp:883-907`. -/
def acquire (c : Cfg) (s : R δ σ τ) (i v ow : Nat) : Except Err (R δ σ τ) :=
  require (ow / c.vcs < c.outputs) .assertion <|
  require ((s.next (ow / c.vcs)).isAvailableFor (ow % c.vcs)) .assertion <|
  match (s.next (ow / c.vcs)).takeBuffer c.buf (ow % c.vcs) ((i * c.vcs + v : Nat) : Int) with
  | .error e => .error (.buf e)
  | .ok b =>
    .ok { s.setVc i v { s.vcs i v with
            out := some (ow / c.vcs, ow % c.vcs)
            st := .active } with
          next := upd s.next (ow / c.vcs) b
          saQ := s.saQ ++ [Wait.mk (-1) i v .pending] }

/-- `IQRouter::_VCAllocUpdate`, `rad-sim/sim/noc/booksim/routers/iq_router.cpp:843-927`. Entries appended to the queue
inside the loop have no time yet and end the loop. -/
def vaUpd (c : Cfg) (now : Int) : R δ σ τ → List Wait → Except Err (R δ σ τ)
  | s, [] => .ok s
  | s, w :: l =>
    if w.time < 0 ∨ now < w.time then .ok { s with vaQ := w :: l ++ s.vaQ }
    else
      require (now = w.time) .assertion <|
      require (frontOk c s w.i w.v .vcAlloc) .assertion <|
      match w.res with
      | .pending => .error .assertion
      | .stall => vaUpd c now { s with vaQ := s.vaQ ++ [Wait.mk (-1) w.i w.v .pending] } l
      | .got ow =>
        match acquire c s w.i w.v ow with
        | .error e => .error e
        | .ok s => vaUpd c now s l

/-- Whether a virtual channel may not ask for the switch: no credit, or a full output buffer,
`rad-sim/sim/noc/booksim/routers/iq_router.cpp:1375-1389`. -/
def blocked (c : Cfg) (s : R δ σ τ) (o u : Nat) : Bool :=
  (s.next o).isFullFor c.buf u || (decide (c.outSize ≠ -1) && decide (((s.outBuf o).length : Int) ≥ c.outSize))

/-- The requests to the switch allocator: a virtual channel replaces the request of another one of its input for the
same output when it comes first in the round robin order, `IQRouter::_SWAllocAddReq`,
`rad-sim/sim/noc/booksim/routers/iq_router.cpp:1227-1328`. The list are the calls so far. -/
def saAsk (c : Cfg) (rr : Nat → Nat) (l : List Alloc.Ask) (i v o : Nat) : List Alloc.Ask :=
  match Alloc.asked l i o with
  | none => l ++ [⟨i, o, ⟨v, 0, 0⟩⟩]
  | some r => if Arb.supersedes v 0 r.label r.inPri (rr i) c.vcs then l ++ [⟨i, o, ⟨v, 0, 0⟩⟩] else l

/-- The first loop of `IQRouter::_SWAllocEvaluate`, `rad-sim/sim/noc/booksim/routers/iq_router.cpp:1334-1393`. -/
def saAsks (c : Cfg) (s : R δ σ τ) : List Alloc.Ask → List Wait → List Alloc.Ask
  | l, [] => l
  | l, w :: t =>
    match (s.vcs w.i w.v).out with
    | none => saAsks c s l t
    | some (o, u) => saAsks c s (if blocked c s o u then l else saAsk c s.rr l w.i w.v o) t

/-- The output of an active virtual channel exists, `rad-sim/sim/noc/booksim/routers/iq_router.cpp:1371-1374`. -/
def outOk (c : Cfg) (x : Vc δ) : Bool :=
  match x.out with
  | none => false
  | some (o, u) => decide (o < c.outputs) && decide (u < c.vcs)

/-- The result of switch allocation for one entry, `rad-sim/sim/noc/booksim/routers/iq_router.cpp:1515-1556,1612-1621`. -/
def saRes (c : Cfg) (s : R δ σ τ) (asks : List Alloc.Ask) (m : Alloc.Match) (i v : Nat) : Res :=
  match (s.vcs i v).out with
  | none => .stall
  | some (o, u) =>
    if blocked c s o u then .stall
    else match m.inm i with
      | none => .stall
      | some o' =>
        match Alloc.asked asks i o' with
        | none => .stall
        | some r => if r.label = v then .got o' else .stall

/-- Grants that have become void while the allocation was under way, only with a delay above 1,
`rad-sim/sim/noc/booksim/routers/iq_router.cpp:1637-1678,1818-1838`. -/
def saRecheck (c : Cfg) (now : Int) (s : R δ σ τ) (w : Wait) : Wait :=
  if now < w.time then w
  else match w.res, (s.vcs w.i w.v).out with
    | .got o, some (_, u) => if (s.next o).isFullFor c.buf u then { w with res := .stall } else w
    | _, _ => w

/-- `_sw_rr_offset` after the grants, `rad-sim/sim/noc/booksim/routers/iq_router.cpp:1547`. -/
def rrUpd (c : Cfg) (res : Wait → Res) : (Nat → Nat) → List Wait → Nat → Nat
  | rr, [] => rr
  | rr, w :: l => rrUpd c res (match res w with | .got _ => upd rr w.i ((w.v + 1) % c.vcs) | _ => rr) l

/-- `_sw_allocator->Clear()` and `IQRouter::_SWAllocEvaluate`, `rad-sim/sim/noc/booksim/routers/iq_router.cpp:249-253,
1330-1839`. -/
def saEval (C : Alloc.Cls τ ρ) (c : Cfg) (now : Int) (x : ρ) (s : R δ σ τ) : Except Err (R δ σ τ) :=
  let new := s.saQ.takeWhile Wait.fresh
  require (new.all fun w => frontOk c s w.i w.v .active && decide (w.res = .pending) && outOk c (s.vcs w.i w.v))
    .assertion <|
  let asks := saAsks c s [] new
  match Alloc.round C s.sa asks (!s.saQ.isEmpty) x with
  | none => .error .alloc
  | some (sa, m) =>
    let q := (new.map fun w => { w with time := now + c.saDelay - 1, res := saRes c s asks m w.i w.v }) ++
      s.saQ.dropWhile Wait.fresh
    .ok { s with
          sa := sa
          rr := rrUpd c (fun w => saRes c s asks m w.i w.v) s.rr new
          saQ := if c.saDelay ≤ 1 then q else q.map (saRecheck c now s) }

/-- The flit that leaves: one hop more and the output virtual channel,
`rad-sim/sim/noc/booksim/routers/iq_router.cpp:1994-1995`. -/
def move (f : Flit δ) (u : Nat) : Flit δ := { f with hops := f.hops + 1, vc := u }

/-- The front flit of a virtual channel leaves for the crossbar and its credit is returned,
`rad-sim/sim/noc/booksim/routers/iq_router.cpp:1985-2044`: `b` is the new state of the next buffer, `q` what is left. -/
def leave (s : R δ σ τ) (i v : Nat) (f : Flit δ) (q : List (Flit δ)) (o u : Nat) (b : BufState) : R δ σ τ :=
  { s.setVc i v { s.vcs i v with q := q } with
    occ := upd s.occ i (s.occ i - 1)
    next := upd s.next o b
    xbQ := s.xbQ ++ [Cross.mk (-1) (move f u) i o]
    outCred := upd s.outCred i (if v ∈ s.outCred i then s.outCred i else s.outCred i ++ [v]) }

/-- The next state of a virtual channel whose front flit has left,
`rad-sim/sim/noc/booksim/routers/iq_router.cpp:2046-2103`. -/
def follow (s : R δ σ τ) (i v : Nat) (tail : Bool) (q : List (Flit δ)) : Except Err (R δ σ τ) :=
  match q with
  | [] => .ok (if tail then s.setVc i v { s.vcs i v with st := .idle } else s)
  | nf :: _ =>
    require (nf.vc = v) .assertion <|
    if tail then
      require nf.head .assertion <|
      .ok { s.setVc i v { s.vcs i v with st := .routing } with
            routeQ := s.routeQ ++ [Wait.mk (-1) i v .pending] }
    else .ok { s with saQ := s.saQ ++ [Wait.mk (-1) i v .pending] }

/-- A virtual channel that was granted output `o`, `rad-sim/sim/noc/booksim/routers/iq_router.cpp:1877-2103`. -/
def forward (c : Cfg) (s : R δ σ τ) (i v o : Nat) : Except Err (R δ σ τ) :=
  match (s.vcs i v).q, (s.vcs i v).out with
  | f :: q, some (o', u) =>
    require (o < c.outputs) .assertion <|
    require (o' = o) .assertion <|
    require (u < c.vcs) .assertion <|
    match (s.next o).sendingFlit c.buf u f.tail with
    | .error e => .error (.buf e)
    | .ok b => follow (leave s i v f q o u b) i v f.tail q
  | _, _ => .error .assertion

/-- `IQRouter::_SWAllocUpdate`, `rad-sim/sim/noc/booksim/routers/iq_router.cpp:1841-2133`. Entries appended to the queue
inside the loop have no time yet and end the loop. -/
def saUpd (c : Cfg) (now : Int) : R δ σ τ → List Wait → Except Err (R δ σ τ)
  | s, [] => .ok s
  | s, w :: l =>
    if w.time < 0 ∨ now < w.time then .ok { s with saQ := w :: l ++ s.saQ }
    else
      require (now = w.time) .assertion <|
      require (frontOk c s w.i w.v .active) .assertion <|
      match w.res with
      | .got o =>
        match forward c s w.i w.v o with
        | .error e => .error e
        | .ok s => saUpd c now s l
      | _ => saUpd c now { s with saQ := s.saQ ++ [Wait.mk (-1) w.i w.v .pending] } l

/-- `IQRouter::_SwitchEvaluate`, `rad-sim/sim/noc/booksim/routers/iq_router.cpp:2140-2168`. -/
def xbEval (c : Cfg) (now : Int) (s : R δ σ τ) : R δ σ τ :=
  { s with
    xbQ := ((s.xbQ.takeWhile fun e => e.time < 0).map fun e => { e with time := now + c.xbDelay - 1 }) ++
      s.xbQ.dropWhile fun e => e.time < 0 }

/-- `IQRouter::_SwitchUpdate`, `rad-sim/sim/noc/booksim/routers/iq_router.cpp:2170-2215`. -/
def xbUpd (c : Cfg) (now : Int) : R δ σ τ → List (Cross δ) → Except Err (R δ σ τ)
  | s, [] => .ok { s with xbQ := [] }
  | s, e :: l =>
    if e.time < 0 ∨ now < e.time then .ok { s with xbQ := e :: l }
    else
      require (now = e.time) .assertion <|
      require (e.i < c.inputs) .assertion <|
      require (e.o < c.outputs) .assertion <|
      let b := s.outBuf e.o ++ [e.f]
      require ((b.length : Int) ≤ c.outSize + c.xbDelay || decide (c.outSize = -1)) .assertion <|
      xbUpd c now { s with outBuf := upd s.outBuf e.o b } l

/-- `IQRouter::_OutputQueuing`, `rad-sim/sim/noc/booksim/routers/iq_router.cpp:2222-2238`. -/
def creditOut (s : R δ σ τ) : R δ σ τ :=
  { s with
    credBuf := fun i => if s.outCred i = [] then s.credBuf i else s.credBuf i ++ [s.outCred i]
    outCred := fun _ => [] }

/-- `IQRouter::_InternalStep`, `rad-sim/sim/noc/booksim/routers/iq_router.cpp:229-286`. The calls that the source makes
only for queues that are not empty do nothing for empty ones. -/
def internalStep (VA : Alloc.Cls σ ρ) (SA : Alloc.Cls τ ρ') (c : Cfg) (e : In δ ρ ρ') (inq : List (Nat × Flit δ))
    (s : R δ σ τ) : Except Err (R δ σ τ) := do
  let s ← enqueueAll c s inq
  let s ← credits c e.now s s.credQ
  let act := !s.credQ.isEmpty
  let s ← routeEval c e.now s
  let s ← vaEval VA c e.now e.rva s
  let s ← saEval SA c e.now e.rsa s
  let s := xbEval c e.now s
  let s ← routeUpd c e.now e.rf s s.routeQ
  let act := act || !s.routeQ.isEmpty
  let s ← vaUpd c e.now { s with vaQ := [] } s.vaQ
  let act := act || !s.vaQ.isEmpty
  let s ← saUpd c e.now { s with saQ := [] } s.saQ
  let act := act || !s.saQ.isEmpty
  let s ← xbUpd c e.now s s.xbQ
  let act := act || !s.xbQ.isEmpty
  .ok (creditOut { s with active := act })

/-- The flits that arrive in a tick, `IQRouter::_ReceiveFlits`,
`rad-sim/sim/noc/booksim/routers/iq_router.cpp:299-321`. -/
def arrivals (c : Cfg) (e : In δ ρ ρ') : List (Nat × Flit δ) :=
  (List.range c.inputs).filterMap fun i => (e.flit i).map (Prod.mk i)

/-- The credits that arrive in a tick, `IQRouter::_ReceiveCredits`,
`rad-sim/sim/noc/booksim/routers/iq_router.cpp:323-335`. -/
def creditArrivals (c : Cfg) (e : In δ ρ ρ') : List Cred :=
  (List.range c.outputs).filterMap fun o => (e.credit o).map fun l => Cred.mk (e.now + c.creditDelay) l o

/-- What is sent in a tick, `IQRouter::_SendFlits` and `IQRouter::_SendCredits`,
`rad-sim/sim/noc/booksim/routers/iq_router.cpp:2244-2279`. -/
def send (c : Cfg) (s : R δ σ τ) : R δ σ τ × Out δ :=
  ({ s with
      outBuf := fun o => if o < c.outputs then (s.outBuf o).tail else s.outBuf o
      credBuf := fun i => if i < c.inputs then (s.credBuf i).tail else s.credBuf i },
   { flit := fun o => if o < c.outputs then (s.outBuf o).head? else none
     credit := fun i => if i < c.inputs then (s.credBuf i).head? else none })

/-- One tick: `IQRouter::ReadInputs`, `Router::Evaluate` and `IQRouter::WriteOutputs`,
`rad-sim/sim/noc/booksim/routers/iq_router.cpp:222-292` and `rad-sim/sim/noc/booksim/routers/router.cpp:105-112`. -/
def tick (VA : Alloc.Cls σ ρ) (SA : Alloc.Cls τ ρ') (c : Cfg) (e : In δ ρ ρ') (s : R δ σ τ) :
    Except Err (R δ σ τ × Out δ) :=
  let inq := arrivals c e
  let new := creditArrivals c e
  let s := { s with credQ := s.credQ ++ new, active := s.active || !inq.isEmpty || !new.isEmpty }
  if s.active then
    match internalStep VA SA c e inq s with
    | .error e => .error e
    | .ok s => .ok (send c s)
  else .ok (send c s)

end RadSim.Router
