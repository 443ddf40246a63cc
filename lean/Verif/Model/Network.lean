import Verif.Model.Router
import Verif.Model.Channel

/-!
# A network of routers and channels

Models `Network`, `rad-sim/sim/noc/booksim/networks/network.cpp`, for any wiring: input-queued routers
(`RadSim.Router`) joined by pairs of a flit channel and a credit channel (`RadSim.Channel`), with nodes at the channels
that have no router at one end. One tick is one iteration of `radsim_noc::Tick`,
`rad-sim/sim/noc/radsim_noc.cpp:301-321`: `ReadInputs`, `Evaluate` and `WriteOutputs` of all modules. Since a channel
takes what was sent to it in `ReadInputs` and hands out what is due in `WriteOutputs`, routers and channels of one tick
do not see each other's results, and the order of `_timed_modules` does not matter.

Simplifications: those of the two parts; a flit or credit is a value, not a pointer; the node side of a channel is a part
of the environment. A link stands for the flit channel and the credit channel that `Router::AddInputChannel` and
`Router::AddOutputChannel` (`rad-sim/sim/noc/booksim/routers/router.cpp:90-103`) always take together. -/

namespace RadSim.Net

open Router (R In Out Flit Hop Cfg)
open Channel (Queue)

/-- The wiring. Link `inLink r i` comes in at port `i` of router `r` and link `outLink r o` leaves port `o`, in the order
of the calls of `AddInputChannel` and `AddOutputChannel`, `rad-sim/sim/noc/booksim/routers/router.cpp:90-103`. The
latencies are those of `SetLatency`, `rad-sim/sim/noc/booksim/channel.hpp:83-89`. -/
structure Topo where
  /-- `_size` -/
  size : Nat
  /-- the number of links -/
  links : Nat
  inputs : Nat → Nat
  outputs : Nat → Nat
  inLink : Nat → Nat → Nat
  outLink : Nat → Nat → Nat
  flitDelay : Nat → Int
  creditDelay : Nat → Int

/-- The router and port that a link leaves, `Channel::SetSource`; none for `_inject`,
`rad-sim/sim/noc/booksim/networks/network.cpp:130-142`. -/
def Topo.driver (t : Topo) (l : Nat) : Option (Nat × Nat) :=
  ((List.range t.size).flatMap fun r => (List.range (t.outputs r)).map (Prod.mk r)).find? fun x => t.outLink x.1 x.2 = l

/-- The router and port where a link comes in, `Channel::SetSink`; none for `_eject`,
`rad-sim/sim/noc/booksim/networks/network.cpp:144-156`. -/
def Topo.reader (t : Topo) (l : Nat) : Option (Nat × Nat) :=
  ((List.range t.size).flatMap fun r => (List.range (t.inputs r)).map (Prod.mk r)).find? fun x => t.inLink x.1 x.2 = l

/-- Router `r` is built with the number of its ports and the common configuration,
`rad-sim/sim/noc/booksim/networks/kncube.cpp:97-98`. -/
def Topo.cfg (t : Topo) (b : Cfg) (r : Nat) : Cfg := { b with inputs := t.inputs r, outputs := t.outputs r }

/-- The ways in which the network stops the program or leaves defined behaviour: a failure of a router, or a time that
does not fit its type in a channel. -/
inductive Err
  | router (r : Nat) (e : Router.Err) | time
  deriving DecidableEq, Repr

/-- The state of the network between ticks. For a link: `fIn` is `_input`, `fQ` is `_wait_queue`, `fOut` is `_output` of
the flit channel (`rad-sim/sim/noc/booksim/channel.hpp:71-74`), `cIn`, `cQ`, `cOut` those of the credit channel, and for
the routers `_routers`, `rad-sim/sim/noc/booksim/networks/network.cpp:127`. -/
structure S (δ σ τ : Type) where
  r : Nat → R δ σ τ
  fIn : Nat → Option (Flit δ)
  fQ : Nat → Queue (Flit δ)
  fOut : Nat → Option (Flit δ)
  cIn : Nat → Option (List Nat)
  cQ : Nat → Queue (List Nat)
  cOut : Nat → Option (List Nat)

/-- `Network::_Alloc`, `rad-sim/sim/noc/booksim/networks/network.cpp:123-170`, with the constructors of routers and
channels (`rad-sim/sim/noc/booksim/channel.hpp:78-81`). -/
def S.init {δ σ τ : Type} (va : Nat → σ) (sa : Nat → τ) : S δ σ τ where
  r := fun k => .init (va k) (sa k)
  fIn := fun _ => none
  fQ := fun _ => []
  fOut := fun _ => none
  cIn := fun _ => none
  cQ := fun _ => []
  cOut := fun _ => none

/-- What the environment supplies in a tick: the simulation time; the flits that nodes send on links without a driver
(`Network::WriteFlit`, `rad-sim/sim/noc/booksim/networks/network.cpp:196-201`) and the credits they send back on links
without a reader (`Network::WriteCredit`, `rad-sim/sim/noc/booksim/networks/network.cpp:210-215`) after the `ReadInputs`
of this tick and before the next one; the routing function and random numbers of every router. -/
structure Env (δ ρ ρ' : Type) where
  now : Int
  inject : Nat → Option (Flit δ)
  credit : Nat → Option (List Nat)
  rf : Nat → Nat → Flit δ → List Hop
  rva : Nat → ρ
  rsa : Nat → ρ'

/-- Call `f` for `0 .. n - 1` and stop at the first failure: the loops of
`rad-sim/sim/noc/booksim/networks/network.cpp:172-194`. -/
def each {ε α : Type} (d : α) (f : Nat → Except ε α) : Nat → Except ε (Nat → α)
  | 0 => .ok fun _ => d
  | n + 1 =>
    match each d f n with
    | .error e => .error e
    | .ok g =>
      match f n with
      | .error e => .error e
      | .ok x => .ok (upd g n x)

variable {δ σ τ ρ ρ' : Type}

/-- What router `r` finds at its channels, `Channel::Receive`, `rad-sim/sim/noc/booksim/channel.hpp:96-99`. -/
def seen (t : Topo) (e : Env δ ρ ρ') (s : S δ σ τ) (r : Nat) : In δ ρ ρ' where
  now := e.now
  flit := fun i => if i < t.inputs r then s.fOut (t.inLink r i) else none
  credit := fun o => if o < t.outputs r then s.cOut (t.outLink r o) else none
  rf := e.rf r
  rva := e.rva r
  rsa := e.rsa r

/-- A tick of router `r`. -/
def stepRouter (VA : Alloc.Cls σ ρ) (SA : Alloc.Cls τ ρ') (t : Topo) (b : Cfg) (e : Env δ ρ ρ') (s : S δ σ τ) (r : Nat) :
    Except Err (R δ σ τ × Out δ) :=
  match Router.tick VA SA (t.cfg b r) (seen t e s r) (s.r r) with
  | .error x => .error (.router r x)
  | .ok x => .ok x

/-- A tick of a channel, `rad-sim/sim/noc/booksim/channel.hpp:101-124`. -/
def stepChannel {α : Type} (d now : Int) (x : Option α) (q : Queue α) : Except Err (Queue α × Option α) :=
  match Channel.tick d now x q with
  | none => .error .time
  | some y => .ok y

/-- What is sent on the flit channel of a link in a tick: by its driver (`IQRouter::_SendFlits`,
`rad-sim/sim/noc/booksim/routers/iq_router.cpp:2244-2267`) or by a node. -/
def sentFlit (t : Topo) (e : Env δ ρ ρ') (out : Nat → R δ σ τ × Out δ) (l : Nat) : Option (Flit δ) :=
  match t.driver l with
  | some (r, o) => (out r).2.flit o
  | none => e.inject l

/-- What is sent on the credit channel of a link in a tick: by its reader (`IQRouter::_SendCredits`,
`rad-sim/sim/noc/booksim/routers/iq_router.cpp:2269-2279`) or by a node. -/
def sentCredit (t : Topo) (e : Env δ ρ ρ') (out : Nat → R δ σ τ × Out δ) (l : Nat) : Option (List Nat) :=
  match t.reader l with
  | some (r, i) => (out r).2.credit i
  | none => e.credit l

/-- One tick, `rad-sim/sim/noc/radsim_noc.cpp:305-320`. -/
def tick (VA : Alloc.Cls σ ρ) (SA : Alloc.Cls τ ρ') (t : Topo) (b : Cfg) (e : Env δ ρ ρ') (s : S δ σ τ) :
    Except Err (S δ σ τ) :=
  match each ([], none) (fun l => stepChannel (t.flitDelay l) e.now (s.fIn l) (s.fQ l)) t.links with
  | .error x => .error x
  | .ok f =>
    match each ([], none) (fun l => stepChannel (t.creditDelay l) e.now (s.cIn l) (s.cQ l)) t.links with
    | .error x => .error x
    | .ok c =>
      match each (s.r 0, ⟨fun _ => none, fun _ => none⟩) (stepRouter VA SA t b e s) t.size with
      | .error x => .error x
      | .ok out =>
        .ok { r := fun k => (out k).1
              fIn := fun l => if l < t.links then sentFlit t e out l else none
              fQ := fun l => (f l).1
              fOut := fun l => (f l).2
              cIn := fun l => if l < t.links then sentCredit t e out l else none
              cQ := fun l => (c l).1
              cOut := fun l => (c l).2 }

end RadSim.Net
