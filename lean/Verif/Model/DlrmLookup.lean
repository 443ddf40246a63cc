import Verif.Model.DlrmFi

/-
Model of the embedding-lookup module of the DLRM example design
(`/repo/rad-sim/example-designs/dlrm/modules/embedding_lookup.cpp`).

The driver hands over a vector of lookups at a time (index, memory channel, base
address of the table); the module queues them per channel and asks the memory of
the channel for them, one read request per lookup.

Simplifications
* The three vectors of indices, channels and base addresses have one length
  (`ParseInputs`, rad-sim/example-designs/dlrm/dlrm_driver.cpp:3-47, builds them so) and are one list of records;
  the two FIFOs of a channel, pushed and popped together, are one.
* `arid`, `arlen`, `arsize`, `arburst` are left out, and so is `aruser`, which is
  constant per channel; responses come to the feature-interaction module, so the
  counting of responses (lines 168-181) is left out.
* Popping an empty `std::queue` is undefined behaviour and ends in `Fail.ub`.
-/
namespace RadSim.Dlrm

/-- One lookup: an entry of `lookup_indecies`, `target_channels` and
`base_addresses` (rad-sim/example-designs/dlrm/modules/embedding_lookup.cpp:95-103). -/
structure Lookup where
  index : Nat
  channel : Nat
  base : Nat
  deriving DecidableEq, Repr

/-- The parameters of the constructor (rad-sim/example-designs/dlrm/modules/embedding_lookup.cpp:3-31). -/
structure ElCfg where
  /-- `_total_num_channels` -/
  numCh : Nat
  /-- `_fifo_depth` -/
  depth : Nat
  /-- `GetPortBaseAddress(_dst_port_names[ch_id])` (line 123) -/
  portBase : Nat → Nat

/-- The state between two rising edges. -/
structure ElSt where
  fifo : Nat → List Lookup
  full : Nat → Bool
  arvalid : Nat → Bool
  araddr : Nat → Nat

/-- After reset (rad-sim/example-designs/dlrm/modules/embedding_lookup.cpp:76-90). -/
def elInit : ElSt where
  fifo := fun _ => []
  full := fun _ => false
  arvalid := fun _ => false
  araddr := fun _ => 0

/-- What the environment shows at a rising edge. -/
structure ElIn where
  valid : Bool
  data : List Lookup
  arready : Nat → Bool

/-- `Assign` (rad-sim/example-designs/dlrm/modules/embedding_lookup.cpp:51-73), out of reset:
`lookup_indecies_ready`. -/
def elReady (cfg : ElCfg) (s : ElSt) : Bool := (List.range cfg.numCh).all fun c => !s.full c

/-- The loop that queues the lookups (rad-sim/example-designs/dlrm/modules/embedding_lookup.cpp:100-103). -/
def enqueue (cfg : ElCfg) : List Lookup → (Nat → List Lookup) → Except Fail (Nat → List Lookup)
  | [], f => .ok f
  | l :: r, f =>
    if l.channel < cfg.numCh then enqueue cfg r (upd f l.channel (f l.channel ++ [l]))
    else .error .ub

/-- The address asked for (rad-sim/example-designs/dlrm/modules/embedding_lookup.cpp:119-124, in `uint64_t`). -/
def lookupAddr (cfg : ElCfg) (c : Nat) (l : Lookup) : Nat :=
  (cfg.portBase c + l.base + l.index) % 2 ^ 64

/-- Sending (rad-sim/example-designs/dlrm/modules/embedding_lookup.cpp:113-184): every channel offers the front of its
FIFO and then pops the FIFO if the offer of the last period was accepted. -/
def offer (cfg : ElCfg) (s : ElSt) (i : ElIn) : Except Fail ElSt :=
  if (List.range cfg.numCh).any fun c => s.arvalid c && i.arready c && (s.fifo c).isEmpty then
    .error .ub
  else .ok
    { s with
      arvalid := fun c => if c < cfg.numCh then !(s.fifo c).isEmpty else s.arvalid c
      araddr := fun c =>
        if c < cfg.numCh then
          match s.fifo c with
          | [] => s.araddr c
          | l :: _ => lookupAddr cfg c l
        else s.araddr c
      fifo := fun c =>
        if c < cfg.numCh then
          if s.arvalid c && i.arready c then (s.fifo c).tail else s.fifo c
        else s.fifo c }

/-- One turn of the loop of `Tick` (rad-sim/example-designs/dlrm/modules/embedding_lookup.cpp:93-186). -/
def elTick (cfg : ElCfg) (s : ElSt) (i : ElIn) : Except Fail ElSt :=
  match if elReady cfg s && i.valid then enqueue cfg i.data s.fifo else .ok s.fifo with
  | .error e => .error e
  | .ok f => offer cfg
      { s with
        fifo := f
        full := fun c => if c < cfg.numCh then decide (mark cfg.depth 4 ≤ (f c).length)
          else s.full c } i

/-- The state before period `n`. -/
def elAt (cfg : ElCfg) (ins : Nat → ElIn) : Nat → Except Fail ElSt
  | 0 => .ok elInit
  | n + 1 =>
    match elAt cfg ins n with
    | .error e => .error e
    | .ok s => elTick cfg s (ins n)

/-- The lookups handed over in the periods before `n`. -/
def handed (cfg : ElCfg) (ins : Nat → ElIn) : Nat → List Lookup
  | 0 => []
  | n + 1 =>
    handed cfg ins n ++
      match elAt cfg ins n with
      | .error _ => []
      | .ok s => if elReady cfg s && (ins n).valid then (ins n).data else []

/-- The addresses asked for on channel `c` in the periods before `n`: those shown
while `arvalid` and `arready` are both high. -/
def requested (cfg : ElCfg) (ins : Nat → ElIn) (c : Nat) : Nat → List Nat
  | 0 => []
  | n + 1 =>
    requested cfg ins c n ++
      match elAt cfg ins n with
      | .error _ => []
      | .ok s => if s.arvalid c && (ins n).arready c then [s.araddr c] else []

end RadSim.Dlrm
