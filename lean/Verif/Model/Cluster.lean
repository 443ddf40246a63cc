/-!
# The cluster and the main simulation loop

Models `rad-sim/sim/radsim_cluster.cpp:3-12,38-46`, the completion and exit-code members of
`rad-sim/sim/design_context.cpp:45,699-716` and the loop of `rad-sim/sim/main.cpp:49-53,73`. What the
designs do during a nanosecond is an arbitrary list of calls.
-/

namespace RadSim.Cluster

/-- A call made by a design on its context: `set_rad_done` (`rad-sim/sim/design_context.cpp:713-716`) or
`ReportDesignFailure` (`703-705`). -/
inductive Call
  | done (rad : Nat)
  | failure (rad : Nat)
deriving DecidableEq

/-- `rad_done` and `_sim_exit_code` of every RAD of the cluster, `rad-sim/sim/radsim_cluster.hpp`. -/
structure State where
  radDone : List Bool
  exitCode : List Nat

/-- `RADSimCluster::RADSimCluster`, `rad-sim/sim/radsim_cluster.cpp:3-12`, with the initial values of
`rad-sim/sim/design_context.cpp:45` and `rad-sim/sim/design_context.hpp:15`. -/
def init (n : Nat) : State := ⟨List.replicate n false, List.replicate n 0⟩

/-- One call. Contexts are reached by pointer, so a call names an existing RAD; others do nothing. -/
def call (s : State) : Call → State
  | .done r => { s with radDone := s.radDone.set r true }
  | .failure r => { s with exitCode := s.exitCode.set r 1 }

/-- `AllRADsNotDone`, `rad-sim/sim/radsim_cluster.cpp:38-46`: the loop over the RADs. -/
def allRadsNotDone : List Bool → Bool
  | [] => false
  | d :: ds => if !d then true else allRadsNotDone ds

/-- `while (cluster->AllRADsNotDone()) sc_start(1, SC_NS);`, `rad-sim/sim/main.cpp:50-52`. `calls t` are
the calls made in nanosecond `t`. The result is the time and the state when the loop ends, `none` when
`fuel` iterations do not end it. -/
def loop (calls : Nat → List Call) : Nat → Nat → State → Option (Nat × State)
  | 0, t, s => if allRadsNotDone s.radDone then none else some (t, s)
  | fuel + 1, t, s =>
    if allRadsNotDone s.radDone then loop calls fuel (t + 1) ((calls t).foldl call s) else some (t, s)

/-- The simulation from start, `rad-sim/sim/main.cpp:49-53`. -/
def simulate (calls : Nat → List Call) (n fuel : Nat) : Option (Nat × State) := loop calls fuel 0 (init n)

/-- The value returned by `sc_main`, `rad-sim/sim/main.cpp:73`; no RAD 0 is undefined behaviour. -/
def mainResult (s : State) : Option Nat := s.exitCode[0]?

end RadSim.Cluster
