import Verif.Model.DlrmFi

/-
Model of the thread of the DLRM driver that checks the outputs
(`/repo/rad-sim/example-designs/dlrm/dlrm_driver.cpp`; the file of the same name in
`dlrm_two_rad` has the same lines).

Simplifications
* Messages and the cycle count are left out; `verdict` stands for the line
  "Simulation PASSED!" or "Simulation FAILED!" and the call of `ReportDesignFailure`.
* `int16_t` elements are kept as integers; they are only compared.
-/
namespace RadSim.Dlrm

/-- What the collector shows in a period: `collector_fifo_rdy` and
`collector_fifo_rdata` (rad-sim/example-designs/dlrm/dlrm_driver.cpp:164-165). -/
structure SinkIn where
  rdy : Bool
  data : List Int
  deriving DecidableEq, Repr

/-- `outputs_count` and `all_outputs_matching`
(rad-sim/example-designs/dlrm/dlrm_driver.cpp:160-162). -/
structure SinkSt where
  count : Nat
  all : Bool
  deriving DecidableEq, Repr

/-- The loop over the elements of an output (rad-sim/example-designs/dlrm/dlrm_driver.cpp:167-169); reading past
the end of the expected output is undefined. -/
def compareElems : List Int → List Int → Bool → Except Fail Bool
  | [], _, m => .ok m
  | _ :: _, [], _ => .error .ub
  | x :: xs, y :: ys, _ => compareElems xs ys (x == y)

/-- One turn of the loop (rad-sim/example-designs/dlrm/dlrm_driver.cpp:163-205), `num` being `_num_mlp_outputs` and
`golden` being `_mlp_outputs`. -/
def sinkTick (num : Nat) (golden : List (List Int)) (s : SinkSt) (i : SinkIn) :
    Except Fail SinkSt :=
  if s.count < num then
    if i.rdy && !i.data.isEmpty then
      match golden[s.count]? with
      | none => .error .ub
      | some g =>
        match compareElems i.data g true with
        | .error e => .error e
        | .ok m => .ok ⟨s.count + 1, s.all && m⟩
    else .ok s
  else .ok s

/-- The state before period `n`. -/
def sinkAt (num : Nat) (golden : List (List Int)) (ins : Nat → SinkIn) : Nat → Except Fail SinkSt
  | 0 => .ok ⟨0, true⟩
  | n + 1 =>
    match sinkAt num golden ins n with
    | .error e => .error e
    | .ok s => sinkTick num golden s (ins n)

/-- What the driver reports (rad-sim/example-designs/dlrm/dlrm_driver.cpp:210-215) once the loop is over; `none`
before. -/
def verdict (num : Nat) (s : SinkSt) : Option Bool :=
  if s.count < num then none else some s.all

end RadSim.Dlrm
