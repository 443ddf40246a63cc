import Verif.Model.MlpDesign

/-! # What dispatchers, collector and driver of the design `mlp` are to do -/

namespace RadSim.Mlp

open AddDesign (Fifo FifoErr)

/-- What is open at a moment for a dispatcher: edges of its clock and of the driver's, and whether the NoC takes a beat. -/
structure DispIn where
  edge : Bool
  drive : Bool
  tready : Bool

/-- Driver and dispatcher after `n` moments, with the vectors handed to the NoC. -/
def dispRun (size lanes : Nat) (lines : List Vec) (t : Nat → DispIn) : Nat → Except FifoErr (Feeder × Fifo Vec × List Vec)
  | 0 => .ok (.reset, .reset [], [])
  | n + 1 =>
    match dispRun size lanes lines t n with
    | .error e => .error e
    | .ok (d, f, sent) =>
      let d' := if (t n).drive then d.tick lines (dispRdy f) else d
      if (t n).edge then
        match dispTick size lanes d (t n).tready f with
        | .error e => .error e
        | .ok f' => .ok (d', f', sent ++ if (t n).tready then (dispOffer f).toList else [])
      else .ok (d', f, sent)

/-- What is open at a moment for the collector: edges of its clock and of the driver's, and the beat at its input. -/
structure CollIn where
  edge : Bool
  drive : Bool
  beat : Option Vec

/-- Collector and driver after `n` moments, with the vectors taken from the NoC. -/
def collRun (size lanes : Nat) (golden : List Vec) (t : Nat → CollIn) : Nat → Except FifoErr (Fifo Vec × Checker × List Vec)
  | 0 => .ok (.reset [], .reset, [])
  | n + 1 =>
    match collRun size lanes golden t n with
    | .error e => .error e
    | .ok (f, k, taken) =>
      let k' := if (t n).drive then k.tick golden f else k
      if (t n).edge then
        match collTick size lanes (t n).beat f with
        | .error e => .error e
        | .ok f' => .ok (f', k', taken ++ if collReady f then (t n).beat.toList else [])
      else .ok (f, k', taken)

end RadSim.Mlp
