import Verif.Model.NpuOfifo

/-! # Output FIFOs of the sectors: what goes in and what comes out -/

namespace RadSim.Npu

variable {α : Type}

/-- What happens around an output FIFO in a cycle: whether the other output FIFOs have space, whether the reader wants a word, and the
result at the end of the pipelines, if there is one. -/
structure OfifoIn (α : Type) where
  others : Bool
  want : Bool
  word : Option (List α)

/-- Cycles, with the results that were written and the words that the reader saw on `rdata` when it took them. -/
def ofifoRun (c : WideCfg) (zero : α) : WideFifo α → List (OfifoIn α) → Option (WideFifo α × List (List α) × List (List α))
  | f, [] => some (f, [], [])
  | f, i :: is =>
    match ofifoTick c zero f i.others i.want i.word with
    | none => none
    | some (f', go, ren) =>
      (ofifoRun c zero f' is).map fun x =>
        (x.1, (if go then i.word.toList else []) ++ x.2.1, (if ren then [f.rdata] else []) ++ x.2.2)

end RadSim.Npu
