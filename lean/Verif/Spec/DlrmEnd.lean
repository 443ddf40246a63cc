import Verif.Spec.DlrmCompile
import Verif.Spec.DlrmLookup

/-
What the front of the DLRM design is for, from lookups to vectors: per input, the
memory words of its lookups, each cut to the width of its table, one after the other
and filled up with zeros.  This is what `generate_feature_interaction_outputs`
(`dlrm.py`) writes down as expected.
-/
namespace RadSim.Dlrm.Spec

/-- The words of the lookups of one input, cut to the widths of the tables. -/
def looked (portBase : Nat → Nat) (mem : Nat → Nat → Nat) : List Lookup → List Tab → List Nat
  | l :: ls, t :: ts =>
    (List.range t.row.len).map
        (elem (mem l.channel ((portBase l.channel + l.base + l.index) % 2 ^ 64))) ++
      looked portBase mem ls ts
  | _, _ => []

/-- The `q`-th of the vectors of `nd` elements that an input makes. -/
def expected (portBase : Nat → Nat) (mem : Nat → Nat → Nat) (tabs : List Tab) (nd : Nat)
    (ls : List Lookup) (q : Nat) : List Nat :=
  (List.range nd).map fun e => ((looked portBase mem ls tabs)[q * nd + e]?).getD 0

/-- An input has one lookup per table, in the channel of the table. -/
def Matches (tabs : List Tab) (ls : List Lookup) : Prop :=
  ls.map (fun l => l.channel + 1) = tabs.map fun t => t.fifo

/-- The memories answer the requests of every channel in their order, later than they
were made. -/
def Answered (ecfg : ElCfg) (eins : Nat → ElIn) (cfg : Cfg) (fins : Nat → FiIn)
    (mem : Nat → Nat → Nat) : Prop :=
  ∀ c < cfg.numCh, ∀ n, arrived cfg fins c n <+: (requested ecfg eins c n).map (mem c)

/-- What the front of the design is made of and what is asked of its surroundings: the
compiled instructions for tables that fit; a driver that hands over the inputs in
their order, one lookup per table; memories that answer in order; and the manners
that C114 and C117 ask for. -/
structure Front (nd mvms : Nat) (tabs : List Tab) (samples : List (List Lookup)) (cfg : Cfg)
    (ecfg : ElCfg) (eins : Nat → ElIn) (fins : Nat → FiIn) (mem : Nat → Nat → Nat) : Prop where
  ndPos : 0 < nd
  mvmsPos : 0 < mvms
  nonempty : tabs ≠ []
  words : nd ≤ cfg.inElems
  out : cfg.outElems = nd
  numOut : cfg.numOut = mvms
  prog : cfg.prog = compile nd mvms tabs
  fits : Fits nd cfg.inElems cfg.numCh [] 0 tabs
  depth : 4 ≤ cfg.depth
  channels : cfg.numCh = ecfg.numCh
  inputs : ∀ ls ∈ samples, Matches tabs ls
  driver : ∀ n, handed ecfg eins n <+: samples.flatten
  named : Channels ecfg eins
  notTwice : NotTwice ecfg eins
  answered : Answered ecfg eins cfg fins mem
  polite : Polite cfg fins

end RadSim.Dlrm.Spec
