import Verif.Model.DlrmLookup

/-
What the embedding-lookup module is for: on every channel, one request per lookup, in
the order in which the lookups were handed over, at port base + table base + index.
-/
namespace RadSim.Dlrm.Spec

/-- The addresses that a list of lookups asks of channel `c`. -/
def wanted (portBase : Nat → Nat) (c : Nat) (ls : List Lookup) : List Nat :=
  (ls.filter fun l => l.channel == c).map fun l => (portBase c + l.base + l.index) % 2 ^ 64

/-- A request is never accepted in the period after another one. -/
def NotTwice (cfg : ElCfg) (ins : Nat → ElIn) : Prop :=
  ∀ n s, elAt cfg ins n = .ok s → ∀ c < cfg.numCh,
    s.arvalid c = true → (ins n).arready c = true → (ins (n + 1)).arready c = false

/-- All lookups name channels that exist. -/
def Channels (cfg : ElCfg) (ins : Nat → ElIn) : Prop :=
  ∀ n, ∀ l ∈ (ins n).data, l.channel < cfg.numCh

/-- From period `n0` on, channel `c` is ready at least once in any `p` periods. -/
def Often (ins : Nat → ElIn) (c n0 p : Nat) : Prop :=
  ∀ m, n0 ≤ m → ∃ j < p, (ins (m + j)).arready c = true

end RadSim.Dlrm.Spec
