import Verif.Spec.Network

/-! # When a network keeps an order

Flits are told apart by a key on their data, as the pair of source and destination of their packet. -/

namespace RadSim.Net

open Router (Flit)

variable {δ κ ρ ρ' : Type}

/-- The flits with a key, without the parts that change on the way. -/
def lane [DecidableEq κ] (key : δ → κ) (k : κ) (l : List (Flit δ)) : List (Bool × Bool × Int × δ) :=
  (l.filter fun f => key f.data = k).map body

/-- The packets with the key `k` have one way through the network: at every router there is at most one virtual channel of
an input and one of an output where their heads may be, and the flits with this key come from the source `l₀`. -/
structure Lanes (t : Topo) (N : Nat) (e : Nat → Env δ ρ ρ') (may : Nat → Flit δ → Prop) (key : δ → κ) (k : κ)
    (l₀ : Nat) : Prop where
  ins : ∀ r < t.size, ∀ i < t.inputs r, ∀ i' < t.inputs r, ∀ f g : Flit δ, key f.data = k → key g.data = k →
    may (t.inLink r i) f → may (t.inLink r i') g → i = i' ∧ f.vc = g.vc
  outs : ∀ r < t.size, ∀ o < t.outputs r, ∀ o' < t.outputs r, ∀ f g : Flit δ, key f.data = k → key g.data = k →
    may (t.outLink r o) f → may (t.outLink r o') g → o = o' ∧ f.vc = g.vc
  home : ∀ l, t.Source l → l ≠ l₀ → ∀ f ∈ injected e l N, key f.data ≠ k

end RadSim.Net
