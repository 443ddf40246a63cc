import Verif.Model.Mesh
import Verif.Spec.Network

/-! # What the nodes of a mesh do -/

namespace RadSim.Net

open Router (Flit)
open Routing (Shape vcOk)

variable {δ ρ ρ' : Type}

/-- What nodes of a mesh send: heads with their address, an existing destination and a virtual channel of their class. -/
structure Sends (s : Shape) (rng : Nat → Nat × Nat) (N : Nat) (e : Nat → Env (Msg δ) ρ ρ') : Prop where
  heads : ∀ u < s.nodes, ∀ f ∈ injected e (injLink s u) N, f.head = true →
    f.data.src = u ∧ f.data.dest < s.nodes ∧ vcOk rng (pkt f) ∧ f.hops = 0
  same : ∀ u < s.nodes, ∀ v,
    Packets Flit.head Flit.tail (fun f => (f.data.src, f.data.dest)) (onVc (injected e (injLink s u) N) v)

/-- The number of packets with a property that node `u` has received in the first `n` states. -/
def receivedBy {σ τ : Type} (m : Shape) (b : Router.Cfg) (s : Nat → S (Msg δ) σ τ) (n u : Nat)
    (P : List (Bool × Bool × Int × Msg δ) → Bool) : Nat :=
  ∑ v ∈ Finset.range b.vcs, (packetsOf (flitsAt s (ejLink m u) n) v).countP P

/-- The number of packets with a property that nodes have sent to node `u` in the first `n` ticks. -/
def sentTo (m : Shape) (b : Router.Cfg) (e : Nat → Env (Msg δ) ρ ρ') (n u : Nat)
    (P : List (Bool × Bool × Int × Msg δ) → Bool) : Nat :=
  ∑ w ∈ Finset.range m.nodes, ∑ v ∈ Finset.range b.vcs,
    (packetsOf (injected e (injLink m w) n) v).countP fun p => P p && p.any fun x => x.2.2.2.dest = u

end RadSim.Net
