import Mathlib.Data.List.Chain

/-! # Sequences of packets

A packet is a sequence of flits that starts with a head flit, ends with a tail flit and has none in between; a packet of
one flit is both. -/

namespace RadSim

variable {α κ : Type}

/-- After `a` comes `b` in a sequence of packets: a new packet starts exactly when the last one has ended, and the flits
of a packet agree in `key`. -/
def Next (head tail : α → Bool) (key : α → κ) (a b : α) : Prop :=
  head b = tail a ∧ (tail a = false → key b = key a)

/-- A sequence of packets, the last of which need not be complete, such that the flits of a packet agree in `key`. -/
def Packets (head tail : α → Bool) (key : α → κ) (l : List α) : Prop :=
  (∀ a ∈ l.head?, head a = true) ∧ l.IsChain (Next head tail key)

end RadSim
