/-!
# Packets in a network and progress

A packet occupies the last channels of the way its head has taken. The head is in some state of type
`S`, it moves by taking a channel of type `C`. This is the vocabulary of the deadlock claims and
independent of any routing function.
-/

namespace RadSim.Worms

variable {S C : Type}

/-- A sequence of moves from a state: channels taken and states reached. -/
def Moves (takes : S → C → S → Prop) : S → List (C × S) → Prop
  | _, [] => True
  | s, (c, s') :: l => takes s c s' ∧ Moves takes s' l

/-- The state after a sequence of moves. -/
def last : S → List (C × S) → S
  | s, [] => s
  | _, (_, s') :: l => last s' l

/-- A packet: where it entered, the moves of its head, and how many of the channels it has left
again. -/
structure Packet (S C : Type) where
  src : S
  moves : List (C × S)
  freed : Nat

/-- The state of the head. -/
def Packet.head (p : Packet S C) : S := last p.src p.moves

/-- The channels the packet occupies. -/
def Packet.held (p : Packet S C) : List C := (p.moves.drop p.freed).map Prod.fst

/-- The packet entered in an allowed state and its head made allowed moves. -/
def Packet.Valid (enters : S → Prop) (takes : S → C → S → Prop) (p : Packet S C) : Prop :=
  enters p.src ∧ Moves takes p.src p.moves

/-- No deadlock: in every nonempty set of packets one has its head at the exit or can move its head on
to a channel that no packet occupies. -/
def NoDeadlock (enters : S → Prop) (takes : S → C → S → Prop) (home : S → Prop) : Prop :=
  ∀ ps : List (Packet S C), ps ≠ [] → (∀ p ∈ ps, p.Valid enters takes) →
    ∃ p ∈ ps, home p.head ∨ ∃ c s', takes p.head c s' ∧ ∀ q ∈ ps, c ∉ q.held

/-- A nonempty chain of channels, each wanted by a packet that occupies the one before. -/
inductive Chain (dep : C → C → Prop) : C → C → Prop
  | one {a b : C} : dep a b → Chain dep a b
  | cons {a b c : C} : dep a b → Chain dep b c → Chain dep a c

end RadSim.Worms
