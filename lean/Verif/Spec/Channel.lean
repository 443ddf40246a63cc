/-! # What a channel is to do -/

namespace RadSim.Channel

/-- In the first `N` ticks every item comes out `k` ticks later, and nothing else does. One entry per tick. -/
def DeliversUpto {α : Type} (N k : Nat) (inp out : Nat → Option α) : Prop :=
  ∀ n < N, out n = if k ≤ n then inp (n - k) else none

end RadSim.Channel
