import Verif.Lemmas.FatTree

/-!
# C150: the fat tree delivers on shortest ways

Every channel of `FatTree` has one reader and every input one driver. With `fattree_nca` and `fattree_anca` a packet rises to the
deepest level on which one subtree holds its source and its destination, goes down from there and leaves at its destination. No
way through the network is shorter, and the assertion on the input port does not fail.
-/

namespace RadSim.Routing

open Worms

variable {s : Shape} {rng : Nat → Nat × Nat} {ups : Nat → Prop}

/-- C150. A channel down is read by one input of one router of the next level, on a port that faces up. -/
theorem C150_one_reader_down (hk : 0 < s.k) {t a p : Nat} (ht : t + 1 < s.n) (ha : a < s.k ^ (s.n - 1)) (hp : p < s.k) :
    ∃ v q, treeReceivers s (treeOut s t a p) = [(v, q)] ∧ v / s.k ^ (s.n - 1) = t + 1 ∧ s.k ≤ q ∧ q < 2 * s.k := by
  have hn : 0 < s.n := by omega
  refine ⟨_, _, Tree.receivers_down hk hn ht ha hp, (Tree.at_spec hk ht (Fly.put_per hk (Nat.succ_pos t) ht ha hp)).2.1, ?_⟩
  have := Nat.mod_lt (a / Fly.weight s (t + 1)) hk
  omega

/-- C150. A channel up is read by one input of one router of the level before, on a port that faces down. -/
theorem C150_one_reader_up (hk : 0 < s.k) {t a p : Nat} (ht : t + 1 < s.n) (ha : a < s.k ^ (s.n - 1)) (hp : p < s.k) :
    ∃ v q, treeReceivers s (treeOut s (t + 1) a (s.k + p)) = [(v, q)] ∧ v / s.k ^ (s.n - 1) = t ∧ q < s.k := by
  have hn : 0 < s.n := by omega
  exact ⟨_, _, Tree.receivers_up hk hn ht ha hp,
    (Tree.at_spec hk (Nat.lt_of_succ_lt ht) (Fly.put_per hk (Nat.succ_pos t) ht ha hp)).2.1, Nat.mod_lt _ hk⟩

/-- C150. No two outputs share a channel. -/
theorem C150_one_driver (hn : 0 < s.n) {t a p t' a' p' : Nat} (ha : a < s.k ^ (s.n - 1)) (ha' : a' < s.k ^ (s.n - 1))
    (hl : treeLinked s t p) (hl' : treeLinked s t' p') (h : treeOut s t a p = treeOut s t' a' p') : t = t' ∧ a = a' ∧ p = p' := by
  have row : ∀ {t a p}, treeLinked s t p → ∃ r i, treeOut s t a p = flyOut s r a i ∧ i < s.k ∧
      ((r = 2 * t ∧ p = i) ∨ (r + 1 = 2 * t ∧ p = s.k + i)) := by
    intro t a p hl
    unfold treeLinked at hl
    split at hl
    · rename_i hp
      exact ⟨_, _, Tree.out_down hn hp, hp, .inl ⟨rfl, rfl⟩⟩
    · obtain ⟨t', rfl⟩ := Nat.exists_eq_succ_of_ne_zero hl.1
      obtain ⟨i, rfl⟩ : ∃ i, p = s.k + i := ⟨p - s.k, by omega⟩
      exact ⟨_, i, Tree.out_up hn, by omega, .inr ⟨by omega, rfl⟩⟩
  obtain ⟨r, i, e, hi, hr⟩ := row (a := a) hl
  obtain ⟨r', i', e', hi', hr'⟩ := row (a := a') hl'
  rw [e, e'] at h
  obtain ⟨h1, h2, h3⟩ := Fly.flyOut_inj hn ha hi ha' hi' h
  refine ⟨by omega, h2, by omega⟩

/-- C150. Every input between routers reads a channel that an output of a neighbouring level drives. -/
theorem C150_inputs_driven (hk : 0 < s.k) (hn : 0 < s.n) {t a q c : Nat} (ht : t < s.n) (ha : a < s.k ^ (s.n - 1)) (hq : q < 2 * s.k)
    (h : treeReads s t a q c) :
    ∃ t' a' p, t' < s.n ∧ a' < s.k ^ (s.n - 1) ∧ treeLinked s t' p ∧ treeOut s t' a' p = c ∧ (t' + 1 = t ∨ t' = t + 1) := by
  unfold treeReads at h
  split at h
  · rename_i hqk
    have hlt : t + 1 < s.n := by omega
    have hd := Nat.mod_lt (a / Fly.weight s (t + 1)) hk
    refine ⟨t + 1, _, s.k + a / Fly.weight s (t + 1) % s.k, hlt, Fly.put_per hk (Nat.succ_pos t) hlt ha hqk, ?_, ?_, .inr rfl⟩
    · unfold treeLinked; rw [if_neg (by omega)]; omega
    · rw [← h.2, Tree.out_up hn, Tree.in_below hn hlt]
  · obtain ⟨t', rfl⟩ := Nat.exists_eq_succ_of_ne_zero h.1
    rw [Nat.succ_eq_add_one] at *
    have hd := Nat.mod_lt (a / Fly.weight s (t' + 1)) hk
    refine ⟨t', _, a / Fly.weight s (t' + 1) % s.k, by omega, Fly.put_per hk (Nat.succ_pos t') ht ha (show q - s.k < s.k by omega), ?_, ?_,
      .inl rfl⟩
    · unfold treeLinked; rw [if_pos hd]; omega
    · rw [← h.2, Tree.out_down hn hd, Tree.in_above hn ht]

/-- C150. The input at which a terminal injects reads no channel between routers, and no other terminal injects there. -/
theorem C150_injects_apart (hk : 0 < s.k) (hn : 0 < s.n) {c : Nat} {h : Head} (he : TreeEnters s rng ups c h) :
    (∀ ch, ¬ treeReads s (h.node / s.k ^ (s.n - 1)) (h.node % s.k ^ (s.n - 1)) h.inPort ch) ∧ h.inPort < 2 * s.k ∧
    ∀ c' h', TreeEnters s rng ups c' h' → h'.node = h.node → h'.inPort = h.inPort → c' = c := by
  obtain ⟨f, hc, -, up, o, -, -, rfl⟩ := he
  have lt : ∀ {x}, x < s.nodes → x / s.k < perStage s := fun h => (Nat.div_lt_iff_lt_mul hk).2 (by rw [← Fly.nodes_eq hn]; exact h)
  obtain ⟨-, e1, -⟩ := Tree.at_spec hk (show s.n - 1 < s.n by omega) (lt hc)
  unfold Tree.at_ at e1
  rw [Nat.mul_comm] at e1
  have hlt := Nat.mod_lt c hk
  refine ⟨fun ch hr => ?_, Nat.lt_of_lt_of_le hlt (by omega), ?_⟩
  · unfold treeReads at hr
    dsimp only at hr
    rw [if_pos hlt] at hr
    have h1 := hr.1
    unfold perStage at e1 h1
    omega
  · rintro c' h' ⟨f', hc', -, up', o', -, -, rfl⟩ h1 h2
    dsimp only at h1 h2
    have h3 : c' / s.k = c / s.k := by omega
    rw [← Nat.div_add_mod c' s.k, ← Nat.div_add_mod c s.k, h2, h3]

/-- C150. With `A` the deepest level on which one subtree holds source and destination: after `m` moves a packet is on level
`n - 1 - m` while it rises, and on level `A + (m - (n - 1 - A))` after that; it makes no more than `2 * (n - 1 - A)` moves, before
that there is always a channel to take, and then it leaves at its destination and nowhere else. -/
theorem C150_delivers (hk : 0 < s.k) (hn : 0 < s.n) (hu : ups = ncaUp s ∨ ups = ancaUp s) {c A : Nat} {h : Head}
    (he : TreeEnters s rng ups c h) (hA : Nearest s.k s.n c h.pkt.dest A)
    (l : List ((Nat × Nat) × Head)) (hl : Moves (TreeTakes s rng ups) h l) :
    l.length ≤ 2 * (s.n - 1 - A) ∧
    (last h l).node / s.k ^ (s.n - 1) =
      (if l.length < s.n - 1 - A then s.n - 1 - l.length else A + (l.length - (s.n - 1 - A))) ∧
    (l.length < 2 * (s.n - 1 - A) → ∃ c h', TreeTakes s rng ups (last h l) c h') ∧
    (∀ t, TreeEjects s (last h l) t ↔ l.length = 2 * (s.n - 1 - A) ∧ t = h.pkt.dest) := by
  have hP := Tree.ports hk hu
  have hCD : c < s.nodes ∧ h.pkt.dest < s.nodes := by
    obtain ⟨f, h1, h2, up, o, -, -, rfl⟩ := he
    exact ⟨h1, h2⟩
  obtain ⟨t, g⟩ := Tree.moves hk hn hP l _ 0 h (Tree.enters hk hn hP he) hl
  rw [Nat.zero_add] at g
  have hw := g.where hk hA
  have hA' := hA.1
  have hlt := g.lt
  have hnode : (last h l).node / s.k ^ (s.n - 1) = t := g.node
  refine ⟨by omega, ?_, fun hm => ?_, fun T => ?_⟩
  · rw [hnode]; split <;> omega
  · obtain ⟨h', ht⟩ := Tree.can_take hk hn hP g hCD.1 hCD.2 (by omega)
    exact ⟨_, h', ht⟩
  · constructor
    · intro hT
      have h1 : t = s.n - 1 := g.node.symm.trans hT.1
      have h2 := hT.2.1
      have := (Tree.ejects hk hn g (by omega)).1
      exact ⟨by omega, hT.2.2.trans this.2.2.symm⟩
    · rintro ⟨h1, rfl⟩
      exact (Tree.ejects hk hn g (by omega)).1

/-- C150. Some way leads there. -/
theorem C150_arrives (hk : 0 < s.k) (hn : 0 < s.n) (hu : ups = ncaUp s ∨ ups = ancaUp s) {c : Nat} {h : Head}
    (he : TreeEnters s rng ups c h) : ∃ l, Moves (TreeTakes s rng ups) h l ∧ TreeEjects s (last h l) h.pkt.dest := by
  have hP := Tree.ports hk hu
  have hCD : c < s.nodes ∧ h.pkt.dest < s.nodes := by
    obtain ⟨f, h1, h2, up, o, -, -, rfl⟩ := he
    exact ⟨h1, h2⟩
  obtain ⟨A, hA⟩ := Tree.nearest hn hCD.1 hCD.2
  have key : ∀ j t m (x : Head), m + j = 2 * (s.n - 1 - A) → Tree.Good s rng c h.pkt.dest t m x →
      ∃ l, Moves (TreeTakes s rng ups) x l ∧ TreeEjects s (last x l) h.pkt.dest := by
    intro j
    induction j with
    | zero =>
      intro t m x e g
      have hw := g.where hk hA
      have hA' := hA.1
      have hlt := g.lt
      exact ⟨[], trivial, (Tree.ejects hk hn g (by omega)).1⟩
    | succ j ih =>
      intro t m x e g
      have hw := g.where hk hA
      have hA' := hA.1
      have hlt := g.lt
      obtain ⟨x', ht⟩ := Tree.can_take hk hn hP g hCD.1 hCD.2 (by omega)
      obtain ⟨t', g', -⟩ := Tree.takes hk hn hP g ht
      obtain ⟨l, h1, h2⟩ := ih t' (m + 1) x' (by omega) g'
      exact ⟨(_, x') :: l, ⟨ht, h1⟩, h2⟩
  exact key _ _ 0 h (Nat.zero_add _) (Tree.enters hk hn hP he)

/-- C150. No walk through the network from the router of one terminal to that of another has fewer channels. -/
theorem C150_shortest (hk : 0 < s.k) (hn : 0 < s.n) {c d A m : Nat} (hc : c < s.nodes) (hd : d < s.nodes)
    (hA : Nearest s.k s.n c d A)
    (hw : TreeWalk s m ((s.n - 1) * s.k ^ (s.n - 1) + c / s.k) ((s.n - 1) * s.k ^ (s.n - 1) + d / s.k)) :
    2 * (s.n - 1 - A) ≤ m := by
  have lt : ∀ {x}, x < s.nodes → x / s.k < perStage s := fun h => (Nat.div_lt_iff_lt_mul hk).2 (by rw [← Fly.nodes_eq hn]; exact h)
  obtain ⟨a0, a1, a2⟩ := Tree.at_spec hk (Nat.sub_lt hn Nat.one_pos) (lt hc)
  obtain ⟨-, b1, b2⟩ := Tree.at_spec hk (Nat.sub_lt hn Nat.one_pos) (lt hd)
  rw [Nat.mul_comm] at hw
  obtain ⟨M, h1, h2, h3, h4⟩ := Tree.walk hk hn m (Tree.at_ s (s.n - 1) (c / s.k)) (Tree.at_ s (s.n - 1) (d / s.k)) a0 hw
  rw [a1] at h1
  rw [a1, b1] at h4
  rw [a2, b2, Nat.div_div_eq_div_mul, Nat.div_div_eq_div_mul] at h3
  have e : s.k * Fly.weight s M = s.k ^ (s.n - M) := by
    unfold Fly.weight; rw [← Nat.pow_succ']; congr 1; omega
  rw [e] at h3
  have := Tree.turn_le hA (B := M) (by omega) h3
  omega

/-- C150. Wherever a packet comes, on any virtual channel that it may have taken, the routing function succeeds for every draw: the
assertions on the virtual channel and on the input port hold. -/
theorem C150_assertions_hold (hk : 0 < s.k) (hn : 0 < s.n) (hu : ups = ncaUp s ∨ ups = ancaUp s) {c : Nat} {h : Head}
    (he : TreeEnters s rng ups c h) (l : List ((Nat × Nat) × Head)) (hl : Moves (TreeTakes s rng ups) h l)
    (hj : ¬ ∃ t, TreeEjects s (last h l) t) {vc : Nat} (h1 : (last h l).out.vcBegin ≤ vc) (h2 : vc ≤ (last h l).out.vcEnd) :
    ∃ v q, treeReceivers s (treeOut s ((last h l).node / s.k ^ (s.n - 1)) ((last h l).node % s.k ^ (s.n - 1))
        (last h l).out.port) = [(v, q)] ∧
      ∀ up, ups up → ∃ o, fatTree s rng up v { (last h l).pkt with vc := vc } q = some o := by
  have hP := Tree.ports hk hu
  have hCD : c < s.nodes ∧ h.pkt.dest < s.nodes := by
    obtain ⟨f, h3, h4, up, o, -, -, rfl⟩ := he
    exact ⟨h3, h4⟩
  obtain ⟨t, g⟩ := Tree.moves hk hn hP l _ 0 h (Tree.enters hk hn hP he) hl
  by_cases hh : s.k ≤ (last h l).out.port ∨ t < s.n - 1
  · obtain ⟨v, q, e1, e2⟩ := (Tree.can hk hn g hCD.1 hCD.2 hh).2 vc h1 h2
    refine ⟨v, q, ?_, fun up _ => e2 up⟩
    have e : (last h l).node / s.k ^ (s.n - 1) = t := g.node
    rw [e]; exact e1
  · exact absurd ⟨_, (Tree.ejects hk hn g hh).1⟩ hj

/-- C150. There is no deadlock, for any ranges of virtual channels. What is missing, as in C62: a channel belongs to one packet at
a time. -/
theorem C150_no_deadlock_partial (hk : 0 < s.k) (hn : 0 < s.n) (hu : ups = ncaUp s ∨ ups = ancaUp s) :
    NoDeadlock (fun h => ∃ c, TreeEnters s rng ups c h) (TreeTakes s rng ups) (fun h => ∃ t, TreeEjects s h t) := by
  have hP := Tree.ports hk hu
  have step : ∀ {C D t m : Nat} {h h' : Head} {c : Nat × Nat}, Tree.Good s rng C D t m h → TreeTakes s rng ups h c h' →
      Tree.rank s h < Tree.rank s h' := by
    intro C D t m h h' c g ht
    obtain ⟨t', g', hh⟩ := Tree.takes hk hn hP g ht
    have h1 := g.lt
    have h2 := g'.lt
    unfold Tree.rank
    rw [g.node, g'.node]
    rcases hh with ⟨b1, b2⟩ | ⟨b1, b2, b3⟩
    · rw [if_pos b1]; split <;> omega
    · rw [if_neg (by omega), if_neg (by omega)]; omega
  refine noDeadlock (Good := fun h => ∃ C t m, C < s.nodes ∧ h.pkt.dest < s.nodes ∧ Tree.Good s rng C h.pkt.dest t m h) (Tree.rank s)
    ?_ ?_ ?_ ?_
  · rintro h ⟨c, he⟩
    refine ⟨c, _, 0, ?_, ?_, Tree.enters hk hn hP he⟩ <;> obtain ⟨f, h1, h2, up, o, -, -, rfl⟩ := he
    · exact h1
    · exact h2
  · rintro h c h' ⟨C, t, m, hC, hD, g⟩ ht
    obtain ⟨t', g', -⟩ := Tree.takes hk hn hP g ht
    exact ⟨C, t', _, hC, by rw [g'.dest]; exact hD, by rw [g'.dest]; exact g'⟩
  · rintro h c h' ⟨C, t, m, -, -, g⟩ ht
    exact Nat.le_of_lt (step g ht)
  · rintro h ⟨C, t, m, hC, hD, g⟩ hh
    obtain ⟨h', ht⟩ := Tree.can_take hk hn hP g hC hD (Classical.byContradiction fun hx => hh ⟨_, (Tree.ejects hk hn g hx).1⟩)
    refine ⟨_, h', ht, ?_⟩
    rintro x x' ⟨C', t', m', -, -, g'⟩ tx
    have h1 := step g' tx
    have hm := Nat.mod_lt h.node (Fly.per_pos hk)
    have hm' := Nat.mod_lt x.node (Fly.per_pos hk)
    have e := tx.2.1
    have l1 := ht.1
    have l2 := tx.1
    rw [g.node] at l1
    rw [g'.node] at l2 e
    obtain ⟨e1, e2, e3⟩ := C150_one_driver hn hm hm' l1 l2 e
    have : Tree.rank s x = Tree.rank s h := by
      unfold Tree.rank
      rw [g.node, g'.node, e1, e3]
    omega

/-- A packet from terminal 1 to terminal 2 of a binary tree of three levels rises to level 1, by port 1, and goes down: routers 8, 5
and 9. -/
example : ∃ h l, TreeEnters ⟨2, 3⟩ (fun _ => (0, 1)) (ncaUp ⟨2, 3⟩) 1 h ∧
    Moves (TreeTakes ⟨2, 3⟩ (fun _ => (0, 1)) (ncaUp ⟨2, 3⟩)) h l ∧ h.node = 8 ∧ l.map (·.2.node) = [5, 9] ∧
    Nearest 2 3 1 2 1 ∧ TreeEjects ⟨2, 3⟩ (last h l) 2 :=
  ⟨⟨8, 1, ⟨2, 0, 0, -1⟩, ⟨3, 0, 1, -1⟩⟩,
    [((25, 1), ⟨5, 0, ⟨2, 0, 1, -1⟩, ⟨1, 0, 1, -1⟩⟩), ((19, 0), ⟨9, 3, ⟨2, 0, 0, -1⟩, ⟨0, 0, 1, -1⟩⟩)],
    ⟨⟨2, 0, 0, -1⟩, by decide, by decide, 1, ⟨3, 0, 1, -1⟩, ⟨1, rfl⟩, by decide, rfl⟩,
    ⟨⟨by decide, by decide, by decide, by decide, 5, 0, by decide, 0, ⟨1, 0, 1, -1⟩, ⟨0, rfl⟩, by decide, rfl⟩,
      ⟨by decide, by decide, by decide, by decide, 9, 3, by decide, 0, ⟨0, 0, 1, -1⟩, ⟨0, rfl⟩, by decide, rfl⟩, trivial⟩,
    rfl, rfl, ⟨by decide, by decide, fun B h1 h2 => by
      obtain rfl : B = 2 := by omega
      decide⟩, by decide, by decide, by decide⟩

/-- The walk of that packet. -/
example : TreeWalk ⟨2, 3⟩ 2 8 9 :=
  ⟨5, ⟨3, 0, by decide, by decide⟩, 9, ⟨1, 3, by decide, by decide⟩, rfl⟩

example := C150_one_reader_down (s := ⟨2, 3⟩) (t := 1) (a := 1) (p := 1) (by decide) (by decide) (by decide) (by decide)

example := C150_one_reader_up (s := ⟨2, 3⟩) (t := 1) (a := 0) (p := 1) (by decide) (by decide) (by decide) (by decide)

example := C150_inputs_driven (s := ⟨2, 3⟩) (t := 2) (a := 1) (q := 3) (c := 19) (by decide) (by decide) (by decide) (by decide) (by decide)
  (by decide)

/-- Terminal 3 of eight. -/
example := C150_injects_apart (s := ⟨2, 3⟩) (rng := fun _ => (0, 1)) (ups := ncaUp ⟨2, 3⟩) (c := 3) (by decide) (by decide)
  (h := ⟨9, 1, ⟨2, 0, 0, -1⟩, ⟨0, 0, 1, -1⟩⟩) ⟨⟨2, 0, 0, -1⟩, by decide, by decide, 0, _, ⟨0, rfl⟩, rfl, rfl⟩

example := C150_no_deadlock_partial (s := ⟨2, 3⟩) (rng := fun _ => (0, 1)) (by decide) (by decide) (.inr rfl)

/-- `fattree_anca` draws ports 0 and 1 and takes the one with fewer credits used. -/
example : ancaUp ⟨2, 3⟩ 1 := ⟨fun p => if p = 2 then 5 else 0, 0, 1, by decide⟩

end RadSim.Routing
