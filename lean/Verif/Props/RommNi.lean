import Verif.Lemmas.RommNi

/-!
# C148: randomised minimal mesh routing with virtual channels by destination

`romm_ni_mesh` sends a packet over a random router of the box of its way, as `romm_mesh` does, but gives the two phases the same
virtual channels: those of the destination.
-/

namespace RadSim.Routing

open Worms Grid

variable {s : Shape} {rng : Nat → Nat × Nat}

/-- C148. Every move of a packet brings it one link nearer to its destination, it leaves the network exactly there, and short of
it there is always a channel to take. -/
theorem C148_minimal (hk : 0 < s.k) {h : Head2} (he : EntersN s rng h) (l : List ((Nat × Nat) × Head2))
    (hl : Moves (TakesN s rng) h l) :
    l.length + manhattan s.k s.n (last h l).node h.pkt.dest = manhattan s.k s.n h.node h.pkt.dest ∧
    (Home2 s (last h l) ↔ (last h l).node = h.pkt.dest) ∧
    (¬ Home2 s (last h l) → ∃ c h', TakesN s rng (last h l) c h') := by
  let G : Head2 → Prop := fun x => RommNi.GoodR s rng x ∧ x.pkt.dest = h.pkt.dest
  have g0 : G h := ⟨RommNi.entersR hk he, rfl⟩
  have hgood : ∀ x c y, G x → TakesN s rng x c y → G y := fun x c y h1 h2 =>
    ⟨RommNi.takesR hk h1.1 h2, (RommNi.takes2 hk h1.1.good h2).2.2.1.trans h1.2⟩
  have gl := good_last hgood l h g0 hl
  have hlen := length_add (takes := TakesN s rng) (Good := G) (D := fun x => manhattan s.k s.n x.node x.pkt.dest) hgood
    (fun x c y h1 h2 => RommNi.step hk h1.1 h2) l h g0 hl
  rw [gl.2] at hlen
  refine ⟨hlen, by rw [RommNi.home hk gl.1, gl.2], fun hh => ?_⟩
  have hne : (last h l).node ≠ (last h l).pkt.dest := fun e => hh ((RommNi.home hk gl.1).2 e)
  obtain ⟨h', ht⟩ := RommNi.can2 hk gl.1.good hh hne (Nat.le_refl _) (gl.1.good.some hne).1
  exact ⟨_, h', ht⟩

/-- C148. There is no deadlock, although the phases share their virtual channels, as long as the channel ranges of two types are
equal or disjoint. What is missing, as in C62: a channel belongs to one packet at a time. -/
theorem C148_no_deadlock_partial (hk : 0 < s.k) (hs : Separate rng) : NoDeadlock (EntersN s rng) (TakesN s rng) (Home2 s) :=
  RommNi.noDeadlock hk hs

/-- C148. Two packets that have ever taken the same virtual channel of the same link between routers have the same
destination. -/
theorem C148_no_interference (hk : 0 < s.k) (hs : Separate rng) {p q : Packet Head2 (Nat × Nat)}
    (hp : p.Valid (EntersN s rng) (TakesN s rng)) (hq : q.Valid (EntersN s rng) (TakesN s rng)) {c : Nat × Nat}
    (h1 : c ∈ p.moves.map Prod.fst) (h2 : c ∈ q.moves.map Prod.fst) : p.src.pkt.dest = q.src.pkt.dest := by
  have key : ∀ p : Packet Head2 (Nat × Nat), p.Valid (EntersN s rng) (TakesN s rng) → c ∈ p.moves.map Prod.fst →
      ∃ t t', (RommNi.GoodR s rng t ∧ t.pkt.dest = p.src.pkt.dest) ∧ TakesN s rng t c t' := by
    intro p hp h
    obtain ⟨t, t', a, b, -⟩ := mem_moves (takes := TakesN s rng) (r := fun _ => 0)
      (Good := fun x => RommNi.GoodR s rng x ∧ x.pkt.dest = p.src.pkt.dest)
      (fun x c y h1 h2 => ⟨RommNi.takesR hk h1.1 h2, (RommNi.takes2 hk h1.1.good h2).2.2.1.trans h1.2⟩)
      (fun _ _ _ _ _ => Nat.le_refl _) c p.moves p.src ⟨RommNi.entersR hk hp.1, rfl⟩ hp.2 h
    exact ⟨t, t', a, b⟩
  obtain ⟨t, t', g1, k1⟩ := key p hp h1
  obtain ⟨v, v', g2, k2⟩ := key q hq h2
  rw [← g1.2, ← g2.2]
  exact (RommNi.same hk hs g1.1 g2.1 k1 k2).2

/-- C148, where it fails: with fewer virtual channels in a class than routers, a packet cannot leave its router: the assertion
fails. -/
theorem C148_few_channels_violated {u q i d : Nat} {f : Pkt} {h : Head2} (hn : (rng f.cls).2 + 1 - (rng f.cls).1 < s.nodes)
    (hne : u ≠ f.dest) : ¬ ArrivesN s rng u q f i d h := by
  rintro ⟨o, j, ho, -⟩
  unfold rommNiMesh at ho
  split at ho
  · simp only at ho
    rw [Nat.div_eq_of_lt hn, if_neg (fun h => absurd h.1 (Nat.lt_irrefl 0))] at ho
    cases ho
  · cases ho

/-- A packet from router 0 to router 3 of a mesh of two by two over router 2, and one from router 2 to router 3, on the same
channel of the last link, the first in its second phase. -/
example : ∃ p q : Packet Head2 (Nat × Nat),
    p.Valid (EntersN ⟨2, 2⟩ fun _ => (0, 3)) (TakesN ⟨2, 2⟩ fun _ => (0, 3)) ∧
    q.Valid (EntersN ⟨2, 2⟩ fun _ => (0, 3)) (TakesN ⟨2, 2⟩ fun _ => (0, 3)) ∧
    (8, 3) ∈ p.moves.map Prod.fst ∧ (8, 3) ∈ q.moves.map Prod.fst ∧ p.src.node ≠ q.src.node ∧
    q.src.out.ph = 0 :=
  ⟨⟨⟨0, ⟨3, 0, 1, 0⟩, 2, ⟨2, 3, 3, 0⟩⟩, [((2, 3), ⟨2, ⟨3, 0, 3, 1⟩, 2, ⟨0, 3, 3, 1⟩⟩),
      ((8, 3), ⟨3, ⟨3, 0, 3, 1⟩, 2, ⟨4, 0, 3, 1⟩⟩)], 0⟩,
    ⟨⟨2, ⟨3, 0, 1, 0⟩, 3, ⟨0, 3, 3, 0⟩⟩, [((8, 3), ⟨3, ⟨3, 0, 3, 1⟩, 3, ⟨4, 0, 3, 1⟩⟩)], 0⟩,
    ⟨⟨0, ⟨3, 0, 1, -1⟩, 0, 2, by decide, by decide, ⟨fun m => if m = 0 then 1 else 0, by decide⟩, ⟨2, 3, 3, 0⟩, 2, by decide, rfl⟩,
      ⟨by decide, by decide, by decide, by decide, 2, 3, by decide, ⟨0, 3, 3, 1⟩, 2, by decide, rfl⟩,
      ⟨by decide, by decide, by decide, by decide, 3, 1, by decide, ⟨4, 0, 3, 1⟩, 2, by decide, rfl⟩, trivial⟩,
    ⟨⟨2, ⟨3, 0, 1, -1⟩, 0, 3, by decide, by decide, ⟨fun _ => 1, by decide⟩, ⟨0, 3, 3, 0⟩, 3, by decide, rfl⟩,
      ⟨by decide, by decide, by decide, by decide, 3, 1, by decide, ⟨4, 0, 3, 1⟩, 3, by decide, rfl⟩, trivial⟩,
    by decide, by decide, by decide, rfl⟩

example := C148_no_deadlock_partial (s := ⟨2, 2⟩) (rng := fun c => (4 * c, 4 * c + 3)) (by decide)
  (by intro a b; simp only [Prod.mk.injEq]; omega)

example := C148_few_channels_violated (s := ⟨4, 2⟩) (rng := fun _ => (0, 14)) (u := 0) (q := 4) (i := 0) (d := 1)
  (f := ⟨5, 0, 0, -1⟩) (h := ⟨0, ⟨5, 0, 0, -1⟩, 0, ⟨0, 0, 0, -1⟩⟩) (by decide) (by decide)

end RadSim.Routing
