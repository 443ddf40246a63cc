import Verif.Lemmas.RoutingTorus

/-!
# Properties of mesh and torus routing

C38 (hop count), C39 (mesh delivery), C40 (mesh deadlock freedom), C61 (wiring), C62 (two-order mesh
routing), C63 (torus routing) and C64 (networks of different size).

`Enters s rf h` says that a packet enters at some router and `h` is its head there, routed. `Takes s rf
h c h'` says that its head takes virtual channel `c.2` of link `c.1` and is then `h'`. `Moves` and `last`
(`Verif/Spec/Worms.lean`) are sequences of such moves and the head after them.
-/

namespace RadSim.Routing

open Worms Grid

/-! ## C38 hop count -/

/-- The hop count does not depend on the direction. -/
theorem C38_symmetric (a b g : Nat) : gridHops a b g = gridHops b a g := by
  unfold gridHops
  simp only
  omega

/-- It is at least one, and one exactly for a node and itself. -/
theorem C38_positive (a b g : Nat) : 1 ≤ gridHops a b g ∧
    (0 < g → a < g * g → b < g * g → (gridHops a b g = 1 ↔ a = b)) := by
  unfold gridHops
  simp only
  refine ⟨by omega, fun hg ha hb => ?_⟩
  rw [Nat.mod_eq_of_lt ha, Nat.mod_eq_of_lt hb]
  constructor
  · intro h
    have h1 : a / g = b / g := by omega
    have h2 : a % g = b % g := by omega
    rw [← Nat.div_add_mod a g, ← Nat.div_add_mod b g, h1, h2]
  · rintro rfl; omega

/-- A detour never lowers it: the way through a third node counts that node once more at most. -/
theorem C38_triangle (a b c g : Nat) : gridHops a c g + 1 ≤ gridHops a b g + gridHops b c g := by
  unfold gridHops
  simp only
  omega

theorem hops_manhattan {a b g : Nat} (hg : 0 < g) (ha : a < g * g) (hb : b < g * g) :
    gridHops a b g = manhattan g 2 a b + 1 := by
  have ha' : a / g < g := by rw [Nat.div_lt_iff_lt_mul hg]; exact ha
  have hb' : b / g < g := by rw [Nat.div_lt_iff_lt_mul hg]; exact hb
  unfold gridHops manhattan coord
  rw [Finset.sum_range_succ, Finset.sum_range_succ, Finset.sum_range_zero]
  simp only [Nat.pow_zero, Nat.pow_one, Nat.div_one, Nat.mod_eq_of_lt ha, Nat.mod_eq_of_lt hb,
    Nat.mod_eq_of_lt ha', Nat.mod_eq_of_lt hb']
  unfold gap
  omega

/-- It is one more than the number of links a packet takes in a mesh of that size, whatever virtual
channels it is given. -/
theorem C38_counts_routers {g : Nat} {rng : Nat → Nat × Nat} (hg : 0 < g) {h : Head}
    (he : Enters ⟨g, 2⟩ (dimOrderMesh ⟨g, 2⟩ rng) h) (l : List ((Nat × Nat) × Head))
    (hl : Moves (Takes ⟨g, 2⟩ (dimOrderMesh ⟨g, 2⟩ rng)) h l) (hh : Home ⟨g, 2⟩ (last h l)) :
    gridHops h.node h.pkt.dest g = l.length + 1 := by
  have hk : 0 < (Shape.mk g 2).k := hg
  have g0 : GoodM ⟨g, 2⟩ rng h := by
    obtain ⟨u, f, hu, hf, -, ha⟩ := he
    exact (arrivesM hu hf ha).1
  have hgood : ∀ s c s', GoodM ⟨g, 2⟩ rng s → Takes ⟨g, 2⟩ (dimOrderMesh ⟨g, 2⟩ rng) s c s' →
      GoodM ⟨g, 2⟩ rng s' := fun s c s' h1 h2 => (takesM hk h1 h2).1
  have gl := good_last hgood l h g0 hl
  have hlen := length_add (D := fun h => manhattan g 2 h.node h.pkt.dest) hgood (fun a c b ha hb => by
    obtain ⟨-, e1, e2, d, hd⟩ := takesM hk ha hb
    have := manhattan_step hk hd
    simp only [e1, e2]; exact this) l h g0 hl
  have hz : manhattan g 2 (last h l).node (last h l).pkt.dest = 0 := by
    rw [(homeM hk gl).mp hh]
    unfold manhattan gap
    exact Finset.sum_eq_zero fun x _ => by omega
  have hn : (Shape.mk g 2).nodes = g * g := Nat.pow_two g
  rw [hops_manhattan hg (hn ▸ g0.node) (hn ▸ g0.dest)]
  omega

/-- In a grid of four by four, node 1 and node 14 are five routers apart. -/
example : gridHops 1 14 4 = 5 ∧ gridHops 14 1 4 = 5 ∧ gridHops 1 14 4 + 1 ≤ gridHops 1 8 4 + gridHops 8 14 4 := by
  decide

/-! ## C61 wiring -/

/-- Every output port of every router is read by exactly one input port in the network. It belongs to
the neighbour in that dimension, whose output port of the same number leads back. -/
theorem C61_links_pair (s : Shape) (hk : 0 < s.k) (u p : Nat) (hu : u < s.nodes) (hp : p < 2 * s.n) :
    ∃ v q, receivers s (outputChannel s u p) = [(v, q)] ∧ v < s.nodes ∧ q < 2 * s.n ∧
      receivers s (outputChannel s v q) = [(u, p)] ∧
      (∀ d, d ≠ p / 2 → coord s.k v d = coord s.k u d) ∧
      (p % 2 = 0 → coord s.k v (p / 2) = (coord s.k u (p / 2) + 1) % s.k) ∧
      (p % 2 = 1 → coord s.k u (p / 2) = (coord s.k v (p / 2) + 1) % s.k) := by
  refine ⟨nbr s u p, opp p, receivers_eq hk hp hu, nbr_lt hk hp hu, opp_lt hp, ?_, ?_⟩
  · rw [receivers_eq hk (opp_lt hp) (nbr_lt hk hp hu), nbr_opp hk hp hu, opp_opp]
  · obtain ⟨n1, n2, n3⟩ := nbr_coord hk u p
    have hc := coord_lt hk u (p / 2)
    refine ⟨n1, fun h0 => ?_, fun h1 => ?_⟩
    · rw [n2 h0]
      split
      · rename_i e; rw [e, Nat.sub_add_cancel hk, Nat.mod_self]
      · rw [Nat.mod_eq_of_lt (by omega)]
    · rw [n3 h1]
      split
      · rename_i e; rw [e, Nat.sub_add_cancel hk, Nat.mod_self]
      · rw [Nat.sub_add_cancel (by omega), Nat.mod_eq_of_lt hc]

/-- No two output ports drive the same link. -/
theorem C61_one_driver (s : Shape) (u p v q : Nat) (hp : p < 2 * s.n) (hq : q < 2 * s.n)
    (h : outputChannel s u p = outputChannel s v q) : u = v ∧ p = q := by
  rw [outputChannel_eq, outputChannel_eq] at h
  exact enc_inj hp hq h

/-- The right port of router 5 of a mesh of four by four is read by router 6. -/
example : receivers ⟨4, 2⟩ (outputChannel ⟨4, 2⟩ 5 0) = [(6, 1)] := by decide

/-! ## C39 mesh delivery -/

theorem goodM_enters {s : Shape} {rng : Nat → Nat × Nat} {h : Head}
    (he : Enters s (dimOrderMesh s rng) h) : GoodM s rng h := by
  obtain ⟨u, f, hu, hf, -, ha⟩ := he
  exact (arrivesM hu hf ha).1

/-- After any moves of a packet under dimension-order routing, whatever virtual channels it was given,
the moves made and the Manhattan distance to go add up to the distance at the start; the router is in
the bounding box of source and destination; the packet leaves the network exactly at its destination;
and short of it there is a link to take, with any virtual channel of its type. -/
theorem C39_minimal {s : Shape} {rng : Nat → Nat × Nat} (hk : 0 < s.k) {h : Head}
    (he : Enters s (dimOrderMesh s rng) h) (l : List ((Nat × Nat) × Head))
    (hl : Moves (Takes s (dimOrderMesh s rng)) h l) :
    l.length + manhattan s.k s.n (last h l).node h.pkt.dest = manhattan s.k s.n h.node h.pkt.dest ∧
    InBox s.k s.n h.node h.pkt.dest (last h l).node ∧
    (Home s (last h l) ↔ (last h l).node = h.pkt.dest) ∧
    (¬ Home s (last h l) → ∃ link, ∀ vc, (rng h.pkt.cls).1 ≤ vc → vc ≤ (rng h.pkt.cls).2 →
      ∃ h', Takes s (dimOrderMesh s rng) (last h l) (link, vc) h') := by
  have g0 := goodM_enters he
  have key : ∀ (l : List ((Nat × Nat) × Head)) (a : Head), GoodM s rng a →
      a.pkt.dest = h.pkt.dest → a.pkt.cls = h.pkt.cls → InBox s.k s.n h.node h.pkt.dest a.node →
      Moves (Takes s (dimOrderMesh s rng)) a l →
      GoodM s rng (last a l) ∧ (last a l).pkt.dest = h.pkt.dest ∧ (last a l).pkt.cls = h.pkt.cls ∧
      InBox s.k s.n h.node h.pkt.dest (last a l).node ∧
      l.length + manhattan s.k s.n (last a l).node h.pkt.dest = manhattan s.k s.n a.node h.pkt.dest := by
    intro l
    induction l with
    | nil => intro a ga e1 e2 hb _; exact ⟨ga, e1, e2, hb, by simp [last]⟩
    | cons m l ih =>
      intro a ga e1 e2 hb hm
      obtain ⟨c, b⟩ := m
      obtain ⟨gb, f1, f2, d, hd⟩ := takesM hk ga hm.1
      have f3 : b.pkt.cls = a.pkt.cls := by
        obtain ⟨h1, -, -, -, h5⟩ := (takes_iff hk ga.node).mp hm.1
        exact (arrivesM (f := { a.pkt with vc := c.2 }) (nbr_lt hk h1 ga.node) ga.dest h5).2.2.2
      have hb' : InBox s.k s.n h.node h.pkt.dest b.node := by
        rw [f1]; rw [e1] at hd; exact box_step hk hd hb
      obtain ⟨i1, i2, i3, i4, i5⟩ := ih b gb (f2.trans e1) (f3.trans e2) hb' hm.2
      refine ⟨i1, i2, i3, i4, ?_⟩
      rw [e1] at hd
      have := manhattan_step hk hd
      rw [← f1] at this
      simp only [last, List.length_cons]
      omega
  have hb0 : InBox s.k s.n h.node h.pkt.dest h.node := fun d _ => by omega
  obtain ⟨i1, i2, i3, i4, i5⟩ := key l h g0 rfl rfl hb0 hl
  refine ⟨i5, i4, ?_, fun hh => ⟨_, fun vc h1 h2 => canM hk i1 hh (by rw [i3]; exact h1) (by rw [i3]; exact h2)⟩⟩
  rw [homeM hk i1, i2]

/-- Every packet can reach its destination, and does so after exactly the Manhattan distance. -/
theorem C39_delivers {s : Shape} {rng : Nat → Nat × Nat} (hk : 0 < s.k) {h : Head}
    (he : Enters s (dimOrderMesh s rng) h) :
    ∃ l, Moves (Takes s (dimOrderMesh s rng)) h l ∧ Home s (last h l) ∧
      (last h l).node = h.pkt.dest ∧ l.length = manhattan s.k s.n h.node h.pkt.dest := by
  have g0 := goodM_enters he
  obtain ⟨l, hl, hh⟩ := reaches (takes := Takes s (dimOrderMesh s rng)) (home := Home s) (Good := GoodM s rng)
    (D := fun h => manhattan s.k s.n h.node h.pkt.dest)
    (fun a c b ha hb => (takesM hk ha hb).1) (fun a c b ha hb => by
      obtain ⟨-, e1, e2, d, hd⟩ := takesM hk ha hb
      simp only [e1, e2]; exact manhattan_step hk hd)
    (fun a ha hh => by
      obtain ⟨h', ht⟩ := canM hk ha hh (Nat.le_refl _) ha.ne
      exact ⟨_, h', ht⟩) _ h rfl g0
  obtain ⟨h1, -, h3, -⟩ := C39_minimal hk he l hl
  have h4 := h3.mp hh
  refine ⟨l, hl, hh, h4, ?_⟩
  rw [h4] at h1
  have hz : manhattan s.k s.n h.pkt.dest h.pkt.dest = 0 := by
    unfold manhattan gap
    exact Finset.sum_eq_zero fun x _ => by omega
  omega

/-- A rectangular grid placed in the square mesh, as the configuration script does: packets between
routers of the grid stay in it. -/
theorem C39_rectangle {k x y : Nat} {rng : Nat → Nat × Nat} (hk : 0 < k) {h : Head}
    (he : Enters ⟨k, 2⟩ (dimOrderMesh ⟨k, 2⟩ rng) h) (l : List ((Nat × Nat) × Head))
    (hl : Moves (Takes ⟨k, 2⟩ (dimOrderMesh ⟨k, 2⟩ rng)) h l)
    (h1 : h.node % k < x ∧ h.node / k < y) (h2 : h.pkt.dest % k < x ∧ h.pkt.dest / k < y) :
    (last h l).node % k < x ∧ (last h l).node / k < y := by
  have g0 := goodM_enters he
  have hgood : ∀ s c s', GoodM ⟨k, 2⟩ rng s → Takes ⟨k, 2⟩ (dimOrderMesh ⟨k, 2⟩ rng) s c s' →
      GoodM ⟨k, 2⟩ rng s' := fun s c s' h1 h2 => (takesM hk h1 h2).1
  have gl := good_last hgood l h g0 hl
  obtain ⟨-, hb, -⟩ := C39_minimal (s := ⟨k, 2⟩) hk he l hl
  have hdiv : ∀ u, u < (Shape.mk k 2).nodes → u / k % k = u / k := fun u hu => by
    have : u < k * k := by rw [← Nat.pow_two]; exact hu
    rw [Nat.mod_eq_of_lt]; rw [Nat.div_lt_iff_lt_mul hk]; exact this
  have b0 := hb 0 (show 0 < 2 by omega)
  have b1 := hb 1 (show 1 < 2 by omega)
  simp only [coord, Nat.pow_zero, Nat.pow_one, Nat.div_one] at b0 b1
  rw [hdiv _ g0.node, hdiv _ g0.dest, hdiv _ gl.node] at b1
  omega

/-- Two virtual channels for every type. -/
def demoRng (c : Nat) : Nat × Nat := (2 * c, 2 * c + 1)

theorem demo_separate : Separate demoRng := by intro a b; unfold demoRng; simp only [Prod.mk.injEq]; omega

example : ∃ h, Enters ⟨4, 2⟩ (dimOrderMesh ⟨4, 2⟩ demoRng) h ∧ h.node = 1 ∧ h.pkt.dest = 14 ∧
    h.out.port = 0 ∧ manhattan 4 2 1 14 = 4 :=
  ⟨⟨1, 4, ⟨14, 1, 2, -1⟩, ⟨0, 2, 3, -1⟩⟩,
    ⟨1, ⟨14, 1, 2, -1⟩, by decide, by decide, rfl, false, ⟨0, 2, 3, -1⟩, by decide, rfl⟩,
    rfl, rfl, rfl, by decide⟩

/-! ## C40 mesh deadlock freedom -/

/-- In every set of packets under dimension-order routing, in whatever virtual channels, one is at its
exit or can move on to a free channel. -/
theorem C40_no_deadlock {s : Shape} {rng : Nat → Nat × Nat} (hk : 0 < s.k) :
    NoDeadlock (Enters s (dimOrderMesh s rng)) (Takes s (dimOrderMesh s rng)) (Home s) :=
  noDeadlockM hk

/-- Some packet can hold the first channel and take the second next. -/
def Depends (s : Shape) (rf : Rf) (a b : Nat × Nat) : Prop :=
  ∃ src l h' h'', Enters s rf src ∧ Moves (Takes s rf) src l ∧ Takes s rf (last src l) a h' ∧
    Takes s rf h' b h''

/-- The channel dependencies of dimension-order routing have no cycle. -/
theorem C40_acyclic {s : Shape} {rng : Nat → Nat × Nat} (hk : 0 < s.k) (c : Nat × Nat) :
    ¬ Chain (Depends s (dimOrderMesh s rng)) c c := by
  intro hc
  have := chain_lt (fun c : Nat × Nat => rank s false (c.1 / (2 * s.n)) (c.1 % (2 * s.n))) ?_ hc
  · exact Nat.lt_irrefl _ this
  · rintro a b ⟨src, l, h', h'', he, hm, ha, hb⟩
    have hgood : ∀ x c y, GoodM s rng x → Takes s (dimOrderMesh s rng) x c y → GoodM s rng y :=
      fun x c y h1 h2 => (takesM hk h1 h2).1
    have gl := good_last hgood l src (goodM_enters he) hm
    have g' := hgood _ _ _ gl ha
    obtain ⟨p1, p2, -⟩ := (takes_iff hk gl.node).mp ha
    obtain ⟨q1, q2, -⟩ := (takes_iff hk g'.node).mp hb
    have hlt := rankM_step hk gl ha
    unfold rankM at hlt
    rw [if_pos p1, if_pos q1] at hlt
    have hdec : ∀ u p, p < 2 * s.n → (2 * s.n * u + p) / (2 * s.n) = u ∧ (2 * s.n * u + p) % (2 * s.n) = p :=
      fun u p hp => by
        have : 0 < 2 * s.n := by omega
        exact ⟨by rw [Nat.mul_add_div this, Nat.div_eq_of_lt hp, Nat.add_zero],
          by rw [Nat.mul_add_mod, Nat.mod_eq_of_lt hp]⟩
    simp only [p2, q2, (hdec _ _ p1).1, (hdec _ _ p1).2, (hdec _ _ q1).1, (hdec _ _ q1).2]
    exact hlt

/-- Two packets, the first of which holds a channel the second wants, are a valid set: 1 to 14, having
taken the link from 1 to 2, and 1 to 3, waiting at 1. -/
example : ∃ p q : Packet Head (Nat × Nat),
    p.Valid (Enters ⟨4, 2⟩ (dimOrderMesh ⟨4, 2⟩ demoRng)) (Takes ⟨4, 2⟩ (dimOrderMesh ⟨4, 2⟩ demoRng)) ∧
    q.Valid (Enters ⟨4, 2⟩ (dimOrderMesh ⟨4, 2⟩ demoRng)) (Takes ⟨4, 2⟩ (dimOrderMesh ⟨4, 2⟩ demoRng)) ∧
    p.held = [(4, 2)] ∧ q.head.out.port = 0 ∧ q.head.node = 1 :=
  ⟨⟨⟨1, 4, ⟨14, 1, 2, -1⟩, ⟨0, 2, 3, -1⟩⟩, [((4, 2), ⟨2, 1, ⟨14, 1, 2, -1⟩, ⟨2, 2, 3, -1⟩⟩)], 0⟩,
   ⟨⟨1, 4, ⟨3, 1, 2, -1⟩, ⟨0, 2, 3, -1⟩⟩, [], 0⟩,
   ⟨⟨1, ⟨14, 1, 2, -1⟩, by decide, by decide, rfl, false, ⟨0, 2, 3, -1⟩, by decide, rfl⟩,
    ⟨by decide, by decide, by decide, by decide, 2, 1, by decide, false, ⟨2, 2, 3, -1⟩, by decide, rfl⟩,
    trivial⟩,
   ⟨⟨1, ⟨3, 1, 2, -1⟩, by decide, by decide, rfl, false, ⟨0, 2, 3, -1⟩, by decide, rfl⟩, trivial⟩,
   rfl, rfl, rfl⟩

/-! ## C62 two-order mesh routing -/

theorem goodX_enters {s : Shape} {rng : Nat → Nat × Nat} {h : Head}
    (he : Enters s (xyYxMesh s rng) h) : GoodX s rng h := by
  obtain ⟨u, f, hu, hf, -, ha⟩ := he
  exact (arrivesX hu hf ha).1

/-- Routing in both orders is minimal too, whatever order is drawn and whatever channels are given. This
holds also for an odd number of channels per type, where the middle one belongs to both orders and a
packet may change its order on the way. -/
theorem C62_minimal {s : Shape} {rng : Nat → Nat × Nat} (hk : 0 < s.k) {h : Head}
    (he : Enters s (xyYxMesh s rng) h) (l : List ((Nat × Nat) × Head))
    (hl : Moves (Takes s (xyYxMesh s rng)) h l) :
    l.length + manhattan s.k s.n (last h l).node h.pkt.dest = manhattan s.k s.n h.node h.pkt.dest ∧
    InBox s.k s.n h.node h.pkt.dest (last h l).node ∧
    (Home s (last h l) ↔ (last h l).node = h.pkt.dest) ∧
    (¬ Home s (last h l) → ∃ c h', Takes s (xyYxMesh s rng) (last h l) c h') := by
  have g0 := goodX_enters he
  have dorOf : ∀ a c b, GoodX s rng a → Takes s (xyYxMesh s rng) a c b →
      ∃ desc d, Dor s desc a.node a.pkt.dest a.out.port d := fun a c b ga ht => by
    have hd := ga.dor hk (takesX_ne hk ga ht)
    by_cases hb : a.out.vcBegin = (rng a.pkt.cls).1
    · obtain ⟨d, hd⟩ := hd.1 hb; exact ⟨_, d, hd⟩
    · obtain ⟨d, hd⟩ := hd.2 hb; exact ⟨_, d, hd⟩
  have key : ∀ (l : List ((Nat × Nat) × Head)) (a : Head), GoodX s rng a →
      a.pkt.dest = h.pkt.dest → InBox s.k s.n h.node h.pkt.dest a.node →
      Moves (Takes s (xyYxMesh s rng)) a l →
      GoodX s rng (last a l) ∧ (last a l).pkt.dest = h.pkt.dest ∧
      InBox s.k s.n h.node h.pkt.dest (last a l).node ∧
      l.length + manhattan s.k s.n (last a l).node h.pkt.dest = manhattan s.k s.n a.node h.pkt.dest := by
    intro l
    induction l with
    | nil => intro a ga e1 hb _; exact ⟨ga, e1, hb, by simp [last]⟩
    | cons m l ih =>
      intro a ga e1 hb hm
      obtain ⟨c, b⟩ := m
      obtain ⟨gb, f1, f2, -⟩ := takesX hk ga hm.1
      obtain ⟨desc, d, hd⟩ := dorOf a c b ga hm.1
      rw [e1] at hd
      have hb' : InBox s.k s.n h.node h.pkt.dest b.node := by
        rw [f1]; exact box_step hk hd hb
      obtain ⟨i1, i2, i4, i5⟩ := ih b gb (f2.trans e1) hb' hm.2
      refine ⟨i1, i2, i4, ?_⟩
      have := manhattan_step hk hd
      rw [← f1] at this
      simp only [last, List.length_cons]
      omega
  have hb0 : InBox s.k s.n h.node h.pkt.dest h.node := fun d _ => by omega
  obtain ⟨i1, i2, i4, i5⟩ := key l h g0 rfl hb0 hl
  refine ⟨i5, i4, by rw [homeX hk i1, i2], fun hh => ?_⟩
  have hne : (last h l).node ≠ (last h l).pkt.dest := fun e => hh ((homeX hk i1).mpr e)
  have hle : (last h l).out.vcBegin ≤ (last h l).out.vcEnd := by
    rcases i1.out with ⟨e, -⟩ | ⟨-, _, _, ⟨_, _, _⟩ | ⟨_, _, _⟩⟩
    · exact absurd e hne
    · omega
    · omega
  obtain ⟨h', ht⟩ := canX hk i1 hh (Nat.le_refl _) hle
  exact ⟨_, h', ht⟩

/-- There is no deadlock, as long as the channel ranges of two types are equal or disjoint, again also
for an odd number of channels. What is missing: here a channel belongs to one packet at a time. A router may also hand
on a channel with flits of the packet before still in its buffer (C83 covers this, for an even number of channels). -/
theorem C62_no_deadlock_partial {s : Shape} {rng : Nat → Nat × Nat} (hk : 0 < s.k) (hs : Separate rng) :
    NoDeadlock (Enters s (xyYxMesh s rng)) (Takes s (xyYxMesh s rng)) (Home s) :=
  noDeadlockX hk hs

/-- Both orders are possible for the packet from 1 to 14. -/
example : (∃ h, Enters ⟨4, 2⟩ (xyYxMesh ⟨4, 2⟩ demoRng) h ∧ h.node = 1 ∧ h.pkt.dest = 14 ∧ h.out.port = 0) ∧
    ∃ h, Enters ⟨4, 2⟩ (xyYxMesh ⟨4, 2⟩ demoRng) h ∧ h.node = 1 ∧ h.pkt.dest = 14 ∧ h.out.port = 2 :=
  ⟨⟨⟨1, 4, ⟨14, 1, 2, -1⟩, ⟨0, 2, 2, -1⟩⟩,
    ⟨1, ⟨14, 1, 2, -1⟩, by decide, by decide, rfl, true, ⟨0, 2, 2, -1⟩, by decide, rfl⟩, rfl, rfl, rfl⟩,
   ⟨⟨1, 4, ⟨14, 1, 2, -1⟩, ⟨2, 3, 3, -1⟩⟩,
    ⟨1, ⟨14, 1, 2, -1⟩, by decide, by decide, rfl, false, ⟨2, 3, 3, -1⟩, by decide, rfl⟩, rfl, rfl, rfl⟩⟩

/-! ## C63 torus routing -/

/-- Torus routing takes a shortest way around every ring, leaves the network exactly at the destination,
and short of it there is a channel to take. -/
theorem C63_minimal {s : Shape} {rng : Nat → Nat × Nat} (hk : 0 < s.k) {h : Head}
    (he : Enters s (dimOrderTorus s rng) h) (l : List ((Nat × Nat) × Head))
    (hl : Moves (Takes s (dimOrderTorus s rng)) h l) :
    l.length + torusDist s.k s.n (last h l).node h.pkt.dest = torusDist s.k s.n h.node h.pkt.dest ∧
    (Home s (last h l) ↔ (last h l).node = h.pkt.dest) ∧
    (¬ Home s (last h l) → ∃ c h', Takes s (dimOrderTorus s rng) (last h l) c h') := by
  have g0 := entersT hk he
  have hgood : ∀ x c y, GoodT s rng x → Takes s (dimOrderTorus s rng) x c y → GoodT s rng y :=
    fun x c y h1 h2 => (takesT hk h1 h2).1
  have gl := good_last hgood l h g0 hl
  have hdest : ∀ (l : List ((Nat × Nat) × Head)) (a : Head), GoodT s rng a →
      Moves (Takes s (dimOrderTorus s rng)) a l → (last a l).pkt.dest = a.pkt.dest := by
    intro l
    induction l with
    | nil => intro a _ _; rfl
    | cons m l ih =>
      intro a ga hm
      obtain ⟨c, b⟩ := m
      obtain ⟨gb, -, f2, -⟩ := takesT hk ga hm.1
      exact (ih b gb hm.2).trans f2
  have hd := hdest l h g0 hl
  have hlen := length_add (D := fun h => torusDist s.k s.n h.node h.pkt.dest) hgood
    (fun a c b ha hb => torusDist_step hk ha hb) l h g0 hl
  simp only [hd] at hlen
  refine ⟨hlen, by rw [homeT gl, hd], fun hh => ?_⟩
  have hne : (last h l).node ≠ (last h l).pkt.dest := fun e => hh ((homeT gl).mpr e)
  have hle : (last h l).out.vcBegin ≤ (last h l).out.vcEnd := by
    rcases gl.out with ⟨e, -⟩ | ⟨-, _, _, -, -, hlo, hhi⟩
    · exact absurd e hne
    · by_cases e : (last h l).out.ph = 0
      · have := hlo e; omega
      · have := hhi e; omega
  obtain ⟨h', ht⟩ := canT hk gl hh (Nat.le_refl _) hle
  exact ⟨_, h', ht⟩

/-- There is no deadlock on a torus, as long as the channel ranges of two types are equal or disjoint. What is missing, as
in C62: a channel belongs to one packet at a time. -/
theorem C63_no_deadlock_partial {s : Shape} {rng : Nat → Nat × Nat} (hk : 0 < s.k) (hs : Separate rng) :
    NoDeadlock (Enters s (dimOrderTorus s rng)) (Takes s (dimOrderTorus s rng)) (Home s) :=
  noDeadlockT hk hs

/-- A type with one virtual channel, as in the default configuration of five channels for five types,
cannot leave its router on a torus: the assertion on the available channels fails. -/
theorem C63_single_channel_violated (s : Shape) (rng : Nat → Nat × Nat) (u q : Nat) (f : Pkt) (h : Head)
    (hr : (rng f.cls).1 = (rng f.cls).2) (hne : u ≠ f.dest) : ¬ Arrives (dimOrderTorus s rng) u q f h := by
  intro ha
  obtain ⟨-, -, -, -, -, -, -, e⟩ := arrivesT_raw ha
  have := (e hne).2.1
  unfold available at this
  omega

/-- A packet from router 1 to router 15 of a torus of four by four goes down across the edge; it can
go either way around the ring of columns. -/
example : (∃ h, Enters ⟨4, 2⟩ (dimOrderTorus ⟨4, 2⟩ demoRng) h ∧ h.node = 1 ∧ h.pkt.dest = 15 ∧
      h.out.port = 0) ∧
    (∃ h, Enters ⟨4, 2⟩ (dimOrderTorus ⟨4, 2⟩ demoRng) h ∧ h.node = 1 ∧ h.pkt.dest = 15 ∧
      h.out.port = 1) ∧ torusDist 4 2 1 15 = 3 :=
  ⟨⟨⟨1, 4, ⟨15, 1, 2, 0⟩, ⟨0, 2, 2, 0⟩⟩,
    ⟨1, ⟨15, 1, 2, -1⟩, by decide, by decide, rfl, true, ⟨0, 2, 2, 0⟩, by decide, rfl⟩, rfl, rfl, rfl⟩,
   ⟨⟨1, 4, ⟨15, 1, 2, 0⟩, ⟨1, 2, 2, 0⟩⟩,
    ⟨1, ⟨15, 1, 2, -1⟩, by decide, by decide, rfl, false, ⟨1, 2, 2, 0⟩, by decide, rfl⟩, rfl, rfl, rfl⟩,
   by decide⟩

/-! ## C64 networks of different size -/

/-- If all networks of the simulation have the same size, every one of them delivers: the globals left
by the last constructor fit all. -/
theorem C64_same_size_partial {s : Shape} {rng : Nat → Nat × Nat} (hk : 0 < s.k) {nets : List Shape}
    (hs : ∀ net ∈ nets, net = s) {g : Shape} (hg : globals nets = some g) {net : Shape} (hn : net ∈ nets)
    {h : Head} (he : Enters net (dimOrderMesh g rng) h) :
    ∃ l, Moves (Takes net (dimOrderMesh g rng)) h l ∧ Home net (last h l) ∧
      (last h l).node = h.pkt.dest ∧ l.length = manhattan net.k net.n h.node h.pkt.dest := by
  have e1 := hs net hn
  have e2 := hs g (List.mem_of_getLast? hg)
  subst e1 e2
  exact C39_delivers hk he

example : globals [⟨4, 2⟩, ⟨4, 2⟩] = some ⟨4, 2⟩ := rfl

/-- A head that circles in column 0 upwards. -/
def Circles (h : Head) : Prop :=
  h.pkt.dest = 2 ∧ h.out.port = 2 ∧ h.node % 4 = 0 ∧ h.node < 16

/-- Otherwise packets can be lost. With a network of four by four and, built after it, one of two by two,
a packet of the first from router 0 to router 2 never arrives, whatever happens: it goes round a column
for ever. -/
theorem C64_different_sizes_violated :
    ∃ (nets : List Shape) (g net : Shape) (h : Head), globals nets = some g ∧ net ∈ nets ∧
      Enters net (dimOrderMesh g demoRng) h ∧ h.node = 0 ∧ h.pkt.dest = 2 ∧
      ∀ l, Moves (Takes net (dimOrderMesh g demoRng)) h l →
        ¬ Home net (last h l) ∧ (last h l).node ≠ 2 := by
  refine ⟨[⟨4, 2⟩, ⟨2, 2⟩], ⟨2, 2⟩, ⟨4, 2⟩, ⟨0, 4, ⟨2, 1, 2, -1⟩, ⟨2, 2, 3, -1⟩⟩, rfl, by decide,
    ⟨0, ⟨2, 1, 2, -1⟩, by decide, by decide, rfl, false, ⟨2, 2, 3, -1⟩, by decide, rfl⟩, rfl, rfl, ?_⟩
  have key : ∀ (l : List ((Nat × Nat) × Head)) (a : Head), Circles a →
      Moves (Takes ⟨4, 2⟩ (dimOrderMesh ⟨2, 2⟩ demoRng)) a l → Circles (last a l) := by
    intro l
    induction l with
    | nil => intro a ha _; exact ha
    | cons m l ih =>
      intro a ha hm
      obtain ⟨c, b⟩ := m
      refine ih b ?_ hm.2
      obtain ⟨c1, c2, c3, c4⟩ := ha
      obtain ⟨p1, p2, p3, p4, p5⟩ := (takes_iff (s := ⟨4, 2⟩) (by decide)
        (show a.node < 16 from c4)).mp hm.1
      rw [c2] at p5
      obtain ⟨rnd, o, ho, rfl⟩ := p5
      unfold dimOrderMesh at ho
      split at ho
      · cases ho
        have key : ∀ u ∈ [0, 4, 8, 12], dorNextMesh ⟨2, 2⟩ (nbr ⟨4, 2⟩ u 2) 2 false = 2 ∧
            nbr ⟨4, 2⟩ u 2 % 4 = 0 ∧ nbr ⟨4, 2⟩ u 2 < 16 := by decide
        have : a.node = 0 ∨ a.node = 4 ∨ a.node = 8 ∨ a.node = 12 := by omega
        have hk := key a.node (by simpa using this)
        exact ⟨c1, by simp only [c1]; exact hk.1, hk.2.1, hk.2.2⟩
      · cases ho
  intro l hl
  obtain ⟨-, k2, k3, -⟩ := key l _ ⟨rfl, rfl, rfl, by decide⟩ hl
  refine ⟨?_, ?_⟩
  · unfold Home; rw [k2]; decide
  · intro e; rw [e] at k3; exact absurd k3 (by decide)

end RadSim.Routing
