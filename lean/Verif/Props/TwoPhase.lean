import Verif.Lemmas.TwoPhase

/-!
# C145: two-phase routing on a mesh

`valiant_mesh` and `romm_mesh` send a packet first to an intermediate router and then to its destination, each time in
dimension order. The first draws any router, the second one between source and destination.
-/

namespace RadSim.Routing

open Worms Grid

variable {s : Shape} {rng : Nat → Nat × Nat}

/-- Moves keep destination, class and intermediate router, and every head short of the exit has a channel to take. -/
theorem moves2 (hk : 0 < s.k) : ∀ (l : List ((Nat × Nat) × Head2)) (h : Head2), Good2 s rng h → Moves (Takes2 s rng) h l →
    Good2 s rng (last h l) ∧ (last h l).pkt.dest = h.pkt.dest ∧ (last h l).pkt.cls = h.pkt.cls ∧
      (last h l).intm = h.intm ∧
      (h.out.ph = 0 → (last h l).out.ph ≠ 0 → ∃ x ∈ l, x.2.node = h.intm)
  | [], _, hg, _ => ⟨hg, rfl, rfl, rfl, fun h h' => absurd h h'⟩
  | (c, b) :: l, h, hg, hm => by
    obtain ⟨g, e1, e2, e3, e4, e5⟩ := takes2 hk hg hm.1
    obtain ⟨i1, i2, i3, i4, i5⟩ := moves2 hk l b g hm.2
    refine ⟨i1, i2.trans e2, i3.trans e3, i4.trans e4, fun h0 h1 => ?_⟩
    by_cases hx : b.node = h.intm
    · exact ⟨(c, b), List.mem_cons_self .., hx⟩
    · obtain ⟨x, hx', e⟩ := i5 (e5.2 ⟨h0, hx⟩) h1
      exact ⟨x, List.mem_cons_of_mem _ hx', e.trans e4⟩

/-- C145. With at least two virtual channels per class, a packet of a two-phase routing function that has entered can
always go on, whatever channels it is given, until its head is at the exit. There it is at its destination, it has been at
its intermediate router, and it has gone a shortest way to the intermediate router and a shortest way from there. This
holds for both ways to draw the intermediate router. -/
theorem C145_way {draw : Nat → Nat → Nat → Prop} (hk : 0 < s.k) (hd : draw = valiantDraw s ∨ draw = rommDraw s)
    {h : Head2} (he : Enters2 s rng draw h) (hv : (rng h.pkt.cls).1 < (rng h.pkt.cls).2) {l : List ((Nat × Nat) × Head2)}
    (hl : Moves (Takes2 s rng) h l) :
    h.intm < s.nodes ∧
    l.length ≤ manhattan s.k s.n h.node h.intm + manhattan s.k s.n h.intm h.pkt.dest ∧
    (Home2 s (last h l) ↔ l.length = manhattan s.k s.n h.node h.intm + manhattan s.k s.n h.intm h.pkt.dest) ∧
    (Home2 s (last h l) → (last h l).node = h.pkt.dest ∧ (h.node = h.intm ∨ ∃ x ∈ l, x.2.node = h.intm)) ∧
    (¬ Home2 s (last h l) → ∃ c h', Takes2 s rng (last h l) c h') := by
  have hlt : ∀ u v w, u < s.nodes → v < s.nodes → draw u v w → w < s.nodes := by
    intro u v w hu _ hw
    rcases hd with rfl | rfl
    · obtain ⟨x, rfl⟩ := hw
      have := Nat.mod_lt x (show 0 < s.nodes - 1 + 1 by omega)
      omega
    · exact (romm_box hk hw).2
  obtain ⟨g, -, hp⟩ := enters2 hlt he
  obtain ⟨i1, i2, i3, i4, i5⟩ := moves2 hk l h g hl
  have hlen := length_add (takes := Takes2 s rng) (Good := Good2 s rng) (D := togo s) (fun a c b ha hb => (takes2 hk ha hb).1) (fun a c b ha hb => togo_step hk ha hb)
    l h g hl
  have h0 : togo s h = manhattan s.k s.n h.node h.intm + manhattan s.k s.n h.intm h.pkt.dest := by
    unfold togo
    split
    · rfl
    · rename_i p
      have : h.node = h.intm := Classical.byContradiction fun h => p (hp.2 h)
      rw [this]
      have : manhattan s.k s.n h.intm h.intm = 0 := by unfold manhattan; simp [gap]
      omega
  have ha : 0 < available (rng h.pkt.cls) := by unfold available; omega
  have can : ¬ Home2 s (last h l) → ∃ c h', Takes2 s rng (last h l) c h' := fun hh => by
    have hle : (last h l).out.vcBegin ≤ (last h l).out.vcEnd := by
      by_cases hx : (last h l).node = (last h l).pkt.dest
      · obtain ⟨a, b⟩ := i1.at_dest hx
        rw [a, b]; exact i1.ne
      · obtain ⟨a, b, c⟩ := i1.apart hx
        have := available_le a
        rcases i1.phase with ⟨p, -⟩ | p
        · have := b p; omega
        · have := c p; omega
    obtain ⟨h', ht⟩ := can2 hk i1 hh (by rw [i3]; exact ha) (Nat.le_refl _) hle
    exact ⟨_, h', ht⟩
  refine ⟨g.intm, by omega, ⟨fun hh => ?_, fun e => ?_⟩, fun hh => ?_, can⟩
  · obtain ⟨p, e⟩ := (home2 hk i1).1 hh
    have : togo s (last h l) = 0 := by
      unfold togo; rw [if_neg (by rw [p]; decide), e]; unfold manhattan; simp [gap]
    omega
  · refine Classical.byContradiction fun hh => ?_
    obtain ⟨c, h', ht⟩ := can hh
    have := togo_step hk i1 ht
    omega
  · obtain ⟨p, e⟩ := (home2 hk i1).1 hh
    refine ⟨e.trans i2, ?_⟩
    by_cases hx : h.node = h.intm
    · exact .inl hx
    · exact .inr (i5 (hp.2 hx) (by rw [p]; decide))

/-- C145. `romm_mesh` goes a shortest way, in the box of source and destination: it is minimal. -/
theorem C145_romm_minimal (hk : 0 < s.k) {h : Head2} (he : Enters2 s rng (rommDraw s) h)
    (hv : (rng h.pkt.cls).1 < (rng h.pkt.cls).2) {l : List ((Nat × Nat) × Head2)} (hl : Moves (Takes2 s rng) h l)
    (hh : Home2 s (last h l)) :
    l.length = manhattan s.k s.n h.node h.pkt.dest ∧ InBox s.k s.n h.node h.pkt.dest h.intm := by
  obtain ⟨-, -, e, -⟩ := C145_way hk (.inr rfl) he hv hl
  have hb := (romm_box hk (enters2 (fun _ _ _ _ _ h => (romm_box hk h).2) he).2.1).1
  rw [e.1 hh, box_manhattan hb]
  exact ⟨rfl, hb⟩

/-- C145. `romm_mesh` has no deadlock, for every number of virtual channels, when the ranges of two classes are equal or
disjoint. Missing, as in C62: here a channel belongs to one packet at a time. -/
theorem C145_romm_no_deadlock_partial (hk : 0 < s.k) (hs : Separate rng) :
    NoDeadlock (Enters2 s rng (rommDraw s)) (Takes2 s rng) (Home2 s) := noDeadlockR hk hs

/-! ## The deadlock of `valiant_mesh` -/

namespace Valiant

/-- A line of five routers. -/
abbrev line : Shape := ⟨5, 1⟩

/-- One class with two virtual channels, the least the assertion asks for. -/
abbrev two (_ : Nat) : Nat × Nat := (0, 1)

/-- From 2 over 3 to 1, at 3. -/
def p0 : Packet Head2 (Nat × Nat) :=
  ⟨⟨2, ⟨1, 0, 0, 0⟩, 3, ⟨0, 0, 0, 0⟩⟩, [((4, 0), ⟨3, ⟨1, 0, 0, 1⟩, 3, ⟨1, 1, 1, 1⟩⟩)], 0⟩

/-- From 4 over 1 to 3, at 2: it has passed its destination, where it was given channel 1 in the first phase. -/
def p1 : Packet Head2 (Nat × Nat) :=
  ⟨⟨4, ⟨3, 0, 0, 0⟩, 1, ⟨1, 0, 0, 0⟩⟩,
    [((9, 0), ⟨3, ⟨3, 0, 0, 0⟩, 1, ⟨1, 0, 1, 0⟩⟩), ((7, 1), ⟨2, ⟨3, 0, 1, 0⟩, 1, ⟨1, 0, 0, 0⟩⟩)], 1⟩

/-- From 2 over 1 to 3, at 1. -/
def p2 : Packet Head2 (Nat × Nat) :=
  ⟨⟨2, ⟨3, 0, 0, 0⟩, 1, ⟨1, 0, 0, 0⟩⟩, [((5, 0), ⟨1, ⟨3, 0, 0, 1⟩, 1, ⟨0, 1, 1, 1⟩⟩)], 0⟩

/-- From 0 over 3 to 1, at 2: it has passed its destination. -/
def p3 : Packet Head2 (Nat × Nat) :=
  ⟨⟨0, ⟨1, 0, 0, 0⟩, 3, ⟨0, 0, 0, 0⟩⟩,
    [((0, 0), ⟨1, ⟨1, 0, 0, 0⟩, 3, ⟨0, 0, 1, 0⟩⟩), ((2, 1), ⟨2, ⟨1, 0, 1, 0⟩, 3, ⟨0, 0, 0, 0⟩⟩)], 1⟩

theorem arr {s : Shape} {rng : Nat → Nat × Nat} {u q : Nat} {f : Pkt} {i d : Nat} {h : Head2}
    (hh : twoPhaseMesh s rng u f i q d = some (h.out, h.intm) ∧ h.node = u ∧ h.pkt = { f with ph := h.out.ph }) :
    Arrives2 s rng u q f i d h := by
  obtain ⟨h1, h2, h3⟩ := hh
  refine ⟨_, _, h1, ?_⟩
  cases h
  simp only at h2 h3 ⊢
  rw [h2, h3]

theorem valid0 : p0.Valid (Enters2 line two (valiantDraw line)) (Takes2 line two) :=
  ⟨⟨2, ⟨1, 0, 0, 0⟩, 0, 3, by decide, by decide, ⟨3, rfl⟩, arr (by decide)⟩,
   ⟨by decide, by decide, by decide, by decide, 3, 1, by decide, arr (by decide)⟩, trivial⟩

theorem valid1 : p1.Valid (Enters2 line two (valiantDraw line)) (Takes2 line two) :=
  ⟨⟨4, ⟨3, 0, 0, 0⟩, 0, 1, by decide, by decide, ⟨1, rfl⟩, arr (by decide)⟩,
   ⟨by decide, by decide, by decide, by decide, 3, 0, by decide, arr (by decide)⟩,
   ⟨by decide, by decide, by decide, by decide, 2, 0, by decide, arr (by decide)⟩, trivial⟩

theorem valid2 : p2.Valid (Enters2 line two (valiantDraw line)) (Takes2 line two) :=
  ⟨⟨2, ⟨3, 0, 0, 0⟩, 0, 1, by decide, by decide, ⟨1, rfl⟩, arr (by decide)⟩,
   ⟨by decide, by decide, by decide, by decide, 1, 0, by decide, arr (by decide)⟩, trivial⟩

theorem valid3 : p3.Valid (Enters2 line two (valiantDraw line)) (Takes2 line two) :=
  ⟨⟨0, ⟨1, 0, 0, 0⟩, 0, 3, by decide, by decide, ⟨3, rfl⟩, arr (by decide)⟩,
   ⟨by decide, by decide, by decide, by decide, 1, 1, by decide, arr (by decide)⟩,
   ⟨by decide, by decide, by decide, by decide, 2, 1, by decide, arr (by decide)⟩, trivial⟩

/-- The only channel the head wants. -/
theorem only {h h' : Head2} {c x : Nat × Nat} (ht : Takes2 line two h c h')
    (hx : outputChannel line h.node h.out.port = x.1 ∧ h.out.vcBegin = x.2 ∧ h.out.vcEnd = x.2) : c = x := by
  obtain ⟨-, h2, h3, h4, -⟩ := ht
  exact Prod.ext (h2.trans hx.1) (by omega)

end Valiant

open Valiant in
/-- C145, where it fails: on a line of five routers with two virtual channels, four packets of `valiant_mesh` wait for each
other for ever. Two of them have passed their destination on the way to the intermediate router, and there the routing
function gives them the channels of the second phase too. -/
theorem C145_valiant_deadlock_violated :
    ¬ NoDeadlock (Enters2 line two (valiantDraw line)) (Takes2 line two) (Home2 line) := by
  intro h
  obtain ⟨p, hp, hm⟩ := h [p0, p1, p2, p3] (by simp) (by
    intro p hp
    simp only [List.mem_cons, List.not_mem_nil, or_false] at hp
    rcases hp with rfl | rfl | rfl | rfl
    · exact valid0
    · exact valid1
    · exact valid2
    · exact valid3)
  simp only [List.mem_cons, List.not_mem_nil, or_false] at hp
  rcases hp with rfl | rfl | rfl | rfl
  · rcases hm with h | ⟨c, h', ht, hq⟩
    · exact absurd h (by unfold Home2; decide)
    · exact hq p1 (by simp) (by rw [only (x := (7, 1)) ht (by decide)]; decide)
  · rcases hm with h | ⟨c, h', ht, hq⟩
    · exact absurd h (by unfold Home2; decide)
    · exact hq p2 (by simp) (by rw [only (x := (5, 0)) ht (by decide)]; decide)
  · rcases hm with h | ⟨c, h', ht, hq⟩
    · exact absurd h (by unfold Home2; decide)
    · exact hq p3 (by simp) (by rw [only (x := (2, 1)) ht (by decide)]; decide)
  · rcases hm with h | ⟨c, h', ht, hq⟩
    · exact absurd h (by unfold Home2; decide)
    · exact hq p0 (by simp) (by rw [only (x := (4, 0)) ht (by decide)]; decide)

/-- A packet of `romm_mesh` from router 0 to router 8 of a mesh of three by three over router 4 goes four links. -/
example : ∃ h l, Enters2 ⟨3, 2⟩ Valiant.two (rommDraw ⟨3, 2⟩) h ∧ Moves (Takes2 ⟨3, 2⟩ Valiant.two) h l ∧
    h.intm = 4 ∧ Home2 ⟨3, 2⟩ (last h l) ∧ l.map (·.2.node) = [1, 4, 5, 8] :=
  ⟨⟨0, ⟨8, 0, 1, 0⟩, 4, ⟨0, 0, 0, 0⟩⟩,
   [((0, 0), ⟨1, ⟨8, 0, 0, 0⟩, 4, ⟨2, 0, 0, 0⟩⟩), ((6, 0), ⟨4, ⟨8, 0, 0, 1⟩, 4, ⟨0, 1, 1, 1⟩⟩),
    ((16, 1), ⟨5, ⟨8, 0, 1, 1⟩, 4, ⟨2, 1, 1, 1⟩⟩), ((22, 1), ⟨8, ⟨8, 0, 1, 1⟩, 4, ⟨4, 0, 1, 1⟩⟩)],
   ⟨0, ⟨8, 0, 1, -1⟩, 0, 4, by decide, by decide, ⟨fun _ => 1, by decide⟩, Valiant.arr (by decide)⟩,
   ⟨⟨by decide, by decide, by decide, by decide, 1, 1, by decide, Valiant.arr (by decide)⟩,
    ⟨by decide, by decide, by decide, by decide, 4, 3, by decide, Valiant.arr (by decide)⟩,
    ⟨by decide, by decide, by decide, by decide, 5, 1, by decide, Valiant.arr (by decide)⟩,
    ⟨by decide, by decide, by decide, by decide, 8, 3, by decide, Valiant.arr (by decide)⟩, trivial⟩,
   rfl, rfl, rfl⟩

/-- The packet of the deadlock from router 4 over router 1 to router 3 would go five links. -/
example : manhattan 5 1 4 1 + manhattan 5 1 1 3 = 5 := by decide

example := C145_way (s := Valiant.line) (rng := Valiant.two) (by decide) (.inl rfl) Valiant.valid1.1 (by decide) Valiant.valid1.2

example : Separate Valiant.two := fun _ _ => .inl rfl

end RadSim.Routing
