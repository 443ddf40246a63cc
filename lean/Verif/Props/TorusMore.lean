import Verif.Lemmas.TorusBal
import Verif.Lemmas.TorusNi
import Verif.Lemmas.TorusValiant
import Verif.Props.Routing

/-!
# C147: further routing functions of a torus

`dim_order_bal_torus` with two datelines, `dim_order_ni_torus` with virtual channels by destination, and the two functions
with a random intermediate router, which read a variable without a value.
-/

namespace RadSim.Routing

open Worms Grid

variable {s : Shape} {rng : Nat → Nat × Nat}

/-! ## Balanced -/

/-- The direction and the partition are never both drawn: every result with two draws is one with the same value for both. -/
theorem C147_one_draw (hk : 0 < s.k) {u v q : Nat} (hu : u < s.nodes) (hv : v < s.nodes) (ph : Int) (r r' : Bool) :
    ∃ rnd, dorNextBal s u v q ph rnd = dorNextBal2 s u v q ph r r' := by
  unfold dorNextBal
  rcases torusLoop_spec hk hu hv with ⟨-, e⟩ | ⟨-, d, hd, e⟩
  · refine ⟨r, ?_⟩
    unfold dorNextBal2
    revert e
    rcases torusLoop s.k s.n 0 u v with ⟨a, b, c⟩
    dsimp only
    intro e
    rw [if_neg (show ¬ a < s.n by omega), if_neg (show ¬ a < s.n by omega)]
  · have hc := coord_lt hk u d
    have hc' := coord_lt hk v d
    have hne := hd.ne
    unfold dorNextBal2
    rw [e]
    dsimp only
    rw [if_pos hd.dim]
    have e1 : u / s.k ^ d % s.k = coord s.k u d := rfl
    have e2 : v / s.k ^ d % s.k = coord s.k v d := rfl
    rw [e1, e2]
    generalize coord s.k u d = c at *
    generalize coord s.k v d = e at *
    have hdelta : (e + s.k - c) % s.k = if c < e then e - c else e + s.k - c := by
      split
      · have : e + s.k - c = (e - c) + s.k := by omega
        rw [this, Nat.add_mod_right, Nat.mod_eq_of_lt (by omega)]
      · rw [Nat.mod_eq_of_lt (by omega)]
    rw [hdelta]
    by_cases hq : q / 2 ≠ d
    · simp only [if_pos hq, if_pos hd.dim]
      by_cases h2 : 2 * (if c < e then e - c else e + s.k - c) = s.k
      · refine ⟨r, ?_⟩
        have hn : ¬ 2 * (if c < e then e - c else e + s.k - c) < s.k := by omega
        simp only [h2, decide_true, Bool.true_and, Nat.lt_irrefl, decide_false, Bool.false_or]
        congr 1
        cases r
        all_goals simp only [Bool.false_and, Bool.not_false, Bool.true_and, Bool.false_or, Bool.not_true, Bool.or_false,
          Bool.and_eq_true, decide_eq_true_eq]
        all_goals split
        · rfl
        · rw [if_pos (by split at h2 <;> omega), if_pos (by split at h2 <;> omega)]
        · rfl
        · rw [if_pos (by split at h2 <;> omega), if_pos (by split at h2 <;> omega)]
      · exact ⟨r', by simp only [h2, decide_false, Bool.false_and, Bool.or_false]⟩
    · simp only [if_neg hq]
      exact ⟨r, if_pos hd.dim⟩

/-- With `dim_order_bal_torus` every move brings a packet one link nearer to its destination by the shortest way round, the
packet leaves the network exactly at its destination, and short of it there is always a channel to take. -/
theorem C147_balanced_minimal (hk : 0 < s.k) {h : Head} (he : Enters s (dimOrderBalTorus s rng) h)
    (l : List ((Nat × Nat) × Head)) (hl : Moves (Takes s (dimOrderBalTorus s rng)) h l) :
    l.length + torusDist s.k s.n (last h l).node h.pkt.dest = torusDist s.k s.n h.node h.pkt.dest ∧
    (Home s (last h l) ↔ (last h l).node = h.pkt.dest) ∧
    (¬ Home s (last h l) → ∃ c h', Takes s (dimOrderBalTorus s rng) (last h l) c h') := by
  have g0 := Bal.entersT hk he
  have hgood : ∀ x c y, Bal.GoodT s rng x → Takes s (dimOrderBalTorus s rng) x c y → Bal.GoodT s rng y :=
    fun x c y h1 h2 => (Bal.takesT hk h1 h2).1
  have gl := good_last hgood l h g0 hl
  have hdest : ∀ (l : List ((Nat × Nat) × Head)) (a : Head), Bal.GoodT s rng a →
      Moves (Takes s (dimOrderBalTorus s rng)) a l → (last a l).pkt.dest = a.pkt.dest := by
    intro l
    induction l with
    | nil => intro a _ _; rfl
    | cons m l ih =>
      intro a ga hm
      obtain ⟨c, b⟩ := m
      obtain ⟨gb, -, f2, -⟩ := Bal.takesT hk ga hm.1
      exact (ih b gb hm.2).trans f2
  have hd := hdest l h g0 hl
  have hlen := length_add (D := fun h => torusDist s.k s.n h.node h.pkt.dest) hgood
    (fun a c b ha hb => Bal.torusDist_step hk ha hb) l h g0 hl
  simp only [hd] at hlen
  refine ⟨hlen, by rw [Bal.homeT gl, hd], fun hh => ?_⟩
  have hne : (last h l).node ≠ (last h l).pkt.dest := fun e => hh ((Bal.homeT gl).mpr e)
  have hle : (last h l).out.vcBegin ≤ (last h l).out.vcEnd := by
    rcases gl.out with ⟨e, -⟩ | ⟨-, _, _, -, -, hlo, hhi⟩
    · exact absurd e hne
    · by_cases e : (last h l).out.ph = 0
      · have := hlo e; omega
      · have := hhi e; omega
  obtain ⟨h', ht⟩ := Bal.canT hk gl hh (Nat.le_refl _) hle
  exact ⟨_, h', ht⟩

/-- There is no deadlock with `dim_order_bal_torus`, as long as the channel ranges of two types are equal or disjoint. What
is missing, as in C62: a channel belongs to one packet at a time. -/
theorem C147_balanced_no_deadlock_partial (hk : 0 < s.k) (hs : Separate rng) :
    NoDeadlock (Enters s (dimOrderBalTorus s rng)) (Takes s (dimOrderBalTorus s rng)) (Home s) :=
  Bal.noDeadlockT hk hs

/-- A type with one virtual channel cannot leave its router with `dim_order_bal_torus`: an assertion fails. -/
theorem C147_balanced_single_channel_violated {u q : Nat} {f : Pkt} {h : Head} (hr : (rng f.cls).1 = (rng f.cls).2)
    (hne : u ≠ f.dest) : ¬ Arrives (dimOrderBalTorus s rng) u q f h := by
  intro ha
  obtain ⟨-, -, -, -, -, -, -, e⟩ := Bal.arrivesT_raw ha
  have := (e hne).2.1
  unfold available at this
  omega

/-- A packet from router 1 to router 15 of a torus of four by four: to the right it crosses the middle and takes the lower
channel, to the left it crosses the edge and takes the upper one. -/
example : (∃ h, Enters ⟨4, 2⟩ (dimOrderBalTorus ⟨4, 2⟩ demoRng) h ∧ h.node = 1 ∧ h.pkt.dest = 15 ∧ h.out.port = 0 ∧
      h.out.vcEnd = 2) ∧
    (∃ h, Enters ⟨4, 2⟩ (dimOrderBalTorus ⟨4, 2⟩ demoRng) h ∧ h.node = 1 ∧ h.pkt.dest = 15 ∧ h.out.port = 1 ∧
      h.out.vcBegin = 3) ∧ torusDist 4 2 1 15 = 3 :=
  ⟨⟨⟨1, 4, ⟨15, 1, 2, 0⟩, ⟨0, 2, 2, 0⟩⟩,
    ⟨1, ⟨15, 1, 2, -1⟩, by decide, by decide, rfl, true, ⟨0, 2, 2, 0⟩, by decide, rfl⟩, rfl, rfl, rfl, rfl⟩,
   ⟨⟨1, 4, ⟨15, 1, 2, 1⟩, ⟨1, 3, 3, 1⟩⟩,
    ⟨1, ⟨15, 1, 2, -1⟩, by decide, by decide, rfl, false, ⟨1, 3, 3, 1⟩, by decide, rfl⟩, rfl, rfl, rfl, rfl⟩,
   by decide⟩

example := C147_balanced_no_deadlock_partial (s := ⟨4, 2⟩) (by decide) demo_separate

example := C147_one_draw (s := ⟨4, 2⟩) (u := 1) (v := 15) (q := 4) (by decide) (by decide) (by decide) (-1) true false

example := C147_balanced_single_channel_violated (s := ⟨4, 2⟩) (rng := fun c => (c, c)) (u := 1) (q := 4)
  (f := ⟨15, 1, 1, -1⟩) (h := ⟨1, 4, ⟨15, 1, 1, 0⟩, ⟨0, 1, 1, 0⟩⟩) rfl (by decide)

/-! ## By destination -/

/-- With `dim_order_ni_torus` every move brings a packet one link nearer to its destination by the shortest way round, the
packet leaves the network exactly at its destination, and short of it there is always a channel to take. -/
theorem C147_by_destination_minimal (hk : 0 < s.k) {h : Head} (he : Enters s (dimOrderNiTorus s rng) h)
    (l : List ((Nat × Nat) × Head)) (hl : Moves (Takes s (dimOrderNiTorus s rng)) h l) :
    l.length + torusDist s.k s.n (last h l).node h.pkt.dest = torusDist s.k s.n h.node h.pkt.dest ∧
    (Home s (last h l) ↔ (last h l).node = h.pkt.dest) ∧
    (¬ Home s (last h l) → ∃ c h', Takes s (dimOrderNiTorus s rng) (last h l) c h') := by
  have g0 := NiT.enters hk he
  have gl := good_last (Good := NiT.Good s rng h.pkt.dest) (fun x c y h1 h2 => (NiT.takes hk h1 h2).1) l h g0 hl
  refine ⟨length_add (takes := Takes s (dimOrderNiTorus s rng)) (Good := NiT.Good s rng h.pkt.dest)
    (D := fun x => torusDist s.k s.n x.node h.pkt.dest) (fun x c y h1 h2 => (NiT.takes hk h1 h2).1)
    (fun x c y h1 h2 => (NiT.takes hk h1 h2).2) l h g0 hl, NiT.home_iff gl, fun hh => ?_⟩
  have hne : (last h l).node ≠ h.pkt.dest := fun e => hh (gl.home e)
  obtain ⟨h', ht⟩ := NiT.can hk gl hh (Nat.le_refl _) (gl.some hne).1
  exact ⟨_, h', ht⟩

/-- There is no deadlock with `dim_order_ni_torus`, although it has no dateline, as long as the channel ranges of two types
are equal or disjoint. What is missing, as in C62: a channel belongs to one packet at a time. -/
theorem C147_by_destination_no_deadlock_partial (hk : 0 < s.k) (hs : Separate rng) :
    NoDeadlock (Enters s (dimOrderNiTorus s rng)) (Takes s (dimOrderNiTorus s rng)) (Home s) :=
  NiT.noDeadlock hk hs

/-- With `dim_order_ni_torus`, two packets that have ever taken the same virtual channel of the same link between routers
have the same destination. -/
theorem C147_no_interference (hk : 0 < s.k) (hs : Separate rng) {p q : Packet Head (Nat × Nat)}
    (hp : p.Valid (Enters s (dimOrderNiTorus s rng)) (Takes s (dimOrderNiTorus s rng)))
    (hq : q.Valid (Enters s (dimOrderNiTorus s rng)) (Takes s (dimOrderNiTorus s rng))) {c : Nat × Nat}
    (h1 : c ∈ p.moves.map Prod.fst) (h2 : c ∈ q.moves.map Prod.fst) : p.src.pkt.dest = q.src.pkt.dest := by
  have key : ∀ p : Packet Head (Nat × Nat), p.Valid (Enters s (dimOrderNiTorus s rng)) (Takes s (dimOrderNiTorus s rng)) →
      c ∈ p.moves.map Prod.fst → ∃ t t', NiT.Good s rng p.src.pkt.dest t ∧ Takes s (dimOrderNiTorus s rng) t c t' := by
    intro p hp h
    obtain ⟨t, t', a, b, -⟩ := mem_moves (r := fun _ => 0) (Good := NiT.Good s rng p.src.pkt.dest)
      (fun _ _ _ hg ht => (NiT.takes hk hg ht).1) (fun _ _ _ _ _ => Nat.le_refl _) c p.moves p.src (NiT.enters hk hp.1) hp.2 h
    exact ⟨t, t', a, b⟩
  obtain ⟨t, t', g1, k1⟩ := key p hp h1
  obtain ⟨v, v', g2, k2⟩ := key q hq h2
  exact (NiT.same hk hs g1 g2 k1 k2).2

/-- With fewer virtual channels in a class than routers, a packet cannot leave its router: the assertion fails. -/
theorem C147_few_channels_violated {u q : Nat} {f : Pkt} {h : Head} (hn : (rng f.cls).2 + 1 - (rng f.cls).1 < s.nodes)
    (hne : u ≠ f.dest) : ¬ Arrives (dimOrderNiTorus s rng) u q f h := by
  intro ha
  obtain ⟨-, -, -, -, -, e⟩ := NiT.raw ha
  have := (e hne).2.1
  rw [Nat.div_eq_of_lt hn] at this
  omega

/-- Two packets to router 3 of a ring of five, from 0 and from 4, both on channel 3 of the link from 4 to 3. -/
example : ∃ p q : Packet Head (Nat × Nat),
    p.Valid (Enters ⟨5, 1⟩ (dimOrderNiTorus ⟨5, 1⟩ fun _ => (0, 4))) (Takes ⟨5, 1⟩ (dimOrderNiTorus ⟨5, 1⟩ fun _ => (0, 4))) ∧
    q.Valid (Enters ⟨5, 1⟩ (dimOrderNiTorus ⟨5, 1⟩ fun _ => (0, 4))) (Takes ⟨5, 1⟩ (dimOrderNiTorus ⟨5, 1⟩ fun _ => (0, 4))) ∧
    (9, 3) ∈ p.moves.map Prod.fst ∧ (9, 3) ∈ q.moves.map Prod.fst ∧ p.src.node ≠ q.src.node :=
  ⟨⟨⟨0, 2, ⟨3, 0, 1, -1⟩, ⟨1, 3, 3, -1⟩⟩, [((1, 3), ⟨4, 0, ⟨3, 0, 3, -1⟩, ⟨1, 3, 3, -1⟩⟩),
      ((9, 3), ⟨3, 0, ⟨3, 0, 3, -1⟩, ⟨2, 0, 4, -1⟩⟩)], 0⟩,
    ⟨⟨4, 2, ⟨3, 0, 2, -1⟩, ⟨1, 3, 3, -1⟩⟩, [((9, 3), ⟨3, 0, ⟨3, 0, 3, -1⟩, ⟨2, 0, 4, -1⟩⟩)], 0⟩,
    ⟨⟨0, ⟨3, 0, 1, -1⟩, by decide, by decide, rfl, false, ⟨1, 3, 3, -1⟩, by decide, rfl⟩,
      ⟨by decide, by decide, by decide, by decide, 4, 0, by decide, false, ⟨1, 3, 3, -1⟩, by decide, rfl⟩,
      ⟨by decide, by decide, by decide, by decide, 3, 0, by decide, false, ⟨2, 0, 4, -1⟩, by decide, rfl⟩, trivial⟩,
    ⟨⟨4, ⟨3, 0, 2, -1⟩, by decide, by decide, rfl, false, ⟨1, 3, 3, -1⟩, by decide, rfl⟩,
      ⟨by decide, by decide, by decide, by decide, 3, 0, by decide, false, ⟨2, 0, 4, -1⟩, by decide, rfl⟩, trivial⟩,
    by decide, by decide, by decide⟩

example := C147_few_channels_violated (s := ⟨4, 2⟩) (rng := fun _ => (0, 14)) (u := 0) (q := 4) (f := ⟨5, 0, 0, -1⟩)
  (h := ⟨0, 4, ⟨5, 0, 0, -1⟩, ⟨0, 0, 0, -1⟩⟩) (by decide) (by decide)

/-! ## With an intermediate router -/

/-- Where it fails: with `valiant_torus` no packet ever leaves the network at its destination, and none takes more than
`2 * n - 1` links, without reading the ring partition before it has a value: the partition is written only on turning into a
dimension, and read on every call. -/
theorem C147_valiant_undefined_violated (hk : 0 < s.k) {h : Head2} (he : EntersV s (valiantTorus s rng) h)
    (l : List ((Nat × Nat) × Head2)) (hl : Moves (TakesV s (valiantTorus s rng)) h l) :
    l.length < 2 * s.n ∧ ¬ Home2 s (last h l) := by
  obtain ⟨ph, d, g⟩ := Val.enters hk he
  refine ⟨by have := Val.length hk l ph d h g hl; omega, ?_⟩
  have hport : ∀ (l : List ((Nat × Nat) × Head2)) (h : Head2), h.out.port < 2 * s.n →
      Moves (TakesV s (valiantTorus s rng)) h l → (last h l).out.port < 2 * s.n := by
    intro l
    induction l with
    | nil => intro h h1 _; exact h1
    | cons m l ih =>
      intro h _ hm
      obtain ⟨-, -, -, -, v, q, -, ha⟩ := hm.1
      exact ih m.2 (Val.valiant_port ha) hm.2
  obtain ⟨_, _, _, _, -, -, -, -, ha⟩ := he
  have := hport l h (Val.valiant_port ha) hl
  unfold Home2; omega

/-- Where it fails: with `valiant_ni_torus` too, no packet ever leaves the network without this. -/
theorem C147_valiant_ni_undefined_violated {h : Head2} (he : EntersV s (valiantNiTorus s rng) h)
    (l : List ((Nat × Nat) × Head2)) (hl : Moves (TakesV s (valiantNiTorus s rng)) h l) : ¬ Home2 s (last h l) := by
  have hport : ∀ (l : List ((Nat × Nat) × Head2)) (h : Head2), h.out.port < 2 * s.n →
      Moves (TakesV s (valiantNiTorus s rng)) h l → (last h l).out.port < 2 * s.n := by
    intro l
    induction l with
    | nil => intro h h1 _; exact h1
    | cons m l ih =>
      intro h _ hm
      obtain ⟨-, -, -, -, v, q, -, ha⟩ := hm.1
      exact ih m.2 (Val.valiantNi_port ha) hm.2
  obtain ⟨_, _, _, _, -, -, -, -, ha⟩ := he
  have := hport l h (Val.valiantNi_port ha) hl
  unfold Home2; omega

/-- A packet from router 0 to router 2 of a ring of four, with intermediate router 1: it comes to router 1 and turns into the
second phase; at its destination the partition is read without a value. -/
example : ∃ h l, EntersV ⟨4, 1⟩ (valiantTorus ⟨4, 1⟩ fun _ => (0, 3)) h ∧
    Moves (TakesV ⟨4, 1⟩ (valiantTorus ⟨4, 1⟩ fun _ => (0, 3))) h l ∧ l.length = 1 ∧ (last h l).node = 1 ∧ (last h l).out.ph = 2 :=
  ⟨⟨0, ⟨2, 0, 0, 0⟩, 1, ⟨0, 0, 0, 0⟩⟩, [((0, 0), ⟨1, ⟨2, 0, 0, 2⟩, 1, ⟨0, 1, 1, 2⟩⟩)],
    ⟨0, ⟨2, 0, 0, -1⟩, 0, 1, by decide, by decide, rfl, ⟨1, by decide⟩, false, ⟨0, 0, 0, 0⟩, 1, by rfl, rfl⟩,
    ⟨⟨by decide, by decide, by decide, by decide, 1, 1, by decide, false, ⟨0, 1, 1, 2⟩, 1, by rfl, rfl⟩, trivial⟩,
    rfl, rfl, rfl⟩

example : valiantTorus ⟨4, 1⟩ (fun _ => (0, 3)) 2 ⟨2, 0, 1, 2⟩ 1 1 0 false = .error .uninitialised := rfl

/-- A packet that has to go two links in the same direction fails on the way. -/
example : valiantTorus ⟨5, 1⟩ (fun _ => (0, 3)) 1 ⟨3, 0, 0, 0⟩ 2 1 0 false = .error .uninitialised := rfl

/-- A packet from router 0 to router 1 of a ring of three with twelve channels. -/
example : ∃ h, EntersV ⟨3, 1⟩ (valiantNiTorus ⟨3, 1⟩ fun _ => (0, 11)) h ∧ h.out = ⟨0, 4, 4, 0⟩ :=
  ⟨⟨0, ⟨1, 0, 0, 0⟩, 2, ⟨0, 4, 4, 0⟩⟩,
    ⟨0, ⟨1, 0, 0, -1⟩, 0, 2, by decide, by decide, rfl, ⟨2, by decide⟩, false, ⟨0, 4, 4, 0⟩, 2, by rfl, rfl⟩, rfl⟩

end RadSim.Routing
