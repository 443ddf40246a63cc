import Verif.Lemmas.AdaptTorus

/-!
# C152: adaptive routing of a torus

`min_adapt_torus` offers a virtual channel for minimal adaptive routing and falls back on dimension order with two escape
channels.
-/

namespace RadSim.Routing

open Router (Hop)
open Worms Grid AdaptT

variable {s : Shape} {rng : Nat → Nat × Nat}

theorem AdaptT.moves (hk : 0 < s.k) : ∀ (l : List ((Nat × Nat) × HeadA)) (h : HeadA), GoodA s rng h →
    Moves (TakesA s rng) h l →
    GoodA s rng (last h l) ∧ (last h l).pkt.dest = h.pkt.dest ∧ (last h l).pkt.cls = h.pkt.cls
  | [], _, hg, _ => ⟨hg, rfl, rfl⟩
  | (c, b) :: l, h, hg, hm => by
    obtain ⟨g, -, e1, e2, -⟩ := takes hk hg hm.1
    obtain ⟨i1, i2, i3⟩ := AdaptT.moves hk l b g hm.2
    exact ⟨i1, i2.trans e1, i3.trans e2⟩

/-- C152. With at least four virtual channels in its class, a packet that has entered goes a shortest way to its
destination, whatever channels it is given: it is at the exit after as many links as the destination is away and not before,
and there it may eject on all channels of its class. On the way every router offers it something, all of it
on channels of its class, and no assertion fails at the next router. -/
theorem C152_way (hk : 0 < s.k) {h : HeadA} (he : EntersA s rng h) (hv : (rng h.pkt.cls).1 + 3 ≤ (rng h.pkt.cls).2)
    {l : List ((Nat × Nat) × HeadA)} (hl : Moves (TakesA s rng) h l) :
    l.length ≤ torusDist s.k s.n h.node h.pkt.dest ∧
    (HomeA s (last h l) ↔ l.length = torusDist s.k s.n h.node h.pkt.dest) ∧
    (HomeA s (last h l) → (last h l).node = h.pkt.dest ∧
      (last h l).outs = [⟨2 * s.n, (rng h.pkt.cls).1, (rng h.pkt.cls).2, 0⟩]) ∧
    (¬ HomeA s (last h l) → (last h l).outs ≠ [] ∧ ∀ o ∈ (last h l).outs, o.vcStart ≤ o.vcEnd ∧
      ∀ vc, o.vcStart ≤ vc → vc ≤ o.vcEnd → (rng h.pkt.cls).1 ≤ vc ∧ vc ≤ (rng h.pkt.cls).2 ∧
        ∃ h', TakesA s rng (last h l) (outputChannel s (last h l).node o.port, vc) h') := by
  have g := enters hk he
  obtain ⟨i1, i2, i3⟩ := AdaptT.moves hk l h g hl
  have hlen := length_add (takes := TakesA s rng) (Good := GoodA s rng)
    (D := fun h => torusDist s.k s.n h.node h.pkt.dest) (fun a c b ha hb => (takes hk ha hb).1)
    (fun a c b ha hb => (takes hk ha hb).2.2.2.2.2.2.1) l h g hl
  have hav : ¬ HomeA s (last h l) → (last h l).node ≠ (last h l).pkt.dest := fun hh e => hh ((home_iff hk i1).2 e)
  have can' : ∀ o ∈ (last h l).outs, ¬ HomeA s (last h l) → ∀ vc, o.vcStart ≤ vc → vc ≤ o.vcEnd →
      ∃ h', TakesA s rng (last h l) (2 * s.n * (last h l).node + o.port, vc) h' := fun o ho hh vc h1 h2 =>
    can hk (by rw [i3]; exact hv) i1 (hav hh) ho h1 h2
  have hpos : ¬ HomeA s (last h l) → 0 < torusDist s.k s.n (last h l).node (last h l).pkt.dest := by
    intro hh
    obtain ⟨h', ht⟩ := can' _ (esc_mem i1 (hav hh)) hh _ (Nat.le_refl _) (by
      have := (esc_vc (s := s) (rng := rng) (hav hh)).2.1
      dsimp only; omega)
    have := (takes hk i1 ht).2.2.2.2.2.2.1
    omega
  have hzero : HomeA s (last h l) → torusDist s.k s.n (last h l).node (last h l).pkt.dest = 0 := by
    intro hh
    rw [(home_iff hk i1).1 hh]
    unfold torusDist
    simp [ringGap, gap]
  refine ⟨by omega, ⟨fun hh => by have := hzero hh; omega, fun e => ?_⟩, fun hh => ?_, fun hh => ⟨?_, fun o ho => ⟨?_, ?_⟩⟩⟩
  · refine Classical.byContradiction fun hh => ?_
    have := hpos hh; omega
  · have e := (home_iff hk i1).1 hh
    refine ⟨e.trans i2, ?_⟩
    rw [i1.home e, i3]
  · exact List.ne_nil_of_mem (esc_mem i1 (hav hh))
  · rcases mem_outs i1 (hav hh) ho with ⟨-, rfl⟩ | rfl
    · exact Nat.le_refl _
    · exact Nat.le_of_eq (esc_vc (hav hh)).2.1.symm
  · intro vc h1 h2
    obtain ⟨h', ht⟩ := can' o ho hh vc h1 h2
    obtain ⟨-, -, -, -, b1, b2, -⟩ := takes hk i1 ht
    rw [i3] at b1 b2
    exact ⟨b1, b2, h', by rw [outputChannel_eq]; exact ht⟩

/-- C152. With at least four virtual channels per class, packets on the torus do not deadlock. Partial: a channel belongs to
one packet at a time, see `Spec/Worms.lean`. -/
theorem C152_no_deadlock_partial (hk : 0 < s.k) (hs : Separate rng) (hv : ∀ c, (rng c).1 + 3 ≤ (rng c).2) :
    NoDeadlock (EntersA s rng) (TakesA s rng) (HomeA s) := noDeadlockA hk hs hv

/-- C152. With two virtual channels in the class of the packet the function does what `dim_order_torus` does. -/
theorem C152_two_channels (hk : 0 < s.k) {u q : Nat} {f : Pkt} (hu : u < s.nodes) (hf : f.dest < s.nodes) (rnd : Bool)
    (hv : (rng f.cls).2 = (rng f.cls).1 + 1) :
    minAdaptTorus s rng u f q rnd =
      (dimOrderTorus s rng u f q rnd).map fun o => ([⟨o.port, o.vcBegin, o.vcEnd, 0⟩], o.ph) := by
  unfold minAdaptTorus dimOrderTorus
  by_cases ho : vcOk rng f
  · have hfree : decide ((if q = 2 * s.n then (rng f.cls).2 else f.vc) > (rng f.cls).1 + 1) = false := by
      have := ho.2
      rw [decide_eq_false_iff_not]
      split <;> omega
    have ha : available (rng f.cls) = 1 := by unfold available; omega
    have hh := torus_home (u := u) (v := f.dest) hk hu hf
    simp only [if_pos ho, hfree, Bool.false_eq_true, if_false, ha]
    by_cases hd : u = f.dest
    · have := hh hd q f.ph rnd
      simp only [if_pos hd, if_neg (fun h : u ≠ f.dest => h hd), this]
      rfl
    · simp only [if_neg hd, if_pos (show u ≠ f.dest from hd), if_pos Nat.one_pos]
      by_cases hp : (dorNextTorus s u f.dest q f.ph rnd).2 = 0
      · simp only [if_pos hp, hv]; rfl
      · simp only [if_neg hp, hv]; rfl
  · rw [if_neg ho, if_neg ho]; rfl

/-- C152, where it fails: with three virtual channels in its class, a packet that enters away from its destination is
offered first a channel behind those of its class. At whatever router it comes in on that channel, the assertion on its
channel fails. -/
theorem C152_three_channels_violated (hk : 0 < s.k) {h : HeadA} (he : EntersA s rng h)
    (hv : (rng h.pkt.cls).2 = (rng h.pkt.cls).1 + 2) (hne : h.node ≠ h.pkt.dest) :
    ∃ o, h.outs.head? = some o ∧ o.vcStart = o.vcEnd ∧ (rng h.pkt.cls).2 < o.vcStart ∧
      ∀ v q rnd, minAdaptTorus s rng v { h.pkt with vc := o.vcStart } q rnd = none := by
  have g := enters hk he
  obtain ⟨u, f, hu, hf, -, ha⟩ := he
  obtain ⟨-, e1, -, e2, e3, hl, -⟩ := arr_esc hk hu hf ha
  have hfr : Free s rng (2 * s.n) f := by unfold Free; rw [if_pos rfl, ← e3]; omega
  have h2 : h.outs.length = 2 := (hl (by rw [← e1, ← e2]; exact hne)).2 hfr
  have ho := g.away hne
  rw [if_pos h2] at ho
  refine ⟨⟨freeDir s h.node h.pkt.dest, (rng h.pkt.cls).1 + 3, (rng h.pkt.cls).1 + 3, 1⟩, by rw [ho]; rfl, rfl, by dsimp only; omega,
    fun v q rnd => ?_⟩
  unfold minAdaptTorus
  rw [if_neg]
  intro h
  have := h.2
  dsimp only at this
  omega

/-- C152, where it fails: all that a router offers to a packet is in the first dimension in which the packet is not there yet.
So no packet goes around a busy link by another dimension. -/
theorem C152_one_dimension_violated (hk : 0 < s.k) {h : HeadA} (he : EntersA s rng h)
    {l : List ((Nat × Nat) × HeadA)} (hl : Moves (TakesA s rng) h l) (hh : ¬ HomeA s (last h l)) :
    ∃ d < s.n, (∀ d' < d, coord s.k (last h l).node d' = coord s.k h.pkt.dest d') ∧
      (∀ o ∈ (last h l).outs, o.port / 2 = d) := by
  have g := enters hk he
  obtain ⟨i1, i2, -⟩ := AdaptT.moves hk l h g hl
  have hne : (last h l).node ≠ (last h l).pkt.dest := fun e => hh ((home_iff hk i1).2 e)
  obtain ⟨-, d, -, hfi, -, -⟩ := dirs hk i1 hne (esc_mem i1 hne)
  refine ⟨d, hfi.dim, by rw [← i2]; exact hfi.before, fun o ho => ?_⟩
  obtain ⟨-, d', -, hfi', hp, -⟩ := dirs hk i1 hne ho
  rw [hp]
  exact hfi'.unique hfi

/-! ## An example

A torus of four times four routers, one class with four virtual channels. A packet from router 0 to router 6, which is half a
ring away in the first dimension. Dimension order goes up, the free channel goes down. The packet takes the free channel to
router 3, the second escape channel to router 2, and the first escape channel to router 6. -/

namespace AdaptTExample

def shape : Shape := ⟨4, 2⟩
def vcs (_ : Nat) : Nat × Nat := (0, 3)
def h0 : HeadA := ⟨0, 4, ⟨6, 0, 0, 0⟩, [⟨1, 3, 3, 1⟩, ⟨0, 0, 0, 0⟩]⟩
def h1 : HeadA := ⟨3, 0, ⟨6, 0, 3, 1⟩, [⟨1, 3, 3, 1⟩, ⟨1, 1, 1, 0⟩]⟩
def h2 : HeadA := ⟨2, 0, ⟨6, 0, 1, 0⟩, [⟨2, 0, 0, 0⟩]⟩
def h3 : HeadA := ⟨6, 3, ⟨6, 0, 0, 0⟩, [⟨4, 0, 3, 0⟩]⟩

theorem enters0 : EntersA shape vcs h0 :=
  ⟨0, ⟨6, 0, 0, -1⟩, by decide, by decide, rfl, true, ([⟨1, 3, 3, 1⟩, ⟨0, 0, 0, 0⟩], 0), rfl, rfl⟩

def way : List ((Nat × Nat) × HeadA) := [((1, 3), h1), ((13, 1), h2), ((10, 0), h3)]

theorem moves0 : Moves (TakesA shape vcs) h0 way := by
  refine ⟨⟨⟨1, 3, 3, 1⟩, by decide, by decide, by decide, by decide, by decide, 3, 0, by decide, true, (h1.outs, 1), rfl, rfl⟩,
    ⟨⟨1, 1, 1, 0⟩, by decide, by decide, by decide, by decide, by decide, 2, 0, by decide, true, (h2.outs, 0), rfl, rfl⟩,
    ⟨⟨2, 0, 0, 0⟩, by decide, by decide, by decide, by decide, by decide, 6, 3, by decide, true, (h3.outs, 0), rfl, rfl⟩, trivial⟩

example := C152_way (s := shape) (by decide) enters0 (by decide) moves0
example : HomeA shape (last h0 way) := ⟨⟨4, 0, 3, 0⟩, by decide, rfl⟩
example := C152_no_deadlock_partial (s := shape) (rng := vcs) (by decide) (fun _ _ => .inl rfl) (fun _ => Nat.le_refl _)
example := C152_one_dimension_violated (s := shape) (by decide) enters0 (l := []) trivial
  (by rintro ⟨o, ho, hp⟩; revert o; decide)

/-- Two virtual channels. -/
example : minAdaptTorus shape (fun _ => (0, 1)) 3 ⟨6, 0, 0, -1⟩ 4 true = some ([⟨1, 1, 1, 0⟩], 1) := by
  rw [C152_two_channels (by decide) (by decide) (by decide) true rfl]
  rfl

/-- Three virtual channels. -/
example := C152_three_channels_violated (s := shape) (rng := fun _ => (0, 2)) (by decide)
  (h := ⟨0, 4, ⟨6, 0, 0, 0⟩, [⟨1, 3, 3, 1⟩, ⟨0, 0, 0, 0⟩]⟩)
  ⟨0, ⟨6, 0, 0, -1⟩, by decide, by decide, rfl, true, ([⟨1, 3, 3, 1⟩, ⟨0, 0, 0, 0⟩], 0), rfl, rfl⟩ rfl (by decide)

end AdaptTExample

end RadSim.Routing
