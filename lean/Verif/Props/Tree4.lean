import Verif.Lemmas.Tree4
import Verif.Spec.Tree4

/-!
# C153: the tree of four-way routers delivers on shortest ways

With `tree4_nca` and `tree4_anca` every packet rises as far as it has to, goes down and leaves at its destination. The adaptive
function offers one way up only.
-/

namespace RadSim.Routing

open Router (Hop)
open Worms T4

variable {anca : Bool} {rng : Nat → Nat × Nat}

/-- C153. The wiring: no two of the 128 channels have the same driver and output port or the same reader and input port, all
ports are there, those that face the terminals are free of channels between routers, and with every channel there is one
back, between the same ports. -/
theorem C153_wiring : t4Conns.length = 128 ∧
    (∀ c < 128, ∀ c' < 128, t4From c = t4From c' → t4OutPort c = t4OutPort c' → c = c') ∧
    (∀ c < 128, ∀ c' < 128, t4To c = t4To c' → t4InPort c = t4InPort c' → c = c') ∧
    (∀ c < 128, (t4From c < 32 → t4OutPort c < 8) ∧ (32 ≤ t4From c → 4 ≤ t4OutPort c ∧ t4OutPort c < 6)) ∧
    ∀ c < 128, ∃ c' < 128, t4From c' = t4To c ∧ t4To c' = t4From c ∧ t4OutPort c' = t4InPort c ∧ t4InPort c' = t4OutPort c := by
  refine ⟨length_eq, fun c hc c' hc' h1 h2 => ?_, fun c hc c' hc' h1 h2 => ?_, fun c hc => ?_, ?_⟩
  · rw [← (all c hc).2.2.1, ← (all c' hc').2.2.1, h1, h2]
  · have e := (all c hc).2.2.2
    rw [h1, h2, (all c' hc').2.2.2] at e
    split at e <;> split at e <;> omega
  · have := (all c hc).1
    unfold Link at this
    omega
  · intro c hc
    have : ∀ c < 128, (if c % 2 = 0 then c + 1 else c - 1) < 128 ∧
        t4From (if c % 2 = 0 then c + 1 else c - 1) = t4To c ∧ t4To (if c % 2 = 0 then c + 1 else c - 1) = t4From c ∧
        t4OutPort (if c % 2 = 0 then c + 1 else c - 1) = t4InPort c ∧
        t4InPort (if c % 2 = 0 then c + 1 else c - 1) = t4OutPort c := by decide +kernel
    exact ⟨_, this c hc⟩

theorem T4.moves : ∀ (l : List ((Nat × Nat) × HeadA)) (h : HeadA), Good rng h → Moves (T4Takes anca rng) h l →
    Good rng (last h l) ∧ (last h l).pkt.dest = h.pkt.dest ∧ (last h l).pkt.cls = h.pkt.cls
  | [], _, hg, _ => ⟨hg, rfl, rfl⟩
  | (c, b) :: l, h, hg, hm => by
    obtain ⟨g, e1, e2, -⟩ := takes hg hm.1
    obtain ⟨i1, i2, i3⟩ := T4.moves l b g hm.2
    exact ⟨i1, i2.trans e1, i3.trans e2⟩

/-- C153. A packet from terminal `t` makes as many moves as its destination is away and no more. Before that it can
take any virtual channel of its class; after that it leaves at its destination and nowhere else. -/
theorem C153_delivers {t : Nat} {h : HeadA} (he : T4Enters anca rng t h) {l : List ((Nat × Nat) × HeadA)}
    (hl : Moves (T4Takes anca rng) h l) :
    l.length ≤ t4Dist t h.pkt.dest ∧
    (l.length < t4Dist t h.pkt.dest → (∀ x, ¬ T4Ejects (last h l) x) ∧
      ∀ vc, (rng h.pkt.cls).1 ≤ vc → vc ≤ (rng h.pkt.cls).2 → ∃ c h', T4Takes anca rng (last h l) (c, vc) h') ∧
    (l.length = t4Dist t h.pkt.dest → ∀ x, T4Ejects (last h l) x ↔ x = h.pkt.dest) := by
  obtain ⟨g, e, ht⟩ := enters he
  obtain ⟨i1, i2, i3⟩ := T4.moves l h g hl
  have hlen := length_add (takes := T4Takes anca rng) (Good := Good rng) (D := fun h => togo h.node h.pkt.dest)
    (fun a c b ha hb => (takes ha hb).1) (fun a c b ha hb => (takes ha hb).2.2.2.1) l h g hl
  have hd := g.dest
  have h0 : togo h.node h.pkt.dest = t4Dist t h.pkt.dest := by
    unfold togo t4Dist
    rw [e, if_neg (by omega), if_neg (by omega)]
    repeat' split
    all_goals omega
  rw [h0] at hlen
  refine ⟨by omega, fun hlt => ⟨fun x hx => ?_, fun vc h1 h2 => ?_⟩, fun heq x => ⟨fun hx => ?_, fun hx => ?_⟩⟩
  · have := (home i1).2 ⟨x, hx⟩
    omega
  · obtain ⟨p, ho, -⟩ := i1.out
    obtain ⟨h', hh⟩ := can (anca := anca) i1 (by omega) (o := ⟨p, (rng (last h l).pkt.cls).1, (rng (last h l).pkt.cls).2, 0⟩)
      (by rw [ho]; exact List.mem_singleton_self _) (vc := vc) (by rw [i3]; exact h1) (by rw [i3]; exact h2)
    exact ⟨_, h', hh⟩
  · exact (ejects i1 hx).trans i2
  · obtain ⟨y, hy⟩ := (home i1).1 (by omega)
    rw [hx, ← i2, ← ejects i1 hy]
    exact hy

/-- C153. No way through the network is shorter. -/
theorem C153_shortest {t d m : Nat} (ht : t < 64) (hd : d < 64)
    (hw : Way (fun a b => ∃ c < 128, t4From c = a ∧ t4To c = b) m (32 + t / 4) (32 + d / 4)) : t4Dist t d ≤ m := by
  have link : ∀ a b, (∃ c < 128, t4From c = a ∧ t4To c = b) → ∃ p, Link a p b := by
    rintro a b ⟨c, hc, rfl, rfl⟩
    exact ⟨_, (all c hc).1⟩
  have key : ∀ m a, Way (fun a b => ∃ c < 128, t4From c = a ∧ t4To c = b) m a (32 + d / 4) → togo a d ≤ m := by
    intro m
    induction m with
    | zero =>
      intro a h
      have h : a = 32 + d / 4 := h
      unfold togo
      rw [if_neg (by omega), if_neg (by omega), if_pos (by omega)]
      exact Nat.le_refl 0
    | succ m ih =>
      rintro a ⟨x, hx, hw⟩
      have h1 := ih x hw
      obtain ⟨p, hp⟩ := link a x hx
      have : togo a d ≤ togo x d + 1 := by
        unfold Link at hp
        unfold togo
        rcases hp with h | h | h | h
        · rw [if_pos (by omega), if_neg (by omega), if_pos (by omega)]; split <;> omega
        · rw [if_neg (by omega), if_pos (by omega), if_neg (show ¬ x < 16 by omega), if_neg (show ¬ x < 32 by omega)]
          repeat' split
          all_goals omega
        · rw [if_neg (by omega), if_pos (by omega), if_pos (show x < 16 by omega)]; split <;> omega
        · rw [if_neg (by omega), if_neg (by omega), if_neg (show ¬ x < 16 by omega), if_pos (show x < 32 by omega)]
          repeat' split
          all_goals omega
      omega
  have h := key m _ hw
  have h0 : togo (32 + t / 4) d = t4Dist t d := by
    unfold togo t4Dist
    rw [if_neg (by omega), if_neg (by omega)]
    repeat' split
    all_goals omega
  omega

/-- C153. Packets do not deadlock. Partial: a channel belongs to one packet at a time, see `Spec/Worms.lean`. -/
theorem C153_no_deadlock_partial :
    NoDeadlock (fun h => ∃ t, T4Enters anca rng t h) (T4Takes anca rng) (fun h => ∃ t, T4Ejects h t) := noDeadlockT4

/-- C153. With `tree4_nca` every draw of the top router is possible: a packet that has to rise to the top can get to each of
the four routers there. -/
theorem C153_nca_spreads {t : Nat} {f : Pkt} (ht : t < 64) (hf : f.dest < 64) (hv : vcOk rng f) (hd : t / 16 ≠ f.dest / 16)
    {top : Nat} (htop : top < 4) : ∃ h c₁ h₁ c₂ h₂, h.pkt = f ∧ T4Enters false rng t h ∧ T4Takes false rng h c₁ h₁ ∧
      T4Takes false rng h₁ c₂ h₂ ∧ h₂.node = top := by
  have enters0 : T4Enters false rng t ⟨32 + t / 4, t % 4, f, [⟨(t4Ports false 0 (32 + t / 4) f.dest).1, (rng f.cls).1, (rng f.cls).2, 0⟩]⟩ :=
    ⟨f, ht, hf, 0, _, tree4_eq hv, rfl⟩
  have p0 : (t4Ports false 0 (32 + t / 4) f.dest).1 = 4 := by
    unfold t4Ports
    dsimp only
    rw [if_neg (by omega), if_neg (by omega), if_neg (by omega)]
    rfl
  rw [p0] at enters0
  obtain ⟨c₁, k1, k2, k3, k4⟩ : ∃ c < 128, t4From c = 32 + t / 4 ∧ t4OutPort c = 4 ∧ t4To c = 16 + 2 * (t / 16) := by
    obtain ⟨b1, b2, b3⟩ := back (32 + t / 4) (by omega) 4 (by omega) (by omega)
    refine ⟨_, b1, b2, b3, ?_⟩
    have := (all _ b1).1
    rw [b2, b3] at this
    unfold Link at this
    omega
  have hv' : vcOk rng { f with vc := (rng f.cls).1 } := ⟨Nat.le_refl _, Nat.le_trans hv.1 hv.2⟩
  have p1 : (t4Ports false top (16 + 2 * (t / 16)) f.dest).1 = 4 + top := by
    unfold t4Ports
    dsimp only
    rw [if_neg (by omega), if_pos (by omega), if_neg (by omega)]
    show 4 + top % 4 = 4 + top
    omega
  obtain ⟨c₂, l1, l2, l3, l4⟩ : ∃ c < 128, t4From c = 16 + 2 * (t / 16) ∧ t4OutPort c = 4 + top ∧ t4To c = top := by
    obtain ⟨d1, d2, d3⟩ := back (16 + 2 * (t / 16)) (by omega) (4 + top) (by omega) (by omega)
    refine ⟨_, d1, d2, d3, ?_⟩
    have := (all _ d1).1
    rw [d2, d3] at this
    unfold Link at this
    omega
  refine ⟨_, (c₁, (rng f.cls).1), ⟨t4To c₁, t4InPort c₁, { f with vc := (rng f.cls).1 }, _⟩, (c₂, (rng f.cls).1),
    ⟨t4To c₂, t4InPort c₂, { f with vc := (rng f.cls).1 }, _⟩, rfl, enters0,
    ⟨_, List.mem_singleton_self _, by rw [length_eq]; exact k1, k2, k3, Nat.le_refl _, hv'.2, top, _, tree4_eq hv', rfl⟩,
    ⟨_, List.mem_singleton_self _, by rw [length_eq]; exact l1, l2.trans k4.symm, ?_, Nat.le_refl _, hv'.2, 0, _,
      tree4_eq hv', rfl⟩, l4⟩
  dsimp only
  rw [l3, k4, p1]

/-- C153, where it fails: with `tree4_anca` no packet ever reaches a router of the top level other than the first. The output set
keeps one element for each priority, so of the ways up it offers the first only. -/
theorem C153_anca_one_top_violated {t : Nat} {h : HeadA} (he : T4Enters true rng t h) {l : List ((Nat × Nat) × HeadA)}
    (hl : Moves (T4Takes true rng) h l) : (last h l).node < 16 → (last h l).node = 0 := by
  have arr : ∀ {u q f h}, T4Arrives true rng u q f h → ∀ o ∈ h.outs, 4 ≤ o.port → 16 ≤ h.node → o.port = 4 := by
    rintro u q f h ⟨draw, outs, ho, rfl⟩ o hm hp hn
    by_cases hv : vcOk rng f
    · rw [tree4_eq hv] at ho
      cases ho
      cases List.mem_singleton.1 hm
      revert hp
      dsimp only at hn ⊢
      unfold t4Ports
      dsimp only
      rw [if_neg (by omega)]
      simp only [↓reduceIte]
      repeat' split
      all_goals dsimp only; omega
    · unfold tree4 at ho; rw [if_neg hv] at ho; cases ho
  have key : ∀ (l : List ((Nat × Nat) × HeadA)) (h : HeadA), Good rng h →
      (h.node < 16 → h.node = 0) → (∀ o ∈ h.outs, 4 ≤ o.port → 16 ≤ h.node → o.port = 4) →
      Moves (T4Takes true rng) h l → (last h l).node < 16 → (last h l).node = 0 := by
    intro l
    induction l with
    | nil => intro h _ h0 _ _; exact h0
    | cons x l ih =>
      rintro h g h0 h1 ⟨hx, hl⟩
      obtain ⟨g', -, -, -, p, hp, -, hlk, -⟩ := takes g hx
      refine ih x.2 g' (fun hn => ?_) ?_ hl
      · obtain ⟨o, ho, -⟩ := hx
        have := h1 o ho
        rw [hp o ho] at this
        unfold Link at hlk
        omega
      · obtain ⟨o, -, -, -, -, -, -, ha⟩ := hx
        exact arr ha
  obtain ⟨g, e, -⟩ := enters he
  obtain ⟨f, -, -, ha⟩ := he
  exact key l h g (by omega) (arr ha) hl

/-! ## An example

One class with two virtual channels. A packet from terminal 5 to terminal 62, which hangs below another part of the tree. -/

namespace Tree4Example

def vcs (_ : Nat) : Nat × Nat := (0, 1)
def h0 : HeadA := ⟨33, 1, ⟨62, 0, 0, -1⟩, [⟨4, 0, 1, 0⟩]⟩
def h1 : HeadA := ⟨16, 1, ⟨62, 0, 1, -1⟩, [⟨4, 0, 1, 0⟩]⟩
def h2 : HeadA := ⟨0, 0, ⟨62, 0, 0, -1⟩, [⟨7, 0, 1, 0⟩]⟩

theorem enters0 (anca : Bool) : T4Enters anca vcs 5 h0 :=
  ⟨⟨62, 0, 0, -1⟩, by decide, by decide, 0, h0.outs, by cases anca <;> rfl, rfl⟩

theorem moves0 (anca : Bool) : Moves (T4Takes anca vcs) h0 [((3, 1), h1), ((65, 0), h2)] :=
  ⟨⟨⟨4, 0, 1, 0⟩, by decide, by decide +kernel, by decide +kernel, by decide +kernel, by decide, by decide, 0, h1.outs,
      by cases anca <;> rfl, rfl⟩,
    ⟨⟨4, 0, 1, 0⟩, by decide, by decide +kernel, by decide +kernel, by decide +kernel, by decide, by decide, 1, h2.outs,
      by cases anca <;> rfl, rfl⟩, trivial⟩

example := C153_delivers (enters0 false) (moves0 false)
example : t4Dist 5 62 = 4 ∧ t4Dist 5 9 = 2 ∧ t4Dist 5 7 = 0 := by decide
example : (last h0 [((3, 1), h1), ((65, 0), h2)]).node = 0 :=
  C153_anca_one_top_violated (enters0 true) (moves0 true) (by decide)
example := C153_no_deadlock_partial (anca := true) (rng := vcs)
example := C153_nca_spreads (rng := vcs) (t := 5) (f := ⟨62, 0, 0, -1⟩) (by decide) (by decide) (by decide) (by decide)
  (top := 3) (by decide)
/-- Two links from router 33 to router 34, the routers of terminals 5 and 9. -/
example : t4Dist 5 9 ≤ 2 := C153_shortest (by decide) (by decide)
  ⟨16, ⟨3, by decide, by decide +kernel, by decide +kernel⟩, 34, ⟨4, by decide, by decide +kernel, by decide +kernel⟩, rfl⟩

end Tree4Example

end RadSim.Routing
