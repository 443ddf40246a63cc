import Verif.Lemmas.CMesh

/-!
# Properties of the concentrated mesh

C65 (terminals), C66 (routing without express links) and C67 (routing with express links).

`Takes next k h c h'`: the head `h` takes virtual channel `c.2` of link `c.1` and is then `h'`. `Home`: it
wants an ejection link. `terminal k r p` is the terminal wired to port `p` of router `r`.
-/

namespace RadSim.CMesh

open Worms

/-! ## C65 terminals -/

/-- The router and port computed from the number of a terminal are those it is wired to. -/
theorem C65_decodes (k a : Nat) (hk : 0 < k) (ha : a < 4 * (k * k)) :
    nodeToRouter k a < k * k ∧ nodeToPort k a < 4 ∧ terminal k (nodeToRouter k a) (nodeToPort k a) = a := by
  obtain ⟨h1, h2, h3, h4⟩ := addr_parts hk ha
  obtain ⟨r1, r2, r3⟩ := router_parts hk ha
  refine ⟨r3, nodeToPort_lt k a, ?_⟩
  unfold terminal
  rw [r1, r2, nodeToPort_eq, h4]
  rw [show 2 * (a / (2 * k) / 2) + (2 * (a / (2 * k) % 2) + a % (2 * k) % 2) / 2 = a / (2 * k) by omega,
    show 2 * (a % (2 * k) / 2) + (2 * (a / (2 * k) % 2) + a % (2 * k) % 2) % 2 = a % (2 * k) by omega,
    Nat.mul_comm k 2]
  exact h3

/-- Every port of every router has its own terminal. -/
theorem C65_wired_once (k r p : Nat) (hr : r < k * k) (hp : p < 4) :
    terminal k r p < 4 * (k * k) ∧ nodeToRouter k (terminal k r p) = r ∧ nodeToPort k (terminal k r p) = p := by
  obtain ⟨r1, r2⟩ := parts_lt hr
  have hk := pos_of hr
  have hx : 2 * (r % k) + p % 2 < 2 * k := by omega
  have hy : 2 * (r / k) + p / 2 < 2 * k := by omega
  have e : terminal k r p = 2 * k * (2 * (r / k) + p / 2) + (2 * (r % k) + p % 2) := by
    unfold terminal; rw [Nat.mul_comm k 2]
  obtain ⟨s1, s2⟩ := split (y := 2 * (r / k) + p / 2) hx
  have ht := cell_lt hx hy
  rw [← e] at s1 s2 ht
  have h4 : terminal k r p < 4 * (k * k) := by
    rw [show 4 * (k * k) = 2 * k * (2 * k) by rw [Nat.mul_mul_mul_comm]]; exact ht
  obtain ⟨-, -, -, a4⟩ := addr_parts hk h4
  refine ⟨h4, ?_, ?_⟩
  · unfold nodeToRouter
    simp only [s1, s2]
    rw [show (2 * (r / k) + p / 2) / 2 = r / k by omega, show (2 * (r % k) + p % 2) / 2 = r % k by omega,
      Nat.mul_comm]
    exact Nat.div_add_mod r k
  · rw [nodeToPort_eq, s1, a4, s2]; omega

/-- In a grid of four by four routers terminal 27 is on port 3 of router 5. -/
example : nodeToRouter 4 27 = 5 ∧ nodeToPort 4 27 = 3 ∧ terminal 4 5 3 = 27 := by decide

/-! ## C66 routing without express links -/

/-- Rows plus columns between two routers. -/
def apart (k u v : Nat) : Nat := Grid.gap (u % k) (v % k) + Grid.gap (u / k) (v / k)

theorem good_moves {k : Nat} {next : Nat → Nat → Nat → Nat} (hs : Sound k next) :
    ∀ (l : List ((Nat × Nat) × Head)) (h : Head), Good k h → Moves (Takes next k) h l →
      Good k (last h l) ∧ (last h l).dest = h.dest ∧ l.length + distH k (last h l) ≤ distH k h
  | [], _, g, _ => ⟨g, rfl, by simp [last]⟩
  | (c, h') :: l, h, g, hm => by
    obtain ⟨a, b, -, d⟩ := takes_good hs g hm.1
    obtain ⟨i1, i2, i3⟩ := good_moves hs l h' a hm.2
    exact ⟨i1, i2.trans b, by simp only [last, List.length_cons]; omega⟩

theorem home_exit {k : Nat} {next : Nat → Nat → Nat → Nat} (hs : Sound k next) {h : Head} (g : Good k h)
    (hh : Home next k h) : terminal k h.router (port next k h) = h.dest := by
  have e := (home_iff hs g).mp hh
  unfold port
  rw [if_pos e.symm, e]
  exact (C65_decodes k h.dest (pos_of g.1) g.2.1).2.2

/-- After any moves of a packet the moves made and the distance to go add up to the distance at the
start; a packet leaves the network only at its destination terminal; short of it, it can move on with
every virtual channel of its type. -/
theorem C66_minimal {k : Nat} {h : Head} (he : Enters k h) (l : List ((Nat × Nat) × Head))
    (hl : Moves (Takes nextNoExpress k) h l) :
    l.length + apart k (last h l).router (nodeToRouter k h.dest) = apart k h.router (nodeToRouter k h.dest) ∧
    (Home nextNoExpress k (last h l) ↔ (last h l).router = nodeToRouter k h.dest) ∧
    (Home nextNoExpress k (last h l) → terminal k (last h l).router (port nextNoExpress k (last h l)) = h.dest) ∧
    (¬ Home nextNoExpress k (last h l) → ∃ link, ∀ vc, h.lo ≤ vc → vc ≤ h.hi →
      ∃ h', Takes nextNoExpress k (last h l) (link, vc) h') := by
  have hs := sound_noExpress k
  have vcs : ∀ (l : List ((Nat × Nat) × Head)) (a : Head), Good k a → Moves (Takes nextNoExpress k) a l →
      (last a l).lo = a.lo ∧ (last a l).hi = a.hi := by
    intro l
    induction l with
    | nil => exact fun _ _ _ => ⟨rfl, rfl⟩
    | cons m l ih =>
      intro a ga hm
      obtain ⟨-, -, -, -, e⟩ := (takes_iff hs ga).mp hm.1
      obtain ⟨i1, i2⟩ := ih m.2 (takes_good hs ga hm.1).1 hm.2
      exact ⟨i1.trans (by rw [e]), i2.trans (by rw [e])⟩
  have len := length_add (takes := Takes nextNoExpress k) (Good := Good k) (D := distH k)
    (fun a c b ga t => (takes_good hs ga t).1) (fun a c b ga t => by
      obtain ⟨hne, -, -, -, rfl⟩ := (takes_iff hs ga).mp t
      obtain ⟨p, p1, p2, -, -, p5⟩ := noExpress_step ga.1 (router_parts (pos_of ga.1) ga.2.1).2.2 hne
      obtain ⟨u1, u2⟩ := parts_lt ga.1
      obtain ⟨t1, -, -⟩ := target_lt (p := p) u1 u2
      rw [p2, Nat.add_sub_cancel_left]
      unfold distH
      simp only [(split t1).1, (split t1).2]
      exact p5.symm) l h he hl
  obtain ⟨g, e, -⟩ := good_moves hs l h he hl
  obtain ⟨v1, v2⟩ := vcs l h he hl
  refine ⟨?_, by rw [home_iff hs g, e], fun hh => (home_exit hs g hh).trans e,
    fun hh => ⟨_, fun vc a b => can_take hs g hh (by omega) (by omega)⟩⟩
  unfold distH at len
  rw [e] at len
  exact len

/-- In every set of packets one is at its exit or can move on to a free channel. -/
theorem C66_no_deadlock (k : Nat) : NoDeadlock (Enters k) (Takes nextNoExpress k) (Home nextNoExpress k) :=
  noDeadlockC (sound_noExpress k)

/-- A packet from router 0 to terminal 27 of a grid of three by three (an odd size). -/
example : Enters 3 ⟨0, 27, 0, 1⟩ ∧ nodeToRouter 3 27 = 7 ∧ apart 3 0 7 = 3 ∧
    Takes nextNoExpress 3 ⟨0, 27, 0, 1⟩ (0, 1) ⟨1, 27, 0, 1⟩ :=
  ⟨by unfold Enters; decide, by decide, by decide, by decide, by decide, by decide, by decide, 1, 5, by decide, rfl⟩

/-! ## C67 routing with express links -/

/-- With an even number of routers per side, dimension-order routing over express links takes at most as
many links as there are rows and columns between, leaves the network only at the destination terminal,
and can move on short of it. Missing: odd sizes and the random choice of the order, both false below. -/
theorem C67_delivers_partial {k : Nat} (hk : k % 2 = 0) {h : Head} (he : Enters k h)
    (l : List ((Nat × Nat) × Head)) (hl : Moves (Takes nextExpress k) h l) :
    l.length + apart k (last h l).router (nodeToRouter k h.dest) ≤ apart k h.router (nodeToRouter k h.dest) ∧
    (Home nextExpress k (last h l) ↔ (last h l).router = nodeToRouter k h.dest) ∧
    (Home nextExpress k (last h l) → terminal k (last h l).router (port nextExpress k (last h l)) = h.dest) ∧
    (¬ Home nextExpress k (last h l) → ∃ c h', Takes nextExpress k (last h l) c h') := by
  have hs := sound_express hk
  obtain ⟨g, e, len⟩ := good_moves hs l h he hl
  refine ⟨?_, by rw [home_iff hs g, e], fun hh => (home_exit hs g hh).trans e, fun hh => ?_⟩
  · unfold distH at len; rw [e] at len; exact len
  · obtain ⟨h', ht⟩ := can_take hs g hh (Nat.le_refl _) g.2.2
    exact ⟨_, h', ht⟩

/-- For even sizes no set of packets blocks itself. -/
theorem C67_no_deadlock_partial {k : Nat} (hk : k % 2 = 0) :
    NoDeadlock (Enters k) (Takes nextExpress k) (Home nextExpress k) := noDeadlockC (sound_express hk)

/-- In a grid of four by four a packet from router 0 to terminal 6 at router 3 jumps to router 2. -/
example : Enters 4 ⟨0, 6, 0, 1⟩ ∧ nodeToRouter 4 6 = 3 ∧
    Takes nextExpress 4 ⟨0, 6, 0, 1⟩ (48, 0) ⟨2, 6, 0, 1⟩ :=
  ⟨by unfold Enters; decide, by decide, by decide, by decide, by decide, by decide, 2, 7, by decide, rfl⟩

/-- In a grid of three by three a packet entering at router 1 for a terminal of router 2 is sent on a
link that two routers read: it arrives at the destination router and a second time at router 0. -/
theorem C67_odd_size_violated : ∃ h : Head, Enters 3 h ∧ h.router = 1 ∧ nodeToRouter 3 h.dest = 2 ∧
    receivers 3 (outputChannel 3 h.router (port nextExpress 3 h)) = [(0, 7), (2, 7)] :=
  ⟨⟨1, 4, 0, 0⟩, by unfold Enters; decide, rfl, by decide, by decide +kernel⟩

/-- Random order routing over express links does not deliver in a grid of eight by eight: a packet from
router 0 to a terminal of router 2 that goes along `x` first jumps between routers 0 and 4 forever. -/
theorem C67_two_order_violated : ∃ h : Head, Enters 8 h ∧ nodeToRouter 8 h.dest = 2 ∧
    ∀ l, Moves (Takes nextXy 8) h l →
      ¬ Home nextXy 8 (last h l) ∧ ∃ c h', Takes nextXy 8 (last h l) c h' := by
  have r0 : receivers 8 192 = [(4, 7)] := by decide +kernel
  have r4 : receivers 8 196 = [(0, 7)] := by decide +kernel
  have p0 : port nextXy 8 ⟨0, 4, 0, 0⟩ = 7 := by decide
  have p4 : port nextXy 8 ⟨4, 4, 0, 0⟩ = 7 := by decide
  have key : ∀ (l : List ((Nat × Nat) × Head)) (h : Head), h = ⟨0, 4, 0, 0⟩ ∨ h = ⟨4, 4, 0, 0⟩ →
      Moves (Takes nextXy 8) h l → last h l = ⟨0, 4, 0, 0⟩ ∨ last h l = ⟨4, 4, 0, 0⟩ := by
    intro l
    induction l with
    | nil => exact fun h e _ => e
    | cons m l ih =>
      intro h e hm
      obtain ⟨-, c1, -, -, v, q, hv, h'⟩ := hm.1
      refine ih m.2 ?_ hm.2
      rcases e with rfl | rfl
      · rw [p0] at c1
        rw [c1, show outputChannel 8 0 7 = 192 by decide, r0, List.cons.injEq, Prod.mk.injEq] at hv
        right; rw [h', ← hv.1.1]
      · rw [p4] at c1
        rw [c1, show outputChannel 8 4 7 = 196 by decide, r4, List.cons.injEq, Prod.mk.injEq] at hv
        left; rw [h', ← hv.1.1]
  refine ⟨⟨0, 4, 0, 0⟩, by unfold Enters; decide, by decide, fun l hl => ?_⟩
  rcases key l _ (Or.inl rfl) hl with e | e <;> rw [e]
  · exact ⟨by unfold Home; rw [p0]; omega, (192, 0), ⟨4, 4, 0, 0⟩,
      by rw [p0]; omega, by rw [p0]; decide, by decide, by decide, 4, 7, r0, rfl⟩
  · exact ⟨by unfold Home; rw [p4]; omega, (196, 0), ⟨0, 4, 0, 0⟩,
      by rw [p4]; omega, by rw [p4]; decide, by decide, by decide, 0, 7, r4, rfl⟩

end RadSim.CMesh
