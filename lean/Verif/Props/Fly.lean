import Verif.Lemmas.Fly

/-!
# C149: the butterfly network delivers

Every channel between the stages of `KNFly` has one reader, and with `dest_tag_fly` every packet goes through one router of
every stage and leaves at the terminal of its destination.
-/

namespace RadSim.Routing

open Worms

variable {s : Shape} {rng : Nat → Nat × Nat}

/-- C149. Output `p` of router `a` of a stage before the last is read by one input of one router of the next stage. -/
theorem C149_one_reader (hk : 0 < s.k) (hn : 0 < s.n) {t a p : Nat} (ht : t + 1 < s.n) (ha : a < s.k ^ (s.n - 1)) (hp : p < s.k) :
    ∃ v q, flyReceivers s (flyOut s t a p) = [(v, q)] ∧ v / s.k ^ (s.n - 1) = t + 1 ∧ q < s.k :=
  ⟨_, _, Fly.receivers_eq hk hn (by omega) ha hp, (Fly.next_lt hk (by omega) ha hp).2.1, Nat.mod_lt _ hk⟩

/-- C149. Every input of a router behind the first stage is driven by exactly one output, of a router of the stage before. -/
theorem C149_one_driver (hk : 0 < s.k) (hn : 0 < s.n) {t a q : Nat} (ht : t + 1 < s.n) (ha : a < s.k ^ (s.n - 1)) (hq : q < s.k) :
    ∃ a' p, a' < s.k ^ (s.n - 1) ∧ p < s.k ∧ flyIn s (t + 1) a q = flyOut s t a' p ∧
      ∀ t' b r, b < s.k ^ (s.n - 1) → r < s.k → flyIn s (t + 1) a q = flyOut s t' b r → t' = t ∧ b = a' ∧ r = p := by
  refine ⟨_, _, Fly.put_per hk (Nat.succ_pos t) ht ha hq, Nat.mod_lt _ hk, Fly.flyIn_eq _ _ _, fun t' b r hb hr h => ?_⟩
  rw [Fly.flyIn_eq] at h
  exact Fly.flyOut_inj hn hb hr (Fly.put_per hk (Nat.succ_pos t) ht ha hq) (Nat.mod_lt _ hk) h.symm

/-- C149. A packet from any terminal is after `m` moves in stage `m`; before the last stage there is always a channel to take, and
in the last one it leaves at the terminal of its destination and no other. -/
theorem C149_delivers (hk : 0 < s.k) (hn : 0 < s.n) {c : Nat} {h : Head} (he : FlyEnters s rng c h)
    (l : List ((Nat × Nat) × Head)) (hl : Moves (FlyTakes s rng) h l) :
    l.length < s.n ∧ (last h l).node / s.k ^ (s.n - 1) = l.length ∧
    (l.length + 1 < s.n → ∃ c h', FlyTakes s rng (last h l) c h') ∧
    (l.length + 1 = s.n → ∀ t, FlyEjects s (last h l) t ↔ t = h.pkt.dest) := by
  have g := Fly.moves hk hn l 0 h (Fly.enters hk hn he) hl
  rw [Nat.zero_add] at g
  refine ⟨g.lt, g.node, fun hlt => ?_, fun e t => ?_⟩
  · obtain ⟨h', ht⟩ := Fly.can hk hn g (by omega) (Nat.le_refl _) g.some
    exact ⟨_, h', ht⟩
  · rw [show l.length = s.n - 1 by omega] at g
    have := Fly.ejects hn g
    exact ⟨fun h' => h'.2.trans this.2.symm, fun e => e ▸ this⟩

/-- C149. Some way leads there, of as many links as there are stages, less one. -/
theorem C149_arrives (hk : 0 < s.k) (hn : 0 < s.n) {c : Nat} {h : Head} (he : FlyEnters s rng c h) :
    ∃ l, Moves (FlyTakes s rng) h l ∧ l.length + 1 = s.n ∧ FlyEjects s (last h l) h.pkt.dest := by
  have key : ∀ m t (x : Head), t + m + 1 = s.n → Fly.Good s rng h.pkt.dest t x →
      ∃ l, Moves (FlyTakes s rng) x l ∧ t + l.length + 1 = s.n ∧ FlyEjects s (last x l) h.pkt.dest := by
    intro m
    induction m with
    | zero =>
      intro t x e g
      refine ⟨[], trivial, e, Fly.ejects (rng := rng) hn ?_⟩
      rw [show s.n - 1 = t by omega]; exact g
    | succ m ih =>
      intro t x e g
      obtain ⟨x', ht⟩ := Fly.can hk hn g (by omega) (Nat.le_refl _) g.some
      obtain ⟨l, h1, h2, h3⟩ := ih (t + 1) x' (by omega) (Fly.takes hk hn g ht)
      exact ⟨(_, x') :: l, ⟨ht, h1⟩, by simp only [List.length_cons]; omega, h3⟩
  obtain ⟨l, h1, h2, h3⟩ := key (s.n - 1) 0 h (by omega) (Fly.enters hk hn he)
  exact ⟨l, h1, by omega, h3⟩

/-- C149. There is no deadlock, for any ranges of virtual channels. What is missing, as in C62: a channel belongs to one packet at
a time. -/
theorem C149_no_deadlock_partial (hk : 0 < s.k) (hn : 0 < s.n) :
    NoDeadlock (fun h => ∃ c, FlyEnters s rng c h) (FlyTakes s rng) (fun h => ∃ t, FlyEjects s h t) := by
  refine noDeadlock (Good := fun h => ∃ t, Fly.Good s rng h.pkt.dest t h) (fun h => h.node / perStage s)
    (fun h ⟨_, he⟩ => ⟨0, Fly.enters hk hn he⟩) ?_ ?_ ?_
  · rintro h c h' ⟨t, g⟩ ht
    have := Fly.takes hk hn g ht
    exact ⟨t + 1, by rw [this.dest]; exact this⟩
  · rintro h c h' ⟨t, g⟩ ht
    have := Fly.takes hk hn g ht
    rw [g.node, this.node]; omega
  · rintro h ⟨t, g⟩ hh
    have hlt : t < s.n - 1 := by
      have h1 := g.lt
      have h2 : t ≠ s.n - 1 := fun e => hh ⟨_, Fly.ejects hn (e ▸ g)⟩
      omega
    obtain ⟨h', ht⟩ := Fly.can hk hn g hlt (Nat.le_refl _) g.some
    refine ⟨_, h', ht, ?_⟩
    rintro x x' ⟨t', g'⟩ tx
    have h1 := (Fly.takes hk hn g' tx).node
    obtain ⟨-, b, e, -⟩ := tx
    have h2 := (Fly.flyOut_inj hn (Nat.mod_lt _ (Fly.per_pos hk)) (g.port_lt hk) (Nat.mod_lt _ (Fly.per_pos hk)) b e).1
    rw [g'.node] at h2
    rw [g.node, h1]; omega

/-- A packet from terminal 5 to terminal 3 of a butterfly of two-by-two switches in three stages: routers 2, 4 and 9. -/
example : ∃ h l, FlyEnters ⟨2, 3⟩ (fun _ => (0, 1)) 5 h ∧ Moves (FlyTakes ⟨2, 3⟩ fun _ => (0, 1)) h l ∧
    l.map (·.2.node) = [4, 9] ∧ h.node = 2 ∧ FlyEjects ⟨2, 3⟩ (last h l) 3 :=
  ⟨⟨2, 1, ⟨3, 0, 0, -1⟩, ⟨0, 0, 1, -1⟩⟩,
    [((4, 1), ⟨4, 1, ⟨3, 0, 1, -1⟩, ⟨1, 0, 1, -1⟩⟩), ((9, 0), ⟨9, 0, ⟨3, 0, 0, -1⟩, ⟨1, 0, 1, -1⟩⟩)],
    ⟨⟨3, 0, 0, -1⟩, by decide, by decide, false, ⟨0, 0, 1, -1⟩, by decide, rfl⟩,
    ⟨⟨by decide, by decide, by decide, by decide, by decide, 4, 1, by decide, false, ⟨1, 0, 1, -1⟩, by decide, rfl⟩,
      ⟨by decide, by decide, by decide, by decide, by decide, 9, 0, by decide, false, ⟨1, 0, 1, -1⟩, by decide, rfl⟩, trivial⟩,
    rfl, rfl, by decide, by decide⟩

example : flyReceivers ⟨2, 3⟩ (flyOut ⟨2, 3⟩ 0 2 1) = [(6, 1)] := by decide

example := C149_one_driver (s := ⟨2, 3⟩) (t := 0) (a := 2) (q := 1) (by decide) (by decide) (by decide) (by decide) (by decide)

example := C149_no_deadlock_partial (s := ⟨2, 3⟩) (rng := fun _ => (0, 1)) (by decide) (by decide)

end RadSim.Routing
