import Verif.Lemmas.QTree
import Verif.Spec.Tree4

/-!
# C154: the quad tree delivers on the one shortest way

With `qtree_nca` every packet rises as far as it has to, goes down and leaves at its destination, and packets between the
same terminals use the same channels.
-/

namespace RadSim.Routing

open Worms Qt

variable {rng : Nat → Nat × Nat}

/-- C154. The wiring: `_channels` is 40, every channel has one output port that drives it and one input port that reads it,
the ports that face the terminals are those of level 2 below 4, and the router at the other end has a channel back between
the same ports. -/
theorem C154_wiring : qtChannels = 40 ∧ qtNodes.length = 21 ∧
    (∀ u ∈ qtNodes, ∀ p c, (qtOuts u).getD p none = some c → c < 40) ∧
    (∀ c < 40, ∃ u ∈ qtNodes, ∃ p, ∃ v ∈ qtNodes, ∃ q,
      (∀ u' ∈ qtNodes, ∀ p', (qtOuts u').getD p' none = some c ↔ u' = u ∧ p' = p) ∧
      (∀ v' ∈ qtNodes, ∀ q', (qtIns v').getD q' none = some c ↔ v' = v ∧ q' = q) ∧
      ∃ c' < 40, (qtOuts v).getD q none = some c' ∧ (qtIns u).getD p none = some c') ∧
    ∀ u ∈ qtNodes, ∀ p, ((qtOuts u)[p]? = some none ↔ qtHeight u = 2 ∧ p < 4) ∧
      ((qtIns u)[p]? = some none ↔ qtHeight u = 2 ∧ p < 4) := by
  refine ⟨by decide, by decide +kernel, fun u hu p c h => (outs hu h).1, fun c hc => ?_, fun u hu p => ?_⟩
  · obtain ⟨b1, b2, b3, b4⟩ := back c hc
    refine ⟨(src c).1, b1, (src c).2, (dst c).1, b2, (dst c).2, fun u' hu' p' => ⟨fun h => ?_, ?_⟩, fun v' hv' q' => ⟨fun h => ?_, ?_⟩, ?_⟩
    · have := (outs hu' h).2
      rw [this]; exact ⟨rfl, rfl⟩
    · rintro ⟨rfl, rfl⟩; exact b3
    · have := (ins hv' h).2
      rw [this]; exact ⟨rfl, rfl⟩
    · rintro ⟨rfl, rfl⟩; exact b4
    · have : ∀ c < 40, ∃ c' < 40, (qtOuts (dst c).1).getD (dst c).2 none = some c' ∧
          (qtIns (src c).1).getD (src c).2 none = some c' := by decide +kernel
      exact this c hc
  · have : ∀ u ∈ qtNodes, ∀ p < 5, ((qtOuts u)[p]? = some none ↔ qtHeight u = 2 ∧ p < 4) ∧
        ((qtIns u)[p]? = some none ↔ qtHeight u = 2 ∧ p < 4) := by decide +kernel
    by_cases hp : p < 5
    · exact this u hu p hp
    · have := lens u hu
      rw [List.getElem?_eq_none (by omega), List.getElem?_eq_none (by omega)]
      constructor <;> constructor <;> intro h
      · cases h
      · omega
      · cases h
      · omega

theorem Qt.moves : ∀ (l : List ((Nat × Nat) × Head)) (h : Head), Good rng h → Moves (QtTakes rng) h l →
    Good rng (last h l) ∧ (last h l).pkt.dest = h.pkt.dest ∧ (last h l).pkt.cls = h.pkt.cls
  | [], _, hg, _ => ⟨hg, rfl, rfl⟩
  | (c, b) :: l, h, hg, hm => by
    obtain ⟨g, e1, e2, -⟩ := takes hg hm.1
    obtain ⟨i1, i2, i3⟩ := Qt.moves l b g hm.2
    exact ⟨i1, i2.trans e1, i3.trans e2⟩

theorem Qt.togo_leaf {t d : Nat} (ht : t < 64) : togo (512 + t / 4) d = t4Dist t d := by
  unfold togo t4Dist
  rw [if_neg (by omega), if_neg (by omega)]
  repeat' split
  all_goals omega

/-- C154. A packet from terminal `t` makes as many moves as its destination is away and no more. Before that it can
take any virtual channel of its class; after that it leaves at its destination and nowhere else. -/
theorem C154_delivers {t : Nat} {h : Head} (he : QtEnters rng t h) {l : List ((Nat × Nat) × Head)}
    (hl : Moves (QtTakes rng) h l) :
    l.length ≤ t4Dist t h.pkt.dest ∧
    (l.length < t4Dist t h.pkt.dest → (∀ x, ¬ QtEjects (last h l) x) ∧
      ∀ vc, (rng h.pkt.cls).1 ≤ vc → vc ≤ (rng h.pkt.cls).2 → ∃ c h', QtTakes rng (last h l) (c, vc) h') ∧
    (l.length = t4Dist t h.pkt.dest → ∀ x, QtEjects (last h l) x ↔ x = h.pkt.dest) := by
  obtain ⟨g, e, ht⟩ := enters he
  obtain ⟨i1, i2, i3⟩ := Qt.moves l h g hl
  have hlen := length_add (takes := QtTakes rng) (Good := Good rng) (D := fun h => togo h.node h.pkt.dest)
    (fun a c b ha hb => (takes ha hb).1) (fun a c b ha hb => (togo_step ha hb).1) l h g hl
  have h0 : togo h.node h.pkt.dest = t4Dist t h.pkt.dest := by rw [e]; exact togo_leaf ht
  rw [h0] at hlen
  refine ⟨by omega, fun hlt => ⟨fun x hx => ?_, fun vc h1 h2 => ?_⟩, fun heq x => ?_⟩
  · have := ((home i1 x).1 hx).1
    omega
  · exact can i1 (by omega) (by rw [i3]; exact h1) (by rw [i3]; exact h2)
  · rw [i2] at hlen
    rw [home i1, i2]
    exact ⟨fun h => h.2, fun h => ⟨by omega, h⟩⟩

/-- C154. No way through the network is shorter. -/
theorem C154_shortest {t d m : Nat} (ht : t < 64) (hd : d < 64)
    (hw : Way (fun a b => a ∈ qtNodes ∧ b ∈ qtNodes ∧ ∃ c p q, (qtOuts a).getD p none = some c ∧ (qtIns b).getD q none = some c)
      m (512 + t / 4) (512 + d / 4)) : t4Dist t d ≤ m := by
  have near : ∀ c < 40, ∀ d < 64, togo (src c).1 d ≤ togo (dst c).1 d + 1 := by decide +kernel
  have key : ∀ m a, Way (fun a b => a ∈ qtNodes ∧ b ∈ qtNodes ∧
      ∃ c p q, (qtOuts a).getD p none = some c ∧ (qtIns b).getD q none = some c) m a (512 + d / 4) → togo a d ≤ m := by
    intro m
    induction m with
    | zero =>
      intro a h
      have h : a = 512 + d / 4 := h
      unfold togo
      rw [if_neg (by omega), if_neg (by omega), if_pos (by omega)]
      exact Nat.le_refl 0
    | succ m ih =>
      rintro a ⟨x, ⟨ha, hx, c, p, q, h1, h2⟩, hw⟩
      have := ih x hw
      have hn := near c (outs ha h1).1 d hd
      rw [(outs ha h1).2, (ins hx h2).2] at hn
      dsimp only at hn
      omega
  have h := key m _ hw
  rw [togo_leaf ht] at h
  exact h

/-- C154. Packets do not deadlock. Partial: a channel belongs to one packet at a time, see `Spec/Worms.lean`. -/
theorem C154_no_deadlock_partial :
    NoDeadlock (fun h => ∃ t, QtEnters rng t h) (QtTakes rng) (fun h => ∃ t, QtEjects h t) := noDeadlockQt

/-- C154. Packets with the same source and destination, of whatever classes and on whatever virtual channels, use the same
channels in the same order. -/
theorem C154_one_way {t : Nat} {h₁ h₂ : Head} (e₁ : QtEnters rng t h₁) (e₂ : QtEnters rng t h₂)
    (hd : h₁.pkt.dest = h₂.pkt.dest) {l₁ l₂ : List ((Nat × Nat) × Head)} (m₁ : Moves (QtTakes rng) h₁ l₁)
    (m₂ : Moves (QtTakes rng) h₂ l₂) (hl : l₁.length = l₂.length) :
    l₁.map (fun x => x.1.1) = l₂.map (fun x => x.1.1) := by
  have key : ∀ (l₁ l₂ : List ((Nat × Nat) × Head)) (h₁ h₂ : Head), Good rng h₁ → Good rng h₂ → h₁.node = h₂.node →
      h₁.pkt.dest = h₂.pkt.dest → Moves (QtTakes rng) h₁ l₁ → Moves (QtTakes rng) h₂ l₂ → l₁.length = l₂.length →
      l₁.map (fun x => x.1.1) = l₂.map (fun x => x.1.1) := by
    intro l₁
    induction l₁ with
    | nil =>
      intro l₂ h₁ h₂ _ _ _ _ _ _ hl
      rw [List.length_eq_zero_iff.1 hl.symm]
    | cons x l₁ ih =>
      intro l₂ h₁ h₂ g₁ g₂ hn hd m₁ m₂ hl
      match l₂, hl, m₂ with
      | y :: l₂, hl, m₂ =>
        obtain ⟨a1, a2, -, a4, a5, a6⟩ := takes g₁ m₁.1
        obtain ⟨b1, b2, -, b4, b5, b6⟩ := takes g₂ m₂.1
        have hs : src x.1.1 = src y.1.1 := by rw [a5, b5, hn, hd]
        have hc : x.1.1 = y.1.1 := by
          have k1 := (back _ a4).2.2.1
          rw [hs, (back _ b4).2.2.1] at k1
          exact (Option.some.inj k1).symm
        rw [List.map_cons, List.map_cons, hc,
          ih l₂ x.2 y.2 a1 b1 (by rw [← a6, ← b6, hc]) (by rw [a2, b2, hd]) m₁.2 m₂.2 (Nat.succ.inj hl)]
  obtain ⟨g₁, n₁, -⟩ := enters e₁
  obtain ⟨g₂, n₂, -⟩ := enters e₂
  exact key l₁ l₂ h₁ h₂ g₁ g₂ (n₁.trans n₂.symm) hd m₁ m₂ hl

/-! ## An example

One class with two virtual channels. A packet from terminal 5 to terminal 9, two links away. -/

namespace QTreeExample

def vcs (_ : Nat) : Nat × Nat := (0, 1)
def h0 : Head := ⟨513, 1, ⟨9, 0, 0, -1⟩, ⟨4, 0, 1, -1⟩⟩
def h1 : Head := ⟨256, 1, ⟨9, 0, 1, -1⟩, ⟨2, 0, 1, -1⟩⟩
def h2 : Head := ⟨514, 4, ⟨9, 0, 0, -1⟩, ⟨1, 0, 1, -1⟩⟩

theorem enters0 : QtEnters vcs 5 h0 := ⟨⟨9, 0, 0, -1⟩, by decide, by decide, h0.out, rfl, rfl⟩

theorem moves0 : Moves (QtTakes vcs) h0 [((5, 1), h1), ((26, 0), h2)] :=
  ⟨⟨by decide, by decide, by decide, 256, by decide +kernel, 1, by decide, h1.out, rfl, rfl⟩,
    ⟨by decide, by decide, by decide, 514, by decide +kernel, 4, by decide, h2.out, rfl, rfl⟩, trivial⟩

example : QtEjects h2 9 := ((C154_delivers enters0 moves0).2.2 (by decide) 9).2 rfl
example : t4Dist 5 62 = 4 ∧ t4Dist 5 9 = 2 ∧ t4Dist 5 7 = 0 := by decide
example := C154_no_deadlock_partial (rng := vcs)
example := C154_one_way enters0 enters0 rfl moves0 moves0 rfl
example : t4Dist 5 9 ≤ 2 := C154_shortest (by decide) (by decide)
  ⟨256, ⟨by decide +kernel, by decide +kernel, 5, 4, 1, by decide, by decide⟩, 514,
    ⟨by decide +kernel, by decide +kernel, 26, 2, 4, by decide, by decide⟩, rfl⟩

end QTreeExample

end RadSim.Routing
