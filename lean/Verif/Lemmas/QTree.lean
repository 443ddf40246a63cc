import Verif.Model.QTree
import Verif.Lemmas.Worms

/-! # Lemmas on the quad tree -/

namespace RadSim.Routing.Qt

open Worms

/-- Router and output port that drive a channel. -/
def src (c : Nat) : Nat × Nat :=
  if c < 4 then (256 + c, 4) else if c < 20 then (512 + (c - 4), 4) else if c < 24 then (0, c - 20)
  else (256 + (c - 24) / 4, (c - 24) % 4)

/-- Router and input port that read a channel. -/
def dst (c : Nat) : Nat × Nat :=
  if c < 4 then (0, c) else if c < 20 then (256 + (c - 4) / 4, (c - 4) % 4) else if c < 24 then (256 + (c - 20), 4)
  else (512 + (c - 24), 4)

/-- Number of links to the destination. -/
def togo (u d : Nat) : Nat :=
  if u < 256 then 2
  else if u < 512 then if d / 16 = u - 256 then 1 else 3
  else if d / 4 = u - 512 then 0 else if d / 16 = (u - 512) / 4 then 2 else 4

/-- Order of the heads: rising, at the top, going down. -/
def rank (u p : Nat) : Nat :=
  if u < 256 then 2 else if u < 512 then if p < 4 then 3 else 1 else if p < 4 then 4 else 0

theorem lens : ∀ u ∈ qtNodes, (qtOuts u).length ≤ 5 ∧ (qtIns u).length ≤ 5 := by decide +kernel

theorem outs5 : ∀ u ∈ qtNodes, ∀ p < 5, ∀ c ∈ (qtOuts u).getD p none, c < 40 ∧ src c = (u, p) := by decide +kernel

theorem ins5 : ∀ u ∈ qtNodes, ∀ p < 5, ∀ c ∈ (qtIns u).getD p none, c < 40 ∧ dst c = (u, p) := by decide +kernel

theorem back : ∀ c < 40, (src c).1 ∈ qtNodes ∧ (dst c).1 ∈ qtNodes ∧ (qtOuts (src c).1).getD (src c).2 none = some c ∧
    (qtIns (dst c).1).getD (dst c).2 none = some c := by decide +kernel

theorem getD_lt {l : List (Option Nat)} {p c : Nat} (h : l.getD p none = some c) : p < l.length := by
  refine Nat.lt_of_not_le fun hl => ?_
  rw [List.getD_eq_getElem?_getD, List.getElem?_eq_none hl] at h
  cases h

theorem outs {u p c : Nat} (hu : u ∈ qtNodes) (h : (qtOuts u).getD p none = some c) : c < 40 ∧ src c = (u, p) :=
  outs5 u hu p (Nat.lt_of_lt_of_le (getD_lt h) (lens u hu).1) c h

theorem ins {u p c : Nat} (hu : u ∈ qtNodes) (h : (qtIns u).getD p none = some c) : c < 40 ∧ dst c = (u, p) :=
  ins5 u hu p (Nat.lt_of_lt_of_le (getD_lt h) (lens u hu).2) c h

theorem step : ∀ c < 40, ∀ d < 64, qtPort (src c).1 d = (src c).2 →
    togo (src c).1 d = togo (dst c).1 d + 1 ∧ rank (src c).1 (src c).2 < rank (dst c).1 (qtPort (dst c).1 d) := by
  decide +kernel

theorem go_on : ∀ u ∈ qtNodes, ∀ d < 64, togo u d ≠ 0 → ((qtOuts u).getD (qtPort u d) none).isSome := by decide +kernel

theorem arrived : ∀ u ∈ qtNodes, ∀ d < 64, (togo u d = 0 ↔ qtHeight u = 2 ∧ qtPort u d < 4) ∧
    (togo u d = 0 → 4 * qtPos u + qtPort u d = d) := by decide +kernel

theorem leaf : ∀ a < 16, 512 + a ∈ qtNodes := by decide +kernel

variable {rng : Nat → Nat × Nat}

structure Good (rng : Nat → Nat × Nat) (h : Head) : Prop where
  node : h.node ∈ qtNodes
  dest : h.pkt.dest < 64
  vc : (rng h.pkt.cls).1 ≤ (rng h.pkt.cls).2
  out : h.out = ⟨qtPort h.node h.pkt.dest, (rng h.pkt.cls).1, (rng h.pkt.cls).2, h.pkt.ph⟩

theorem arrives {u q : Nat} {f : Pkt} {h : Head} (hu : u ∈ qtNodes) (hd : f.dest < 64) (ha : QtArrives rng u q f h) :
    Good rng h ∧ h.node = u ∧ h.pkt = f := by
  obtain ⟨o, ho, rfl⟩ := ha
  unfold qtree at ho
  by_cases hv : vcOk rng f
  · rw [if_pos hv] at ho
    cases ho
    exact ⟨⟨hu, hd, Nat.le_trans hv.1 hv.2, rfl⟩, rfl, rfl⟩
  · rw [if_neg hv] at ho; cases ho

theorem enters {t : Nat} {h : Head} (he : QtEnters rng t h) : Good rng h ∧ h.node = 512 + t / 4 ∧ t < 64 := by
  obtain ⟨f, ht, hf, ha⟩ := he
  obtain ⟨g, e, -⟩ := arrives (leaf _ (by omega)) hf ha
  exact ⟨g, e, ht⟩

/-- Everything about a move. -/
theorem takes {h h' : Head} {c : Nat × Nat} (hg : Good rng h) (ht : QtTakes rng h c h') :
    Good rng h' ∧ h'.pkt.dest = h.pkt.dest ∧ h'.pkt.cls = h.pkt.cls ∧ c.1 < 40 ∧
      src c.1 = (h.node, qtPort h.node h.pkt.dest) ∧ (dst c.1).1 = h'.node := by
  obtain ⟨h1, -, -, v, hv, q, hq, ha⟩ := ht
  rw [hg.out] at h1
  obtain ⟨a1, a2⟩ := outs hg.node h1
  obtain ⟨-, b2⟩ := ins hv hq
  obtain ⟨g, e1, e2⟩ := arrives hv (show ({ h.pkt with vc := c.2 } : Pkt).dest < 64 from hg.dest) ha
  exact ⟨g, by rw [e2], by rw [e2], a1, a2, by rw [b2, e1]⟩

theorem togo_step {h h' : Head} {c : Nat × Nat} (hg : Good rng h) (ht : QtTakes rng h c h') :
    togo h.node h.pkt.dest = togo h'.node h'.pkt.dest + 1 ∧
      rank h.node h.out.port < rank h'.node h'.out.port := by
  obtain ⟨g, e1, -, hc, hs, hd⟩ := takes hg ht
  have := step c.1 hc _ hg.dest (by rw [hs])
  rw [hs, hd] at this
  rw [hg.out, g.out, e1]
  exact this

/-- There is a channel to take short of the exit. -/
theorem can {h : Head} (hg : Good rng h) (hn : togo h.node h.pkt.dest ≠ 0) {vc : Nat}
    (h1 : (rng h.pkt.cls).1 ≤ vc) (h2 : vc ≤ (rng h.pkt.cls).2) : ∃ c h', QtTakes rng h (c, vc) h' := by
  obtain ⟨c, hc⟩ := Option.isSome_iff_exists.1 (go_on _ hg.node _ hg.dest hn)
  obtain ⟨a1, -⟩ := outs hg.node hc
  obtain ⟨-, b2, -, b4⟩ := back c a1
  have hv : vcOk rng { h.pkt with vc := vc } := ⟨h1, h2⟩
  have hr : ∃ o, qtree rng (dst c).1 { h.pkt with vc := vc } = some o := ⟨_, if_pos hv⟩
  obtain ⟨o, ho⟩ := hr
  refine ⟨c, ⟨(dst c).1, (dst c).2, { h.pkt with vc := vc }, o⟩, ?_, ?_, ?_, _, b2, _, b4, o, ho, rfl⟩
  · rw [hg.out]; exact hc
  · rw [hg.out]; exact h1
  · rw [hg.out]; exact h2

theorem home {h : Head} (hg : Good rng h) (t : Nat) :
    QtEjects h t ↔ togo h.node h.pkt.dest = 0 ∧ t = h.pkt.dest := by
  obtain ⟨a1, a2⟩ := arrived _ hg.node _ hg.dest
  unfold QtEjects
  rw [hg.out]
  dsimp only
  constructor
  · rintro ⟨h1, h2, h3⟩
    have h0 := a1.2 ⟨h1, h2⟩
    exact ⟨h0, h3.trans (a2 h0)⟩
  · rintro ⟨h0, h3⟩
    exact ⟨(a1.1 h0).1, (a1.1 h0).2, h3.trans (a2 h0).symm⟩

theorem noDeadlockQt : NoDeadlock (fun h => ∃ t, QtEnters rng t h) (QtTakes rng) (fun h => ∃ t, QtEjects h t) := by
  refine noDeadlock (Good := Good rng) (fun h => rank h.node h.out.port) (fun h he => ?_)
    (fun h c h' hg ht => (takes hg ht).1) (fun h c h' hg ht => Nat.le_of_lt (togo_step hg ht).2) ?_
  · obtain ⟨t, he⟩ := he; exact (enters he).1
  intro h hg hh
  obtain ⟨c, h', ht⟩ := can hg (fun e => hh ⟨_, (home hg _).2 ⟨e, rfl⟩⟩) (Nat.le_refl _) hg.vc
  refine ⟨_, h', ht, fun t t' gt tt => ?_⟩
  have hlt := (togo_step gt tt).2
  obtain ⟨-, -, -, -, s1, -⟩ := takes hg ht
  obtain ⟨-, -, -, -, s2, -⟩ := takes gt tt
  have e := s1.symm.trans s2
  rw [gt.out] at hlt
  rw [hg.out]
  dsimp only at hlt ⊢
  obtain ⟨k1, k2⟩ := Prod.mk.inj e
  rw [k2, k1]
  exact hlt

end RadSim.Routing.Qt
