import Verif.Model.Tree4
import Verif.Lemmas.Worms

/-! # Lemmas on the tree of four-way routers -/

namespace RadSim.Routing.T4

open Router (Hop)
open Worms

/-- Where an output leads. -/
def Link (a p b : Nat) : Prop :=
  (a < 4 ∧ p < 8 ∧ b = 16 + p) ∨ (16 ≤ a ∧ a < 24 ∧ p < 4 ∧ b = 32 + 4 * ((a - 16) / 2) + p) ∨
  (16 ≤ a ∧ a < 24 ∧ 4 ≤ p ∧ p < 8 ∧ b = p - 4) ∨ (32 ≤ a ∧ a < 48 ∧ 4 ≤ p ∧ p < 6 ∧ b = 16 + 2 * ((a - 32) / 4) + (p - 4))

instance (a p b : Nat) : Decidable (Link a p b) := by unfold Link; infer_instance

/-- The channel of an output. -/
def chan (a p : Nat) : Nat :=
  if a < 16 then 64 + 2 * (8 * a + p)
  else if a < 32 then if p < 4 then 2 * (4 * (a - 16) + p) else 65 + 2 * (8 * (p - 4) + (a - 16))
  else 2 * (4 * (2 * ((a - 32) / 4) + (p - 4)) + (a - 32) % 4) + 1

theorem length_eq : t4Conns.length = 128 := by decide +kernel

theorem all : ∀ c < 128, Link (t4From c) (t4OutPort c) (t4To c) ∧ Link (t4To c) (t4InPort c) (t4From c) ∧
    chan (t4From c) (t4OutPort c) = c ∧ chan (t4To c) (t4InPort c) = (if c % 2 = 0 then c + 1 else c - 1) := by decide +kernel

theorem back : ∀ a < 48, ∀ p < 8, (a < 4 ∨ (16 ≤ a ∧ a < 24) ∨ (32 ≤ a ∧ 4 ≤ p ∧ p < 6)) →
    chan a p < 128 ∧ t4From (chan a p) = a ∧ t4OutPort (chan a p) = p := by decide +kernel

/-- Directions that the routing functions give. -/
def Dir (u d p : Nat) : Prop :=
  (u < 4 ∧ p / 2 = d / 16) ∨ (16 ≤ u ∧ u < 24 ∧ d / 16 = (u - 16) / 2 ∧ p = d / 4 % 4) ∨
  (16 ≤ u ∧ u < 24 ∧ d / 16 ≠ (u - 16) / 2 ∧ 4 ≤ p ∧ p < 8) ∨ (32 ≤ u ∧ u < 48 ∧ d / 4 = u - 32 ∧ p = d % 4) ∨
  (32 ≤ u ∧ u < 48 ∧ d / 4 ≠ u - 32 ∧ 4 ≤ p ∧ p < 6)

def Node (u : Nat) : Prop := u < 4 ∨ (16 ≤ u ∧ u < 24) ∨ (32 ≤ u ∧ u < 48)

structure Good (rng : Nat → Nat × Nat) (h : HeadA) : Prop where
  dest : h.pkt.dest < 64
  vc : (rng h.pkt.cls).1 ≤ (rng h.pkt.cls).2
  out : ∃ p, h.outs = [⟨p, (rng h.pkt.cls).1, (rng h.pkt.cls).2, 0⟩] ∧ Dir h.node h.pkt.dest p

variable {anca : Bool} {rng : Nat → Nat × Nat}

theorem same_pri {a : Hop} (ha : a.pri = 0) (g : Nat → Hop) (hg : ∀ i, (g i).pri = 0) : ∀ l : List Nat,
    l.foldl (fun out i => addRange out (g i)) [a] = [a]
  | [] => rfl
  | i :: l => by
    have : addRange [a] (g i) = [a] := by
      unfold addRange
      rw [ha, hg, if_neg (by omega), if_neg (by omega)]
    rw [List.foldl_cons, this]
    exact same_pri ha g hg l

/-- The output set has one element. -/
theorem tree4_eq {draw u : Nat} {f : Pkt} (hv : vcOk rng f) :
    tree4 anca rng draw u f = some [⟨(t4Ports anca draw u f.dest).1, (rng f.cls).1, (rng f.cls).2, 0⟩] := by
  unfold tree4
  rw [if_pos hv]
  dsimp only
  have : ∃ m, (t4Ports anca draw u f.dest).2 = m + 1 := by
    unfold t4Ports
    dsimp only
    repeat' split
    all_goals exact ⟨_, rfl⟩
  obtain ⟨m, hm⟩ := this
  rw [hm, List.range_succ_eq_map, List.foldl_cons]
  exact congrArg some (same_pri rfl (fun i => ⟨(t4Ports anca draw u f.dest).1 + i, (rng f.cls).1, (rng f.cls).2, 0⟩) (fun _ => rfl) _)

theorem dir {draw u d : Nat} (hu : Node u) (hd : d < 64) : Dir u d (t4Ports anca draw u d).1 := by
  unfold Node at hu
  unfold Dir t4Ports
  dsimp only
  rcases hu with h | h | h
  · rw [if_pos (by omega)]; dsimp only; omega
  · rw [if_neg (by omega), if_pos (by omega)]
    repeat' split
    all_goals dsimp only; omega
  · rw [if_neg (by omega), if_neg (by omega)]
    repeat' split
    all_goals dsimp only; omega

theorem arrives {u q : Nat} {f : Pkt} {h : HeadA} (hu : Node u) (hd : f.dest < 64) (ha : T4Arrives anca rng u q f h) :
    Good rng h ∧ h.node = u ∧ h.inPort = q ∧ h.pkt = f ∧ vcOk rng f := by
  obtain ⟨draw, outs, ho, rfl⟩ := ha
  by_cases hv : vcOk rng f
  · rw [tree4_eq hv] at ho
    cases ho
    exact ⟨⟨hd, Nat.le_trans hv.1 hv.2, _, rfl, dir hu hd⟩, rfl, rfl, rfl, hv⟩
  · unfold tree4 at ho; rw [if_neg hv] at ho; cases ho

/-- Number of links to the destination. -/
def togo (u d : Nat) : Nat :=
  if u < 16 then 2
  else if u < 32 then if d / 16 = (u - 16) / 2 then 1 else 3
  else if d / 4 = u - 32 then 0 else if d / 16 = (u - 32) / 4 then 2 else 4

theorem togo_step {u d p v : Nat} (hd : Dir u d p) (hl : Link u p v) (h64 : d < 64) : Node v ∧ togo u d = togo v d + 1 := by
  unfold Dir at hd
  unfold Link at hl
  unfold Node togo
  refine ⟨by omega, ?_⟩
  rcases hd with h | h | h | h | h
  · rw [if_pos (by omega), if_neg (by omega), if_pos (by omega), if_pos (by omega)]
  · rw [if_neg (by omega), if_pos (by omega), if_pos (by omega), if_neg (by omega), if_neg (by omega), if_pos (by omega)]
  · rw [if_neg (by omega), if_pos (by omega), if_neg (by omega), if_pos (by omega)]
  · omega
  · rw [if_neg (by omega), if_neg (by omega), if_neg (by omega)]
    split
    · rw [if_neg (by omega), if_pos (by omega), if_pos (by omega)]
    · rw [if_neg (by omega), if_pos (by omega), if_neg (by omega)]

theorem enters {t : Nat} {h : HeadA} (he : T4Enters anca rng t h) : Good rng h ∧ h.node = 32 + t / 4 ∧ t < 64 := by
  obtain ⟨f, ht, hf, ha⟩ := he
  obtain ⟨g, e, -⟩ := arrives (by unfold Node; omega) hf ha
  exact ⟨g, e, ht⟩

/-- Everything about a move. -/
theorem takes {h h' : HeadA} {c : Nat × Nat} (hg : Good rng h) (ht : T4Takes anca rng h c h') :
    Good rng h' ∧ h'.pkt.dest = h.pkt.dest ∧ h'.pkt.cls = h.pkt.cls ∧
      togo h.node h.pkt.dest = togo h'.node h'.pkt.dest + 1 ∧
      ∃ p, (∀ o ∈ h.outs, o.port = p) ∧ Dir h.node h.pkt.dest p ∧ Link h.node p h'.node ∧ c.1 = chan h.node p := by
  obtain ⟨o, ho, hc, h1, h2, h3, h4, ha⟩ := ht
  obtain ⟨p, e, hd⟩ := hg.out
  rw [e] at ho
  have ho := List.mem_singleton.1 ho
  subst ho
  dsimp only at h2
  rw [length_eq] at hc
  obtain ⟨a1, -, a3, -⟩ := all c.1 hc
  rw [h1, h2] at a1 a3
  obtain ⟨n1, n2⟩ := togo_step hd a1 hg.dest
  obtain ⟨g, b1, -, b3, -⟩ := arrives n1 (show ({ h.pkt with vc := c.2 } : Pkt).dest < 64 from hg.dest) ha
  refine ⟨g, by rw [b3], by rw [b3], ?_, p, fun o ho => ?_, hd, by rw [b1]; exact a1, a3.symm⟩
  · rw [b1, b3]; exact n2
  · rw [e] at ho; rw [List.mem_singleton.1 ho]

/-- There is a channel to take short of the exit. -/
theorem can {h : HeadA} (hg : Good rng h) (hn : 0 < togo h.node h.pkt.dest) {o : Hop} (ho : o ∈ h.outs) {vc : Nat}
    (h1 : o.vcStart ≤ vc) (h2 : vc ≤ o.vcEnd) :
    ∃ h', T4Takes anca rng h (chan h.node o.port, vc) h' := by
  obtain ⟨p, e, hd⟩ := hg.out
  have ho' := ho
  rw [e] at ho'
  have ho' := List.mem_singleton.1 ho'
  subst ho'
  dsimp only at h1 h2 ⊢
  have hb : h.node < 48 ∧ p < 8 ∧ (h.node < 4 ∨ (16 ≤ h.node ∧ h.node < 24) ∨ (32 ≤ h.node ∧ 4 ≤ p ∧ p < 6)) := by
    have := hg.dest
    unfold togo at hn
    unfold Dir at hd
    rcases hd with h | h | h | h | h
    · omega
    · omega
    · omega
    · rw [if_neg (by omega), if_neg (by omega), if_pos h.2.2.1] at hn; omega
    · omega
  obtain ⟨b1, b2, b3⟩ := back _ hb.1 _ hb.2.1 hb.2.2
  have hv : vcOk rng { h.pkt with vc := vc } := ⟨h1, h2⟩
  refine ⟨_, _, ho, by rw [length_eq]; exact b1, b2, b3, h1, h2, 0, _, tree4_eq hv, rfl⟩

theorem home {h : HeadA} (hg : Good rng h) : togo h.node h.pkt.dest = 0 ↔ ∃ t, T4Ejects h t := by
  obtain ⟨p, e, hd⟩ := hg.out
  unfold T4Ejects
  rw [e]
  unfold Dir at hd
  constructor
  · intro h0
    unfold togo at h0
    refine ⟨_, _, List.mem_singleton_self _, ?_, ?_, rfl⟩
    · repeat' split at h0
      all_goals omega
    · dsimp only
      repeat' split at h0
      all_goals omega
  · rintro ⟨t, o, ho, h1, h2, -⟩
    cases List.mem_singleton.1 ho
    dsimp only at h2
    unfold togo
    rw [if_neg (by omega), if_neg (by omega), if_pos (by omega)]

theorem ejects {h : HeadA} (hg : Good rng h) {t : Nat} (ht : T4Ejects h t) : t = h.pkt.dest := by
  obtain ⟨p, e, hd⟩ := hg.out
  obtain ⟨o, ho, h1, h2, h3⟩ := ht
  rw [e] at ho
  cases List.mem_singleton.1 ho
  dsimp only at h2 h3
  unfold Dir at hd
  omega

/-- Order of the heads: rising, at the top, going down. -/
def rank (h : HeadA) : Nat :=
  if h.node < 16 then 2
  else if h.node < 32 then if ∀ o ∈ h.outs, o.port < 4 then 3 else 1
  else if ∀ o ∈ h.outs, o.port < 4 then 4 else 0

theorem rank_eq {h : HeadA} (hg : Good rng h) : ∃ p, (∀ o ∈ h.outs, o.port = p) ∧ Dir h.node h.pkt.dest p ∧
    rank h = if h.node < 16 then 2 else if h.node < 32 then if p < 4 then 3 else 1 else if p < 4 then 4 else 0 := by
  obtain ⟨p, e, hd⟩ := hg.out
  refine ⟨p, fun o ho => ?_, hd, ?_⟩
  · rw [e] at ho; rw [List.mem_singleton.1 ho]
  · unfold rank; rw [e]; simp

theorem rank_lt {h h' : HeadA} {c : Nat × Nat} (hg : Good rng h) (ht : T4Takes anca rng h c h') : rank h < rank h' := by
  obtain ⟨g, e1, -, -, p, hp, hd, hl, -⟩ := takes hg ht
  obtain ⟨p1, hp1, -, r1⟩ := rank_eq hg
  obtain ⟨p2, -, hd2, r2⟩ := rank_eq g
  obtain ⟨o, ho, -⟩ := ht
  have : p1 = p := (hp1 o ho).symm.trans (hp o ho)
  subst this
  rw [r1, r2]
  rw [e1] at hd2
  have := hg.dest
  unfold Dir at hd hd2
  unfold Link at hl
  repeat' split
  all_goals omega

theorem noDeadlockT4 : NoDeadlock (fun h => ∃ t, T4Enters anca rng t h) (T4Takes anca rng) (fun h => ∃ t, T4Ejects h t) := by
  refine noDeadlock (Good := Good rng) rank (fun h he => ?_) (fun h c h' hg ht => (takes hg ht).1)
    (fun h c h' hg ht => Nat.le_of_lt (rank_lt hg ht)) ?_
  · obtain ⟨t, he⟩ := he; exact (enters he).1
  intro h hg hh
  have hn : 0 < togo h.node h.pkt.dest := Nat.pos_of_ne_zero fun e => hh ((home hg).1 e)
  obtain ⟨p, e, hd⟩ := hg.out
  obtain ⟨h', ht⟩ := can (anca := anca) hg hn (o := ⟨p, (rng h.pkt.cls).1, (rng h.pkt.cls).2, 0⟩)
    (by rw [e]; exact List.mem_singleton_self _) (Nat.le_refl _) hg.vc
  refine ⟨_, h', ht, fun t t' gt tt => ?_⟩
  have hlt := rank_lt gt tt
  suffices rank t = rank h by omega
  obtain ⟨o, ho, -, a1, a2, -⟩ := ht
  obtain ⟨o', ho', -, b1, b2, -⟩ := tt
  obtain ⟨p1, hp1, -, r1⟩ := rank_eq hg
  obtain ⟨p2, hp2, -, r2⟩ := rank_eq gt
  have e1 : p1 = p2 := by rw [← hp1 o ho, ← hp2 o' ho', ← a2, ← b2]
  have e2 : h.node = t.node := by rw [← a1, ← b1]
  rw [r1, r2, e1, e2]

end RadSim.Routing.T4
