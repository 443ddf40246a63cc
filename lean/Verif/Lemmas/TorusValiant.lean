import Verif.Lemmas.RoutingTorus
import Verif.Lemmas.Worms
import Verif.Model.TorusMore

/-! # Valiant routing on a torus -/

namespace RadSim.Routing.Val

open Worms Grid

variable {s : Shape} {rng : Nat → Nat × Nat}

/-- The partition gets a value only on turning into a dimension, and never at the target. -/
theorem ringNext_some {u v q : Nat} {rnd : Bool} {p : Int} (h : (ringNext s u v q rnd).2 = some p) :
    (ringNext s u v q rnd).1 < 2 * s.n ∧ (p = 0 ∨ p = 1) := by
  unfold ringNext at *
  revert h
  rcases torusLoop s.k s.n 0 u v with ⟨a, b, c⟩
  dsimp only
  intro h
  split at h
  · rename_i ha
    rw [if_pos ha]
    split at h
    · rename_i hb
      rw [if_pos hb]
      dsimp only at h ⊢
      refine ⟨by split <;> omega, ?_⟩
      have := Option.some.inj h
      rw [← this]
      split <;> simp
    · cases h
  · cases h

/-- With the dimension. -/
theorem ringNext_turn (hk : 0 < s.k) {u v q : Nat} {rnd : Bool} {p : Int} (hu : u < s.nodes) (hv : v < s.nodes)
    (h : (ringNext s u v q rnd).2 = some p) : ∃ d, First s u v d ∧ q / 2 ≠ d ∧ (ringNext s u v q rnd).1 / 2 = d := by
  rcases torusLoop_spec hk hu hv with ⟨-, e⟩ | ⟨-, d, hd, e⟩
  · exfalso
    unfold ringNext at h
    revert h e
    rcases torusLoop s.k s.n 0 u v with ⟨a, b, c⟩
    dsimp only
    intro h e
    rw [if_neg (show ¬ a < s.n by omega)] at h
    cases h
  · refine ⟨d, hd, ?_⟩
    unfold ringNext at *
    rw [e] at h ⊢
    dsimp only at h ⊢
    rw [if_pos hd.dim] at h ⊢
    split at h
    · rename_i hq
      rw [if_pos hq]
      refine ⟨hq, ?_⟩
      dsimp only
      split <;> omega
    · cases h

/-- No head leaves a router on the ejection port. -/
theorem valiant_port {u q intm drawn : Nat} {f : Pkt} {h : Head2} (ha : ArrivesV (valiantTorus s rng) u q f intm drawn h) :
    h.out.port < 2 * s.n := by
  obtain ⟨rnd, o, i, ho, rfl⟩ := ha
  unfold valiantTorus at ho
  split at ho
  · dsimp only at ho
    split at ho
    · cases ho
    · rename_i hp
      have := (ringNext_some hp).1
      split at ho
      · split at ho
        · cases ho; exact this
        · cases ho
      · cases ho; exact this
  · cases ho

theorem valiantNi_port {u q intm drawn : Nat} {f : Pkt} {h : Head2}
    (ha : ArrivesV (valiantNiTorus s rng) u q f intm drawn h) : h.out.port < 2 * s.n := by
  obtain ⟨rnd, o, i, ho, rfl⟩ := ha
  unfold valiantNiTorus at ho
  split at ho
  · dsimp only at ho
    split at ho
    · cases ho
    · split at ho
      · cases ho
      · rename_i hp
        have := (ringNext_some hp).1
        split at ho
        · split at ho
          · cases ho; exact this
          · cases ho
        · cases ho; exact this
  · cases ho

/-- The router a phase goes to. -/
def goal (h : Head2) (phase : Int) : Nat := if phase = 0 then h.intm else h.pkt.dest

/-- Heads of `valiant_torus`, in a phase and going along a dimension. -/
structure Good (s : Shape) (ph d : Nat) (h : Head2) : Prop where
  node : h.node < s.nodes
  dest : h.pkt.dest < s.nodes
  intm : h.intm < s.nodes
  phase : ph = 0 ∨ ph = 1
  pkt : h.pkt.ph.tdiv 2 = ph
  first : First s h.node (goal h ph) d
  port : h.out.port / 2 = d

theorem arrives (hk : 0 < s.k) {u q intm drawn : Nat} {f : Pkt} {h : Head2} {ph im : Nat} (hu : u < s.nodes) (hf : f.dest < s.nodes)
    (him : im < s.nodes) (hx : (if q = 2 * s.n then ((0 : Int), drawn) else (f.ph.tdiv 2, intm)) = ((ph : Int), im)) (hph : ph = 0 ∨ ph = 1)
    (ha : ArrivesV (valiantTorus s rng) u q f intm drawn h) :
    h.node = u ∧ h.intm = im ∧ h.pkt.dest = f.dest ∧ ∃ d, (Good s 1 d h ∧ ph = 0) ∨ (Good s ph d h ∧ q / 2 ≠ d) := by
  obtain ⟨rnd, o, i, ho, rfl⟩ := ha
  unfold valiantTorus at ho
  rw [hx] at ho
  split at ho
  · dsimp only at ho
    split at ho
    · cases ho
    · rename_i part hp
      have hpart := (ringNext_some hp).2
      have key : i = im ∧ o.port = (ringNext s u (if (if (ph : Int) = 0 ∧ u = im then ((1 : Int), 2 * s.n) else ((ph : Int), q)).1 = 0
          then im else f.dest) (if (ph : Int) = 0 ∧ u = im then ((1 : Int), 2 * s.n) else ((ph : Int), q)).2 rnd).1 ∧
          o.ph = 2 * (if (ph : Int) = 0 ∧ u = im then ((1 : Int), 2 * s.n) else ((ph : Int), q)).1 + part := by
        split at ho
        · split at ho
          · simp only [Except.ok.injEq, Prod.mk.injEq] at ho
            obtain ⟨rfl, rfl⟩ := ho
            exact ⟨rfl, rfl, rfl⟩
          · cases ho
        · simp only [Except.ok.injEq, Prod.mk.injEq] at ho
          obtain ⟨rfl, rfl⟩ := ho
          exact ⟨rfl, rfl, rfl⟩
      obtain ⟨rfl, k1, k2⟩ := key
      clear ho
      refine ⟨rfl, rfl, rfl, ?_⟩
      by_cases hc : (ph : Int) = 0 ∧ u = i
      · rw [if_pos hc] at hp k1 k2
        dsimp only at hp k1 k2
        rw [if_neg (by decide)] at hp k1
        obtain ⟨d, hd, -, e⟩ := ringNext_turn hk hu hf hp
        refine ⟨d, Or.inl ⟨⟨hu, hf, him, Or.inr rfl, ?_, ?_, by rw [k1]; exact e⟩, by omega⟩⟩
        · show o.ph.tdiv 2 = _
          rw [k2]
          rcases hpart with rfl | rfl <;> decide
        · exact hd
      · rw [if_neg hc] at hp k1 k2
        dsimp only at hp k1 k2
        have hgoal : (if (ph : Int) = 0 then i else f.dest) < s.nodes := by split <;> assumption
        obtain ⟨d, hd, hq, e⟩ := ringNext_turn hk hu hgoal hp
        refine ⟨d, Or.inr ⟨⟨hu, hf, him, hph, ?_, ?_, by rw [k1]; exact e⟩, hq⟩⟩
        · show o.ph.tdiv 2 = _
          rw [k2]
          rcases hph with rfl | rfl <;> rcases hpart with rfl | rfl <;> decide
        · exact hd
  · cases ho

theorem takesV_iff (hk : 0 < s.k) {rf : Rf2} {h h' : Head2} {c : Nat × Nat} (hn : h.node < s.nodes) (ht : TakesV s rf h c h') :
    h.out.port < 2 * s.n ∧ ArrivesV rf (nbr s h.node h.out.port) (opp h.out.port) { h.pkt with vc := c.2 } h.intm 0 h' := by
  obtain ⟨h1, h2, h3, h4, v, q, h5, h6⟩ := ht
  rw [h2, receivers_eq hk h1 hn] at h5
  simp only [List.cons.injEq, Prod.mk.injEq, and_true] at h5
  exact ⟨h1, h5.1 ▸ h5.2 ▸ h6⟩

/-- Every move goes to a further dimension or to the second phase. -/
theorem takes (hk : 0 < s.k) {ph d : Nat} {h h' : Head2} {c : Nat × Nat} (hg : Good s ph d h)
    (ht : TakesV s (valiantTorus s rng) h c h') : ∃ ph' d', Good s ph' d' h' ∧ ph * s.n + d < ph' * s.n + d' := by
  obtain ⟨hp, ha⟩ := takesV_iff hk hg.node ht
  have hdim := hg.first.dim
  have hq : opp h.out.port ≠ 2 * s.n := by have := opp_lt (n := s.n) hp; omega
  obtain ⟨e1, e2, e3, d', hd'⟩ := arrives hk (ph := ph) (im := h.intm) (nbr_lt hk hp hg.node) (f := { h.pkt with vc := c.2 })
    hg.dest hg.intm (by rw [if_neg hq]; exact congrArg (·, h.intm) hg.pkt) hg.phase ha
  rcases hd' with ⟨g, rfl⟩ | ⟨g, hne⟩
  · exact ⟨1, d', g, by omega⟩
  · refine ⟨ph, d', g, ?_⟩
    rw [opp_half, hg.port] at hne
    obtain ⟨n1, -, -⟩ := nbr_coord hk h.node h.out.port
    rw [hg.port] at n1
    have : ¬ d' < d := fun hlt => g.first.ne (by
      have h2 := hg.first.before d' hlt
      have h3 : goal h' ph = goal h ph := by unfold goal; rw [e2, e3]
      rw [h3, e1, n1 d' (by omega)]; exact h2)
    omega

theorem enters (hk : 0 < s.k) {h : Head2} (he : EntersV s (valiantTorus s rng) h) : ∃ ph d, Good s ph d h := by
  obtain ⟨u, f, intm, drawn, hu, hf, -, ⟨x, hx⟩, ha⟩ := he
  have hd : drawn < s.nodes := by
    have := Nat.mod_lt x (Nat.succ_pos (s.nodes - 1))
    rw [hx]; simp only [Nat.succ_eq_add_one] at this; omega
  obtain ⟨-, -, -, d, h1 | h1⟩ := arrives hk (ph := 0) hu hf hd (by rw [if_pos rfl]; rfl) (Or.inl rfl) ha
  · exact ⟨_, _, h1.1⟩
  · exact ⟨_, _, h1.1⟩

theorem length (hk : 0 < s.k) : ∀ (l : List ((Nat × Nat) × Head2)) (ph d : Nat) (h : Head2), Good s ph d h →
    Moves (TakesV s (valiantTorus s rng)) h l → l.length + (ph * s.n + d) < 2 * s.n
  | [], ph, d, h, hg, _ => by
    have := hg.first.dim
    rcases hg.phase with rfl | rfl <;> simp <;> omega
  | (c, h') :: l, ph, d, h, hg, hm => by
    obtain ⟨ph', d', g, hlt⟩ := takes hk hg hm.1
    have := length hk l ph' d' h' g hm.2
    simp only [List.length_cons]; omega

end RadSim.Routing.Val
