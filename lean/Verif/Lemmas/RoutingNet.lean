import Verif.Lemmas.Routing

/-! # Routing functions on the network: ranks and distances -/

namespace RadSim.Routing

open Worms Grid

theorem sum_step (n d : Nat) (hd : d < n) (f g : Nat → Nat) (h : f d = g d + 1)
    (he : ∀ x, x ≠ d → f x = g x) : ∑ x ∈ Finset.range n, f x = ∑ x ∈ Finset.range n, g x + 1 := by
  have hm : d ∈ Finset.range n := Finset.mem_range.mpr hd
  rw [← Finset.add_sum_erase _ f hm, ← Finset.add_sum_erase _ g hm, h,
    Finset.sum_congr rfl (fun x hx => he x (Finset.ne_of_mem_erase hx))]
  exact Nat.add_right_comm _ _ _

section Mesh

variable {s : Shape}

theorem manhattan_step (hk : 0 < s.k) {desc : Bool} {u v p d : Nat} (h : Dor s desc u v p d) :
    manhattan s.k s.n u v = manhattan s.k s.n (nbr s u p) v + 1 := by
  obtain ⟨_, _, hs, hc⟩ := dor_step hk h
  refine sum_step s.n d h.dim _ _ ?_ fun x hx => by rw [hs x hx]
  unfold gap; omega

theorem box_step (hk : 0 < s.k) {desc : Bool} {a u v p d : Nat} (h : Dor s desc u v p d)
    (hb : InBox s.k s.n a v u) : InBox s.k s.n a v (nbr s u p) := by
  obtain ⟨_, _, hs, hc⟩ := dor_step hk h
  intro x hx
  have := hb x hx
  by_cases e : x = d
  · subst e; omega
  · rw [hs x e]; exact this

/-- Order of the channels that dimension-order routing takes. -/
def rank (s : Shape) (desc : Bool) (u p : Nat) : Nat :=
  (if desc then s.n - 1 - p / 2 else p / 2) * s.k +
    (if p % 2 = 0 then coord s.k u (p / 2) else s.k - 1 - coord s.k u (p / 2))

theorem mul_lt_bound {a b k x : Nat} (h : a < b) (hx : x < k) : a * k + x < b * k := by
  have : (a + 1) * k ≤ b * k := Nat.mul_le_mul_right k h
  rw [Nat.add_mul, Nat.one_mul] at this
  omega

theorem rank_lt (hk : 0 < s.k) (desc : Bool) (u : Nat) {p : Nat} (hp : p < 2 * s.n) :
    rank s desc u p < s.n * s.k := by
  have := coord_lt hk u (p / 2)
  unfold rank
  refine mul_lt_bound (b := s.n) ?_ ?_
  · split <;> omega
  · split <;> omega

theorem rank_step (hk : 0 < s.k) {desc : Bool} {u v p d p' d' : Nat} (h : Dor s desc u v p d)
    (h' : Dor s desc (nbr s u p) v p' d') : rank s desc u p < rank s desc (nbr s u p) p' := by
  obtain ⟨hp, hpd, hs, hc⟩ := dor_step hk h
  obtain ⟨hp', hpd', -, hc'⟩ := dor_step hk h'
  have hd := h.dim
  have hd' := h'.dim
  have hne' := h'.ne
  by_cases e : d' = d
  · subst e
    unfold rank
    rw [hpd, hpd']
    have := coord_lt hk u d'
    rcases hc with ⟨a1, a2, a3⟩ | ⟨a1, a2, a3⟩
    · have : p' % 2 = 0 := by omega
      rw [if_pos a1, if_pos this]; omega
    · have x1 : ¬ p % 2 = 0 := by omega
      have x2 : ¬ p' % 2 = 0 := by omega
      rw [if_neg x1, if_neg x2]; omega
  · have hlt : (if desc then s.n - 1 - d else d) < (if desc then s.n - 1 - d' else d') := by
      rw [hs d' e] at hne'
      have hb := h.before d' hd'
      cases desc
      · simp only [Bool.false_eq_true, if_false] at hb ⊢
        have : ¬ d' < d := fun hlt => hne' (hb hlt)
        omega
      · simp only [if_true] at hb ⊢
        have : ¬ d < d' := fun hlt => hne' (hb hlt)
        omega
    unfold rank
    rw [hpd, hpd']
    have := coord_lt hk u d
    refine Nat.lt_of_lt_of_le (mul_lt_bound hlt ?_) (Nat.le_add_right _ _)
    split <;> omega

end Mesh

section Net

variable {s : Shape} {rf : Rf}

theorem takes_iff (hk : 0 < s.k) {h h' : Head} {c : Nat × Nat} (hn : h.node < s.nodes) :
    Takes s rf h c h' ↔ h.out.port < 2 * s.n ∧ c.1 = 2 * s.n * h.node + h.out.port ∧
      h.out.vcBegin ≤ c.2 ∧ c.2 ≤ h.out.vcEnd ∧
      Arrives rf (nbr s h.node h.out.port) (opp h.out.port) { h.pkt with vc := c.2 } h' := by
  unfold Takes
  constructor
  · rintro ⟨h1, h2, h3, h4, v, q, h5, h6⟩
    rw [h2, receivers_eq hk h1 hn] at h5
    simp only [List.cons.injEq, Prod.mk.injEq, and_true] at h5
    rw [outputChannel_eq] at h2
    exact ⟨h1, h2, h3, h4, h5.1 ▸ h5.2 ▸ h6⟩
  · rintro ⟨h1, h2, h3, h4, h5⟩
    rw [← outputChannel_eq] at h2
    exact ⟨h1, h2, h3, h4, _, _, by rw [h2, receivers_eq hk h1 hn], h5⟩

/-- Two heads that take the same channel are at the same router and port. -/
theorem takes_same (hk : 0 < s.k) {h h' t t' : Head} {c : Nat × Nat} (hn : h.node < s.nodes)
    (tn : t.node < s.nodes) (h1 : Takes s rf h c h') (h2 : Takes s rf t c t') :
    t.node = h.node ∧ t.out.port = h.out.port := by
  obtain ⟨a1, a2, -⟩ := (takes_iff hk hn).mp h1
  obtain ⟨b1, b2, -⟩ := (takes_iff hk tn).mp h2
  exact enc_inj b1 a1 (b2.symm.trans a2)

end Net

section MeshNet

variable {s : Shape} {rng : Nat → Nat × Nat}

/-- Heads under `dim_order_mesh`. -/
structure GoodM (s : Shape) (rng : Nat → Nat × Nat) (h : Head) : Prop where
  node : h.node < s.nodes
  dest : h.pkt.dest < s.nodes
  port : h.out.port = dorNextMesh s h.node h.pkt.dest false
  lo : h.out.vcBegin = (rng h.pkt.cls).1
  hi : h.out.vcEnd = (rng h.pkt.cls).2
  ne : (rng h.pkt.cls).1 ≤ (rng h.pkt.cls).2

theorem arrivesM {u q : Nat} {f : Pkt} {h : Head} (hu : u < s.nodes) (hf : f.dest < s.nodes)
    (ha : Arrives (dimOrderMesh s rng) u q f h) :
    GoodM s rng h ∧ h.node = u ∧ h.pkt.dest = f.dest ∧ h.pkt.cls = f.cls := by
  obtain ⟨rnd, o, ho, rfl⟩ := ha
  unfold dimOrderMesh at ho
  by_cases hv : vcOk rng f
  · rw [if_pos hv] at ho
    cases ho
    exact ⟨⟨hu, hf, rfl, rfl, rfl, Nat.le_trans hv.1 hv.2⟩, rfl, rfl, rfl⟩
  · rw [if_neg hv] at ho; cases ho

theorem arrivesM_exists {u q : Nat} {f : Pkt} (h1 : (rng f.cls).1 ≤ f.vc) (h2 : f.vc ≤ (rng f.cls).2) :
    ∃ h, Arrives (dimOrderMesh s rng) u q f h :=
  ⟨_, false, _, by unfold dimOrderMesh; rw [if_pos ⟨h1, h2⟩], rfl⟩

theorem homeM (hk : 0 < s.k) {h : Head} (hg : GoodM s rng h) : Home s h ↔ h.node = h.pkt.dest := by
  unfold Home
  rw [hg.port]
  constructor
  · intro e
    refine Classical.byContradiction fun hne => ?_
    obtain ⟨d, hd⟩ := dor_spec hk hg.node hg.dest hne false
    have := (dor_step hk hd).1
    omega
  · intro e; rw [e]; unfold dorNextMesh; rw [if_pos rfl]

theorem takesM (hk : 0 < s.k) {h h' : Head} {c : Nat × Nat} (hg : GoodM s rng h)
    (ht : Takes s (dimOrderMesh s rng) h c h') :
    GoodM s rng h' ∧ h'.node = nbr s h.node h.out.port ∧ h'.pkt.dest = h.pkt.dest ∧
      ∃ d, Dor s false h.node h.pkt.dest h.out.port d := by
  obtain ⟨h1, h2, h3, h4, h5⟩ := (takes_iff hk hg.node).mp ht
  have hne : h.node ≠ h.pkt.dest := fun e => by
    have := (homeM hk hg).mpr e
    unfold Home at this; omega
  obtain ⟨g, e1, e2, -⟩ := arrivesM (f := { h.pkt with vc := c.2 }) (nbr_lt hk h1 hg.node) hg.dest h5
  refine ⟨g, e1, e2, ?_⟩
  rw [hg.port]; exact dor_spec hk hg.node hg.dest hne false

/-- Rank of a head: the rank of the channel it wants. -/
def rankM (s : Shape) (h : Head) : Nat :=
  if h.out.port < 2 * s.n then rank s false h.node h.out.port else s.n * s.k

theorem rankM_step (hk : 0 < s.k) {h h' : Head} {c : Nat × Nat} (hg : GoodM s rng h)
    (ht : Takes s (dimOrderMesh s rng) h c h') : rankM s h < rankM s h' := by
  obtain ⟨g, e1, e2, d, hd⟩ := takesM hk hg ht
  have hp := ((takes_iff hk hg.node).mp ht).1
  unfold rankM
  rw [if_pos hp]
  by_cases hh : h'.out.port < 2 * s.n
  · rw [if_pos hh, e1]
    have hne : h'.node ≠ h'.pkt.dest := fun e => by
      have := (homeM hk g).mpr e
      unfold Home at this; omega
    obtain ⟨d', hd'⟩ := dor_spec hk g.node g.dest hne false
    rw [← g.port, e1, e2] at hd'
    exact rank_step hk hd hd'
  · rw [if_neg hh]; exact rank_lt hk _ _ hp

theorem canM (hk : 0 < s.k) {h : Head} (hg : GoodM s rng h) (hh : ¬ Home s h) {vc : Nat}
    (h1 : (rng h.pkt.cls).1 ≤ vc) (h2 : vc ≤ (rng h.pkt.cls).2) :
    ∃ h', Takes s (dimOrderMesh s rng) h (2 * s.n * h.node + h.out.port, vc) h' := by
  have hne : h.node ≠ h.pkt.dest := fun e => hh ((homeM hk hg).mpr e)
  obtain ⟨d, hd⟩ := dor_spec hk hg.node hg.dest hne false
  have hp := (dor_step hk hd).1
  rw [← hg.port] at hp
  obtain ⟨h', ha⟩ := arrivesM_exists (s := s) (rng := rng) (u := nbr s h.node h.out.port)
    (q := opp h.out.port) (f := { h.pkt with vc := vc }) h1 h2
  exact ⟨h', (takes_iff hk hg.node).mpr ⟨hp, rfl, by rw [hg.lo]; exact h1, by rw [hg.hi]; exact h2, ha⟩⟩

theorem noDeadlockM (hk : 0 < s.k) :
    NoDeadlock (Enters s (dimOrderMesh s rng)) (Takes s (dimOrderMesh s rng)) (Home s) := by
  refine noDeadlock (Good := GoodM s rng) (rankM s) ?_ ?_ ?_ ?_
  · rintro h ⟨u, f, hu, hf, -, ha⟩
    exact (arrivesM hu hf ha).1
  · intro h c h' hg ht; exact (takesM hk hg ht).1
  · intro h c h' hg ht; exact Nat.le_of_lt (rankM_step hk hg ht)
  · intro h hg hh
    obtain ⟨h', ht⟩ := canM hk hg hh (Nat.le_refl _) hg.ne
    refine ⟨_, h', ht, fun t t' gt tt => ?_⟩
    obtain ⟨e1, e2⟩ := takes_same hk hg.node gt.node ht tt
    have := rankM_step hk gt tt
    have e : rankM s t = rankM s h := by unfold rankM; rw [e1, e2]
    omega

end MeshNet

section XyYx

variable {s : Shape} {rng : Nat → Nat × Nat}

/-- Heads under `xy_yx_mesh`: at home, or in one of the two orders. -/
structure GoodX (s : Shape) (rng : Nat → Nat × Nat) (h : Head) : Prop where
  node : h.node < s.nodes
  dest : h.pkt.dest < s.nodes
  out : (h.node = h.pkt.dest ∧ h.out.port = 2 * s.n) ∨
    (h.node ≠ h.pkt.dest ∧ (rng h.pkt.cls).1 + 2 * available (rng h.pkt.cls) ≤ (rng h.pkt.cls).2 + 1 ∧
      0 < available (rng h.pkt.cls) ∧
      ((h.out.port = dorNextMesh s h.node h.pkt.dest false ∧ h.out.vcBegin = (rng h.pkt.cls).1 ∧
          h.out.vcEnd = (rng h.pkt.cls).2 - available (rng h.pkt.cls)) ∨
       (h.out.port = dorNextMesh s h.node h.pkt.dest true ∧
          h.out.vcBegin = (rng h.pkt.cls).1 + available (rng h.pkt.cls) ∧
          h.out.vcEnd = (rng h.pkt.cls).2)))

theorem available_le {r : Nat × Nat} (h : 0 < available r) : r.1 + 2 * available r ≤ r.2 + 1 := by
  unfold available at *; omega

theorem arrivesX {u q : Nat} {f : Pkt} {h : Head} (hu : u < s.nodes) (hf : f.dest < s.nodes)
    (ha : Arrives (xyYxMesh s rng) u q f h) :
    GoodX s rng h ∧ h.node = u ∧ h.pkt.dest = f.dest ∧ h.pkt.cls = f.cls ∧
      (q < 2 * s.n → u ≠ f.dest →
        ((rng f.cls).1 ≤ f.vc → f.vc < (rng f.cls).1 + available (rng f.cls) →
          h.out.vcBegin = (rng f.cls).1) ∧
        ((rng f.cls).1 + available (rng f.cls) ≤ f.vc →
          h.out.vcBegin = (rng f.cls).1 + available (rng f.cls))) := by
  obtain ⟨rnd, o, ho, rfl⟩ := ha
  unfold xyYxMesh at ho
  by_cases hv : vcOk rng f
  · simp only [if_pos hv] at ho
    by_cases hd : u = f.dest
    · rw [if_pos hd] at ho
      cases ho
      exact ⟨⟨hu, hf, Or.inl ⟨hd, rfl⟩⟩, rfl, rfl, rfl, fun _ e => absurd hd e⟩
    · rw [if_neg hd] at ho
      by_cases ha : available (rng f.cls) > 0
      · rw [if_pos ha] at ho
        have hle := available_le ha
        by_cases hq : q < 2 * s.n
        · simp only [if_pos hq, decide_eq_true_eq] at ho
          by_cases hx : f.vc < (rng f.cls).1 + available (rng f.cls)
          · rw [if_pos hx] at ho
            cases ho
            exact ⟨⟨hu, hf, Or.inr ⟨hd, hle, ha, Or.inl ⟨rfl, rfl, rfl⟩⟩⟩, rfl, rfl, rfl,
              fun _ _ => ⟨fun _ _ => rfl, fun h => absurd hx (by omega)⟩⟩
          · rw [if_neg hx] at ho
            cases ho
            exact ⟨⟨hu, hf, Or.inr ⟨hd, hle, ha, Or.inr ⟨rfl, rfl, rfl⟩⟩⟩, rfl, rfl, rfl,
              fun _ _ => ⟨fun _ h => absurd h hx, fun _ => rfl⟩⟩
        · simp only [if_neg hq] at ho
          cases rnd
          · simp only [Bool.false_eq_true, if_false] at ho
            cases ho
            exact ⟨⟨hu, hf, Or.inr ⟨hd, hle, ha, Or.inr ⟨rfl, rfl, rfl⟩⟩⟩, rfl, rfl, rfl,
              fun h => absurd h hq⟩
          · simp only [if_true] at ho
            cases ho
            exact ⟨⟨hu, hf, Or.inr ⟨hd, hle, ha, Or.inl ⟨rfl, rfl, rfl⟩⟩⟩, rfl, rfl, rfl,
              fun h => absurd h hq⟩
      · rw [if_neg ha] at ho; cases ho
  · simp only [if_neg hv] at ho; cases ho

theorem arrivesX_exists {u q : Nat} {f : Pkt} (h1 : (rng f.cls).1 ≤ f.vc) (h2 : f.vc ≤ (rng f.cls).2)
    (ha : 0 < available (rng f.cls)) : ∃ h, Arrives (xyYxMesh s rng) u q f h := by
  have : ∃ o, xyYxMesh s rng u f q false = some o := by
    unfold xyYxMesh
    simp only [if_pos (show vcOk rng f from ⟨h1, h2⟩), if_pos ha]
    repeat' split
    all_goals exact ⟨_, rfl⟩
  obtain ⟨o, ho⟩ := this
  exact ⟨_, false, o, ho, rfl⟩

/-- The order a head that is not home follows. -/
theorem GoodX.dor (hk : 0 < s.k) {h : Head} (hg : GoodX s rng h) (hne : h.node ≠ h.pkt.dest) :
    (h.out.vcBegin = (rng h.pkt.cls).1 → ∃ d, Dor s false h.node h.pkt.dest h.out.port d) ∧
    (h.out.vcBegin ≠ (rng h.pkt.cls).1 → ∃ d, Dor s true h.node h.pkt.dest h.out.port d) := by
  rcases hg.out with ⟨e, -⟩ | ⟨-, -, ha, ⟨e1, e2, -⟩ | ⟨e1, e2, -⟩⟩
  · exact absurd e hne
  · rw [e1]
    exact ⟨fun _ => dor_spec hk hg.node hg.dest hne false, fun h => absurd e2 h⟩
  · rw [e1]
    exact ⟨fun h => absurd h (by omega), fun _ => dor_spec hk hg.node hg.dest hne true⟩

theorem homeX (hk : 0 < s.k) {h : Head} (hg : GoodX s rng h) : Home s h ↔ h.node = h.pkt.dest := by
  unfold Home
  constructor
  · intro e
    refine Classical.byContradiction fun hne => ?_
    have hd := hg.dor hk hne
    by_cases hb : h.out.vcBegin = (rng h.pkt.cls).1
    · obtain ⟨d, hd⟩ := hd.1 hb
      have := (dor_step hk hd).1; omega
    · obtain ⟨d, hd⟩ := hd.2 hb
      have := (dor_step hk hd).1; omega
  · intro e
    rcases hg.out with ⟨-, e'⟩ | ⟨h', -⟩
    · exact e'
    · exact absurd e h'

theorem takesX_ne (hk : 0 < s.k) {h h' : Head} {c : Nat × Nat} (hg : GoodX s rng h)
    (ht : Takes s (xyYxMesh s rng) h c h') : h.node ≠ h.pkt.dest := fun e => by
  have := (homeX hk hg).mpr e
  have h1 := ((takes_iff hk hg.node).mp ht).1
  unfold Home at this; omega

theorem takesX (hk : 0 < s.k) {h h' : Head} {c : Nat × Nat} (hg : GoodX s rng h)
    (ht : Takes s (xyYxMesh s rng) h c h') :
    GoodX s rng h' ∧ h'.node = nbr s h.node h.out.port ∧ h'.pkt.dest = h.pkt.dest ∧
      h'.pkt.cls = h.pkt.cls ∧
      (h'.node ≠ h'.pkt.dest →
        (c.2 < (rng h.pkt.cls).1 + available (rng h.pkt.cls) → h'.out.vcBegin = (rng h.pkt.cls).1) ∧
        ((rng h.pkt.cls).1 + available (rng h.pkt.cls) ≤ c.2 →
          h'.out.vcBegin = (rng h.pkt.cls).1 + available (rng h.pkt.cls))) := by
  obtain ⟨h1, h2, h3, h4, h5⟩ := (takes_iff hk hg.node).mp ht
  have hne := takesX_ne hk hg ht
  obtain ⟨g, e1, e2, e3, e4⟩ :=
    arrivesX (f := { h.pkt with vc := c.2 }) (nbr_lt hk h1 hg.node) hg.dest h5
  refine ⟨g, e1, e2, e3, fun hn => ?_⟩
  have := e4 (opp_lt h1) (by rw [← e1, ← e2]; exact hn)
  refine ⟨fun hlt => this.1 ?_ hlt, fun hge => this.2 hge⟩
  show (rng h.pkt.cls).1 ≤ c.2
  rcases hg.out with ⟨e, -⟩ | ⟨-, -, ha, ⟨-, e2, -⟩ | ⟨-, e2, -⟩⟩
  · exact absurd e hne
  · omega
  · omega

/-- Rank of a head: first the heads in ascending order, then those in descending order. -/
def rankX (s : Shape) (rng : Nat → Nat × Nat) (h : Head) : Nat :=
  if h.out.port < 2 * s.n then
    if h.out.vcBegin = (rng h.pkt.cls).1 then rank s false h.node h.out.port
    else s.n * s.k + rank s true h.node h.out.port
  else 2 * (s.n * s.k)

theorem not_home_lt (hk : 0 < s.k) {h : Head} (hg : GoodX s rng h) (hne : h.node ≠ h.pkt.dest) :
    h.out.port < 2 * s.n := by
  have hd := hg.dor hk hne
  by_cases hb : h.out.vcBegin = (rng h.pkt.cls).1
  · obtain ⟨d, hd⟩ := hd.1 hb; exact (dor_step hk hd).1
  · obtain ⟨d, hd⟩ := hd.2 hb; exact (dor_step hk hd).1

/-- The rank rises with every channel taken. -/
theorem rankX_step (hk : 0 < s.k) {h h' : Head} {c : Nat × Nat} (hg : GoodX s rng h)
    (ht : Takes s (xyYxMesh s rng) h c h') : rankX s rng h < rankX s rng h' := by
  obtain ⟨g, e1, e2, e3, e4⟩ := takesX hk hg ht
  obtain ⟨hp, -, h3, -, -⟩ := (takes_iff hk hg.node).mp ht
  have hne := takesX_ne hk hg ht
  have hdor := hg.dor hk hne
  have hdor' := g.dor hk
  have b1 := rank_lt hk false h.node hp
  have b2 := rank_lt hk true h.node hp
  unfold rankX
  rw [if_pos hp]
  by_cases hn' : h'.node = h'.pkt.dest
  · have : h'.out.port = 2 * s.n := (homeX hk g).mpr hn'
    rw [this, if_neg (Nat.lt_irrefl _)]
    split <;> omega
  · have hp' := not_home_lt hk g hn'
    rw [if_pos hp']
    by_cases hb : h.out.vcBegin = (rng h.pkt.cls).1
    · rw [if_pos hb]
      by_cases hb' : h'.out.vcBegin = (rng h'.pkt.cls).1
      · rw [if_pos hb']
        obtain ⟨d, hd⟩ := hdor.1 hb
        obtain ⟨d', hd'⟩ := (hdor' hn').1 hb'
        rw [e1, e2] at hd'
        rw [e1]; exact rank_step hk hd hd'
      · rw [if_neg hb']; omega
    · rw [if_neg hb]
      have ha : 0 < available (rng h.pkt.cls) ∧
          (rng h.pkt.cls).1 + available (rng h.pkt.cls) = h.out.vcBegin := by
        rcases hg.out with ⟨e, -⟩ | ⟨-, -, ha, ⟨-, e2, -⟩ | ⟨-, e2, -⟩⟩
        · exact absurd e hne
        · exact absurd e2 hb
        · exact ⟨ha, e2.symm⟩
      have hb' : ¬ h'.out.vcBegin = (rng h'.pkt.cls).1 := by
        have := (e4 hn').2 (by omega)
        rw [e3, this]; omega
      rw [if_neg hb']
      obtain ⟨d, hd⟩ := hdor.2 hb
      obtain ⟨d', hd'⟩ := (hdor' hn').2 hb'
      rw [e1, e2] at hd'
      have := rank_step hk hd hd'
      rw [e1]; omega

theorem canX (hk : 0 < s.k) {h : Head} (hg : GoodX s rng h) (hh : ¬ Home s h) {vc : Nat}
    (h1 : h.out.vcBegin ≤ vc) (h2 : vc ≤ h.out.vcEnd) :
    ∃ h', Takes s (xyYxMesh s rng) h (2 * s.n * h.node + h.out.port, vc) h' := by
  have hne : h.node ≠ h.pkt.dest := fun e => hh ((homeX hk hg).mpr e)
  have hp := not_home_lt hk hg hne
  have : (rng h.pkt.cls).1 ≤ vc ∧ vc ≤ (rng h.pkt.cls).2 ∧ 0 < available (rng h.pkt.cls) := by
    rcases hg.out with ⟨e, -⟩ | ⟨-, -, ha, ⟨-, e2, e3⟩ | ⟨-, e2, e3⟩⟩
    · exact absurd e hne
    · omega
    · omega
  obtain ⟨h', ha⟩ := arrivesX_exists (s := s) (rng := rng) (u := nbr s h.node h.out.port)
    (q := opp h.out.port) (f := { h.pkt with vc := vc }) this.1 this.2.1 this.2.2
  exact ⟨h', (takes_iff hk hg.node).mpr ⟨hp, rfl, h1, h2, ha⟩⟩

theorem same_class (hs : Separate rng) {a b vc : Nat} (h1 : (rng a).1 ≤ vc) (h2 : vc ≤ (rng a).2)
    (h3 : (rng b).1 ≤ vc) (h4 : vc ≤ (rng b).2) : rng a = rng b := by
  rcases hs a b with e | e | e
  · exact e
  · omega
  · omega

theorem noDeadlockX (hk : 0 < s.k) (hs : Separate rng) :
    NoDeadlock (Enters s (xyYxMesh s rng)) (Takes s (xyYxMesh s rng)) (Home s) := by
  refine noDeadlock (Good := GoodX s rng) (rankX s rng) ?_ ?_ ?_ ?_
  · rintro h ⟨u, f, hu, hf, -, ha⟩
    exact (arrivesX hu hf ha).1
  · intro h c h' hg ht; exact (takesX hk hg ht).1
  · intro h c h' hg ht; exact Nat.le_of_lt (rankX_step hk hg ht)
  · intro h hg hh
    have hne : h.node ≠ h.pkt.dest := fun e => hh ((homeX hk hg).mpr e)
    rcases hg.out with ⟨e, -⟩ | ⟨-, hle, ha, ⟨o1, o2, o3⟩ | ⟨o1, o2, o3⟩⟩
    · exact absurd e hne
    · obtain ⟨h', ht⟩ := canX hk hg hh (vc := (rng h.pkt.cls).1) (by omega) (by omega)
      refine ⟨_, h', ht, fun t t' gt tt => ?_⟩
      obtain ⟨e1, e2⟩ := takes_same hk hg.node gt.node ht tt
      have hlt := rankX_step hk gt tt
      obtain ⟨-, -, t3, t4, -⟩ := (takes_iff hk gt.node).mp tt
      simp only at t3 t4
      have hb : t.out.vcBegin = (rng t.pkt.cls).1 := by
        rcases gt.out with ⟨e, -⟩ | ⟨-, hle', ha', ⟨p1, p2, p3⟩ | ⟨p1, p2, p3⟩⟩
        · exact absurd e (takesX_ne hk gt tt)
        · exact p2
        · have := same_class hs (a := t.pkt.cls) (b := h.pkt.cls) (vc := (rng h.pkt.cls).1)
            (by omega) (by omega) (by omega) (by omega)
          rw [this] at p2 ha'; omega
      have e : rankX s rng t = rankX s rng h := by
        unfold rankX; rw [e1, e2, if_pos hb, if_pos o2]
      omega
    · obtain ⟨h', ht⟩ := canX hk hg hh (vc := (rng h.pkt.cls).2) (by omega) (by omega)
      refine ⟨_, h', ht, fun t t' gt tt => ?_⟩
      obtain ⟨e1, e2⟩ := takes_same hk hg.node gt.node ht tt
      have hlt := rankX_step hk gt tt
      obtain ⟨-, -, t3, t4, -⟩ := (takes_iff hk gt.node).mp tt
      simp only at t3 t4
      have hb : ¬ t.out.vcBegin = (rng t.pkt.cls).1 := by
        rcases gt.out with ⟨e, -⟩ | ⟨-, hle', ha', ⟨p1, p2, p3⟩ | ⟨p1, p2, p3⟩⟩
        · exact absurd e (takesX_ne hk gt tt)
        · have := same_class hs (a := t.pkt.cls) (b := h.pkt.cls) (vc := (rng h.pkt.cls).2)
            (by omega) (by omega) (by omega) (by omega)
          rw [this] at p3 ha' hle'; omega
        · omega
      have e : rankX s rng t = rankX s rng h := by
        have hb' : ¬ h.out.vcBegin = (rng h.pkt.cls).1 := by omega
        unfold rankX; rw [e1, e2, if_neg hb, if_neg hb']
      omega

end XyYx

end RadSim.Routing
