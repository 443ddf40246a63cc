import Verif.Lemmas.TwoPhase
import Verif.Lemmas.NiMesh
import Verif.Model.RommNi

/-! # Randomised minimal mesh routing with virtual channels by destination: ways and ranks -/

namespace RadSim.Routing.RommNi

open Worms Grid

variable {s : Shape} {rng : Nat → Nat × Nat}

/-- Heads of `romm_ni_mesh`. -/
structure Good2 (s : Shape) (rng : Nat → Nat × Nat) (h : Head2) : Prop where
  node : h.node < s.nodes
  dest : h.pkt.dest < s.nodes
  intm : h.intm < s.nodes
  phase : (h.out.ph = 0 ∧ h.node ≠ h.intm) ∨ h.out.ph = 1
  pkt : h.pkt.ph = h.out.ph
  port : h.out.port = dorNextMesh s h.node (if h.out.ph = 0 then h.intm else h.pkt.dest) false
  some : h.node ≠ h.pkt.dest → h.out.vcBegin ≤ h.out.vcEnd ∧
    0 < ((rng h.pkt.cls).2 + 1 - (rng h.pkt.cls).1) / s.nodes
  part : h.node ≠ h.pkt.dest → ∀ vc, h.out.vcBegin ≤ vc → vc ≤ h.out.vcEnd →
    InPart (rng h.pkt.cls) s.nodes h.pkt.dest vc ∧ (rng h.pkt.cls).1 ≤ vc ∧ vc ≤ (rng h.pkt.cls).2

theorem arrives2 {u q : Nat} {f : Pkt} {i d : Nat} {h : Head2} (hu : u < s.nodes) (hf : f.dest < s.nodes)
    (hx : ((phaseAt s u f i q d).1 = 0 ∧ u ≠ (phaseAt s u f i q d).2) ∨ (phaseAt s u f i q d).1 = 1)
    (hi : (phaseAt s u f i q d).2 < s.nodes) (ha : ArrivesN s rng u q f i d h) :
    Good2 s rng h ∧ h.node = u ∧ h.pkt.dest = f.dest ∧ h.pkt.cls = f.cls ∧
      (h.out.ph, h.intm) = phaseAt s u f i q d := by
  obtain ⟨o, j, ho, rfl⟩ := ha
  unfold rommNiMesh at ho
  generalize phaseAt s u f i q d = x at ho hx hi ⊢
  obtain ⟨x1, x2⟩ := x
  by_cases hv : vcOk rng f
  · have hle := Nat.le_trans hv.1 hv.2
    simp only [if_pos hv] at ho hx hi
    by_cases hd : u = f.dest
    · rw [if_neg (fun h => h hd)] at ho
      cases ho
      exact ⟨⟨hu, hf, hi, hx, rfl, rfl, fun h => absurd hd h, fun h => absurd hd h⟩, rfl, rfl, rfl, rfl⟩
    · rw [if_pos hd] at ho
      split at ho
      · rename_i hp
        cases ho
        have hle := part_le (r := rng f.cls) hp.2 hle
        have hpos := hp.1
        rw [Nat.add_mul, Nat.one_mul] at hle
        refine ⟨⟨hu, hf, hi, hx, rfl, rfl, fun _ => ⟨by dsimp only; omega, hpos⟩, fun _ vc h1 h2 => ?_⟩, rfl, rfl, rfl, rfl⟩
        dsimp only at h1 h2 ⊢
        refine ⟨⟨h1, ?_⟩, by omega, by omega⟩
        rw [Nat.add_mul, Nat.one_mul]; omega
      · cases ho
  · rw [if_neg hv] at ho; cases ho

theorem arrives2_exists {u q : Nat} {f : Pkt} {i d : Nat} (h1 : (rng f.cls).1 ≤ f.vc) (h2 : f.vc ≤ (rng f.cls).2)
    (hp : 0 < ((rng f.cls).2 + 1 - (rng f.cls).1) / s.nodes) (hd : f.dest < s.nodes) : ∃ h, ArrivesN s rng u q f i d h := by
  have : ∃ o, rommNiMesh s rng u f i q d = some o := by
    unfold rommNiMesh
    simp only [if_pos (show vcOk rng f from ⟨h1, h2⟩), if_pos (And.intro hp hd)]
    by_cases e : u ≠ f.dest
    · rw [if_pos e]; exact ⟨_, rfl⟩
    · rw [if_neg e]; exact ⟨_, rfl⟩
  obtain ⟨⟨o, j⟩, ho⟩ := this
  exact ⟨_, o, j, ho, rfl⟩

theorem enters2 (hk : 0 < s.k) {h : Head2}
    (he : EntersN s rng h) : Good2 s rng h ∧ rommDraw s h.node h.pkt.dest h.intm ∧
      (h.out.ph = 0 ↔ h.node ≠ h.intm) := by
  obtain ⟨u, f, i, w, hu, hf, hw, ha⟩ := he
  have e := phaseAt_in (s := s) u f i w
  obtain ⟨g, e1, e2, -, e4⟩ := arrives2 hu hf (by rw [e]; split <;> simp_all) (by
    rw [e]; split <;> exact (romm_box hk hw).2) ha
  rw [e] at e4
  refine ⟨g, ?_, ?_⟩
  · rw [e1, e2]
    have : h.intm = w := by split at e4 <;> exact (Prod.ext_iff.1 e4).2
    rw [this]; exact hw
  · rw [e1]
    split at e4
    · rename_i hx
      have a : h.out.ph = 1 := (Prod.ext_iff.1 e4).1
      have b : h.intm = w := (Prod.ext_iff.1 e4).2
      rw [a, b]; simp [hx]
    · rename_i hx
      have a : h.out.ph = 0 := (Prod.ext_iff.1 e4).1
      have b : h.intm = w := (Prod.ext_iff.1 e4).2
      rw [a, b]; simp [hx]

theorem takes2_iff (hk : 0 < s.k) {h h' : Head2} {c : Nat × Nat} (hn : h.node < s.nodes) :
    TakesN s rng h c h' ↔ h.out.port < 2 * s.n ∧ c.1 = 2 * s.n * h.node + h.out.port ∧
      h.out.vcBegin ≤ c.2 ∧ c.2 ≤ h.out.vcEnd ∧
      ArrivesN s rng (nbr s h.node h.out.port) (opp h.out.port) { h.pkt with vc := c.2 } h.intm 0 h' := by
  unfold TakesN
  constructor
  · rintro ⟨h1, h2, h3, h4, v, q, h5, h6⟩
    rw [h2, receivers_eq hk h1 hn] at h5
    simp only [List.cons.injEq, Prod.mk.injEq, and_true] at h5
    rw [outputChannel_eq] at h2
    exact ⟨h1, h2, h3, h4, h5.1 ▸ h5.2 ▸ h6⟩
  · rintro ⟨h1, h2, h3, h4, h5⟩
    rw [← outputChannel_eq] at h2
    exact ⟨h1, h2, h3, h4, _, _, by rw [h2, receivers_eq hk h1 hn], h5⟩

theorem Good2.target_lt {h : Head2} (hg : Good2 s rng h) : target h < s.nodes := by
  unfold target; split
  · exact hg.intm
  · exact hg.dest

theorem Good2.dor (hk : 0 < s.k) {h : Head2} (hg : Good2 s rng h) (hne : h.node ≠ target h) :
    ∃ d, Dor s false h.node (target h) h.out.port d := by
  rw [hg.port]
  exact dor_spec hk hg.node hg.target_lt hne false

theorem home2 (hk : 0 < s.k) {h : Head2} (hg : Good2 s rng h) :
    Home2 s h ↔ h.out.ph = 1 ∧ h.node = h.pkt.dest := by
  have key : h.out.port = 2 * s.n ↔ h.node = target h := by
    constructor
    · intro e
      refine Classical.byContradiction fun hne => ?_
      obtain ⟨d, hd⟩ := hg.dor hk hne
      have := (dor_step hk hd).1; omega
    · intro e
      rw [hg.port]
      unfold target at e
      unfold dorNextMesh; rw [if_pos e]
  unfold Home2
  rw [key]
  unfold target
  rcases hg.phase with ⟨e, hne⟩ | e
  · rw [if_pos e, e]
    exact ⟨fun h => absurd h hne, fun h => absurd h.1 (by decide)⟩
  · rw [e]; simp

theorem target_ne (hk : 0 < s.k) {h : Head2} (hg : Good2 s rng h) (hh : ¬ Home2 s h) : h.node ≠ target h := fun e => by
  refine hh ((home2 hk hg).2 ?_)
  unfold target at e
  rcases hg.phase with ⟨e0, hne⟩ | e1
  · rw [if_pos e0] at e; exact absurd e hne
  · rw [if_neg (by rw [e1]; decide)] at e; exact ⟨e1, e⟩

theorem takes2_not_home {h h' : Head2} {c : Nat × Nat} (ht : TakesN s rng h c h') : ¬ Home2 s h := by
  have := ht.1
  unfold Home2; omega

/-- What a move does to the head. -/
theorem takes2 (hk : 0 < s.k) {h h' : Head2} {c : Nat × Nat} (hg : Good2 s rng h) (ht : TakesN s rng h c h') :
    Good2 s rng h' ∧ h'.node = nbr s h.node h.out.port ∧ h'.pkt.dest = h.pkt.dest ∧ h'.pkt.cls = h.pkt.cls ∧
      h'.intm = h.intm ∧ (h'.out.ph = 0 ↔ h.out.ph = 0 ∧ h'.node ≠ h.intm) := by
  obtain ⟨h1, h2, h3, h4, h5⟩ := (takes2_iff hk hg.node).mp ht
  have e := phaseAt_on (s := s) (u := nbr s h.node h.out.port) (f := { h.pkt with vc := c.2 }) (i := h.intm) (d := 0)
    (opp_lt h1)
  rw [show ({ h.pkt with vc := c.2 } : Pkt).ph = h.out.ph from hg.pkt] at e
  obtain ⟨g, e1, e2, e3, e4⟩ := arrives2 (f := { h.pkt with vc := c.2 }) (i := h.intm) (q := opp h.out.port) (d := 0)
    (nbr_lt hk h1 hg.node) hg.dest (by
      rw [e]
      rcases hg.phase with ⟨p, -⟩ | p
      · by_cases hx : nbr s h.node h.out.port = h.intm
        · rw [if_pos ⟨p, hx⟩]; exact .inr rfl
        · rw [if_neg fun h => hx h.2]; exact .inl ⟨p, hx⟩
      · rw [if_neg (fun h => by rw [p] at h; exact absurd h.1 (by decide))]; exact .inr p)
    (by rw [e]; split <;> exact hg.intm) h5
  rw [e] at e4
  refine ⟨g, e1, e2, e3, ?_, ?_⟩
  · split at e4 <;> exact (Prod.ext_iff.1 e4).2
  · rw [e1]
    split at e4
    · rename_i hx
      rw [show h'.out.ph = 1 from (Prod.ext_iff.1 e4).1]
      simp [hx.2]
    · rename_i hx
      rw [show h'.out.ph = h.out.ph from (Prod.ext_iff.1 e4).1]
      exact ⟨fun h => ⟨h, fun h' => hx ⟨h, h'⟩⟩, fun h => h.1⟩

theorem togo_step (hk : 0 < s.k) {h h' : Head2} {c : Nat × Nat} (hg : Good2 s rng h) (ht : TakesN s rng h c h') :
    togo s h = togo s h' + 1 := by
  obtain ⟨g, e1, e2, e3, e4, e5⟩ := takes2 hk hg ht
  obtain ⟨d, hd⟩ := hg.dor hk (target_ne hk hg (takes2_not_home ht))
  have hm := manhattan_step hk hd
  rw [← e1] at hm
  unfold togo
  unfold target at hm
  rw [e2, e4]
  rcases hg.phase with ⟨p, -⟩ | p
  · rw [if_pos p] at hm ⊢
    by_cases hx : h'.node = h.intm
    · rw [if_neg (fun h => (e5.1 h).2 hx), hm, hx]
      have : manhattan s.k s.n h.intm h.intm = 0 := by
        unfold manhattan; simp [gap]
      omega
    · rw [if_pos (e5.2 ⟨p, hx⟩)]; omega
  · have p' : ¬ h.out.ph = 0 := by rw [p]; decide
    rw [if_neg p'] at hm ⊢
    rw [if_neg (fun h => p' (e5.1 h).1)]; exact hm

theorem can2 (hk : 0 < s.k) {h : Head2} (hg : Good2 s rng h) (hh : ¬ Home2 s h) (hne : h.node ≠ h.pkt.dest) {vc : Nat}
    (h1 : h.out.vcBegin ≤ vc) (h2 : vc ≤ h.out.vcEnd) :
    ∃ h', TakesN s rng h (2 * s.n * h.node + h.out.port, vc) h' := by
  obtain ⟨d, hd⟩ := hg.dor hk (target_ne hk hg hh)
  have hp := (dor_step hk hd).1
  obtain ⟨-, b1, b2⟩ := hg.part hne vc h1 h2
  obtain ⟨h', ha⟩ := arrives2_exists (s := s) (rng := rng) (u := nbr s h.node h.out.port) (q := opp h.out.port)
    (f := { h.pkt with vc := vc }) (i := h.intm) (d := 0) b1 b2 (hg.some hne).2 hg.dest
  exact ⟨h', (takes2_iff hk hg.node).mpr ⟨hp, rfl, h1, h2, ha⟩⟩

/-- Heads of `romm_ni_mesh`: in the first phase the intermediate router is in the box of the way left. -/
structure GoodR (s : Shape) (rng : Nat → Nat × Nat) (h : Head2) : Prop where
  good : Good2 s rng h
  box : h.out.ph = 0 → InBox s.k s.n h.node h.pkt.dest h.intm

theorem GoodR.first (hk : 0 < s.k) {h : Head2} (hg : GoodR s rng h) (h0 : h.out.ph = 0) : h.node ≠ h.pkt.dest := fun e => by
  rcases hg.good.phase with ⟨-, hne⟩ | e1
  · refine hne (coord_ext hk s.n hg.good.node hg.good.intm fun d hd => ?_)
    have := hg.box h0 d hd
    rw [e] at this ⊢; omega
  · rw [e1] at h0; exact absurd h0 (by decide)

theorem entersR (hk : 0 < s.k) {h : Head2} (he : EntersN s rng h) : GoodR s rng h := by
  obtain ⟨g, e, -⟩ := enters2 hk he
  exact ⟨g, fun _ => (romm_box hk e).1⟩

theorem takesR (hk : 0 < s.k) {h h' : Head2} {c : Nat × Nat} (hg : GoodR s rng h) (ht : TakesN s rng h c h') :
    GoodR s rng h' := by
  obtain ⟨g, e1, e2, e3, e4, e5⟩ := takes2 hk hg.good ht
  refine ⟨g, fun h0 => ?_⟩
  have p := (e5.1 h0).1
  obtain ⟨d, hd⟩ := hg.good.dor hk (target_ne hk hg.good (takes2_not_home ht))
  obtain ⟨-, -, hs, hc⟩ := dor_step hk hd
  have ht' : target h = h.intm := by unfold target; rw [if_pos p]
  rw [ht'] at hc
  intro x hx
  have := hg.box p x hx
  rw [e1, e2, e4]
  by_cases e : x = d
  · subst e; omega
  · rw [hs x e]; exact this

/-- The way over the intermediate router is a shortest one. -/
theorem togo_eq {h : Head2} (hg : GoodR s rng h) : togo s h = manhattan s.k s.n h.node h.pkt.dest := by
  unfold togo
  split
  · rename_i e; exact box_manhattan (hg.box e)
  · rfl

theorem step (hk : 0 < s.k) {h h' : Head2} {c : Nat × Nat} (hg : GoodR s rng h) (ht : TakesN s rng h c h') :
    manhattan s.k s.n h.node h.pkt.dest = manhattan s.k s.n h'.node h'.pkt.dest + 1 := by
  rw [← togo_eq hg, ← togo_eq (takesR hk hg ht)]
  exact togo_step hk hg.good ht

theorem home (hk : 0 < s.k) {h : Head2} (hg : GoodR s rng h) : Home2 s h ↔ h.node = h.pkt.dest := by
  rw [home2 hk hg.good]
  refine ⟨fun h => h.2, fun e => ⟨?_, e⟩⟩
  rcases hg.good.phase with ⟨p, -⟩ | p
  · exact absurd e (hg.first hk p)
  · exact p

/-- Heads that take the same channel have the same router and destination. -/
theorem same (hk : 0 < s.k) (hs : Separate rng) {h h' t t' : Head2} {c : Nat × Nat} (hg : GoodR s rng h)
    (hg' : GoodR s rng t) (ht : TakesN s rng h c h') (tt : TakesN s rng t c t') :
    h.node = t.node ∧ h.pkt.dest = t.pkt.dest := by
  obtain ⟨h1, h2, h3, h4, -⟩ := (takes2_iff hk hg.good.node).mp ht
  obtain ⟨t1, t2, t3, t4, -⟩ := (takes2_iff hk hg'.good.node).mp tt
  obtain ⟨p1, p2, p3⟩ := hg.good.part (fun e => takes2_not_home ht ((home hk hg).2 e)) _ h3 h4
  obtain ⟨q1, q2, q3⟩ := hg'.good.part (fun e => takes2_not_home tt ((home hk hg').2 e)) _ t3 t4
  have := same_class hs p2 p3 q2 q3
  rw [this] at p1
  exact ⟨(enc_inj h1 t1 (h2.symm.trans t2)).1, part_unique p1 q1⟩

theorem dist_le (hk : 0 < s.k) (u v : Nat) : manhattan s.k s.n u v ≤ s.n * s.k := by
  unfold manhattan
  have : ∑ d ∈ Finset.range s.n, gap (coord s.k u d) (coord s.k v d) ≤ ∑ _d ∈ Finset.range s.n, s.k :=
    Finset.sum_le_sum fun d _ => by
      have h1 := coord_lt hk u d
      have h2 := coord_lt hk v d
      unfold gap; omega
  simpa using this

theorem noDeadlock (hk : 0 < s.k) (hs : Separate rng) :
    NoDeadlock (EntersN s rng) (TakesN s rng) (Home2 s) := by
  refine Worms.noDeadlock (Good := GoodR s rng)
    (fun h => s.n * s.k - manhattan s.k s.n h.node h.pkt.dest) (fun h => entersR hk) (fun h c h' hg ht => takesR hk hg ht) ?_ ?_
  · intro h c h' hg ht
    have := step hk hg ht
    omega
  · intro h hg hh
    have hne : h.node ≠ h.pkt.dest := fun e => hh ((home hk hg).2 e)
    obtain ⟨h', ht⟩ := can2 hk hg.good hh hne (Nat.le_refl _) (hg.good.some hne).1
    refine ⟨_, h', ht, fun t t' gt tt => ?_⟩
    obtain ⟨e1, e2⟩ := same hk hs hg gt ht tt
    have h1 := step hk gt tt
    have h2 := dist_le (s := s) hk t.node t.pkt.dest
    rw [e1, e2]; omega

end RadSim.Routing.RommNi
