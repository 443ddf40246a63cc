import Verif.Model.TwoPhase
import Verif.Lemmas.RoutingNet

/-! # Two-phase mesh routing: ways and ranks -/

namespace RadSim.Routing

open Worms Grid

variable {s : Shape} {rng : Nat → Nat × Nat}

/-- Heads of a two-phase routing function. -/
structure Good2 (s : Shape) (rng : Nat → Nat × Nat) (h : Head2) : Prop where
  node : h.node < s.nodes
  dest : h.pkt.dest < s.nodes
  intm : h.intm < s.nodes
  phase : (h.out.ph = 0 ∧ h.node ≠ h.intm) ∨ h.out.ph = 1
  pkt : h.pkt.ph = h.out.ph
  port : h.out.port = dorNextMesh s h.node (if h.out.ph = 0 then h.intm else h.pkt.dest) false
  at_dest : h.node = h.pkt.dest → h.out.vcBegin = (rng h.pkt.cls).1 ∧ h.out.vcEnd = (rng h.pkt.cls).2
  apart : h.node ≠ h.pkt.dest → 0 < available (rng h.pkt.cls) ∧
    (h.out.ph = 0 → h.out.vcBegin = (rng h.pkt.cls).1 ∧
      h.out.vcEnd = (rng h.pkt.cls).2 - available (rng h.pkt.cls)) ∧
    (h.out.ph = 1 → h.out.vcBegin = (rng h.pkt.cls).1 + available (rng h.pkt.cls) ∧
      h.out.vcEnd = (rng h.pkt.cls).2)
  ne : (rng h.pkt.cls).1 ≤ (rng h.pkt.cls).2

theorem phaseAt_in (u : Nat) (f : Pkt) (i d : Nat) :
    phaseAt s u f i (2 * s.n) d = if u = d then (1, d) else (0, d) := by
  unfold phaseAt; simp

theorem phaseAt_on {u : Nat} {f : Pkt} {i d q : Nat} (hq : q < 2 * s.n) :
    phaseAt s u f i q d = if f.ph = 0 ∧ u = i then (1, i) else (f.ph, i) := by
  unfold phaseAt; rw [if_neg (Nat.ne_of_lt hq : ¬ q = 2 * s.n)]

theorem arrives2 {u q : Nat} {f : Pkt} {i d : Nat} {h : Head2} (hu : u < s.nodes) (hf : f.dest < s.nodes)
    (hx : ((phaseAt s u f i q d).1 = 0 ∧ u ≠ (phaseAt s u f i q d).2) ∨ (phaseAt s u f i q d).1 = 1)
    (hi : (phaseAt s u f i q d).2 < s.nodes) (ha : Arrives2 s rng u q f i d h) :
    Good2 s rng h ∧ h.node = u ∧ h.pkt.dest = f.dest ∧ h.pkt.cls = f.cls ∧
      (h.out.ph, h.intm) = phaseAt s u f i q d := by
  obtain ⟨o, j, ho, rfl⟩ := ha
  unfold twoPhaseMesh at ho
  generalize phaseAt s u f i q d = x at ho hx hi ⊢
  obtain ⟨x1, x2⟩ := x
  by_cases hv : vcOk rng f
  · have hle := Nat.le_trans hv.1 hv.2
    simp only [if_pos hv] at ho hx hi
    by_cases hd : u = f.dest
    · rw [if_neg (fun h => h hd)] at ho
      cases ho
      exact ⟨⟨hu, hf, hi, hx, rfl, rfl, fun _ => ⟨rfl, rfl⟩, fun h => absurd hd h, hle⟩, rfl, rfl, rfl, rfl⟩
    · rw [if_pos hd] at ho
      by_cases ha : available (rng f.cls) > 0
      · rw [if_pos ha] at ho
        by_cases h0 : x1 = 0
        · rw [if_pos h0] at ho
          cases ho
          exact ⟨⟨hu, hf, hi, hx, rfl, rfl, fun h => absurd h hd,
            fun _ => ⟨ha, fun _ => ⟨rfl, rfl⟩, fun h => absurd (h0.symm.trans h) (by decide)⟩, hle⟩, rfl, rfl, rfl, rfl⟩
        · rw [if_neg h0] at ho
          by_cases h1 : x1 = 1
          · rw [if_pos h1] at ho
            cases ho
            exact ⟨⟨hu, hf, hi, hx, rfl, rfl, fun h => absurd h hd,
              fun _ => ⟨ha, fun h => absurd h h0, fun _ => ⟨rfl, rfl⟩⟩, hle⟩, rfl, rfl, rfl, rfl⟩
          · rw [if_neg h1] at ho; cases ho
      · rw [if_neg ha] at ho; cases ho
  · rw [if_neg hv] at ho; cases ho

theorem arrives2_exists {u q : Nat} {f : Pkt} {i d : Nat} (h1 : (rng f.cls).1 ≤ f.vc) (h2 : f.vc ≤ (rng f.cls).2)
    (hx : (phaseAt s u f i q d).1 = 0 ∨ (phaseAt s u f i q d).1 = 1)
    (ha : 0 < available (rng f.cls)) : ∃ h, Arrives2 s rng u q f i d h := by
  have : ∃ o, twoPhaseMesh s rng u f i q d = some o := by
    unfold twoPhaseMesh
    generalize phaseAt s u f i q d = x at hx ⊢
    simp only [if_pos (show vcOk rng f from ⟨h1, h2⟩), if_pos ha]
    by_cases hd : u = f.dest
    · rw [if_neg (fun h => h hd)]; exact ⟨_, rfl⟩
    · rw [if_pos hd]
      by_cases h0 : x.1 = 0
      · rw [if_pos h0]; exact ⟨_, rfl⟩
      · rw [if_neg h0, if_pos (hx.resolve_left h0)]; exact ⟨_, rfl⟩
  obtain ⟨⟨o, j⟩, ho⟩ := this
  exact ⟨_, o, j, ho, rfl⟩

theorem enters2 {draw : Nat → Nat → Nat → Prop} (hd : ∀ u v w, u < s.nodes → v < s.nodes → draw u v w → w < s.nodes) {h : Head2}
    (he : Enters2 s rng draw h) : Good2 s rng h ∧ draw h.node h.pkt.dest h.intm ∧
      (h.out.ph = 0 ↔ h.node ≠ h.intm) := by
  obtain ⟨u, f, i, w, hu, hf, hw, ha⟩ := he
  have e := phaseAt_in (s := s) u f i w
  obtain ⟨g, e1, e2, -, e4⟩ := arrives2 hu hf (by rw [e]; split <;> simp_all) (by
    rw [e]; split <;> exact hd u f.dest w hu hf hw) ha
  rw [e] at e4
  refine ⟨g, ?_, ?_⟩
  · rw [e1, e2]
    have : h.intm = w := by split at e4 <;> exact (Prod.ext_iff.1 e4).2
    rw [this]; exact hw
  · rw [e1]
    split at e4
    · rename_i hx
      have a : h.out.ph = 1 := (Prod.ext_iff.1 e4).1
      have b : h.intm = w := (Prod.ext_iff.1 e4).2
      rw [a, b]; simp [hx]
    · rename_i hx
      have a : h.out.ph = 0 := (Prod.ext_iff.1 e4).1
      have b : h.intm = w := (Prod.ext_iff.1 e4).2
      rw [a, b]; simp [hx]

theorem takes2_iff (hk : 0 < s.k) {h h' : Head2} {c : Nat × Nat} (hn : h.node < s.nodes) :
    Takes2 s rng h c h' ↔ h.out.port < 2 * s.n ∧ c.1 = 2 * s.n * h.node + h.out.port ∧
      h.out.vcBegin ≤ c.2 ∧ c.2 ≤ h.out.vcEnd ∧
      Arrives2 s rng (nbr s h.node h.out.port) (opp h.out.port) { h.pkt with vc := c.2 } h.intm 0 h' := by
  unfold Takes2
  constructor
  · rintro ⟨h1, h2, h3, h4, v, q, h5, h6⟩
    rw [h2, receivers_eq hk h1 hn] at h5
    simp only [List.cons.injEq, Prod.mk.injEq, and_true] at h5
    rw [outputChannel_eq] at h2
    exact ⟨h1, h2, h3, h4, h5.1 ▸ h5.2 ▸ h6⟩
  · rintro ⟨h1, h2, h3, h4, h5⟩
    rw [← outputChannel_eq] at h2
    exact ⟨h1, h2, h3, h4, _, _, by rw [h2, receivers_eq hk h1 hn], h5⟩

/-- Where the head goes in its phase. -/
def target (h : Head2) : Nat := if h.out.ph = 0 then h.intm else h.pkt.dest

theorem Good2.target_lt {h : Head2} (hg : Good2 s rng h) : target h < s.nodes := by
  unfold target; split
  · exact hg.intm
  · exact hg.dest

theorem Good2.dor (hk : 0 < s.k) {h : Head2} (hg : Good2 s rng h) (hne : h.node ≠ target h) :
    ∃ d, Dor s false h.node (target h) h.out.port d := by
  rw [hg.port]
  exact dor_spec hk hg.node hg.target_lt hne false

theorem home2 (hk : 0 < s.k) {h : Head2} (hg : Good2 s rng h) :
    Home2 s h ↔ h.out.ph = 1 ∧ h.node = h.pkt.dest := by
  have key : h.out.port = 2 * s.n ↔ h.node = target h := by
    constructor
    · intro e
      refine Classical.byContradiction fun hne => ?_
      obtain ⟨d, hd⟩ := hg.dor hk hne
      have := (dor_step hk hd).1; omega
    · intro e
      rw [hg.port]
      unfold target at e
      unfold dorNextMesh; rw [if_pos e]
  unfold Home2
  rw [key]
  unfold target
  rcases hg.phase with ⟨e, hne⟩ | e
  · rw [if_pos e, e]
    exact ⟨fun h => absurd h hne, fun h => absurd h.1 (by decide)⟩
  · rw [e]; simp

theorem target_ne (hk : 0 < s.k) {h : Head2} (hg : Good2 s rng h) (hh : ¬ Home2 s h) : h.node ≠ target h := fun e => by
  refine hh ((home2 hk hg).2 ?_)
  unfold target at e
  rcases hg.phase with ⟨e0, hne⟩ | e1
  · rw [if_pos e0] at e; exact absurd e hne
  · rw [if_neg (by rw [e1]; decide)] at e; exact ⟨e1, e⟩

theorem takes2_not_home {h h' : Head2} {c : Nat × Nat} (ht : Takes2 s rng h c h') : ¬ Home2 s h := by
  have := ht.1
  unfold Home2; omega

/-- What a move does to the head. -/
theorem takes2 (hk : 0 < s.k) {h h' : Head2} {c : Nat × Nat} (hg : Good2 s rng h) (ht : Takes2 s rng h c h') :
    Good2 s rng h' ∧ h'.node = nbr s h.node h.out.port ∧ h'.pkt.dest = h.pkt.dest ∧ h'.pkt.cls = h.pkt.cls ∧
      h'.intm = h.intm ∧ (h'.out.ph = 0 ↔ h.out.ph = 0 ∧ h'.node ≠ h.intm) := by
  obtain ⟨h1, h2, h3, h4, h5⟩ := (takes2_iff hk hg.node).mp ht
  have e := phaseAt_on (s := s) (u := nbr s h.node h.out.port) (f := { h.pkt with vc := c.2 }) (i := h.intm) (d := 0)
    (opp_lt h1)
  rw [show ({ h.pkt with vc := c.2 } : Pkt).ph = h.out.ph from hg.pkt] at e
  obtain ⟨g, e1, e2, e3, e4⟩ := arrives2 (f := { h.pkt with vc := c.2 }) (i := h.intm) (q := opp h.out.port) (d := 0)
    (nbr_lt hk h1 hg.node) hg.dest (by
      rw [e]
      rcases hg.phase with ⟨p, -⟩ | p
      · by_cases hx : nbr s h.node h.out.port = h.intm
        · rw [if_pos ⟨p, hx⟩]; exact .inr rfl
        · rw [if_neg fun h => hx h.2]; exact .inl ⟨p, hx⟩
      · rw [if_neg (fun h => by rw [p] at h; exact absurd h.1 (by decide))]; exact .inr p)
    (by rw [e]; split <;> exact hg.intm) h5
  rw [e] at e4
  refine ⟨g, e1, e2, e3, ?_, ?_⟩
  · split at e4 <;> exact (Prod.ext_iff.1 e4).2
  · rw [e1]
    split at e4
    · rename_i hx
      rw [show h'.out.ph = 1 from (Prod.ext_iff.1 e4).1]
      simp [hx.2]
    · rename_i hx
      rw [show h'.out.ph = h.out.ph from (Prod.ext_iff.1 e4).1]
      exact ⟨fun h => ⟨h, fun h' => hx ⟨h, h'⟩⟩, fun h => h.1⟩

/-- Links still to go. -/
def togo (s : Shape) (h : Head2) : Nat :=
  if h.out.ph = 0 then manhattan s.k s.n h.node h.intm + manhattan s.k s.n h.intm h.pkt.dest
  else manhattan s.k s.n h.node h.pkt.dest

theorem togo_step (hk : 0 < s.k) {h h' : Head2} {c : Nat × Nat} (hg : Good2 s rng h) (ht : Takes2 s rng h c h') :
    togo s h = togo s h' + 1 := by
  obtain ⟨g, e1, e2, e3, e4, e5⟩ := takes2 hk hg ht
  obtain ⟨d, hd⟩ := hg.dor hk (target_ne hk hg (takes2_not_home ht))
  have hm := manhattan_step hk hd
  rw [← e1] at hm
  unfold togo
  unfold target at hm
  rw [e2, e4]
  rcases hg.phase with ⟨p, -⟩ | p
  · rw [if_pos p] at hm ⊢
    by_cases hx : h'.node = h.intm
    · rw [if_neg (fun h => (e5.1 h).2 hx), hm, hx]
      have : manhattan s.k s.n h.intm h.intm = 0 := by
        unfold manhattan; simp [gap]
      omega
    · rw [if_pos (e5.2 ⟨p, hx⟩)]; omega
  · have p' : ¬ h.out.ph = 0 := by rw [p]; decide
    rw [if_neg p'] at hm ⊢
    rw [if_neg (fun h => p' (e5.1 h).1)]; exact hm

theorem can2 (hk : 0 < s.k) {h : Head2} (hg : Good2 s rng h) (hh : ¬ Home2 s h) (ha : 0 < available (rng h.pkt.cls)) {vc : Nat}
    (h1 : h.out.vcBegin ≤ vc) (h2 : vc ≤ h.out.vcEnd) :
    ∃ h', Takes2 s rng h (2 * s.n * h.node + h.out.port, vc) h' := by
  obtain ⟨d, hd⟩ := hg.dor hk (target_ne hk hg hh)
  have hp := (dor_step hk hd).1
  have hb : (rng h.pkt.cls).1 ≤ vc ∧ vc ≤ (rng h.pkt.cls).2 := by
    by_cases hx : h.node = h.pkt.dest
    · have := hg.at_dest hx; omega
    · obtain ⟨-, a, b⟩ := hg.apart hx
      rcases hg.phase with ⟨p, -⟩ | p
      · have := a p; omega
      · have := b p; omega
  obtain ⟨h', ha⟩ := arrives2_exists (s := s) (rng := rng) (u := nbr s h.node h.out.port) (q := opp h.out.port)
    (f := { h.pkt with vc := vc }) (i := h.intm) (d := 0) hb.1 hb.2 (by
      rw [phaseAt_on (opp_lt hp)]
      dsimp only
      split
      · exact .inr rfl
      · rw [hg.pkt]; exact hg.phase.imp (·.1) id) ha
  exact ⟨h', (takes2_iff hk hg.node).mpr ⟨hp, rfl, h1, h2, ha⟩⟩

/-! ## The intermediate router of `romm_mesh` -/

theorem randMinLoop_offset (k : Nat) (draw : Nat → Nat) : ∀ m o src dest,
    randMinLoop k draw m o src dest = o * randMinLoop k draw m 1 src dest
  | 0, _, _, _ => rfl
  | m + 1, o, src, dest => by
    unfold randMinLoop
    rw [randMinLoop_offset k draw m (o * k), randMinLoop_offset k draw m (1 * k)]
    split <;> simp only [Nat.one_mul, Nat.mul_add, Nat.mul_assoc]

theorem randMinLoop_succ (draw : Nat → Nat) (m src dest : Nat) :
    ∃ x, min (src % s.k) (dest % s.k) ≤ x ∧ x ≤ max (src % s.k) (dest % s.k) ∧
      randMinLoop s.k draw (m + 1) 1 src dest = x + s.k * randMinLoop s.k draw m 1 (src / s.k) (dest / s.k) := by
  rw [randMinLoop, randMinLoop_offset s.k draw m (1 * s.k), Nat.mul_assoc 1 s.k, Nat.one_mul (s.k * _)]
  split
  · refine ⟨_, ?_, ?_, by rw [Nat.one_mul]⟩
    · omega
    · have := Nat.mod_lt (draw m) (show 0 < dest % s.k - src % s.k + 1 by omega)
      omega
  · refine ⟨_, ?_, ?_, by rw [Nat.one_mul]⟩
    · omega
    · have := Nat.mod_lt (draw m) (show 0 < src % s.k - dest % s.k + 1 by omega)
      omega

theorem coord_succ (k u d : Nat) : coord k u (d + 1) = coord k (u / k) d := by
  unfold coord; rw [Nat.pow_succ', Nat.div_div_eq_div_mul]

theorem randMinLoop_box (hk : 0 < s.k) (draw : Nat → Nat) : ∀ m src dest,
    InBox s.k m src dest (randMinLoop s.k draw m 1 src dest) ∧ randMinLoop s.k draw m 1 src dest < s.k ^ m
  | 0, _, _ => ⟨fun d hd => absurd hd (Nat.not_lt_zero d), by simp [randMinLoop]⟩
  | m + 1, src, dest => by
    obtain ⟨x, x1, x2, e⟩ := randMinLoop_succ (s := s) draw m src dest
    obtain ⟨i1, i2⟩ := randMinLoop_box hk draw m (src / s.k) (dest / s.k)
    have m1 := Nat.mod_lt src hk
    have m2 := Nat.mod_lt dest hk
    have hx : x < s.k := by omega
    rw [e]
    constructor
    · intro d hd
      cases d with
      | zero =>
        unfold coord
        simp only [Nat.pow_zero, Nat.div_one]
        rw [Nat.add_mul_mod_self_left, Nat.mod_eq_of_lt hx]
        exact ⟨x1, x2⟩
      | succ d =>
        simp only [coord_succ]
        rw [Nat.add_mul_div_left _ _ hk, Nat.div_eq_of_lt hx, Nat.zero_add]
        exact i1 d (by omega)
    · rw [Nat.pow_succ']
      calc x + s.k * _ < s.k + s.k * _ := Nat.add_lt_add_right hx _
        _ = s.k * (_ + 1) := by rw [Nat.mul_add, Nat.mul_one, Nat.add_comm]
        _ ≤ s.k * s.k ^ m := Nat.mul_le_mul_left _ i2

/-- `rand_min_intr_mesh` gives a router of the box of its arguments. -/
theorem romm_box (hk : 0 < s.k) {src dest w : Nat} (h : rommDraw s src dest w) :
    InBox s.k s.n src dest w ∧ w < s.nodes := by
  obtain ⟨draw, rfl⟩ := h
  exact randMinLoop_box hk draw s.n src dest

theorem box_manhattan {k n a b w : Nat} (h : InBox k n a b w) :
    manhattan k n a w + manhattan k n w b = manhattan k n a b := by
  unfold manhattan
  rw [← Finset.sum_add_distrib]
  refine Finset.sum_congr rfl fun d hd => ?_
  have := h d (Finset.mem_range.1 hd)
  unfold gap; omega

/-! ## No deadlock with `romm_mesh` -/

/-- Heads of `romm_mesh`: in the first phase the intermediate router is in the box of the way left. -/
structure GoodR (s : Shape) (rng : Nat → Nat × Nat) (h : Head2) : Prop where
  good : Good2 s rng h
  box : h.out.ph = 0 → InBox s.k s.n h.node h.pkt.dest h.intm

theorem GoodR.first (hk : 0 < s.k) {h : Head2} (hg : GoodR s rng h) (h0 : h.out.ph = 0) : h.node ≠ h.pkt.dest := fun e => by
  rcases hg.good.phase with ⟨-, hne⟩ | e1
  · refine hne (coord_ext hk s.n hg.good.node hg.good.intm fun d hd => ?_)
    have := hg.box h0 d hd
    rw [e] at this ⊢; omega
  · rw [e1] at h0; exact absurd h0 (by decide)

theorem entersR (hk : 0 < s.k) {h : Head2} (he : Enters2 s rng (rommDraw s) h) : GoodR s rng h := by
  obtain ⟨g, e, -⟩ := enters2 (fun _ _ _ _ _ h => (romm_box hk h).2) he
  exact ⟨g, fun _ => (romm_box hk e).1⟩

theorem takesR (hk : 0 < s.k) {h h' : Head2} {c : Nat × Nat} (hg : GoodR s rng h) (ht : Takes2 s rng h c h') :
    GoodR s rng h' := by
  obtain ⟨g, e1, e2, e3, e4, e5⟩ := takes2 hk hg.good ht
  refine ⟨g, fun h0 => ?_⟩
  have p := (e5.1 h0).1
  obtain ⟨d, hd⟩ := hg.good.dor hk (target_ne hk hg.good (takes2_not_home ht))
  obtain ⟨-, -, hs, hc⟩ := dor_step hk hd
  have ht' : target h = h.intm := by unfold target; rw [if_pos p]
  rw [ht'] at hc
  intro x hx
  have := hg.box p x hx
  rw [e1, e2, e4]
  by_cases e : x = d
  · subst e; omega
  · rw [hs x e]; exact this

/-- Rank of a head: first the heads in the first phase, then those in the second. -/
def rank2 (s : Shape) (h : Head2) : Nat :=
  if h.out.port < 2 * s.n then
    if h.out.ph = 0 then rank s false h.node h.out.port else s.n * s.k + rank s false h.node h.out.port
  else 2 * (s.n * s.k)

theorem rank2_step (hk : 0 < s.k) {h h' : Head2} {c : Nat × Nat} (hg : Good2 s rng h) (ht : Takes2 s rng h c h') :
    rank2 s h < rank2 s h' := by
  obtain ⟨g, e1, e2, e3, e4, e5⟩ := takes2 hk hg ht
  have hp := ht.1
  obtain ⟨d, hd⟩ := hg.dor hk (target_ne hk hg (takes2_not_home ht))
  have b1 := rank_lt hk false h.node hp
  unfold rank2
  rw [if_pos hp]
  by_cases hh' : Home2 s h'
  · have : h'.out.port = 2 * s.n := hh'
    rw [this, if_neg (Nat.lt_irrefl _)]
    split <;> omega
  · obtain ⟨d', hd'⟩ := g.dor hk (target_ne hk g hh')
    have hp' := (dor_step hk hd').1
    rw [if_pos hp']
    by_cases p : h.out.ph = 0
    · rw [if_pos p]
      by_cases p' : h'.out.ph = 0
      · rw [if_pos p']
        have t1 : target h = h.intm := by unfold target; rw [if_pos p]
        have t2 : target h' = h.intm := by unfold target; rw [if_pos p', e4]
        rw [t1] at hd; rw [t2, e1] at hd'
        rw [e1]; exact rank_step hk hd hd'
      · rw [if_neg p']; omega
    · have p' : ¬ h'.out.ph = 0 := fun h => p (e5.1 h).1
      rw [if_neg p, if_neg p']
      have t1 : target h = h.pkt.dest := by unfold target; rw [if_neg p]
      have t2 : target h' = h.pkt.dest := by unfold target; rw [if_neg p', e2]
      rw [t1] at hd; rw [t2, e1] at hd'
      have := rank_step hk hd hd'
      rw [e1]; omega

theorem noDeadlockR (hk : 0 < s.k) (hs : Separate rng) :
    NoDeadlock (Enters2 s rng (rommDraw s)) (Takes2 s rng) (Home2 s) := by
  refine noDeadlock (Good := GoodR s rng) (rank2 s) (fun h => entersR hk) (fun h c h' hg ht => takesR hk hg ht)
    (fun h c h' hg ht => Nat.le_of_lt (rank2_step hk hg.good ht)) ?_
  intro h hg hh
  have hne : h.node ≠ h.pkt.dest := fun e => by
    rcases hg.good.phase with ⟨p, -⟩ | p
    · exact hg.first hk p e
    · exact hh ((home2 hk hg.good).2 ⟨p, e⟩)
  obtain ⟨ha, a, b⟩ := hg.good.apart hne
  have hle := available_le ha
  have key : ∀ vc h', (if h.out.ph = 0 then vc = (rng h.pkt.cls).1 else vc = (rng h.pkt.cls).2) →
      Takes2 s rng h (2 * s.n * h.node + h.out.port, vc) h' →
      ∀ t t', GoodR s rng t → Takes2 s rng t (2 * s.n * h.node + h.out.port, vc) t' → rank2 s h < rank2 s t' := by
    intro vc h' hvc ht t t' gt tt
    obtain ⟨t1, t2, t3, t4, -⟩ := (takes2_iff hk gt.good.node).mp tt
    dsimp only at t2 t3 t4
    obtain ⟨e1, e2⟩ := enc_inj ht.1 t1 t2
    have hlt := rank2_step hk gt.good tt
    have tne : t.node ≠ t.pkt.dest := fun e => by
      rcases gt.good.phase with ⟨p, -⟩ | p
      · exact gt.first hk p e
      · exact takes2_not_home tt ((home2 hk gt.good).2 ⟨p, e⟩)
    obtain ⟨ta, ta', tb'⟩ := gt.good.apart tne
    have tle := available_le ta
    have hvc' : (rng h.pkt.cls).1 ≤ vc ∧ vc ≤ (rng h.pkt.cls).2 := by split at hvc <;> omega
    have tvc : (rng t.pkt.cls).1 ≤ vc ∧ vc ≤ (rng t.pkt.cls).2 := by
      rcases gt.good.phase with ⟨p, -⟩ | p
      · have := ta' p; omega
      · have := tb' p; omega
    have hr := same_class hs tvc.1 tvc.2 hvc'.1 hvc'.2
    have hph : (t.out.ph = 0) ↔ (h.out.ph = 0) := by
      rw [hr] at ta ta' tb' tle
      by_cases p : h.out.ph = 0
      · rw [if_pos p] at hvc
        rcases gt.good.phase with ⟨q, -⟩ | q
        · exact ⟨fun _ => p, fun _ => q⟩
        · have := tb' q; omega
      · rw [if_neg p] at hvc
        rcases gt.good.phase with ⟨q, -⟩ | q
        · have := ta' q; omega
        · rw [q]; exact ⟨fun h => absurd h (by decide), fun h => absurd h p⟩
    have e : rank2 s t = rank2 s h := by
      unfold rank2; rw [← e1, ← e2]; simp only [hph]
    omega
  by_cases p : h.out.ph = 0
  · obtain ⟨h', ht⟩ := can2 hk hg.good hh ha (vc := (rng h.pkt.cls).1) (by have := a p; omega) (by have := a p; omega)
    exact ⟨_, h', ht, key _ h' (by rw [if_pos p]) ht⟩
  · have p1 : h.out.ph = 1 := hg.good.phase.resolve_left fun h => p h.1
    obtain ⟨h', ht⟩ := can2 hk hg.good hh ha (vc := (rng h.pkt.cls).2) (by have := b p1; omega) (by have := b p1; omega)
    exact ⟨_, h', ht, key _ h' (by rw [if_neg p]) ht⟩

end RadSim.Routing
