import Verif.Lemmas.RoutingTorus
import Verif.Lemmas.NiMesh
import Verif.Model.TorusMore

/-! # Torus routing with virtual channels by destination -/

namespace RadSim.Routing.NiT

open Worms Grid

/-- The shorter way round the ring. `c` and `e` are the coordinate of a head and that of its destination. -/
def Dir (k c e p : Nat) : Prop :=
  (p % 2 = 0 ∧ ((c < e ∧ 2 * (e - c) ≤ k) ∨ (e < c ∧ 2 * (e + k - c) ≤ k))) ∨
  (p % 2 = 1 ∧ ((e < c ∧ 2 * (c - e) ≤ k) ∨ (c < e ∧ 2 * (c + k - e) ≤ k)))

theorem dir_of_ring {k c e p : Nat} {ph : Int} (hc : c < k) (h : Ring k c e p ph) : Dir k c e p := by
  unfold Ring at h; unfold Dir; omega

theorem dir_step {k c e p c' : Nat} (hr : Dir k c e p) (hc : c < k) (he : e < k)
    (h0 : p % 2 = 0 → c' = if c = k - 1 then 0 else c + 1)
    (h1 : p % 2 = 1 → c' = if c = 0 then k - 1 else c - 1) (hne : c' ≠ e) : Dir k c' e p := by
  unfold Dir at *
  rcases hr with ⟨hp, hr⟩ | ⟨hp, hr⟩
  · have h0 := h0 hp
    refine Or.inl ⟨hp, ?_⟩
    split at h0 <;> omega
  · have h1 := h1 hp
    refine Or.inr ⟨hp, ?_⟩
    split at h1 <;> omega

theorem dir_gap {k c e p c' : Nat} (hr : Dir k c e p) (hc : c < k) (he : e < k)
    (h0 : p % 2 = 0 → c' = if c = k - 1 then 0 else c + 1)
    (h1 : p % 2 = 1 → c' = if c = 0 then k - 1 else c - 1) : ringGap k c e = ringGap k c' e + 1 := by
  unfold Dir at hr
  unfold ringGap gap
  rcases hr with ⟨hp, hr⟩ | ⟨hp, hr⟩
  · have h0 := h0 hp
    split at h0 <;> omega
  · have h1 := h1 hp
    split at h1 <;> omega

variable {s : Shape} {rng : Nat → Nat × Nat}

/-- Heads under `dim_order_ni_torus`. -/
structure Good (s : Shape) (rng : Nat → Nat × Nat) (D : Nat) (h : Head) : Prop where
  dest : h.pkt.dest = D
  node : h.node < s.nodes
  lt : D < s.nodes
  home : h.node = D → h.out.port = 2 * s.n
  way : h.node ≠ D → ∃ d, First s h.node D d ∧ h.out.port / 2 = d ∧ Dir s.k (coord s.k h.node d) (coord s.k D d) h.out.port
  some : h.node ≠ D → h.out.vcBegin ≤ h.out.vcEnd ∧ 0 < ((rng h.pkt.cls).2 + 1 - (rng h.pkt.cls).1) / s.nodes
  part : h.node ≠ D → ∀ vc, h.out.vcBegin ≤ vc → vc ≤ h.out.vcEnd →
    InPart (rng h.pkt.cls) s.nodes D vc ∧ (rng h.pkt.cls).1 ≤ vc ∧ vc ≤ (rng h.pkt.cls).2

/-- The routing function on an arriving head, apart from the direction. -/
theorem raw {u q : Nat} {f : Pkt} {h : Head} (ha : Arrives (dimOrderNiTorus s rng) u q f h) :
    ∃ rnd, h.node = u ∧ h.pkt.dest = f.dest ∧ h.pkt.cls = f.cls ∧ h.out.port = (dorNextTorus s u f.dest q f.ph rnd).1 ∧
      (u ≠ f.dest → h.out.vcBegin ≤ h.out.vcEnd ∧ 0 < ((rng f.cls).2 + 1 - (rng f.cls).1) / s.nodes ∧
        ∀ vc, h.out.vcBegin ≤ vc → vc ≤ h.out.vcEnd →
          InPart (rng f.cls) s.nodes f.dest vc ∧ (rng f.cls).1 ≤ vc ∧ vc ≤ (rng f.cls).2) := by
  obtain ⟨rnd, o, ho, rfl⟩ := ha
  refine ⟨rnd, rfl, rfl, rfl, ?_⟩
  unfold dimOrderNiTorus at ho
  by_cases hv : vcOk rng f
  · rw [if_pos hv] at ho
    dsimp only at ho
    by_cases hd : u ≠ f.dest
    · rw [if_pos hd] at ho
      split at ho
      · rename_i hp
        cases ho
        refine ⟨rfl, fun _ => ?_⟩
        have hle := part_le (r := rng f.cls) hp.2 (Nat.le_trans hv.1 hv.2)
        have hpos := Nat.pos_of_ne_zero hp.1
        dsimp only
        rw [Nat.add_mul, Nat.one_mul] at hle
        refine ⟨by omega, hpos, fun vc h1 h2 => ⟨⟨h1, ?_⟩, by omega, by omega⟩⟩
        rw [Nat.add_mul, Nat.one_mul]; omega
      · cases ho
    · rw [if_neg hd] at ho
      cases ho
      exact ⟨rfl, fun h => absurd h hd⟩
  · rw [if_neg hv] at ho; cases ho

theorem ex {u q : Nat} {f : Pkt} (h1 : (rng f.cls).1 ≤ f.vc) (h2 : f.vc ≤ (rng f.cls).2)
    (hp : 0 < ((rng f.cls).2 + 1 - (rng f.cls).1) / s.nodes) (hd : f.dest < s.nodes) :
    ∃ h, Arrives (dimOrderNiTorus s rng) u q f h := by
  have : ∃ o, dimOrderNiTorus s rng u f q false = some o := by
    unfold dimOrderNiTorus
    simp only [if_pos (show vcOk rng f from ⟨h1, h2⟩), if_pos (And.intro (Nat.ne_of_gt hp) hd)]
    split
    all_goals exact ⟨_, rfl⟩
  obtain ⟨o, ho⟩ := this
  exact ⟨_, false, o, ho, rfl⟩

/-- Arriving, given that the direction is right when the head goes on in a dimension. -/
theorem arrives (hk : 0 < s.k) {u q : Nat} {f : Pkt} {h : Head} (hu : u < s.nodes) (hf : f.dest < s.nodes)
    (hq : ∀ d, First s u f.dest d → q / 2 = d → Dir s.k (coord s.k u d) (coord s.k f.dest d) (opp q))
    (ha : Arrives (dimOrderNiTorus s rng) u q f h) : Good s rng f.dest h := by
  obtain ⟨rnd, e1, e2, e3, e4, e5⟩ := raw ha
  refine ⟨e2, by omega, hf, fun e => ?_, fun e => ?_, fun e => ?_, fun e => ?_⟩
  · rw [e4]; exact torus_home hk hu hf (e1 ▸ e) _ _ _
  · rw [e1] at e ⊢
    rcases torusLoop_spec hk hu hf with ⟨e', -⟩ | ⟨-, d, hd, -⟩
    · exact absurd e' e
    · refine ⟨d, hd, ?_⟩
      by_cases hqd : q / 2 = d
      · have := torus_on hk hu hf hd (opp q) (by rw [opp_half]; exact hqd) f.ph rnd
        rw [opp_opp] at this
        rw [e4, this]
        exact ⟨by rw [opp_half]; exact hqd, hq d hd hqd⟩
      · obtain ⟨t1, t2⟩ := torus_turn hk hu hf hd q hqd f.ph rnd
        rw [e4]
        exact ⟨t1, dir_of_ring (coord_lt hk _ _) t2⟩
  · rw [e3]; rw [e1] at e; exact ⟨(e5 e).1, (e5 e).2.1⟩
  · rw [e3]; rw [e1] at e; exact (e5 e).2.2

theorem enters (hk : 0 < s.k) {h : Head} (he : Enters s (dimOrderNiTorus s rng) h) : Good s rng h.pkt.dest h := by
  obtain ⟨u, f, hu, hf, -, ha⟩ := he
  have e := (raw ha).choose_spec.2.1
  rw [e]
  refine arrives hk hu hf (fun d hd e => ?_) ha
  have := hd.dim; omega

theorem Good.port_lt {D : Nat} {h : Head} (hg : Good s rng D h) (hne : h.node ≠ D) : h.out.port < 2 * s.n := by
  obtain ⟨d, hd, hp, -⟩ := hg.way hne
  have := hd.dim; omega

theorem home_iff {D : Nat} {h : Head} (hg : Good s rng D h) : Home s h ↔ h.node = D := by
  refine ⟨fun e => Classical.byContradiction fun hne => ?_, hg.home⟩
  have := hg.port_lt hne
  unfold Home at e; omega

theorem takes_ne (hk : 0 < s.k) {D : Nat} {h h' : Head} {c : Nat × Nat} (hg : Good s rng D h)
    (ht : Takes s (dimOrderNiTorus s rng) h c h') : h.node ≠ D := fun e => by
  have := hg.home e
  have h1 := ((takes_iff hk hg.node).mp ht).1
  omega

/-- Everything about a move. -/
theorem takes (hk : 0 < s.k) {D : Nat} {h h' : Head} {c : Nat × Nat} (hg : Good s rng D h)
    (ht : Takes s (dimOrderNiTorus s rng) h c h') :
    Good s rng D h' ∧ torusDist s.k s.n h.node D = torusDist s.k s.n h'.node D + 1 := by
  obtain ⟨p1, p2, p3, p4, p5⟩ := (takes_iff hk hg.node).mp ht
  obtain ⟨d, hd, hp, hr⟩ := hg.way (takes_ne hk hg ht)
  obtain ⟨rnd, e1, -⟩ := raw p5
  have hu' := nbr_lt hk p1 hg.node
  obtain ⟨n1, n2, n3⟩ := nbr_coord hk h.node h.out.port
  rw [hp] at n1 n2 n3
  refine ⟨?_, ?_⟩
  · have := arrives hk (f := { h.pkt with vc := c.2 }) hu' (by rw [hg.dest]; exact hg.lt) (fun d' hd' e => ?_) p5
    · rw [← hg.dest]; exact this
    · rw [opp_half, hp] at e
      subst e
      rw [opp_opp]
      have hne := hd'.ne
      dsimp only at hne ⊢
      rw [hg.dest] at hne ⊢
      exact dir_step hr (coord_lt hk _ _) (coord_lt hk _ _) n2 n3 hne
  · rw [e1]
    refine sum_step s.n d hd.dim _ _ ?_ fun x hx => by rw [n1 x hx]
    exact dir_gap hr (coord_lt hk _ _) (coord_lt hk _ _) n2 n3

theorem can (hk : 0 < s.k) {D : Nat} {h : Head} (hg : Good s rng D h) (hh : ¬ Home s h) {vc : Nat}
    (h1 : h.out.vcBegin ≤ vc) (h2 : vc ≤ h.out.vcEnd) :
    ∃ h', Takes s (dimOrderNiTorus s rng) h (2 * s.n * h.node + h.out.port, vc) h' := by
  have hne : h.node ≠ D := fun e => hh (hg.home e)
  have hp := hg.part hne vc h1 h2
  obtain ⟨h', ha⟩ := ex (s := s) (rng := rng) (u := nbr s h.node h.out.port) (q := opp h.out.port)
    (f := { h.pkt with vc := vc }) hp.2.1 hp.2.2 (hg.some hne).2 (by rw [hg.dest]; exact hg.lt)
  exact ⟨h', (takes_iff hk hg.node).mpr ⟨hg.port_lt hne, rfl, h1, h2, ha⟩⟩

/-- Heads that take the same channel have the same router and destination. -/
theorem same (hk : 0 < s.k) (hs : Separate rng) {D D' : Nat} {h h' t t' : Head} {c : Nat × Nat} (hg : Good s rng D h)
    (hg' : Good s rng D' t) (ht : Takes s (dimOrderNiTorus s rng) h c h') (tt : Takes s (dimOrderNiTorus s rng) t c t') :
    h.node = t.node ∧ D = D' := by
  obtain ⟨h1, h2, h3, h4, -⟩ := (takes_iff hk hg.node).mp ht
  obtain ⟨t1, t2, t3, t4, -⟩ := (takes_iff hk hg'.node).mp tt
  obtain ⟨p1, p2, p3⟩ := hg.part (takes_ne hk hg ht) _ h3 h4
  obtain ⟨q1, q2, q3⟩ := hg'.part (takes_ne hk hg' tt) _ t3 t4
  have := same_class hs p2 p3 q2 q3
  rw [this] at p1
  exact ⟨(takes_same hk hg.node hg'.node ht tt).1.symm, part_unique p1 q1⟩

theorem dist_le (k n u v : Nat) : torusDist k n u v ≤ n * k := by
  unfold torusDist
  have : ∑ d ∈ Finset.range n, ringGap k (coord k u d) (coord k v d) ≤ ∑ _d ∈ Finset.range n, k :=
    Finset.sum_le_sum fun d _ => by unfold ringGap; omega
  simpa using this

theorem noDeadlock (hk : 0 < s.k) (hs : Separate rng) :
    NoDeadlock (Enters s (dimOrderNiTorus s rng)) (Takes s (dimOrderNiTorus s rng)) (Home s) := by
  have hstep : ∀ h c h', Good s rng h.pkt.dest h → Takes s (dimOrderNiTorus s rng) h c h' →
      Good s rng h'.pkt.dest h' ∧ torusDist s.k s.n h.node h.pkt.dest = torusDist s.k s.n h'.node h'.pkt.dest + 1 := by
    intro h c h' hg ht
    obtain ⟨a, b⟩ := takes hk hg ht
    rw [a.dest]; exact ⟨a, b⟩
  refine Worms.noDeadlock (Good := fun h => Good s rng h.pkt.dest h)
    (fun h => s.n * s.k - torusDist s.k s.n h.node h.pkt.dest) (fun h => enters hk) (fun h c h' hg ht => (hstep h c h' hg ht).1) ?_ ?_
  · intro h c h' hg ht
    have := (hstep h c h' hg ht).2
    omega
  · intro h hg hh
    have hne : h.node ≠ h.pkt.dest := fun e => hh (hg.home e)
    obtain ⟨h', ht⟩ := can hk hg hh (Nat.le_refl _) (hg.some hne).1
    refine ⟨_, h', ht, fun t t' gt tt => ?_⟩
    obtain ⟨e1, e2⟩ := same hk hs hg gt ht tt
    have h1 := (hstep t _ t' gt tt).2
    have h2 := dist_le s.k s.n t.node t.pkt.dest
    rw [e1, e2]; omega

end RadSim.Routing.NiT
