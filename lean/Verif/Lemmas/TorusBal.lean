import Verif.Lemmas.RoutingTorus
import Verif.Model.TorusMore

/-! # Balanced torus routing: ranks and distances -/

namespace RadSim.Routing.Bal

open Worms Grid

/-- Direction and partition of a head in the ring it is in. `c` and `e` are its coordinate and that of
its destination. -/
def Ring (k c e p : Nat) (ph : Int) : Prop :=
  (p % 2 = 0 ∧ ((ph = 0 ∧ c < e ∧ 2 * (e - c) ≤ k) ∨
    (ph = 1 ∧ ((e < c ∧ 2 * (e + k - c) ≤ k) ∨
      (c < e ∧ 2 * (e - c) ≤ k ∧ (2 * e < k ∨ k ≤ 2 * c)))))) ∨
  (p % 2 = 1 ∧ ((ph = 0 ∧ e < c ∧ 2 * (c - e) ≤ k) ∨
    (ph = 1 ∧ ((c < e ∧ 2 * (c + k - e) ≤ k) ∨
      (e < c ∧ 2 * (c - e) ≤ k ∧ (k ≤ 2 * e ∨ 2 * c < k))))))

section Torus

variable {s : Shape} {rng : Nat → Nat × Nat}

theorem torus_home (hk : 0 < s.k) {u v : Nat} (hu : u < s.nodes) (hv : v < s.nodes) (e : u = v)
    (q : Nat) (ph : Int) (rnd : Bool) : (dorNextBal s u v q ph rnd).1 = 2 * s.n := by
  rcases torusLoop_spec hk hu hv with ⟨-, h⟩ | ⟨h, -⟩
  · unfold dorNextBal dorNextBal2
    revert h
    rcases torusLoop s.k s.n 0 u v with ⟨a, b, c⟩
    intro h
    simp only at h ⊢
    rw [if_neg (by omega)]
  · exact absurd e h

/-- Turning into a new dimension. -/
theorem torus_turn (hk : 0 < s.k) {u v d : Nat} (hu : u < s.nodes) (hv : v < s.nodes)
    (hf : First s u v d) (q : Nat) (hq : q / 2 ≠ d) (ph : Int) (rnd : Bool) :
    (dorNextBal s u v q ph rnd).1 / 2 = d ∧
    Ring s.k (coord s.k u d) (coord s.k v d) (dorNextBal s u v q ph rnd).1
      (dorNextBal s u v q ph rnd).2 := by
  rcases torusLoop_spec hk hu hv with ⟨e, -⟩ | ⟨-, d', hf', h⟩
  · exact absurd (by rw [e]) hf.ne
  have hd := hf'.unique hf
  subst hd
  have hc := coord_lt hk u d'
  have hc' := coord_lt hk v d'
  have hne := hf.ne
  have hdim := hf.dim
  unfold dorNextBal dorNextBal2
  rw [h]
  simp only [if_pos hdim, if_pos hq]
  have e1 : u / s.k ^ d' % s.k = coord s.k u d' := rfl
  have e2 : v / s.k ^ d' % s.k = coord s.k v d' := rfl
  rw [e1, e2]
  generalize coord s.k u d' = c at *
  generalize coord s.k v d' = e at *
  have hdelta : (e + s.k - c) % s.k = if c < e then e - c else e + s.k - c := by
    split
    · have : e + s.k - c = (e - c) + s.k := by omega
      rw [this, Nat.add_mod_right, Nat.mod_eq_of_lt (by omega)]
    · rw [Nat.mod_eq_of_lt (by omega)]
  rw [hdelta]
  generalize hr : (decide (2 * (if c < e then e - c else e + s.k - c) < s.k) ||
    (decide (2 * (if c < e then e - c else e + s.k - c) = s.k) && rnd)) = r
  have hr1 : r = true → 2 * (if c < e then e - c else e + s.k - c) ≤ s.k := by
    intro h; rw [← hr] at h
    simp only [Bool.or_eq_true, Bool.and_eq_true, decide_eq_true_eq] at h; omega
  have hr0 : r = false → s.k ≤ 2 * (if c < e then e - c else e + s.k - c) := by
    intro h; rw [← hr] at h
    simp only [Bool.or_eq_false_iff, decide_eq_false_iff_not] at h; omega
  clear hr hdelta
  unfold Ring
  cases r
  · have h := hr0 rfl
    simp only [Bool.false_and, Bool.not_false, Bool.true_and, Bool.false_or, Bool.false_eq_true, if_false,
      Bool.and_eq_true, decide_eq_true_eq]
    refine ⟨by omega, Or.inr ⟨by omega, ?_⟩⟩
    repeat' split
    all_goals (split at h <;> omega)
  · have h := hr1 rfl
    simp only [Bool.true_and, Bool.not_true, Bool.false_and, Bool.or_false, if_true, Bool.and_eq_true,
      decide_eq_true_eq]
    refine ⟨by omega, Or.inl ⟨by omega, ?_⟩⟩
    repeat' split
    all_goals (split at h <;> omega)

/-- Going on in a dimension. -/
theorem torus_on (hk : 0 < s.k) {u v d : Nat} (hu : u < s.nodes) (hv : v < s.nodes)
    (hf : First s u v d) (p : Nat) (hp : p / 2 = d) (ph : Int) (rnd : Bool) :
    dorNextBal s u v (opp p) ph rnd = (p, ph) := by
  rcases torusLoop_spec hk hu hv with ⟨e, -⟩ | ⟨-, d', hf', h⟩
  · exact absurd (by rw [e]) hf.ne
  have hd := hf'.unique hf
  subst hd
  have hdim := hf.dim
  unfold dorNextBal dorNextBal2
  rw [h]
  have : ¬ (opp p / 2 ≠ d') := by rw [opp_half]; simpa using hp
  simp only [if_pos hdim, if_neg this, xor_one, opp_opp]

/-- Heads under `dim_order_bal_torus`. -/
structure GoodT (s : Shape) (rng : Nat → Nat × Nat) (h : Head) : Prop where
  node : h.node < s.nodes
  dest : h.pkt.dest < s.nodes
  out : (h.node = h.pkt.dest ∧ h.out.port = 2 * s.n) ∨
    (h.node ≠ h.pkt.dest ∧ (rng h.pkt.cls).1 + 2 * available (rng h.pkt.cls) ≤ (rng h.pkt.cls).2 + 1 ∧
      0 < available (rng h.pkt.cls) ∧ h.pkt.ph = h.out.ph ∧
      (∃ d, First s h.node h.pkt.dest d ∧ h.out.port / 2 = d ∧
        Ring s.k (coord s.k h.node d) (coord s.k h.pkt.dest d) h.out.port h.out.ph) ∧
      (h.out.ph = 0 → h.out.vcBegin = (rng h.pkt.cls).1 ∧
          h.out.vcEnd = (rng h.pkt.cls).2 - available (rng h.pkt.cls)) ∧
      (h.out.ph ≠ 0 → h.out.vcBegin = (rng h.pkt.cls).1 + available (rng h.pkt.cls) ∧
          h.out.vcEnd = (rng h.pkt.cls).2))

/-- The routing function on an arriving head, apart from direction and partition. -/
theorem arrivesT_raw {u q : Nat} {f : Pkt} {h : Head}
    (ha : Arrives (dimOrderBalTorus s rng) u q f h) :
    ∃ rnd, h.node = u ∧ h.pkt.dest = f.dest ∧ h.pkt.cls = f.cls ∧ h.pkt.ph = h.out.ph ∧
      h.out.port = (dorNextBal s u f.dest q f.ph rnd).1 ∧
      h.out.ph = (dorNextBal s u f.dest q f.ph rnd).2 ∧
      (u ≠ f.dest → (rng f.cls).1 + 2 * available (rng f.cls) ≤ (rng f.cls).2 + 1 ∧
        0 < available (rng f.cls) ∧
        (h.out.ph = 0 → h.out.vcBegin = (rng f.cls).1 ∧
          h.out.vcEnd = (rng f.cls).2 - available (rng f.cls)) ∧
        (h.out.ph ≠ 0 → h.out.vcBegin = (rng f.cls).1 + available (rng f.cls) ∧
          h.out.vcEnd = (rng f.cls).2)) := by
  obtain ⟨rnd, o, ho, rfl⟩ := ha
  refine ⟨rnd, rfl, rfl, rfl, rfl, ?_⟩
  unfold dimOrderBalTorus at ho
  revert ho
  rcases dorNextBal s u f.dest q f.ph rnd with ⟨port, ph⟩
  intro ho
  simp only at ho ⊢
  by_cases hv : vcOk rng f
  · rw [if_pos hv] at ho
    by_cases hd : u ≠ f.dest
    · rw [if_pos hd] at ho
      by_cases ha : available (rng f.cls) > 0
      · rw [if_pos ha] at ho
        have hle := available_le ha
        by_cases hp : ph = 0
        · rw [if_pos hp] at ho
          cases ho
          exact ⟨rfl, rfl, fun _ => ⟨hle, ha, fun _ => ⟨rfl, rfl⟩, fun h => absurd hp h⟩⟩
        · rw [if_neg hp] at ho
          by_cases hp1 : ph = 1
          · rw [if_pos hp1] at ho
            cases ho
            exact ⟨rfl, rfl, fun _ => ⟨hle, ha, fun h => absurd h hp, fun _ => ⟨rfl, rfl⟩⟩⟩
          · rw [if_neg hp1] at ho; cases ho
      · rw [if_neg ha] at ho; cases ho
    · rw [if_neg hd] at ho
      cases ho
      exact ⟨rfl, rfl, fun h => absurd h hd⟩
  · rw [if_neg hv] at ho; cases ho

theorem next_ph {u v q : Nat} {ph : Int} {rnd : Bool} (h : ph = 0 ∨ ph = 1) :
    (dorNextBal s u v q ph rnd).2 = 0 ∨ (dorNextBal s u v q ph rnd).2 = 1 := by
  unfold dorNextBal dorNextBal2
  rcases torusLoop s.k s.n 0 u v with ⟨a, b, c⟩
  simp only
  repeat' split
  all_goals first | exact h | simp

theorem arrivesT_exists {u q : Nat} {f : Pkt} (h1 : (rng f.cls).1 ≤ f.vc) (h2 : f.vc ≤ (rng f.cls).2)
    (ha : 0 < available (rng f.cls)) (hp : f.ph = 0 ∨ f.ph = 1) (rnd : Bool) :
    ∃ h, Arrives (dimOrderBalTorus s rng) u q f h := by
  have hn := next_ph (s := s) (u := u) (v := f.dest) (q := q) (rnd := rnd) hp
  have : ∃ o, dimOrderBalTorus s rng u f q rnd = some o := by
    unfold dimOrderBalTorus
    revert hn
    rcases dorNextBal s u f.dest q f.ph rnd with ⟨port, ph⟩
    intro hn
    simp only at hn
    simp only [if_pos (show vcOk rng f from ⟨h1, h2⟩), if_pos ha]
    rcases hn with hn | hn <;> subst hn
    all_goals (repeat' split)
    all_goals first | exact ⟨_, rfl⟩ | omega
  obtain ⟨o, ho⟩ := this
  exact ⟨_, rnd, o, ho, rfl⟩

/-- Arriving on a port of another dimension than the one to go in. -/
theorem arrivesT_turn (hk : 0 < s.k) {u q : Nat} {f : Pkt} {h : Head} (hu : u < s.nodes)
    (hf : f.dest < s.nodes) (hq : ∀ d, First s u f.dest d → q / 2 ≠ d)
    (ha : Arrives (dimOrderBalTorus s rng) u q f h) : GoodT s rng h := by
  obtain ⟨rnd, e1, e2, e3, e4, e5, e6, e7⟩ := arrivesT_raw ha
  refine ⟨by omega, by omega, ?_⟩
  rw [e1, e2, e3]
  by_cases hd : u = f.dest
  · left
    exact ⟨hd, by rw [e5, torus_home hk hu hf hd]⟩
  · right
    obtain ⟨h1, h2, h3, h4⟩ := e7 hd
    rcases torusLoop_spec hk hu hf with ⟨e, -⟩ | ⟨-, d, hfi, -⟩
    · exact absurd e hd
    · obtain ⟨t1, t2⟩ := torus_turn hk hu hf hfi q (hq d hfi) f.ph rnd
      refine ⟨hd, h1, h2, e4, ⟨d, hfi, by rw [e5]; exact t1, by rw [e5, e6]; exact t2⟩, h3, h4⟩

theorem entersT (hk : 0 < s.k) {h : Head} (he : Enters s (dimOrderBalTorus s rng) h) : GoodT s rng h := by
  obtain ⟨u, f, hu, hf, -, ha⟩ := he
  refine arrivesT_turn hk hu hf (fun d hd => ?_) ha
  have := hd.dim; omega

theorem GoodT.port_lt {h : Head} (hg : GoodT s rng h) (hne : h.node ≠ h.pkt.dest) :
    h.out.port < 2 * s.n := by
  rcases hg.out with ⟨e, -⟩ | ⟨-, -, -, -, ⟨d, hd, hp, -⟩, -, -⟩
  · exact absurd e hne
  · have := hd.dim; omega

theorem homeT {h : Head} (hg : GoodT s rng h) : Home s h ↔ h.node = h.pkt.dest := by
  unfold Home
  constructor
  · intro e
    refine Classical.byContradiction fun hne => ?_
    have := hg.port_lt hne; omega
  · intro e
    rcases hg.out with ⟨-, e'⟩ | ⟨h', -⟩
    · exact e'
    · exact absurd e h'

theorem takesT_ne (hk : 0 < s.k) {h h' : Head} {c : Nat × Nat} (hg : GoodT s rng h)
    (ht : Takes s (dimOrderBalTorus s rng) h c h') : h.node ≠ h.pkt.dest := fun e => by
  have := (homeT hg).mpr e
  have h1 := ((takes_iff hk hg.node).mp ht).1
  unfold Home at this; omega

/-- Still in the ring after a move, unless the coordinate is right. -/
theorem ring_step {k c e p c' : Nat} {ph : Int} (hr : Ring k c e p ph) (hc : c < k) (he : e < k)
    (h0 : p % 2 = 0 → c' = if c = k - 1 then 0 else c + 1)
    (h1 : p % 2 = 1 → c' = if c = 0 then k - 1 else c - 1) (hne : c' ≠ e) : Ring k c' e p ph := by
  unfold Ring at *
  rcases hr with ⟨hp, hr⟩ | ⟨hp, hr⟩
  · have h0 := h0 hp
    refine Or.inl ⟨hp, ?_⟩
    rcases hr with ⟨a, b⟩ | ⟨a, b⟩
    · refine Or.inl ⟨a, ?_⟩
      split at h0 <;> omega
    · refine Or.inr ⟨a, ?_⟩
      split at h0 <;> omega
  · have h1 := h1 hp
    refine Or.inr ⟨hp, ?_⟩
    rcases hr with ⟨a, b⟩ | ⟨a, b⟩
    · refine Or.inl ⟨a, ?_⟩
      split at h1 <;> omega
    · refine Or.inr ⟨a, ?_⟩
      split at h1 <;> omega

theorem ring_gap {k c e p c' : Nat} {ph : Int} (hr : Ring k c e p ph) (hc : c < k) (he : e < k)
    (h0 : p % 2 = 0 → c' = if c = k - 1 then 0 else c + 1)
    (h1 : p % 2 = 1 → c' = if c = 0 then k - 1 else c - 1) : ringGap k c e = ringGap k c' e + 1 := by
  unfold Ring at hr
  unfold ringGap gap
  rcases hr with ⟨hp, hr⟩ | ⟨hp, hr⟩
  · have h0 := h0 hp
    split at h0 <;> omega
  · have h1 := h1 hp
    split at h1 <;> omega

/-- Everything about a move. -/
theorem takesT (hk : 0 < s.k) {h h' : Head} {c : Nat × Nat} (hg : GoodT s rng h)
    (ht : Takes s (dimOrderBalTorus s rng) h c h') :
    GoodT s rng h' ∧ h'.node = nbr s h.node h.out.port ∧ h'.pkt.dest = h.pkt.dest ∧
      h'.pkt.cls = h.pkt.cls ∧
      ∃ d, First s h.node h.pkt.dest d ∧ h.out.port / 2 = d ∧
        Ring s.k (coord s.k h.node d) (coord s.k h.pkt.dest d) h.out.port h.out.ph ∧
        (∀ d', First s h'.node h'.pkt.dest d' → d ≤ d' ∧
          (d' = d → h'.out.port = h.out.port ∧ h'.out.ph = h.out.ph)) := by
  obtain ⟨p1, p2, p3, p4, p5⟩ := (takes_iff hk hg.node).mp ht
  have hne := takesT_ne hk hg ht
  rcases hg.out with ⟨e, -⟩ | ⟨-, hle, hav, hph, ⟨d, hfi, hpd, hr⟩, hlo, hhi⟩
  · exact absurd e hne
  obtain ⟨rnd, e1, e2, e3, e4, e5, e6, e7⟩ := arrivesT_raw p5
  have hu' := nbr_lt hk p1 hg.node
  obtain ⟨n1, n2, n3⟩ := nbr_coord hk h.node h.out.port
  rw [hpd] at n1 n2 n3
  have hge : ∀ d', First s (nbr s h.node h.out.port) h.pkt.dest d' → d ≤ d' := by
    intro d' hd'
    have : ¬ d' < d := fun hlt => hd'.ne (by rw [n1 d' (by omega)]; exact hfi.before d' hlt)
    omega
  have hon : First s (nbr s h.node h.out.port) h.pkt.dest d →
      h'.out.port = h.out.port ∧ h'.out.ph = h.out.ph := by
    intro hd
    have := torus_on hk hu' hg.dest hd h.out.port hpd h.pkt.ph rnd
    simp only at e5 e6
    rw [this] at e5 e6
    exact ⟨e5, by rw [e6, hph]⟩
  refine ⟨?_, e1, e2, e3, d, hfi, hpd, hr, ?_⟩
  · by_cases hd : First s (nbr s h.node h.out.port) h.pkt.dest d
    · refine ⟨by omega, by rw [e2]; exact hg.dest, Or.inr ?_⟩
      have hne' : nbr s h.node h.out.port ≠ h.pkt.dest := fun e => hd.ne (by rw [e])
      obtain ⟨h1, h2, h3, h4⟩ := e7 hne'
      rw [e1, e2, e3]
      refine ⟨hne', h1, h2, e4, ⟨d, hd, by rw [(hon hd).1]; exact hpd, ?_⟩, h3, h4⟩
      rw [(hon hd).1, (hon hd).2]
      exact ring_step hr (coord_lt hk _ _) (coord_lt hk _ _) n2 n3 hd.ne
    · refine arrivesT_turn (f := { h.pkt with vc := c.2 }) hk hu' hg.dest (fun d' hd' e => ?_) p5
      rw [opp_half, hpd] at e
      subst e; exact hd hd'
  · intro d' hd'
    rw [e1, e2] at hd'
    refine ⟨hge d' hd', fun e => ?_⟩
    subst e; exact hon hd'

theorem torusDist_step (hk : 0 < s.k) {h h' : Head} {c : Nat × Nat} (hg : GoodT s rng h)
    (ht : Takes s (dimOrderBalTorus s rng) h c h') :
    torusDist s.k s.n h.node h.pkt.dest = torusDist s.k s.n h'.node h'.pkt.dest + 1 := by
  obtain ⟨-, e1, e2, -, d, hfi, hpd, hr, -⟩ := takesT hk hg ht
  obtain ⟨n1, n2, n3⟩ := nbr_coord hk h.node h.out.port
  rw [hpd] at n1 n2 n3
  rw [e1, e2]
  refine sum_step s.n d hfi.dim _ _ ?_ fun x hx => by rw [n1 x hx]
  exact ring_gap hr (coord_lt hk _ _) (coord_lt hk _ _) n2 n3

/-- Order of the channels of a ring in the direction and partition of a packet. -/
def pos (k c p : Nat) (ph : Int) : Nat :=
  if p % 2 = 0 then
    if ph = 0 then c else if k ≤ 2 * c then c else c + k
  else
    if ph = 0 then k - 1 - c else if 2 * c < k then k - 1 - c else k - 1 - c + k

/-- Rank of a head. -/
def rankT (s : Shape) (h : Head) : Nat :=
  if h.out.port < 2 * s.n then
    h.out.port / 2 * (2 * s.k) + pos s.k (coord s.k h.node (h.out.port / 2)) h.out.port h.out.ph
  else s.n * (2 * s.k)

theorem pos_lt {k c p : Nat} {ph : Int} (h : c < k) : pos k c p ph < 2 * k := by
  unfold pos; repeat' split
  all_goals omega

theorem pos_step {k c e p c' : Nat} {ph : Int} (hr : Ring k c e p ph) (hc : c < k) (he : e < k)
    (h0 : p % 2 = 0 → c' = if c = k - 1 then 0 else c + 1)
    (h1 : p % 2 = 1 → c' = if c = 0 then k - 1 else c - 1) (_hne : c' ≠ e) :
    pos k c p ph < pos k c' p ph := by
  unfold Ring at hr
  unfold pos
  rcases hr with ⟨hp, hr⟩ | ⟨hp, hr⟩
  · have h0 := h0 hp
    simp only [if_pos hp]
    rcases hr with ⟨a, b⟩ | ⟨a, b⟩
    · simp only [if_pos a]; split at h0 <;> omega
    · have : ¬ ph = 0 := by omega
      simp only [if_neg this]
      split at h0 <;> split <;> split <;> omega
  · have h1 := h1 hp
    have hp' : ¬ p % 2 = 0 := by omega
    simp only [if_neg hp']
    rcases hr with ⟨a, b⟩ | ⟨a, b⟩
    · simp only [if_pos a]; split at h1 <;> omega
    · have : ¬ ph = 0 := by omega
      simp only [if_neg this]
      split at h1 <;> split <;> split <;> omega

theorem rankT_step (hk : 0 < s.k) {h h' : Head} {c : Nat × Nat} (hg : GoodT s rng h)
    (ht : Takes s (dimOrderBalTorus s rng) h c h') : rankT s h < rankT s h' := by
  obtain ⟨g, e1, e2, -, d, hfi, hpd, hr, hnext⟩ := takesT hk hg ht
  obtain ⟨hp, -⟩ := (takes_iff hk hg.node).mp ht
  obtain ⟨n1, n2, n3⟩ := nbr_coord hk h.node h.out.port
  rw [hpd] at n1 n2 n3
  have hb : pos s.k (coord s.k h.node d) h.out.port h.out.ph < 2 * s.k := pos_lt (coord_lt hk _ _)
  unfold rankT
  rw [if_pos hp, hpd]
  by_cases hn' : h'.node = h'.pkt.dest
  · have : h'.out.port = 2 * s.n := (homeT g).mpr hn'
    rw [this, if_neg (Nat.lt_irrefl _)]
    exact mul_lt_bound hfi.dim hb
  · rw [if_pos (g.port_lt hn')]
    rcases g.out with ⟨e, -⟩ | ⟨-, -, -, -, ⟨d', hfi', hpd', hr'⟩, -, -⟩
    · exact absurd e hn'
    rw [hpd']
    obtain ⟨h1, h2⟩ := hnext d' hfi'
    by_cases e : d' = d
    · subst e
      obtain ⟨q1, q2⟩ := h2 rfl
      rw [q1, q2, e1]
      have hne := hfi'.ne
      rw [e1, e2] at hne
      have := pos_step hr (coord_lt hk _ _) (coord_lt hk _ _) n2 n3 hne
      omega
    · exact Nat.lt_of_lt_of_le (mul_lt_bound (show d < d' by omega) hb) (Nat.le_add_right _ _)

/-- The partition is zero or one. -/
theorem ring_ph {k c e p : Nat} {ph : Int} (hr : Ring k c e p ph) : ph = 0 ∨ ph = 1 := by
  unfold Ring at hr; omega

theorem canT (hk : 0 < s.k) {h : Head} (hg : GoodT s rng h) (hh : ¬ Home s h) {vc : Nat}
    (h1 : h.out.vcBegin ≤ vc) (h2 : vc ≤ h.out.vcEnd) :
    ∃ h', Takes s (dimOrderBalTorus s rng) h (2 * s.n * h.node + h.out.port, vc) h' := by
  have hne : h.node ≠ h.pkt.dest := fun e => hh ((homeT hg).mpr e)
  have hp := hg.port_lt hne
  have : (rng h.pkt.cls).1 ≤ vc ∧ vc ≤ (rng h.pkt.cls).2 ∧ 0 < available (rng h.pkt.cls) := by
    rcases hg.out with ⟨e, -⟩ | ⟨-, hle, hav, -, -, hlo, hhi⟩
    · exact absurd e hne
    · by_cases e : h.out.ph = 0
      · have := hlo e; omega
      · have := hhi e; omega
  have hph : h.pkt.ph = 0 ∨ h.pkt.ph = 1 := by
    rcases hg.out with ⟨e, -⟩ | ⟨-, -, -, e, ⟨d, -, -, hr⟩, -, -⟩
    · exact absurd e hne
    · rw [e]; exact ring_ph hr
  obtain ⟨h', ha⟩ := arrivesT_exists (s := s) (rng := rng) (u := nbr s h.node h.out.port)
    (q := opp h.out.port) (f := { h.pkt with vc := vc }) this.1 this.2.1 this.2.2 hph false
  exact ⟨h', (takes_iff hk hg.node).mpr ⟨hp, rfl, h1, h2, ha⟩⟩

theorem noDeadlockT (hk : 0 < s.k) (hs : Separate rng) :
    NoDeadlock (Enters s (dimOrderBalTorus s rng)) (Takes s (dimOrderBalTorus s rng)) (Home s) := by
  refine noDeadlock (Good := GoodT s rng) (rankT s) (fun h => entersT hk) ?_ ?_ ?_
  · intro h c h' hg ht; exact (takesT hk hg ht).1
  · intro h c h' hg ht; exact Nat.le_of_lt (rankT_step hk hg ht)
  · intro h hg hh
    have hne : h.node ≠ h.pkt.dest := fun e => hh ((homeT hg).mpr e)
    rcases hg.out with ⟨e, -⟩ | ⟨-, hle, hav, -, ⟨d, -, -, hr⟩, hlo, hhi⟩
    · exact absurd e hne
    obtain ⟨vc, h1, h2, hvc⟩ : ∃ vc, h.out.vcBegin ≤ vc ∧ vc ≤ h.out.vcEnd ∧
        ((h.out.ph = 0 ∧ vc = (rng h.pkt.cls).1) ∨ (h.out.ph ≠ 0 ∧ vc = (rng h.pkt.cls).2)) := by
      by_cases e : h.out.ph = 0
      · have := hlo e
        exact ⟨_, by omega, by omega, Or.inl ⟨e, rfl⟩⟩
      · have := hhi e
        exact ⟨_, by omega, by omega, Or.inr ⟨e, rfl⟩⟩
    obtain ⟨h', ht⟩ := canT hk hg hh h1 h2
    refine ⟨_, h', ht, fun t t' gt tt => ?_⟩
    obtain ⟨e1, e2⟩ := takes_same hk hg.node gt.node ht tt
    have hlt := rankT_step hk gt tt
    obtain ⟨-, -, t3, t4, -⟩ := (takes_iff hk gt.node).mp tt
    simp only at t3 t4
    have hph : t.out.ph = h.out.ph := by
      rcases gt.out with ⟨e, -⟩ | ⟨-, hle', hav', -, ⟨d', -, -, hr'⟩, hlo', hhi'⟩
      · exact absurd e (takesT_ne hk gt tt)
      have hcls : rng t.pkt.cls = rng h.pkt.cls := by
        refine same_class hs (vc := vc) ?_ ?_ ?_ ?_
        · by_cases e : t.out.ph = 0
          · have := hlo' e; omega
          · have := hhi' e; omega
        · by_cases e : t.out.ph = 0
          · have := hlo' e; omega
          · have := hhi' e; omega
        · omega
        · omega
      rw [hcls] at hlo' hhi'
      have q1 := ring_ph hr
      have q2 := ring_ph hr'
      by_cases e : t.out.ph = 0
      · have := hlo' e; omega
      · have := hhi' e; omega
    have e : rankT s t = rankT s h := by unfold rankT; rw [e1, e2, hph]
    omega

end Torus

end RadSim.Routing.Bal
