import Verif.Lemmas.MeshNet
import Verif.Lemmas.RoutingTorus
import Verif.Model.Torus

/-! # The torus as a network -/

namespace RadSim.Routing

variable {s : Shape} {rng : Nat → Nat × Nat}

/-- The partition that a flit carries is that of the virtual channel it is on. -/
theorem partition_of_channel {h : Head} (hg : GoodT s rng h) (hne : h.node ≠ h.pkt.dest)
    (he : (rng h.pkt.cls).2 + 1 = (rng h.pkt.cls).1 + 2 * available (rng h.pkt.cls)) {v : Nat} (h1 : h.out.vcBegin ≤ v)
    (h2 : v ≤ h.out.vcEnd) :
    h.pkt.ph = Net.part (rng h.pkt.cls) v ∧ h.out.ph = Net.part (rng h.pkt.cls) v ∧
      (rng h.pkt.cls).1 ≤ v ∧ v ≤ (rng h.pkt.cls).2 := by
  rcases hg.out with ⟨e, -⟩ | ⟨-, hle, hav, hph, ⟨d, -, -, hr⟩, hlo, hhi⟩
  · exact absurd e hne
  rw [hph]
  unfold Net.part
  rcases ring_ph hr with e | e
  · have := hlo e
    rw [e, if_pos (by omega)]
    exact ⟨rfl, rfl, by omega, by omega⟩
  · have := hhi (by omega)
    rw [e, if_neg (by omega)]
    exact ⟨rfl, rfl, by omega, by omega⟩

end RadSim.Routing

namespace RadSim.Net

open Router (Flit Hop Cfg upto)
open Routing (Shape Pkt Rf Head GoodT Arrives Takes nbr opp enc_inj nbr_lt nbr_opp opp_lt opp_opp dimOrderTorus vcOk available
  partition_of_channel rankT pos pos_lt same_class takes_iff)
open Grid (Separate torusDist ringGap gap coord)

variable {δ σ τ ρ ρ' : Type} {s : Shape} {rng : Nat → Nat × Nat} {ul : Bool}

/-- Every class has an even number of virtual channels, and at least two. -/
def Even (rng : Nat → Nat × Nat) : Prop := ∀ c, 0 < available (rng c) ∧ (rng c).2 + 1 = (rng c).1 + 2 * available (rng c)

theorem torus_range {r : Nat} {f : Pkt} {i : Nat} {rnd : Bool} {o : Routing.Out} (h : dimOrderTorus s rng r f i rnd = some o) :
    o.vcBegin ≤ o.vcEnd ∧ (rng f.cls).1 ≤ o.vcBegin ∧ o.vcEnd ≤ (rng f.cls).2 := by
  unfold dimOrderTorus at h
  split at h
  · rename_i hv
    have := hv.1
    have := hv.2
    dsimp only at h
    split at h
    · split at h
      · rename_i ha
        have := Routing.available_le ha
        split at h <;> cases h <;> dsimp only <;> omega
      · cases h
    · cases h; dsimp only; omega
  · cases h

theorem torusLoop_le (k : Nat) (m d a b : Nat) : (Routing.torusLoop k m d a b).1 ≤ d + m := by
  rw [Routing.torusLoop_eq]; exact ascLoop_le k m d a b

theorem dorNextTorus_lt (u v q : Nat) (ph : Int) (rnd : Bool) :
    (Routing.dorNextTorus s u v q ph rnd).1 < 2 * s.n + 1 := by
  unfold Routing.dorNextTorus
  rcases Routing.torusLoop s.k s.n 0 u v with ⟨d, a, b⟩
  dsimp only
  split
  · split
    · dsimp only
      split <;> omega
    · rename_i h
      dsimp only
      rw [Routing.xor_one]
      have := Routing.opp_half q
      omega
  · dsimp only; omega

theorem torus_port {r : Nat} {f : Pkt} {i : Nat} {rnd : Bool} {o : Routing.Out}
    (h : dimOrderTorus s rng r f i rnd = some o) : o.port < 2 * s.n + 1 := by
  have := dorNextTorus_lt (s := s) r f.dest i f.ph rnd
  unfold dimOrderTorus at h
  revert h this
  rcases Routing.dorNextTorus s r f.dest i f.ph rnd with ⟨p, ph⟩
  intro h this
  dsimp only at h this
  split at h
  · split at h
    · split at h
      · split at h <;> cases h <;> exact this
      · cases h
    · cases h; exact this
  · cases h

/-- Where a head may be. -/
def mayTorus (s : Shape) (rng : Nat → Nat × Nat) (l : Nat) (f : Flit (Msg δ)) : Prop :=
  f.data.dest < s.nodes ∧ f.data.src < s.nodes ∧ vcOk rng (pkt f) ∧
    ((l = injLink s f.data.src ∧ f.hops = 0) ∨
     (∃ h : Head, GoodT s rng h ∧ h.out.port < 2 * s.n ∧ l = 2 * s.n * h.node + h.out.port ∧
        h.out.vcBegin ≤ f.vc ∧ f.vc ≤ h.out.vcEnd ∧ { h.pkt with vc := f.vc } = pktT rng f ∧
        f.hops + torusDist s.k s.n h.node f.data.dest = torusDist s.k s.n f.data.src f.data.dest + 1) ∨
     (l = ejLink s f.data.dest ∧ f.hops = torusDist s.k s.n f.data.src f.data.dest + 1))

theorem torusDist_self (k n u : Nat) : torusDist k n u u = 0 := by
  unfold torusDist ringGap gap
  exact Finset.sum_eq_zero fun x _ => by omega

/-- The head that arises when a flit is routed. -/
def headAt (rng : Nat → Nat × Nat) (r i : Nat) (f : Flit (Msg δ)) (o : Routing.Out) : Head :=
  ⟨r, i, { pktT rng f with ph := o.ph }, o⟩

/-- A head that is routed where it may be. -/
theorem head_good (hk : 0 < s.k) {r i : Nat} {f : Flit (Msg δ)} (hr : r < s.nodes) (hi : i < 2 * s.n + 1)
    (hm : mayTorus s rng ((torus s ul).inLink r i) f) {rnd : Bool} {o : Routing.Out}
    (ho : dimOrderTorus s rng r (pktT rng f) i rnd = some o) :
    GoodT s rng (headAt rng r i f o) ∧
      f.hops + torusDist s.k s.n r f.data.dest = torusDist s.k s.n f.data.src f.data.dest ∧
      (i < 2 * s.n → ∃ h, GoodT s rng h ∧ h.node = nbr s r i ∧ h.out.port = opp i ∧ h.out.vcBegin ≤ f.vc ∧
        f.vc ≤ h.out.vcEnd ∧ { h.pkt with vc := f.vc } = pktT rng f ∧
        Takes s (dimOrderTorus s rng) h (2 * s.n * h.node + h.out.port, f.vc) (headAt rng r i f o)) := by
  obtain ⟨h1, h2, h3, h4⟩ := hm
  have har : Arrives (dimOrderTorus s rng) r i (pktT rng f) (headAt rng r i f o) := ⟨rnd, o, ho, rfl⟩
  by_cases hi' : i < 2 * s.n
  · rw [show (torus s ul).inLink r i = _ from mesh_in hi'] at h4
    have hlt := enc_lt (nbr_lt hk hi' hr) (opp_lt hi')
    rcases h4 with ⟨e, -⟩ | ⟨h, hg, hp, e, hv1, hv2, hpk, hh⟩ | ⟨e, -⟩
    · unfold injLink at e; omega
    · obtain ⟨e1, e2⟩ := enc_inj (opp_lt hi') hp e
      have ht : Takes s (dimOrderTorus s rng) h (2 * s.n * h.node + h.out.port, f.vc) (headAt rng r i f o) := by
        rw [takes_iff hk hg.node]
        refine ⟨hp, rfl, hv1, hv2, ?_⟩
        rw [hpk, ← e1, ← e2, nbr_opp hk hi' hr, opp_opp]
        exact har
      have hd : h.pkt.dest = f.data.dest := (congrArg Pkt.dest hpk :)
      have hstep := Routing.torusDist_step hk hg ht
      rw [hd] at hstep
      change _ = torusDist s.k s.n r f.data.dest + 1 at hstep
      exact ⟨(Routing.takesT hk hg ht).1, by omega, fun _ => ⟨h, hg, e1.symm, e2.symm, hv1, hv2, hpk, ht⟩⟩
    · unfold ejLink at e; omega
  · rw [show (torus s ul).inLink r i = _ from mesh_inj hi'] at h4
    refine ⟨Routing.arrivesT_turn hk hr (f := pktT rng f) h1 (fun d hd e => ?_) har, ?_, fun h => absurd h hi'⟩
    · have := hd.dim; omega
    · rcases h4 with ⟨e, h0⟩ | ⟨h, hg, hp, e, -⟩ | ⟨e, -⟩
      · have : r = f.data.src := by unfold injLink at e; omega
        rw [this, h0]; omega
      · have := enc_lt hg.node hp
        unfold injLink at e; omega
      · unfold injLink ejLink at e; omega

theorem may_hopT (hk : 0 < s.k) (he : Even rng) {r i : Nat} {f : Flit (Msg δ)} (hr : r < s.nodes) (hi : i < 2 * s.n + 1)
    (hm : mayTorus s rng ((torus s ul).inLink r i) f) {rnd : Bool} {o : Routing.Out}
    (ho : dimOrderTorus s rng r (pktT rng f) i rnd = some o) {u : Nat} (h1 : o.vcBegin ≤ u) (h2 : u ≤ o.vcEnd) :
    mayTorus s rng ((torus s ul).outLink r o.port) { f with vc := u, hops := f.hops + 1 } := by
  obtain ⟨hg, hh, -⟩ := head_good hk hr hi hm ho
  obtain ⟨m1, m2, m3, -⟩ := hm
  have hrg := torus_range ho
  refine ⟨m1, m2, ⟨Nat.le_trans hrg.2.1 h1, Nat.le_trans h2 hrg.2.2⟩, ?_⟩
  by_cases hd : r = f.data.dest
  · have hp : o.port = 2 * s.n := (Routing.homeT hg).mpr hd
    rw [hp, show (torus s ul).outLink r (2 * s.n) = _ from mesh_ej (Nat.lt_irrefl _), hd]
    refine .inr (.inr ⟨rfl, ?_⟩)
    rw [hd, torusDist_self] at hh
    dsimp only; omega
  · have hlt : o.port < 2 * s.n := hg.port_lt hd
    rw [show (torus s ul).outLink r o.port = _ from mesh_out hlt]
    refine .inr (.inl ⟨headAt rng r i f o, hg, hlt, rfl, h1, h2, ?_, ?_⟩)
    · have := (partition_of_channel hg hd (he _).2 h1 h2).2.1
      change o.ph = part (rng f.data.cls) u at this
      simp only [headAt, pktT, this]
    · change f.hops + 1 + torusDist s.k s.n r f.data.dest = _
      dsimp only; omega

theorem torus_guided (hk : 0 < s.k) (he : Even rng) {N : Nat} {e : Nat → Env (Msg δ) ρ ρ'} (hs : Sends s rng N e)
    (hu : ∀ n < N, UsesTorus s rng (e n)) : Guided (torus s ul) N e (mayTorus s rng) where
  enter := by
    intro l hl f hf hh
    obtain ⟨u, hu, rfl⟩ := mesh_source.1 (show (mesh s).Source l from hl)
    obtain ⟨h1, h2, h3, h4⟩ := hs.heads u hu f hf hh
    exact ⟨h2, h1 ▸ hu, h3, .inl ⟨by rw [h1], h4⟩⟩
  hop := by
    intro n hn r hr i hi f hh hm p hp u h1 h2
    obtain ⟨rnd, e⟩ := hu n hn r i f
    rw [e] at hp
    obtain ⟨o, ho, rfl⟩ := mem_hop hp
    exact may_hopT hk he hr hi hm ho h1 h2

theorem torus_total (he : Even rng) {r : Nat} {f : Pkt} {i : Nat} {rnd : Bool} (hv : vcOk rng f) :
    dimOrderTorus s rng r f i rnd ≠ none := by
  unfold dimOrderTorus
  simp only [if_pos hv, if_pos (he _).1]
  repeat' split
  all_goals simp

open Classical in
/-- The partition of a virtual channel. -/
noncomputable def vcPart (rng : Nat → Nat × Nat) (v : Nat) : Int :=
  if ∃ c, (rng c).1 ≤ v ∧ v ≤ (rng c).2 ∧ part (rng c) v = 0 then 0 else 1

open Classical in
theorem vcPart_eq (hs : Separate rng) {c v : Nat} (h1 : (rng c).1 ≤ v) (h2 : v ≤ (rng c).2) :
    vcPart rng v = part (rng c) v := by
  unfold vcPart
  by_cases h : part (rng c) v = 0
  · rw [if_pos ⟨c, h1, h2, h⟩, h]
  · rw [if_neg]
    · unfold part at h ⊢
      split
      · rename_i hx; rw [if_pos hx] at h; exact absurd rfl h
      · rfl
    · rintro ⟨c', h3, h4, h5⟩
      rw [same_class hs h3 h4 h1 h2] at h5
      exact h h5

/-- Links from nodes first, then the channels backwards in the order that routing takes them, then links to nodes. -/
noncomputable def torusRank (s : Shape) (rng : Nat → Nat × Nat) (l v : Nat) : Nat :=
  if l < 2 * s.n * s.nodes then
    s.n * (2 * s.k) - (l % (2 * s.n) / 2 * (2 * s.k) +
      pos s.k (coord s.k (l / (2 * s.n)) (l % (2 * s.n) / 2)) (l % (2 * s.n)) (vcPart rng v))
  else if l < 2 * s.n * s.nodes + s.nodes then s.n * (2 * s.k) + 1 else 0

theorem torusRank_chan {h : Head} (hs : Separate rng) (he : Even rng) (hg : GoodT s rng h) (hp : h.out.port < 2 * s.n) {v : Nat}
    (h1 : h.out.vcBegin ≤ v) (h2 : v ≤ h.out.vcEnd) :
    torusRank s rng (2 * s.n * h.node + h.out.port) v = s.n * (2 * s.k) - rankT s h := by
  have hne : h.node ≠ h.pkt.dest := fun e => by
    have := (Routing.homeT hg).mpr e
    unfold Routing.Home at this; omega
  obtain ⟨-, q1, q2, q3⟩ := partition_of_channel hg hne (he _).2 h1 h2
  unfold torusRank rankT
  rw [if_pos (enc_lt hg.node hp), if_pos hp, Nat.mul_add_div (by omega), Nat.div_eq_of_lt hp, Nat.mul_add_mod,
    Nat.mod_eq_of_lt hp, Nat.add_zero, vcPart_eq hs q2 q3, q1]

theorem rankT_lt (hk : 0 < s.k) {h : Head} (hp : h.out.port < 2 * s.n) : rankT s h < s.n * (2 * s.k) := by
  unfold rankT
  rw [if_pos hp]
  exact Routing.mul_lt_bound (by omega) (pos_lt (Routing.coord_lt hk _ _))

theorem torusRank_inj {u v : Nat} (hu : u < s.nodes) : torusRank s rng (injLink s u) v = s.n * (2 * s.k) + 1 := by
  unfold torusRank injLink
  rw [if_neg (by omega), if_pos (by omega)]

theorem torusRank_ej {u v : Nat} : torusRank s rng (ejLink s u) v = 0 := by
  unfold torusRank ejLink
  rw [if_neg (by omega), if_neg (by omega)]

theorem torus_ranked (hk : 0 < s.k) (hs : Separate rng) (he : Even rng) {b : Cfg} {N : Nat} {e : Nat → Env (Msg δ) ρ ρ'}
    (hu : ∀ n < N, UsesTorus s rng (e n)) :
    Ranked (torus s ul) b N e (mayTorus s rng) (torusRank s rng) (s.n * (2 * s.k) + 1) where
  le := by
    intro l _ v _
    unfold torusRank
    repeat' split
    all_goals omega
  down := by
    intro n hn r hr i hi f hh hm hv
    change r < s.nodes at hr
    change i < 2 * s.n + 1 at hi
    obtain ⟨rnd, e⟩ := hu n hn r i f
    obtain ⟨o, ho⟩ := Option.ne_none_iff_exists'.1 (torus_total (s := s) he (r := r) (f := pktT rng f) (i := i) (rnd := rnd) hm.2.2.1)
    rw [e, ho]
    refine ⟨List.cons_ne_nil _ _, fun p hp u h1 h2 => ?_⟩
    rw [List.mem_singleton.1 hp] at h1 h2 ⊢
    dsimp only at h1 h2 ⊢
    obtain ⟨hg, -, hin⟩ := head_good hk hr hi hm ho
    by_cases hi' : i < 2 * s.n
    · obtain ⟨h, g, e1, e2, v1, v2, hpk, ht⟩ := hin hi'
      have hp' : h.out.port < 2 * s.n := by rw [e2]; exact opp_lt hi'
      have hlt := rankT_lt hk hp'
      have hstep := Routing.rankT_step hk g ht
      rw [show (torus s ul).inLink r i = _ from mesh_in hi', ← e1, ← e2, torusRank_chan hs he g hp' v1 v2]
      by_cases hd : o.port < 2 * s.n
      · rw [show (torus s ul).outLink r o.port = _ from mesh_out hd]
        have := torusRank_chan (h := headAt rng r i f o) hs he hg hd h1 h2
        change torusRank s rng (2 * s.n * r + o.port) u = _ at this
        have := rankT_lt (h := headAt rng r i f o) hk hd
        omega
      · rw [show (torus s ul).outLink r o.port = _ from mesh_ej hd, torusRank_ej]
        omega
    · rw [show (torus s ul).inLink r i = _ from mesh_inj hi', torusRank_inj hr]
      by_cases hd : o.port < 2 * s.n
      · rw [show (torus s ul).outLink r o.port = _ from mesh_out hd]
        have := torusRank_chan (h := headAt rng r i f o) hs he hg hd h1 h2
        change torusRank s rng (2 * s.n * r + o.port) u = _ at this
        omega
      · rw [show (torus s ul).outLink r o.port = _ from mesh_ej hd, torusRank_ej]
        omega

end RadSim.Net
