import Verif.Lemmas.Mesh

/-! # Ranks of the virtual channels of a mesh -/

namespace RadSim.Net

open Router (Flit Hop Cfg upto)
open Routing (Shape Pkt Rf nbr opp Dor enc_inj nbr_lt nbr_opp opp_lt opp_opp dorNextMesh dimOrderMesh xyYxMesh vcOk available
  rank_lt rank_step same_class)
open Grid (Separate)

variable {δ σ τ ρ ρ' : Type} {s : Shape} {rng : Nat → Nat × Nat} {fn : Rf}

/-- A routing function that keeps to one dimension order on every virtual channel of a class. -/
structure Orders (s : Shape) (rng : Nat → Nat × Nat) (fn : Rf) (ord : Nat × Nat → Nat → Bool) : Prop where
  total : ∀ {r f i rnd}, vcOk rng f → fn r f i rnd ≠ none
  next : ∀ {r f i rnd o}, fn r f i rnd = some o → r ≠ f.dest → ∀ u, o.vcBegin ≤ u → u ≤ o.vcEnd →
    o.port = dorNextMesh s r f.dest (ord (rng f.cls) u)
  stay : ∀ {r f i rnd o}, fn r f i rnd = some o → r ≠ f.dest → i < 2 * s.n → ∀ u, o.vcBegin ≤ u → u ≤ o.vcEnd →
    ord (rng f.cls) u = ord (rng f.cls) f.vc
  same : ∀ {c c' v}, (rng c).1 ≤ v → v ≤ (rng c).2 → (rng c').1 ≤ v → v ≤ (rng c').2 → ord (rng c) v = ord (rng c') v

theorem orders_dim (s : Shape) (rng : Nat → Nat × Nat) : Orders s rng (dimOrderMesh s rng) fun _ _ => false where
  total := by
    intro r f i rnd hv
    unfold dimOrderMesh
    rw [if_pos hv]
    simp
  next := by
    intro r f i rnd o h _ u _ _
    unfold dimOrderMesh at h
    split at h
    · cases h; rfl
    · cases h
  stay := fun _ _ _ _ _ _ => rfl
  same := fun _ _ _ _ => rfl

theorem orders_xy (s : Shape) (hs : Separate rng) (he : ∀ c, 0 < available (rng c) ∧
    (rng c).2 + 1 = (rng c).1 + 2 * available (rng c)) :
    Orders s rng (xyYxMesh s rng) fun r v => !decide (v < r.1 + available r) where
  total := by
    intro r f i rnd hv
    unfold xyYxMesh
    simp only [if_pos hv, if_pos (he _).1]
    repeat' split
    all_goals simp
  next := by
    intro r f i rnd o h hd u h1 h2
    have := he f.cls
    unfold xyYxMesh at h
    split at h
    · dsimp only at h
      rw [if_pos this.1] at h
      generalize (if i < 2 * s.n then decide (f.vc < (rng f.cls).1 + available (rng f.cls)) else rnd) = x at h
      cases x <;> cases h <;> dsimp only at h1 h2 ⊢
      · rw [decide_eq_false (show ¬ u < (rng f.cls).1 + available (rng f.cls) by omega)]; rfl
      · rw [decide_eq_true (show u < (rng f.cls).1 + available (rng f.cls) by omega)]; rfl
    · cases h
  stay := by
    intro r f i rnd o h hd hi u h1 h2
    have := he f.cls
    unfold xyYxMesh at h
    split at h
    · dsimp only at h
      rw [if_pos this.1] at h
      split at h <;> rename_i hx <;> cases h <;> dsimp only at h1 h2 ⊢
      · rw [hx, decide_eq_true (show u < (rng f.cls).1 + available (rng f.cls) by omega)]
      · rw [decide_eq_false (show ¬ u < (rng f.cls).1 + available (rng f.cls) by omega)]
        cases hy : decide (f.vc < (rng f.cls).1 + available (rng f.cls)) with
        | true => exact absurd hy hx
        | false => rfl
    · cases h
  same := by
    intro c c' v h1 h2 h3 h4
    rw [same_class hs h1 h2 h3 h4]

/-- Where a head may be, with its order. -/
def mayOrd (s : Shape) (rng : Nat → Nat × Nat) (ord : Nat × Nat → Nat → Bool) (l : Nat) (f : Flit (Msg δ)) : Prop :=
  mayMesh s rng l f ∧ ∀ u p, u < s.nodes → p < 2 * s.n → l = 2 * s.n * u + p →
    ∃ d, Dor s (ord (rng f.data.cls) f.vc) u f.data.dest p d

theorem ord_guided (hk : 0 < s.k) {ord : Nat × Nat → Nat → Bool} (hf : Steps s rng fn) (ho : Orders s rng fn ord) {N : Nat}
    {e : Nat → Env (Msg δ) ρ ρ'} (hs : Sends s rng N e) (hu : ∀ n < N, Uses fn (e n)) :
    Guided (mesh s) N e (mayOrd s rng ord) where
  enter := by
    intro l hl f hf' hh
    refine ⟨(mesh_guided hk hf hs hu).enter l hl f hf' hh, fun u p hu' hp e => ?_⟩
    obtain ⟨w, hw, rfl⟩ := mesh_source.1 hl
    have := enc_lt hu' hp
    unfold injLink at e; omega
  hop := by
    intro n hn r hr i hi f hh hm p hp u h1 h2
    obtain ⟨rnd, e⟩ := hu n hn r i f
    rw [e] at hp
    obtain ⟨o, ho', rfl⟩ := mem_hop hp
    change r < s.nodes at hr
    refine ⟨may_hop hk hf hr hm.1 ho' h1 h2, fun w p hw hp e => ?_⟩
    by_cases hd : r = f.data.dest
    · have : o.port = 2 * s.n := by
        subst hd
        exact hf.home (f := pkt f) ho'
      dsimp only at e
      rw [this, mesh_ej (Nat.lt_irrefl _)] at e
      have := enc_lt hw hp
      unfold ejLink at e; omega
    · have hx := ho.next (f := pkt f) ho' hd u h1 h2
      obtain ⟨d, hdor⟩ := Routing.dor_spec hk hr hm.1.1 hd (ord (rng f.data.cls) u)
      rw [show dorNextMesh s r f.data.dest (ord (rng f.data.cls) u) = o.port from hx.symm] at hdor
      have hlt := (Routing.dor_step hk hdor).1
      dsimp only at e
      rw [mesh_out hlt] at e
      obtain ⟨rfl, rfl⟩ := enc_inj hlt hp e
      exact ⟨d, hdor⟩

open Classical in
/-- The order of the packets on a virtual channel. -/
noncomputable def vcOrd (rng : Nat → Nat × Nat) (ord : Nat × Nat → Nat → Bool) (v : Nat) : Bool :=
  decide (∃ c, (rng c).1 ≤ v ∧ v ≤ (rng c).2 ∧ ord (rng c) v = true)

open Classical in
theorem vcOrd_eq {ord : Nat × Nat → Nat → Bool} (ho : Orders s rng fn ord) {c v : Nat} (h1 : (rng c).1 ≤ v)
    (h2 : v ≤ (rng c).2) : vcOrd rng ord v = ord (rng c) v := by
  unfold vcOrd
  cases h : ord (rng c) v with
  | true => exact decide_eq_true ⟨c, h1, h2, h⟩
  | false =>
    refine decide_eq_false ?_
    rintro ⟨c', h3, h4, h5⟩
    rw [ho.same h3 h4 h1 h2, h] at h5
    cases h5

/-- Links from nodes first, then the channels backwards in the order that routing takes them, then links to nodes. -/
noncomputable def meshRank (s : Shape) (rng : Nat → Nat × Nat) (ord : Nat × Nat → Nat → Bool) (l v : Nat) : Nat :=
  if l < 2 * s.n * s.nodes then s.n * s.k - Routing.rank s (vcOrd rng ord v) (l / (2 * s.n)) (l % (2 * s.n))
  else if l < 2 * s.n * s.nodes + s.nodes then s.n * s.k + 1 else 0

theorem meshRank_chan (ord : Nat × Nat → Nat → Bool) {u p v : Nat} (hu : u < s.nodes) (hp : p < 2 * s.n) :
    meshRank s rng ord (2 * s.n * u + p) v = s.n * s.k - Routing.rank s (vcOrd rng ord v) u p := by
  unfold meshRank
  rw [if_pos (enc_lt hu hp), Nat.mul_add_div (by omega), Nat.div_eq_of_lt hp, Nat.mul_add_mod, Nat.mod_eq_of_lt hp,
    Nat.add_zero]

theorem meshRank_inj (ord : Nat × Nat → Nat → Bool) {u v : Nat} (hu : u < s.nodes) :
    meshRank s rng ord (injLink s u) v = s.n * s.k + 1 := by
  unfold meshRank injLink
  rw [if_neg (by omega), if_pos (by omega)]

theorem meshRank_ej (ord : Nat × Nat → Nat → Bool) {u v : Nat} : meshRank s rng ord (ejLink s u) v = 0 := by
  unfold meshRank ejLink
  rw [if_neg (by omega), if_neg (by omega)]

theorem mesh_ranked (hk : 0 < s.k) {ord : Nat × Nat → Nat → Bool} (hf : Steps s rng fn) (ho : Orders s rng fn ord)
    {b : Cfg} {N : Nat} {e : Nat → Env (Msg δ) ρ ρ'} (hu : ∀ n < N, Uses fn (e n)) :
    Ranked (mesh s) b N e (mayOrd s rng ord) (meshRank s rng ord) (s.n * s.k + 1) where
  le := by
    intro l _ v _
    unfold meshRank
    repeat' split
    all_goals omega
  down := by
    intro n hn r hr i hi f hh hm hv
    change r < s.nodes at hr
    change i < 2 * s.n + 1 at hi
    obtain ⟨rnd, e⟩ := hu n hn r i f
    obtain ⟨m1, m2, m3, -⟩ := hm.1
    have hne := ho.total (r := r) (i := i) (rnd := rnd) m3
    obtain ⟨o, ho'⟩ := Option.ne_none_iff_exists'.1 hne
    rw [e, ho']
    refine ⟨List.cons_ne_nil _ _, fun p hp u h1 h2 => ?_⟩
    rw [List.mem_singleton.1 hp] at h1 h2 ⊢
    dsimp only at h1 h2 ⊢
    have hin : 0 < meshRank s rng ord ((mesh s).inLink r i) f.vc := by
      by_cases hi' : i < 2 * s.n
      · rw [mesh_in hi', meshRank_chan ord (nbr_lt hk hi' hr) (opp_lt hi')]
        have := rank_lt hk (vcOrd rng ord f.vc) (nbr s r i) (opp_lt hi')
        omega
      · rw [mesh_inj hi', meshRank_inj ord hr]; omega
    by_cases hd : r = f.data.dest
    · have : o.port = 2 * s.n := by
        subst hd
        exact hf.home (f := pkt f) ho'
      rw [this, mesh_ej (Nat.lt_irrefl _), meshRank_ej]
      exact hin
    · have hx := ho.next (f := pkt f) ho' hd u h1 h2
      obtain ⟨d', hdor'⟩ := Routing.dor_spec hk hr m1 hd (ord (rng f.data.cls) u)
      rw [show dorNextMesh s r f.data.dest (ord (rng f.data.cls) u) = o.port from hx.symm] at hdor'
      have hlt := (Routing.dor_step hk hdor').1
      have hr' : vcOrd rng ord u = ord (rng f.data.cls) u :=
        vcOrd_eq ho (Nat.le_trans (hf.lo (f := pkt f) ho') h1) (Nat.le_trans h2 (hf.hi (f := pkt f) ho'))
      rw [mesh_out hlt, meshRank_chan ord hr hlt, hr']
      by_cases hi' : i < 2 * s.n
      · obtain ⟨d, hdor⟩ := hm.2 _ _ (nbr_lt hk hi' hr) (opp_lt hi') (mesh_in hi')
        have hst := ho.stay (f := pkt f) ho' hd hi' u h1 h2
        change ord (rng f.data.cls) u = ord (rng f.data.cls) f.vc at hst
        rw [← hst] at hdor
        have hstep := rank_step hk hdor (by rw [nbr_opp hk hi' hr]; exact hdor')
        rw [nbr_opp hk hi' hr] at hstep
        have hr2 : vcOrd rng ord f.vc = ord (rng f.data.cls) u := by rw [hst]; exact vcOrd_eq ho m3.1 m3.2
        rw [mesh_in hi', meshRank_chan ord (nbr_lt hk hi' hr) (opp_lt hi'), hr2]
        have := rank_lt hk (ord (rng f.data.cls) u) r hlt
        omega
      · rw [mesh_inj hi', meshRank_inj ord hr]; omega

end RadSim.Net
