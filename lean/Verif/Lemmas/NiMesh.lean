import Verif.Model.TwoPhase
import Verif.Lemmas.MinAdapt

/-! # Dimension-order routing with channels by destination -/

namespace RadSim.Routing

open Worms Grid

variable {s : Shape} {rng : Nat → Nat × Nat}

/-- Virtual channel `vc` belongs to part `i` when the range `r` is cut into `parts` parts of the same size; the rest of the
range belongs to none. -/
def InPart (r : Nat × Nat) (parts i vc : Nat) : Prop :=
  r.1 + i * ((r.2 + 1 - r.1) / parts) ≤ vc ∧ vc < r.1 + (i + 1) * ((r.2 + 1 - r.1) / parts)

theorem part_unique {r : Nat × Nat} {parts i j vc : Nat} (hi : InPart r parts i vc) (hj : InPart r parts j vc) : i = j := by
  unfold InPart at *
  generalize (r.2 + 1 - r.1) / parts = p at hi hj
  rcases Nat.lt_trichotomy i j with h | h | h
  · have : (i + 1) * p ≤ j * p := Nat.mul_le_mul_right p h
    omega
  · exact h
  · have : (j + 1) * p ≤ i * p := Nat.mul_le_mul_right p h
    omega

theorem part_le {r : Nat × Nat} {parts i : Nat} (h : i < parts) (hr : r.1 ≤ r.2) :
    r.1 + (i + 1) * ((r.2 + 1 - r.1) / parts) ≤ r.2 + 1 := by
  have h1 : (i + 1) * ((r.2 + 1 - r.1) / parts) ≤ parts * ((r.2 + 1 - r.1) / parts) := Nat.mul_le_mul_right _ h
  have h2 : parts * ((r.2 + 1 - r.1) / parts) ≤ r.2 + 1 - r.1 := Nat.mul_div_le _ _
  omega

theorem divs_mod (k : Nat) : ∀ d x, divs k d x % k = coord k x d
  | 0, x => by unfold divs coord; simp
  | d + 1, x => by
    rw [divs, divs_mod k d (x / k)]
    unfold coord
    rw [Nat.pow_succ', Nat.div_div_eq_div_mul]

/-- The part a head is sent to: of how many parts, and which one. -/
abbrev Parts := Nat → Pkt → Nat × Nat

/-- The parts of the two functions. -/
def niParts (s : Shape) : Parts := fun _ f => (s.nodes, f.dest)

def pniParts (s : Shape) : Parts := fun node f => (s.k, coord s.k f.dest (dorNextMesh s node f.dest false / 2))

/-- What both functions do. -/
structure Cut (s : Shape) (rng : Nat → Nat × Nat) (rf : Rf) (pt : Parts) : Prop where
  home : ∀ {f i rnd}, vcOk rng f → rf f.dest f i rnd = some ⟨2 * s.n, (rng f.cls).1, (rng f.cls).2, f.ph⟩
  away : ∀ {r f i rnd}, r ≠ f.dest → vcOk rng f → f.dest < s.nodes →
    rf r f i rnd = if (pt r f).1 ≤ (rng f.cls).2 + 1 - (rng f.cls).1 then
      some ⟨dorNextMesh s r f.dest false,
        (rng f.cls).1 + (pt r f).2 * (((rng f.cls).2 + 1 - (rng f.cls).1) / (pt r f).1),
        (rng f.cls).1 + ((pt r f).2 + 1) * (((rng f.cls).2 + 1 - (rng f.cls).1) / (pt r f).1) - 1, f.ph⟩
    else none
  ok : ∀ {r f i rnd o}, rf r f i rnd = some o → vcOk rng f ∧ (r ≠ f.dest → (pt r f).2 < (pt r f).1 ∧
    (pt r f).1 ≤ (rng f.cls).2 + 1 - (rng f.cls).1 ∧ o = ⟨dorNextMesh s r f.dest false,
        (rng f.cls).1 + (pt r f).2 * (((rng f.cls).2 + 1 - (rng f.cls).1) / (pt r f).1),
        (rng f.cls).1 + ((pt r f).2 + 1) * (((rng f.cls).2 + 1 - (rng f.cls).1) / (pt r f).1) - 1, f.ph⟩)

theorem per_pos {w p : Nat} (hp : 0 < p) : w / p > 0 ↔ p ≤ w := Nat.div_pos_iff.trans ⟨fun h => h.2, fun h => ⟨hp, h⟩⟩

theorem cut_ni (hk : 0 < s.k) : Cut s rng (dimOrderNiMesh s rng) (niParts s) where
  home := by
    intro f i rnd hv
    unfold dimOrderNiMesh dorNextMesh; simp [if_pos hv]
  away := by
    intro r f i rnd hne hv hd
    have hp : 0 < s.nodes := Nat.pow_pos hk
    unfold dimOrderNiMesh niParts
    simp only [if_pos hv, if_pos hne, hd, and_true, per_pos hp, Nat.add_mul, Nat.one_mul, Nat.add_assoc]
  ok := by
    intro r f i rnd o h
    have hp : 0 < s.nodes := Nat.pow_pos hk
    unfold dimOrderNiMesh at h
    by_cases hv : vcOk rng f
    · refine ⟨hv, fun hne => ?_⟩
      simp only [if_pos hv, if_pos hne, per_pos hp] at h
      split at h
      · rename_i hx
        cases h
        refine ⟨hx.2, hx.1, ?_⟩
        unfold niParts
        simp only [Nat.add_mul, Nat.one_mul, Nat.add_assoc]
      · cases h
    · rw [if_neg hv] at h; cases h

theorem cut_pni (hk : 0 < s.k) : Cut s rng (dimOrderPniMesh s rng) (pniParts s) where
  home := by
    intro f i rnd hv
    unfold dimOrderPniMesh dorNextMesh; simp [if_pos hv]
  away := by
    intro r f i rnd hne hv hd
    unfold dimOrderPniMesh pniParts
    simp only [if_pos hv, if_pos hne, per_pos hk, Nat.add_mul, Nat.one_mul, Nat.add_assoc, divs_mod]
  ok := by
    intro r f i rnd o h
    unfold dimOrderPniMesh at h
    by_cases hv : vcOk rng f
    · refine ⟨hv, fun hne => ?_⟩
      simp only [if_pos hv, if_pos hne, per_pos hk, divs_mod] at h
      split at h
      · rename_i hx
        cases h
        refine ⟨coord_lt hk _ _, hx, ?_⟩
        unfold pniParts
        simp only [Nat.add_mul, Nat.one_mul, Nat.add_assoc]
      · cases h
    · rw [if_neg hv] at h; cases h

/-! ## Channels and destinations -/

section Worm

variable {rf : Rf} {pt : Parts}

/-- Heads of such a function on the way to `D`. -/
structure GoodC (s : Shape) (rng : Nat → Nat × Nat) (pt : Parts) (D : Nat) (h : Head) : Prop where
  node : h.node < s.nodes
  dest : h.pkt.dest = D
  lt : D < s.nodes
  home : h.node = D → h.out.port = 2 * s.n
  port : h.node ≠ D → h.out.port = dorNextMesh s h.node D false
  part : h.node ≠ D → ∀ vc, h.out.vcBegin ≤ vc → vc ≤ h.out.vcEnd →
    InPart (rng h.pkt.cls) (pt h.node h.pkt).1 (pt h.node h.pkt).2 vc ∧ (rng h.pkt.cls).1 ≤ vc ∧ vc ≤ (rng h.pkt.cls).2

theorem arrivesC (hc : Cut s rng rf pt) (hpt : ∀ r f p, pt r { f with ph := p } = pt r f) {u q : Nat} {f : Pkt} {h : Head} (hu : u < s.nodes)
    (hf : f.dest < s.nodes) (ha : Arrives rf u q f h) : GoodC s rng pt f.dest h ∧ h.node = u := by
  obtain ⟨rnd, o, ho, rfl⟩ := ha
  obtain ⟨hv, hne⟩ := hc.ok ho
  refine ⟨⟨hu, rfl, hf, fun e => ?_, fun e => ?_, fun e vc h1 h2 => ?_⟩, rfl⟩
  · dsimp only at e
    subst e
    rw [hc.home hv] at ho
    cases ho; rfl
  · rw [(hne e).2.2]
  · obtain ⟨e1, e2, e3⟩ := hne e
    dsimp only at h1 h2 ⊢
    rw [hpt]
    rw [e3] at h1 h2
    dsimp only at h1 h2
    have hle := part_le (r := rng f.cls) e1 (Nat.le_trans hv.1 hv.2)
    have : 0 < ((rng f.cls).2 + 1 - (rng f.cls).1) / (pt u f).1 := (per_pos (by omega)).2 e2
    have hpos : 0 < ((pt u f).2 + 1) * (((rng f.cls).2 + 1 - (rng f.cls).1) / (pt u f).1) := Nat.mul_pos (by omega) this
    exact ⟨⟨h1, by omega⟩, by omega, by omega⟩

theorem takesC (hk : 0 < s.k) (hc : Cut s rng rf pt) (hpt : ∀ r f p, pt r { f with ph := p } = pt r f) {D : Nat} {h h' : Head} {c : Nat × Nat}
    (hg : GoodC s rng pt D h) (ht : Takes s rf h c h') : GoodC s rng pt D h' ∧ h.node ≠ D := by
  obtain ⟨h1, h2, h3, h4, h5⟩ := (takes_iff hk hg.node).mp ht
  have := arrivesC hc hpt (nbr_lt hk h1 hg.node) (by
    show h.pkt.dest < s.nodes
    rw [hg.dest]; exact hg.lt) h5
  refine ⟨by have := this.1; rwa [show ({ h.pkt with vc := c.2 } : Pkt).dest = D from hg.dest] at this, fun e => ?_⟩
  have := hg.home e; omega

/-- Two packets that take the same channel are at the same router, port and part of it. -/
theorem same_part (hk : 0 < s.k) (hc : Cut s rng rf pt) (hpt : ∀ r f p, pt r { f with ph := p } = pt r f) (hs : Separate rng)
    (hnum : ∀ r f r' f', (pt r f).1 = (pt r' f').1) {D D' : Nat} {h h' t t' : Head} {c : Nat × Nat}
    (hg : GoodC s rng pt D h) (hg' : GoodC s rng pt D' t) (h1 : Takes s rf h c h') (h2 : Takes s rf t c t') :
    h.node ≠ D ∧ t.node ≠ D' ∧ t.node = h.node ∧ t.out.port = h.out.port ∧ (pt h.node h.pkt).2 = (pt t.node t.pkt).2 := by
  have a := (takesC hk hc hpt hg h1).2
  have a' := (takesC hk hc hpt hg' h2).2
  obtain ⟨e1, e2⟩ := takes_same hk hg.node hg'.node h1 h2
  obtain ⟨-, -, h3, h4, -⟩ := (takes_iff hk hg.node).mp h1
  obtain ⟨-, -, t3, t4, -⟩ := (takes_iff hk hg'.node).mp h2
  obtain ⟨p1, p2, p3⟩ := hg.part a _ h3 h4
  obtain ⟨q1, q2, q3⟩ := hg'.part a' _ t3 t4
  have := same_class hs p2 p3 q2 q3
  rw [this, hnum h.node h.pkt t.node t.pkt] at p1
  exact ⟨a, a', e1, e2, part_unique p1 q1⟩

end Worm

end RadSim.Routing

namespace RadSim.Net

open Router (Flit Hop Cfg upto)
open Routing (Shape Pkt Rs Rf vcOk dorNextMesh)
open Grid (manhattan)

variable {δ σ τ ρ ρ' : Type} {m : Shape} {rng : Nat → Nat × Nat} {rf : Rf} {pt : Routing.Parts} {good : Pkt → Prop}

/-- A routing function without draws as a set. -/
def single (rf : Rf) : Rs := fun r f i => (rf r f i false).map fun o => [⟨o.port, o.vcBegin, o.vcEnd, 0⟩]

theorem uses_single (hf : ∀ r f i rnd, rf r f i rnd = rf r f i false) {x : Env (Msg δ) ρ ρ'} (h : Uses rf x) : UsesSet (single rf) x := by
  intro r i f
  obtain ⟨rnd, e⟩ := h r i f
  rw [e, hf, single]
  cases rf r (pkt f) i false <;> rfl

theorem follows_cut (hn : 0 < m.n) (hc : Routing.Cut m rng rf pt) (hd : ∀ r f, f.dest < m.nodes → (pt r f).2 < (pt r f).1)
    (hw : ∀ r f, (pt r f).1 ≤ (rng f.cls).2 + 1 - (rng f.cls).1)
    (hh : ∀ r f i rnd o, r = f.dest → rf r f i rnd = some o → o.port = 2 * m.n ∧ o.vcBegin = (rng f.cls).1 ∧ o.vcEnd = (rng f.cls).2)
    (hg : ∀ r f vc, r ≠ f.dest → Routing.InPart (rng f.cls) (pt r f).1 (pt r f).2 vc → good { f with vc := vc }) :
    Follows m rng (single rf) good where
  offers := by
    intro r f i hr hd' hv _
    by_cases hne : r = f.dest
    · subst hne
      refine ⟨_, by rw [single, hc.home hv]; rfl, by simp, fun p hp => ?_⟩
      rw [List.mem_singleton.1 hp]
      refine ⟨?_, Nat.le_refl _, Nat.le_refl _, fun h => absurd rfl h⟩
      unfold dorNextMesh; rw [if_pos rfl]
    · have e := hc.away (i := i) (rnd := false) hne hv hd'
      rw [if_pos (hw r f)] at e
      refine ⟨_, by rw [single, e]; rfl, by simp, fun p hp => ?_⟩
      rw [List.mem_singleton.1 hp]
      have hle := Routing.part_le (r := rng f.cls) (hd r f hd') (Nat.le_trans hv.1 hv.2)
      have hlt := hd r f hd'
      have : 0 < ((rng f.cls).2 + 1 - (rng f.cls).1) / (pt r f).1 := (Routing.per_pos (by omega)).2 (hw r f)
      have hpos : 0 < ((pt r f).2 + 1) * (((rng f.cls).2 + 1 - (rng f.cls).1) / (pt r f).1) :=
        Nat.mul_pos (by omega) this
      exact ⟨rfl, Nat.le_add_right _ _, by dsimp only; omega, fun _ u h1 h2 => hg r f u hne ⟨h1, by dsimp only at h2; omega⟩⟩
  legal := by
    intro r f i l h
    rw [single] at h
    obtain ⟨o, ho, rfl⟩ := Option.map_eq_some_iff.1 h
    obtain ⟨hv, e⟩ := hc.ok ho
    have hle := Nat.le_trans hv.1 hv.2
    refine ⟨fun p hp => ?_, once_one _⟩
    rw [List.mem_singleton.1 hp]
    by_cases hne : r = f.dest
    · obtain ⟨a, b, c⟩ := hh r f i false o hne ho
      rw [a, b, c]
      exact ⟨Nat.lt_succ_self _, hle, Nat.le_refl _⟩
    · obtain ⟨e1, e2, rfl⟩ := e hne
      have hl := Routing.part_le (r := rng f.cls) e1 hle
      have : 0 < ((rng f.cls).2 + 1 - (rng f.cls).1) / (pt r f).1 := (Routing.per_pos (by omega)).2 e2
      have hx : ((pt r f).2 + 1) * (((rng f.cls).2 + 1 - (rng f.cls).1) / (pt r f).1) =
        (pt r f).2 * (((rng f.cls).2 + 1 - (rng f.cls).1) / (pt r f).1) + ((rng f.cls).2 + 1 - (rng f.cls).1) / (pt r f).1 := by
        rw [Nat.add_mul, Nat.one_mul]
      refine ⟨dorNextMesh_lt hn _ _ _, ?_, ?_⟩ <;> dsimp only <;> omega

theorem cut_home (hc : Routing.Cut m rng rf pt) : ∀ r f i rnd o, r = f.dest → rf r f i rnd = some o →
    o.port = 2 * m.n ∧ o.vcBegin = (rng f.cls).1 ∧ o.vcEnd = (rng f.cls).2 := by
  rintro r f i rnd o rfl h
  rw [hc.home (hc.ok h).1] at h
  cases h; exact ⟨rfl, rfl, rfl⟩

theorem follows_ni (hk : 0 < m.k) (hn : 0 < m.n) (hw : ∀ c, m.nodes ≤ (rng c).2 + 1 - (rng c).1) :
    Follows m rng (single (Routing.dimOrderNiMesh m rng)) fun f => Routing.InPart (rng f.cls) m.nodes f.dest f.vc :=
  follows_cut hn (Routing.cut_ni hk) (fun _ _ h => h) (fun _ f => hw f.cls) (cut_home (Routing.cut_ni hk))
    (fun _ _ _ _ h => h)

theorem follows_pni (hk : 0 < m.k) (hn : 0 < m.n) (hw : ∀ c, m.k ≤ (rng c).2 + 1 - (rng c).1) :
    Follows m rng (single (Routing.dimOrderPniMesh m rng)) fun _ => True :=
  follows_cut hn (Routing.cut_pni hk) (fun _ _ _ => Routing.coord_lt hk _ _) (fun _ f => hw f.cls)
    (cut_home (Routing.cut_pni hk)) (fun _ _ _ _ _ => trivial)

end RadSim.Net
