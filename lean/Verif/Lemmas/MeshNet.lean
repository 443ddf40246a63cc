import Verif.Lemmas.Mesh
import Verif.Props.Network

/-! # Receivers and destinations in networks with the links of a mesh -/

namespace RadSim.Net

open Router (Flit Hop Cfg upto)
open Routing (Shape)

theorem whole_ne_nil {α : Type} {tail : α → Bool} {l : List α} : ∀ p ∈ whole tail l, p ≠ [] := by
  induction l using List.reverseRecOn with
  | nil => intro p hp; cases hp
  | append_singleton l x ih =>
    intro p hp
    rw [whole_snoc] at hp
    rcases List.mem_append.1 hp with hp | hp
    · exact ih p hp
    · split at hp
      · rw [List.mem_singleton.1 hp]; simp
      · cases hp

theorem packetsOf_mem {δ : Type} {l : List (Flit δ)} {v : Nat} {p} (hp : p ∈ packetsOf l v) :
    p ≠ [] ∧ ∀ x ∈ p, ∃ f ∈ l, x = body f := by
  obtain ⟨q, hq, rfl⟩ := List.mem_map.1 hp
  refine ⟨by simpa using whole_ne_nil q hq, fun x hx => ?_⟩
  obtain ⟨f, hf, rfl⟩ := List.mem_map.1 hx
  have : f ∈ onVc l v := by
    rw [← cut_flatten (tail := Flit.tail) (onVc l v)]
    exact List.mem_append_left _ (List.mem_flatten.2 ⟨q, hq, hf⟩)
  exact ⟨f, List.mem_of_mem_filter this, rfl⟩

variable {δ σ τ ρ ρ' : Type} {VA : Alloc.Cls σ ρ} {SA : Alloc.Cls τ ρ'} {m : Shape} {b : Cfg} {va : Nat → σ} {sa : Nat → τ}
  {N : Nat} {e : Nat → Env (Msg δ) ρ ρ'} {s : Nat → S (Msg δ) σ τ} {rng : Nat → Nat × Nat}

/-- The links of a mesh with other delays. -/
abbrev timed (m : Shape) (fd cd : Nat → Int) : Topo := { mesh m with flitDelay := fd, creditDelay := cd }

theorem timed_wired (hk : 0 < m.k) (fd cd : Nat → Int) : (timed m fd cd).Wired :=
  ⟨(mesh_wired hk).outLt, (mesh_wired hk).inLt, (mesh_wired hk).outInj, (mesh_wired hk).inInj⟩

theorem mesh_slots : slots (mesh m) b = m.nodes * ((2 * m.n + 1) * b.vcs) := by
  unfold slots mesh
  simp

theorem right_of (hk : 0 < m.k) {fd cd : Nat → Int} (hb : b.Ok) (ha : Allocs VA SA (timed m fd cd) b va sa)
    (h : Ticks VA SA (timed m fd cd) b va sa N e s) (hs : Sends m rng N e) {may : Nat → Flit (Msg δ) → Prop}
    (hg : Guided (timed m fd cd) N e may) (hj : ∀ u < m.nodes, ∀ g, may (ejLink m u) g → g.data.dest = u) {u : Nat}
    (hu' : u < m.nodes) {f : Flit (Msg δ)} (hm : f ∈ flitsAt s (ejLink m u) (N + 1)) :
    f.data.dest = u ∧ (f.head = true → may (ejLink m u) f) := by
  have hsink : (timed m fd cd).Sink (ejLink m u) := (mesh_sink hk).2 ⟨u, hu', rfl⟩
  refine ⟨?_, fun hh => heads_guided (timed_wired hk fd cd) hb ha h hg N (Nat.le_refl _) _ hsink.1 f
    ((flitsAt_prefix h (Nat.le_refl _) hsink.1).subset hm) hh⟩
  have := C80_right_destination (timed_wired hk fd cd) hb ha h hg (dst := fun d => ejLink m d.dest)
    (fun l hl g hg => ?_) (fun l hl v => ?_) hsink hm
  · unfold ejLink at this; omega
  · obtain ⟨w, hw, rfl⟩ := (mesh_sink hk).1 hl
    rw [hj w hw g hg]
  · obtain ⟨w, hw, rfl⟩ := mesh_source.1 hl
    have := hs.same w hw v
    refine ⟨this.1, this.2.imp fun a b hab => ⟨hab.1, fun ht => ?_⟩⟩
    have := (Prod.ext_iff.1 (hab.2 ht)).2
    dsimp only at this ⊢
    rw [this]

theorem leaving_at (hk : 0 < m.k) {n : Nat}
    (hright : ∀ u < m.nodes, ∀ f ∈ flitsAt s (ejLink m u) n, f.data.dest = u) {u : Nat} (hu' : u < m.nodes)
    (P : List (Bool × Bool × Int × Msg δ) → Bool) :
    leaving (mesh m) b s n (fun p => P p && p.any fun x => x.2.2.2.dest = u) = receivedBy m b s n u P := by
  have hr : ∀ w < m.nodes, ∀ v, ∀ p ∈ packetsOf (flitsAt s (ejLink m w) n) v,
      (p.any fun x => decide (x.2.2.2.dest = u)) = decide (w = u) := by
    intro w hw v p hp
    obtain ⟨h1, h2⟩ := packetsOf_mem hp
    have h3 : ∀ x ∈ p, x.2.2.2.dest = w := by
      intro x hx
      obtain ⟨f, hf', rfl⟩ := h2 x hx
      exact hright w hw f hf'
    by_cases hwu : w = u
    · subst hwu
      obtain ⟨x, hx⟩ := List.exists_mem_of_ne_nil p h1
      rw [decide_eq_true rfl, List.any_eq_true]
      exact ⟨x, hx, decide_eq_true (h3 x hx)⟩
    · rw [decide_eq_false hwu, List.any_eq_false]
      intro x hx
      rw [h3 x hx]
      simpa using hwu
  unfold leaving receivedBy
  rw [Finset.sum_eq_single (ejLink m u)]
  · refine Finset.sum_congr rfl fun v _ => List.countP_congr fun p hp => ?_
    simp only [hr u hu' v p hp, decide_true, Bool.and_true]
  · intro l hl hne
    obtain ⟨w, hw, rfl⟩ := (mesh_sink hk).1 (Finset.mem_filter.1 hl).2
    refine Finset.sum_eq_zero fun v _ => List.countP_eq_zero.2 fun p hp => ?_
    have hwu : w ≠ u := fun e => hne (by rw [e])
    simp only [hr w hw v p hp, hwu, decide_false, Bool.and_false, Bool.false_eq_true, not_false_eq_true]
  · intro hn
    have := (mesh_sink hk).2 ⟨u, hu', rfl⟩
    exact absurd (Finset.mem_filter.2 ⟨Finset.mem_range.2 this.1, this⟩) hn

theorem entering_at {u : Nat} (P : List (Bool × Bool × Int × Msg δ) → Bool) :
    entering (mesh m) b e N (fun p => P p && p.any fun x => x.2.2.2.dest = u) = sentTo m b e N u P := by
  unfold entering sentTo
  rw [← Finset.sum_image (s := Finset.range m.nodes) (g := injLink m) (f := fun l => ∑ v ∈ Finset.range b.vcs,
    (packetsOf (injected e l N) v).countP fun p => P p && p.any fun x => x.2.2.2.dest = u)]
  · refine Finset.sum_congr (Finset.ext fun l => ?_) fun _ _ => rfl
    rw [Finset.mem_filter, Finset.mem_image, Finset.mem_range]
    constructor
    · rintro ⟨-, h2⟩
      obtain ⟨w, hw, rfl⟩ := mesh_source.1 h2
      exact ⟨w, Finset.mem_range.2 hw, rfl⟩
    · rintro ⟨w, hw, rfl⟩
      have := mesh_source.2 ⟨w, Finset.mem_range.1 hw, rfl⟩
      exact ⟨this.1, this⟩
  · intro x _ y _ hxy
    unfold injLink at hxy; omega

theorem delivers_to (hk : 0 < m.k) {n : Nat} (key : ∀ P, leaving (mesh m) b s n P = entering (mesh m) b e N P)
    (hright : ∀ u < m.nodes, ∀ f ∈ flitsAt s (ejLink m u) n, f.data.dest = u) {u : Nat} (hu' : u < m.nodes)
    (P : List (Bool × Bool × Int × Msg δ) → Bool) : receivedBy m b s n u P = sentTo m b e N u P := by
  rw [← leaving_at hk hright hu', ← entering_at]
  exact key _

end RadSim.Net
