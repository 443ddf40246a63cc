import Verif.Lemmas.NetworkOrder
import Verif.Lemmas.MeshNet

/-! # The one way of a packet through a mesh with dimension-order routing -/

namespace RadSim.Net

open Router (Flit Hop Cfg upto)
open Routing (Shape Pkt Rf nbr opp Dor enc_inj nbr_lt nbr_opp opp_lt opp_opp dorNextMesh dimOrderMesh vcOk)
open Grid (manhattan)

variable {δ σ τ ρ ρ' : Type} {s : Shape}

/-- The router where a packet from `a` to `d` is after some hops. -/
def site (s : Shape) (a d : Nat) : Nat → Nat
  | 0 => a
  | j + 1 => nbr s (site s a d j) (dorNextMesh s (site s a d j) d false)

/-- The link where it is. -/
def trail (s : Shape) (a d : Nat) : Nat → Nat
  | 0 => injLink s a
  | j + 1 => (mesh s).outLink (site s a d j) (dorNextMesh s (site s a d j) d false)

/-- Where a head may be. -/
def mayTrail (s : Shape) (rng : Nat → Nat × Nat) (l : Nat) (f : Flit (Msg δ)) : Prop :=
  mayMesh s rng l f ∧ ∃ j : Nat, f.hops = j ∧ l = trail s f.data.src f.data.dest j

theorem mayMesh_link (hk : 0 < s.k) {rng : Nat → Nat × Nat} {u : Nat} {f : Flit (Msg δ)} (h : mayMesh s rng (ejLink s u) f) :
    f.data.dest = u := by
  obtain ⟨h1, h2, -, ⟨e, -⟩ | ⟨w, p, hw, e, ⟨_, _, hd⟩, -⟩ | ⟨e, hh⟩⟩ := h
  · unfold injLink ejLink at e; omega
  · have := enc_lt hw (Routing.dor_step hk hd).1
    unfold ejLink at e; omega
  · unfold ejLink at e; omega

/-- A head on an input of a router is at the router where it is to be. -/
theorem trail_site (hk : 0 < s.k) {rng : Nat → Nat × Nat} {r i : Nat} {f : Flit (Msg δ)} (hr : r < s.nodes)
    (hm : mayMesh s rng ((mesh s).inLink r i) f) {j : Nat} (hj : f.hops = j)
    (hl : (mesh s).inLink r i = trail s f.data.src f.data.dest j) : r = site s f.data.src f.data.dest j := by
  cases j with
  | zero =>
    simp only [trail] at hl
    by_cases h : i < 2 * s.n
    · rw [mesh_in h] at hl
      have := enc_lt (nbr_lt hk h hr) (opp_lt h)
      unfold injLink at hl; omega
    · rw [mesh_inj h] at hl
      unfold injLink at hl
      simp only [site]; omega
  | succ j =>
    simp only [trail] at hl
    simp only [site]
    generalize dorNextMesh s (site s f.data.src f.data.dest j) f.data.dest false = p at hl ⊢
    generalize site s f.data.src f.data.dest j = u at hl ⊢
    by_cases hp : p < 2 * s.n
    · rw [mesh_out hp] at hl
      by_cases h : i < 2 * s.n
      · rw [mesh_in h] at hl
        obtain ⟨e1, e2⟩ := enc_inj (opp_lt h) hp hl
        rw [← e1, ← e2, nbr_opp hk h hr]
      · obtain ⟨h1, h2, -, ⟨e, h0⟩ | ⟨w, q, hw, e, ⟨_, _, hd⟩, -⟩ | ⟨e, hh⟩⟩ := hm
        · omega
        · rw [mesh_inj h] at e
          have := enc_lt hw (Routing.dor_step hk hd).1
          unfold injLink at e; omega
        · rw [mesh_inj h] at e
          unfold injLink ejLink at e; omega
    · rw [mesh_ej hp] at hl
      by_cases h : i < 2 * s.n
      · rw [mesh_in h] at hl
        have := enc_lt (nbr_lt hk h hr) (opp_lt h)
        unfold ejLink at hl; omega
      · rw [mesh_inj h] at hl
        unfold injLink ejLink at hl; omega

theorem trail_guided (hk : 0 < s.k) (hn : 0 < s.n) {rng : Nat → Nat × Nat} {N : Nat} {e : Nat → Env (Msg δ) ρ ρ'}
    (hs : Sends s rng N e) (hu : ∀ n < N, Uses (dimOrderMesh s rng) (e n)) : Guided (mesh s) N e (mayTrail s rng) where
  enter := by
    intro l hl f hf hh
    refine ⟨(mesh_guided hk (steps_dim hn rng) hs hu).enter l hl f hf hh, 0, ?_⟩
    obtain ⟨u, hu, rfl⟩ := mesh_source.1 hl
    obtain ⟨h1, h2, h3, h4⟩ := hs.heads u hu f hf hh
    exact ⟨h4, by rw [h1]; rfl⟩
  hop := by
    intro n hn' r hr i hi f hh hm p hp u h1 h2
    refine ⟨(mesh_guided hk (steps_dim hn rng) hs hu).hop n hn' r hr i hi f hh hm.1 p hp u h1 h2, ?_⟩
    obtain ⟨rnd, e⟩ := hu n hn' r i f
    rw [e] at hp
    obtain ⟨o, ho, rfl⟩ := mem_hop hp
    obtain ⟨hm, j, hj, hl⟩ := hm
    have hsite := trail_site hk hr hm hj hl
    have hport : o.port = dorNextMesh s r f.data.dest false := by
      unfold dimOrderMesh at ho
      split at ho
      · cases ho; rfl
      · cases ho
    refine ⟨j + 1, ?_, ?_⟩
    · dsimp only; omega
    · simp only [trail]
      rw [hport, ← hsite]

/-- The flits of a source have its address. -/
theorem sends_src {rng : Nat → Nat × Nat} {N : Nat} {e : Nat → Env (Msg δ) ρ ρ'} (hs : Sends s rng N e) {u : Nat}
    (hu : u < s.nodes) {f : Flit (Msg δ)} (hf : f ∈ injected e (injLink s u) N) : f.data.src = u ∧ f.data.dest < s.nodes := by
  obtain ⟨g, hg, hh, hk⟩ := packets_head (hs.same u hu f.vc) (mem_onVc.2 ⟨hf, rfl⟩)
  obtain ⟨h1, h2, -⟩ := hs.heads u hu g (mem_onVc.1 hg).1 hh
  simp only [Prod.mk.injEq] at hk
  exact ⟨hk.1 ▸ h1, hk.2 ▸ h2⟩

theorem trail_lanes (hk : 0 < s.k) {rng : Nat → Nat × Nat} {N : Nat} {e : Nat → Env (Msg δ) ρ ρ'}
    (hs : Sends s rng N e) {a d c : Nat} (hone : (rng c).1 = (rng c).2) :
    Lanes (mesh s) N e (mayTrail s rng) (fun x => (x.src, x.dest, x.cls)) (a, d, c) (injLink s a) where
  ins := by
    intro r hr i hi i' hi' f g hf hg ⟨hmf, j, hj, hlf⟩ ⟨hmg, j', hj', hlg⟩
    simp only [Prod.mk.injEq] at hf hg
    obtain ⟨f1, f2, f3⟩ := hf
    obtain ⟨g1, g2, g3⟩ := hg
    have ef := may_here hk hr hmf
    have eg := may_here hk hr hmg
    rw [f1, f2] at ef hlf
    rw [g1, g2] at eg hlg
    have : j = j' := by omega
    subst this
    refine ⟨((mesh_wired hk).inInj r hr i hi r hr i' hi' (hlf.trans hlg.symm)).2, ?_⟩
    have v1 := hmf.2.2.1
    have v2 := hmg.2.2.1
    unfold vcOk pkt at v1 v2
    dsimp only at v1 v2
    rw [f3] at v1
    rw [g3] at v2
    omega
  outs := by
    intro r hr o ho o' ho' f g hf hg ⟨hmf, j, hj, hlf⟩ ⟨hmg, j', hj', hlg⟩
    simp only [Prod.mk.injEq] at hf hg
    obtain ⟨f1, f2, f3⟩ := hf
    obtain ⟨g1, g2, g3⟩ := hg
    have dist : ∀ {x : Flit (Msg δ)} {o : Nat}, o < 2 * s.n + 1 → mayMesh s rng ((mesh s).outLink r o) x →
        x.hops + manhattan s.k s.n r x.data.dest = manhattan s.k s.n x.data.src x.data.dest + 1 := by
      intro x o ho hm
      change r < s.nodes at hr
      by_cases h : o < 2 * s.n
      · rw [mesh_out h] at hm
        have := enc_lt hr h
        obtain ⟨h1, h2, -, ⟨e, -⟩ | ⟨w, p, hw, e, ⟨_, _, hd⟩, hh⟩ | ⟨e, -⟩⟩ := hm
        · unfold injLink at e; omega
        · obtain ⟨rfl, rfl⟩ := enc_inj h (Routing.dor_step hk hd).1 e
          exact hh
        · unfold ejLink at e; omega
      · rw [mesh_ej h] at hm
        obtain ⟨h1, h2, -, ⟨e, -⟩ | ⟨w, p, hw, e, ⟨_, _, hd⟩, hh⟩ | ⟨e, hh⟩⟩ := hm
        · unfold injLink ejLink at e; omega
        · have := enc_lt hw (Routing.dor_step hk hd).1
          unfold ejLink at e; omega
        · have : r = x.data.dest := by unfold ejLink at e; omega
          rw [this, manhattan_self]; omega
    have ef := dist ho hmf
    have eg := dist ho' hmg
    rw [f1, f2] at ef hlf
    rw [g1, g2] at eg hlg
    have : j = j' := by omega
    subst this
    refine ⟨((mesh_wired hk).outInj r hr o ho r hr o' ho' (hlf.trans hlg.symm)).2, ?_⟩
    have v1 := hmf.2.2.1
    have v2 := hmg.2.2.1
    unfold vcOk pkt at v1 v2
    dsimp only at v1 v2
    rw [f3] at v1
    rw [g3] at v2
    omega
  home := by
    intro l hl hne f hf hk
    obtain ⟨u, hu, rfl⟩ := mesh_source.1 hl
    have := (sends_src hs hu hf).1
    simp only [Prod.mk.injEq] at hk
    exact hne (by rw [← hk.1, this])

end RadSim.Net
