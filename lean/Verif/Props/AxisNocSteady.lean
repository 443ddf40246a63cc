import Verif.Lemmas.AxisNocSteady
import Verif.Props.AxisNocLive

/-! # AXI-Stream over a mesh NoC: it never stops taking beats

C95 is about modules that stop sending. Here they go on. -/

namespace RadSim.AxisNoc

open Router (Flit Hop)
open Routing (Shape Rf dimOrderMesh)
open Net

variable {σ τ ρ ρ' : Type} {VA : Alloc.Cls σ ρ} {SA : Alloc.Cls τ ρ'} {c : Cfg} {va : Nat → σ} {sa : Nat → τ} {i : Nat → In ρ ρ'}
  {rng : Nat → Nat × Nat}

/-- C97. Let the configuration be as for C95, and let the clocks run and the modules take what they are handed, whatever they
send. If by some period the adapters have accepted no more than `B` flits, and this period is late enough, then there was a
time at which everything accepted had been handed over, and after which for `J` periods no module offered a beat. -/
theorem C97_waits_for_modules {n₀ J K B N : Nat} (hs : Setup c rng) (ha : Allocs VA SA (mesh c.m) c.b va sa)
    (hg : Grants VA SA (mesh c.m) c.b va sa) (hob : c.b.outSize ≠ 0)
    (hsh : ∀ u < c.m.nodes, ∀ p < (c.sc u).n, (numFlits ((c.sc u).dataw p) : Int) ≤ c.b.buf.perVc)
    (hdp : ∀ u < c.m.nodes, 0 < (c.sc u).depth ∧ 0 < (c.mc u).outDepth) (ht : ∀ k < N, InTime (i k))
    (ho : ∀ k < N, Offered c (fun u p t => Exists c u p t ∧ FitsPort c u p t) (i k)) (hf : Fair c N n₀ J K i)
    (hno : ∀ k, n₀ ≤ k → k + J ≤ N → ∀ u < c.m.nodes, ∃ k', k ≤ k' ∧ k' < k + J ∧
      ∃ b z, SlaveEdge.node b z ∈ (i k').sPre u ++ (i k').sPost u)
    (hse : Seen VA SA c va sa i N) {x : Sys σ τ} (hx : after VA SA c va sa i N = .ok x) (hB : flitsOf c x ≤ B)
    (hN : n₀ + ((3 * (c.m.n * c.m.k + 1) + 2) * B + 1) *
      (3 * K + 4 * J + 2 * (c.m.nodes * ((2 * c.m.n + 1) * c.b.vcs)) + 7) ≤ N) :
    ∃ n y, n₀ ≤ n ∧ n + J ≤ N ∧ after VA SA c va sa i n = .ok y ∧
      (∀ k, n ≤ k → k < n + J → Offered c (fun _ _ _ => False) (i k)) ∧
      ∀ u < c.m.nodes, ∀ p < (c.mc u).n,
        ∑ w ∈ Finset.range c.m.nodes, (y.got w).countP (fun t => decide (portOf t = p) && decide (nodeOf (c.sc w) t = u)) ≤
          (deliveredAt y u p).length := by
  have hinv : ∀ n ≤ N, Inv VA SA c va sa i (fun u p t => Exists c u p t ∧ FitsPort c u p t) n := fun n h =>
    inv_all hs ha (fun _ _ _ h => h.1) n (fun k hk => ht k (by omega)) fun k hk => ho k (by omega)
  have hxs : x = st VA SA c va sa i N := by
    have := (hinv N (Nat.le_refl _)).ok
    rw [hx] at this
    exact Except.ok.inj this
  subst hxs
  obtain ⟨n, h1, h2, h3, h4⟩ := drained (L := 2 * J) hs ha (fun _ _ _ h => h.1) hinv hf.willing hg hob hsh hdp hB (by
    rw [mesh_slots]
    refine Nat.le_trans (Nat.le_of_eq ?_) hN
    congr 2
    omega)
  refine ⟨n + J, _, by omega, by omega, (hinv (n + J) (by omega)).ok, fun k k1 k2 u hu beats seen hm p hp t hbt => ?_,
    fun u hu p hp => ?_⟩
  · have := offers_nothing (J := J) hinv hse hu (hs.ports u hu).1 (hdp u hu).1 (n := n) (L := 2 * J) (by omega)
      (fun m m1 m2 => h3 m m1 m2 u hu) (hf.source n h1 (by omega) u hu) (hno n h1 (by omega) u hu) k k1 (by omega) beats seen hm p hp
    rw [this] at hbt
    cases hbt
  · have e : ∑ w ∈ Finset.range c.m.nodes, ((st VA SA c va sa i (n + J)).got w).countP
        (fun t => decide (portOf t = p) && decide (nodeOf (c.sc w) t = u)) =
        ∑ w ∈ Finset.range c.m.nodes, ((st VA SA c va sa i n).got w).countP
        (fun t => decide (portOf t = p) && decide (nodeOf (c.sc w) t = u)) := by
      refine Finset.sum_congr rfl fun w hw => ?_
      rw [(h3 (n + J) (by omega) (by omega) w (Finset.mem_range.1 hw)).1]
    rw [e]
    refine Nat.le_trans (h4 u hu p hp).1 ?_
    have := ((all_grows hinv (Nat.le_add_right n J) (by omega) hu).1.del p).length_le
    unfold beatsOn at this
    unfold deliveredAt
    rw [List.length_map, List.length_map] at this ⊢
    exact this

/-- C97, the other way round: if in any `J` periods some module offers a beat at some port, then the number of flits accepted
grows without end, and at least as fast as is said here. -/
theorem C97_never_stops {n₀ J K B N : Nat} (hs : Setup c rng) (ha : Allocs VA SA (mesh c.m) c.b va sa)
    (hg : Grants VA SA (mesh c.m) c.b va sa) (hob : c.b.outSize ≠ 0)
    (hsh : ∀ u < c.m.nodes, ∀ p < (c.sc u).n, (numFlits ((c.sc u).dataw p) : Int) ≤ c.b.buf.perVc)
    (hdp : ∀ u < c.m.nodes, 0 < (c.sc u).depth ∧ 0 < (c.mc u).outDepth) (ht : ∀ k < N, InTime (i k))
    (ho : ∀ k < N, Offered c (fun u p t => Exists c u p t ∧ FitsPort c u p t) (i k)) (hf : Fair c N n₀ J K i)
    (hno : ∀ k, n₀ ≤ k → k + J ≤ N → ∀ u < c.m.nodes, ∃ k', k ≤ k' ∧ k' < k + J ∧
      ∃ b z, SlaveEdge.node b z ∈ (i k').sPre u ++ (i k').sPost u)
    (hse : Seen VA SA c va sa i N)
    (hoff : ∀ k, n₀ ≤ k → k + J ≤ N → ∃ k', k ≤ k' ∧ k' < k + J ∧ ∃ u < c.m.nodes, ∃ b z,
      SlaveEdge.node b z ∈ (i k').sPre u ++ (i k').sPost u ∧ ∃ p < (c.sc u).n, b p ≠ none)
    {x : Sys σ τ} (hx : after VA SA c va sa i N = .ok x)
    (hN : n₀ + ((3 * (c.m.n * c.m.k + 1) + 2) * B + 1) *
      (3 * K + 4 * J + 2 * (c.m.nodes * ((2 * c.m.n + 1) * c.b.vcs)) + 7) ≤ N) : B < flitsOf c x := by
  by_contra hB
  obtain ⟨n, y, h1, h2, -, h3, -⟩ := C97_waits_for_modules hs ha hg hob hsh hdp ht ho hf hno hse hx (Nat.le_of_not_lt hB) hN
  obtain ⟨k, k1, k2, u, hu, b, z, hb, p, hp, hne⟩ := hoff n h1 h2
  obtain ⟨t, hbt⟩ := Option.ne_none_iff_exists'.1 hne
  exact h3 k k1 k2 u hu b z hb p hp t hbt

/-! ## An example

The system of the example for C95, with modules that offer beats again and again. -/

namespace SteadyExample

open Alloc (islip Islip)
open RadSim.AxisNoc.Example (cfg setup allocs)
open RadSim.AxisNoc.LiveExample (offer grants offers)

def inp (k : Nat) : In Unit Unit :=
  { LiveExample.inp k with sPre := fun u => if k % 5 = 0 then [.node (offer (k % 10) u) false] else [] }

def run (n : Nat) : Except Err (Sys Islip Islip) :=
  after islip islip cfg (fun _ => Islip.init 6 6 1) (fun _ => Islip.init 3 3 1) inp n

theorem node_edge {k u : Nat} {beats : Nat → Option AxisTxn} {seen : Bool}
    (h : SlaveEdge.node beats seen ∈ (inp k).sPre u ++ (inp k).sPost u) : beats = offer (k % 10) u ∧ seen = false := by
  unfold inp LiveExample.inp at h
  rcases List.mem_append.1 h with h | h
  · dsimp only at h
    split at h
    · simpa using h
    · cases h
  · dsimp only at h
    split at h
    · cases h
    · simp at h

theorem has_edge {k : Nat} (u : Nat) (h : k % 5 = 0) : SlaveEdge.node (offer (k % 10) u) false ∈ (inp k).sPre u ++ (inp k).sPost u := by
  unfold inp
  dsimp only
  rw [if_pos h]
  simp

theorem fair (N : Nat) : Fair cfg N 0 5 1 inp where
  one := (LiveExample.closing N).one
  source := by
    intro k _ _ u _
    by_cases h : k % 5 = 4
    · refine ⟨k + 1, by omega, by omega, ?_⟩
      unfold inp LiveExample.inp
      dsimp only
      rw [if_neg (show ¬ (k + 1) % 5 = 4 by omega)]
      simp
    · refine ⟨k, by omega, by omega, ?_⟩
      unfold inp LiveExample.inp
      dsimp only
      rw [if_neg h]
      simp
  sink := by
    intro k _ _ u _
    by_cases h : k % 5 = 4
    · refine ⟨k + 1, by omega, by omega, true, ?_⟩
      unfold inp LiveExample.inp
      dsimp only
      rw [if_neg (show ¬ (k + 1) % 5 = 4 by omega)]
      simp
    · refine ⟨k, by omega, by omega, true, ?_⟩
      unfold inp LiveExample.inp
      dsimp only
      rw [if_neg h]
      simp
  ready := by
    intro k _ _ u _ p _
    refine ⟨(k + 4) / 5 * 5, by omega, by omega, fun _ => true, ?_, rfl⟩
    unfold inp LiveExample.inp
    dsimp only
    rw [if_pos (show (k + 4) / 5 * 5 % 5 = 0 by omega)]
    simp
  time := (LiveExample.closing N).time

/-- The number of flits accepted grows without end. -/
example {N B : Nat} (h1 : (11 * B + 1) * 54 ≤ N) (h2 : N < 2 ^ 31) : ∃ x, run N = .ok x ∧ B < flitsOf cfg x := by
  have hoff : ∀ k, Offered cfg (fun u p t => Exists cfg u p t ∧ FitsPort cfg u p t) (inp k) := by
    intro k u hu beats seen h p hp t ht
    rw [(node_edge h).1] at ht
    exact offers (k % 10) u p hu hp t ht
  have hinv : ∀ n ≤ N, Inv islip islip cfg (fun _ => Islip.init 6 6 1) (fun _ => Islip.init 3 3 1) inp
      (fun u p t => Exists cfg u p t ∧ FitsPort cfg u p t) n := fun n h =>
    inv_all setup allocs (fun _ _ _ h => h.1) n (fun k hk => LiveExample.in_time h2 k (by omega)) fun k _ => hoff k
  refine ⟨_, (hinv N (Nat.le_refl _)).ok, ?_⟩
  have ht : ∀ k < N, InTime (inp k) := LiveExample.in_time h2
  refine C97_never_stops setup allocs grants (by decide) (by decide) (by decide) ht (fun k _ => hoff k)
    (fair N) (fun k _ _ u _ => ?_) ?_ (fun k _ _ => ?_) (hinv N (Nat.le_refl _)).ok ?_
  · exact ⟨(k + 4) / 5 * 5, by omega, by omega, _, _, has_edge u (by omega)⟩
  · intro k _ x y _ _ u _ beats h
    have := (node_edge h).2
    cases this
  · refine ⟨(k + 4) / 5 * 5, by omega, by omega, 0, by decide, _, _, has_edge 0 (by omega), ?_⟩
    have hm : (k + 4) / 5 * 5 % 10 = 0 ∨ (k + 4) / 5 * 5 % 10 = 5 := by omega
    rcases hm with hm | hm <;> rw [hm]
    · exact ⟨0, by decide, by decide⟩
    · exact ⟨1, by decide, by decide⟩
  · exact Nat.le_trans (Nat.le_of_eq (Nat.zero_add _)) h1

end SteadyExample

end RadSim.AxisNoc
