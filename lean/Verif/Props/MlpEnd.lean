import Verif.Lemmas.MlpEnd
import Verif.Props.MlpMesh
import Verif.Props.Alloc

/-!
# C107: the design `mlp` on a mesh comes to an end

With a bound on the number of periods of the NoC clock in terms of the design, the NoC and the clocks. -/

namespace RadSim.Mlp

open Net (mesh Allocs Grants)

variable {σ τ ρ ρ' : Type} {VA : Alloc.Cls σ ρ} {SA : Alloc.Cls τ ρ'} {d : Params} {va : Nat → σ} {sa : Nat → τ}
  {t : Nat → Tick ρ ρ'} {rng : Nat → Nat × Nat}

/-- C107: the collector of the design `mlp` gets all golden outputs in order, and the driver reports. The allocators make a grant
when there is a request, a packet fits a buffer, each test input is in at most `M` blocks per module, the clocks run from period
`n₀` on with an edge in any `J` periods, and `K` periods are at least the credit delay.

Partial: as C106, and the FIFOs at the inputs of the modules are so large that the blocks of all test inputs fit (`Small`). -/
theorem C107_mlp_ends_partial {N n₀ J K M : Nat} (hw : Works d rng) (hsm : Small d.D d.q)
    (ha : Allocs VA SA (mesh d.noc.m) d.noc.b va sa) (hg : Grants VA SA (mesh d.noc.m) d.noc.b va sa) (hob : d.noc.b.outSize ≠ 0)
    (hsh : ∀ u < d.noc.m.nodes, ∀ p < (d.noc.sc u).n, (numFlits ((d.noc.sc u).dataw p) : Int) ≤ d.noc.b.buf.perVc)
    (hdp : ∀ u < d.noc.m.nodes, 0 < (d.noc.sc u).depth ∧ 0 < (d.noc.mc u).outDepth) (ht : ∀ k < N, Paced d (t k))
    (hr : Runs d N n₀ J K t) (hse : InputsSeen VA SA d va sa t N) (hx : d.D.limx 0 ≤ M) (hy : ∀ l < d.D.layers, d.D.limy l ≤ M)
    (hN : n₀ + ((3 * (d.noc.m.n * d.noc.m.k + 1) + 2) * (d.noc.m.nodes * (numFlits (32 * d.D.dim) * (d.D.tests * M))) + 1) *
      (3 * K + 2 * J + 2 * (d.noc.m.nodes * ((2 * d.noc.m.n + 1) * d.noc.b.vcs)) + 7 +
        (2 * ((d.D.tests + 1) * d.q.memDepth) + d.q.rfLatency + d.q.computeLatency + d.q.fifoSize + 2) * J) ≤ N) :
    ∃ x, sysRun VA SA d va sa t N = .ok x ∧ received d x = d.D.goldenFile.map parse ∧ x.check.report.isSome := by
  obtain ⟨n, h1, h2, h3⟩ := arrives hw hsm ha hg hob hsh hdp ht hr hse hx hy (by
    refine Nat.le_trans (Nat.le_of_eq ?_) hN
    congr 3
    unfold restEdges
    rw [Nat.add_comm J, ← Nat.succ_mul])
  obtain ⟨x, hx1, hx2, hx3⟩ := C106_mlp_mesh_partial (VA := VA) (SA := SA) hw ha ht
  obtain ⟨k, rfl⟩ := Nat.exists_eq_add_of_le h1
  have hrep := reported hw ha k ht h2
  rw [Nat.add_sub_cancel_left] at h3
  rw [edges_eq] at hrep
  have h0 : toReport d.golden (xs VA SA d va sa t (n + k)).check = 0 := by omega
  rw [xs_of hx1] at h0
  have hs : x.check.report.isSome = true := by
    unfold toReport at h0
    split at h0
    · assumption
    · omega
  refine ⟨x, hx1, ?_, hs⟩
  obtain ⟨r, hr'⟩ := Option.isSome_iff_exists.1 hs
  exact (hx3 r hr').1

/-- If the golden outputs fit an `int`, it reports success. -/
theorem C107_mlp_succeeds_partial {N n₀ J K M : Nat} (hw : Works d rng) (hsm : Small d.D d.q)
    (ha : Allocs VA SA (mesh d.noc.m) d.noc.b va sa) (hg : Grants VA SA (mesh d.noc.m) d.noc.b va sa) (hob : d.noc.b.outSize ≠ 0)
    (hsh : ∀ u < d.noc.m.nodes, ∀ p < (d.noc.sc u).n, (numFlits ((d.noc.sc u).dataw p) : Int) ≤ d.noc.b.buf.perVc)
    (hdp : ∀ u < d.noc.m.nodes, 0 < (d.noc.sc u).depth ∧ 0 < (d.noc.mc u).outDepth) (ht : ∀ k < N, Paced d (t k))
    (hr : Runs d N n₀ J K t) (hse : InputsSeen VA SA d va sa t N) (hx : d.D.limx 0 ≤ M) (hy : ∀ l < d.D.layers, d.D.limy l ≤ M)
    (hin : InRange d.D.goldenFile)
    (hN : n₀ + ((3 * (d.noc.m.n * d.noc.m.k + 1) + 2) * (d.noc.m.nodes * (numFlits (32 * d.D.dim) * (d.D.tests * M))) + 1) *
      (3 * K + 2 * J + 2 * (d.noc.m.nodes * ((2 * d.noc.m.n + 1) * d.noc.b.vcs)) + 7 +
        (2 * ((d.D.tests + 1) * d.q.memDepth) + d.q.rfLatency + d.q.computeLatency + d.q.fifoSize + 2) * J) ≤ N) :
    ∃ x, sysRun VA SA d va sa t N = .ok x ∧ received d x = d.D.goldenFile.map parse ∧ x.check.report = some true := by
  obtain ⟨x, h1, h2, h3⟩ := C107_mlp_ends_partial hw hsm ha hg hob hsh hdp ht hr hse hx hy hN
  obtain ⟨y, h4, h5⟩ := C106_mlp_success_partial (VA := VA) (SA := SA) hw ha ht hin
  rw [h1] at h4
  cases h4
  obtain ⟨r, hr'⟩ := Option.isSome_iff_exists.1 h3
  exact ⟨x, h1, h2, by rw [hr', (h5 r hr').1]⟩

/-! ## An example

The design of `MeshExample`: two layers, three modules, three test inputs. -/

namespace MeshExample

open Alloc (islip Islip)

theorem grants : Grants islip islip (mesh cfg.m) cfg.b (fun _ => Islip.init 3 3 1) (fun _ => Islip.init 3 3 1) where
  va := fun _ _ => (Alloc.C68_islip 3 3 1 (by decide)).mono fun _ _ h => h.1
  sa := fun _ _ => (Alloc.C68_islip 3 3 1 (by decide)).mono fun _ _ h => h.1

theorem runs (N : Nat) : Runs design N 0 5 1 tick where
  one := by
    intro k _ u _
    unfold tick
    dsimp only
    split <;> split <;> decide
  source := by
    intro k _ _ u _
    refine ⟨if k % 5 = 4 then k + 1 else k, by split <;> omega, by split <;> omega, ?_⟩
    unfold tick
    dsimp only
    rw [if_neg (show ¬ (if k % 5 = 4 then k + 1 else k) % 5 = 4 by split <;> omega)]
    simp
  sink := by
    intro k _ _ u _
    refine ⟨if k % 5 = 4 then k + 1 else k, by split <;> omega, by split <;> omega, true, ?_⟩
    unfold tick
    dsimp only
    rw [if_neg (show ¬ (if k % 5 = 4 then k + 1 else k) % 5 = 4 by split <;> omega)]
    simp
  edge := by
    intro k _ _
    exact ⟨(k + 4) / 5 * 5, by omega, by omega, decide_eq_true (show (k + 4) / 5 * 5 % 5 = 0 by omega)⟩
  time := by
    intro m n h _
    show ((m : Int) + 1 ≤ (n : Int)) ∧ (m : Int) ≤ (n : Int)
    omega

theorem fifos : Small design.D design.q := by
  intro l (hl : l < 2)
  have : l = 0 ∨ l = 1 := by omega
  rcases this with rfl | rfl <;> decide

/-- It reports success, and the collector has got the golden outputs. -/
example {N : Nat} (h1 : 800000000 ≤ N) (h2 : N < 2 ^ 31) :
    ∃ x, sysRun islip islip design (fun _ => Islip.init 3 3 1) (fun _ => Islip.init 3 3 1) tick N = .ok x ∧
      received design x = [[195, 250], [305, 0], [360, 460], [560, 0], [525, 670], [815, 0]] ∧ x.check.report = some true := by
  obtain ⟨x, hx, hr, hs⟩ := C107_mlp_succeeds_partial (M := 3) works fifos allocs grants (by decide)
    (fun _ _ _ _ => show (numFlits 64 : Int) ≤ 8 by decide)
    (fun _ _ => ⟨show 0 < 8 by decide, show 0 < 2 by decide⟩) (paced design h2) (runs N)
    (fun k _ x y _ _ u _ h => (by cases h)) (by decide)
    (by
      intro l (hl : l < 2)
      have : l = 0 ∨ l = 1 := by omega
      rcases this with rfl | rfl <;> decide)
    (by decide : ∀ line ∈ small.goldenFile, ∀ v ∈ line, -2147483648 ≤ v ∧ v < 2147483648)
    (Nat.le_trans (show 0 + ((3 * (1 * 6 + 1) + 2) * (6 * (numFlits 64 * (3 * 3))) + 1) *
      (3 * 1 + 2 * 5 + 2 * (6 * ((2 * 1 + 1) * 1)) + 7 + (2 * ((3 + 1) * 2048) + 2 + 23 + 1024 + 2) * 5) ≤ 800000000 by decide) h1)
  refine ⟨x, hx, ?_, hs⟩
  rw [hr]
  exact (show small.goldenFile.map parse = _ by decide)

end MeshExample

end RadSim.Mlp
