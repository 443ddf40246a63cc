import Verif.Lemmas.MlpWhole
import Verif.Props.Mlp
import Verif.Props.Alloc

/-!
# C106: the design `mlp` on a mesh

The statements speak of the files that the compiler writes, of the vectors that the collector takes from the NoC, and of the
report. -/

namespace RadSim.Mlp

open Net (mesh Allocs)

variable {σ τ ρ ρ' : Type} {VA : Alloc.Cls σ ρ} {SA : Alloc.Cls τ ρ'} {d : Params} {va : Nat → σ} {sa : Nat → τ}
  {t : Nat → Tick ρ ρ'} {rng : Nat → Nat × Nat} {n N : Nat}

/-- C106: the design `mlp` with all its modules on a mesh. Whatever the clocks of the NoC and of the adapters, the run does not
fail, the collector takes from the NoC the golden outputs of the compiler in their order and nothing else, and the driver
reports only after all of them. It reports success iff it can read the file of golden outputs.

Partial: no line of golden outputs may be all zeros (C103 shows what happens then), the modules and the driver are on one clock,
and the numbers of the input files fit an `int`. -/
theorem C106_mlp_mesh_partial (hw : Works d rng) (ha : Allocs VA SA (mesh d.noc.m) d.noc.b va sa) (ht : ∀ k < n, Paced d (t k)) :
    ∃ x, sysRun VA SA d va sa t n = .ok x ∧ received d x <+: d.D.goldenFile.map parse ∧
      ∀ r, x.check.report = some r → received d x = d.D.goldenFile.map parse ∧
        (r = true ↔ d.D.goldenFile.map readLine = d.D.goldenFile.map parse) := by
  have hg := good_all (VA := VA) (SA := SA) hw ha n ht
  refine ⟨_, hg.ok, hg.right hw ha ht, fun r hr => ?_⟩
  have hp := hg.right hw ha ht
  have hlen := (golden_length hw).1
  have hall : received d (xs VA SA d va sa t n) = d.D.goldenFile.map parse := by
    refine hp.eq_of_length_le ?_
    obtain ⟨h1, -⟩ := hg.check.report r hr
    obtain ⟨p, hp, hk, -⟩ := hg.check.read
    have := congrArg List.length hp
    rw [List.length_append] at this
    rw [List.length_map]
    omega
  refine ⟨hall, ?_⟩
  rw [hg.check.says hr, decide_eq_true_iff, hall, List.take_of_length_le (by rw [List.length_map]; omega)]
  exact eq_comm

/-- If the golden outputs fit an `int`, it never reports failure. -/
theorem C106_mlp_success_partial (hw : Works d rng) (ha : Allocs VA SA (mesh d.noc.m) d.noc.b va sa) (ht : ∀ k < n, Paced d (t k))
    (hr : InRange d.D.goldenFile) :
    ∃ x, sysRun VA SA d va sa t n = .ok x ∧ ∀ r, x.check.report = some r → r = true ∧ received d x = d.D.goldenFile.map parse := by
  obtain ⟨x, hx, -, h⟩ := C106_mlp_mesh_partial (VA := VA) (SA := SA) hw ha ht
  refine ⟨x, hx, fun r e => ⟨(h r e).2.2 ?_, (h r e).1⟩⟩
  exact golden_read hr

/-- Once the collector has taken them all, the driver reports within `fifoSize` edges of its clock. -/
theorem C106_mlp_reports_partial (hw : Works d rng) (ha : Allocs VA SA (mesh d.noc.m) d.noc.b va sa)
    (ht : ∀ k < N, Paced d (t k)) (hn : n ≤ N) {x : Sys σ τ} (hx : sysRun VA SA d va sa t n = .ok x)
    (hall : received d x = d.D.goldenFile.map parse)
    (he : d.q.fifoSize ≤ (List.range (N - n)).countP fun k => (t (n + k)).edge) :
    ∃ y, sysRun VA SA d va sa t N = .ok y ∧ y.check.report.isSome := by
  have hg := good_all (VA := VA) (SA := SA) hw ha N ht
  refine ⟨_, hg.ok, ?_⟩
  obtain ⟨k, rfl⟩ := Nat.exists_eq_add_of_le hn
  have e := (good_all (VA := VA) (SA := SA) hw ha n fun j hj => ht j (by omega)).ok
  rw [hx] at e
  have e := Except.ok.inj e
  have := reported hw ha k ht (by rw [← e, hall, List.length_map, (golden_length hw).1])
  rw [Nat.add_sub_cancel_left] at he
  have h0 : toReport d.golden (xs VA SA d va sa t (n + k)).check = 0 := by omega
  unfold toReport at h0
  split at h0
  · assumption
  · omega

/-! ## An example

The design `small` on a mesh of six nodes in a line with one virtual channel, with the clocks of the shipped configuration
(`rad-sim/example-designs/mlp/config.yml`): periods of 1 ns for the NoC, 1.25 ns for the adapters and 5 ns for the modules. -/

namespace MeshExample

open Alloc (islip Islip)

def chans (_ : Nat) : Nat × Nat := (0, 0)

def cfg : AxisNoc.Cfg where
  m := ⟨6, 1⟩
  b := ⟨0, 0, ⟨1, -1, 8, false⟩, -1, 1, 1, 1, 1, 1⟩
  rf := Routing.dimOrderMesh ⟨6, 1⟩ chans
  sc := fun _ => ⟨1, fun _ => 64, fun _ => .writeData, ⟨0, 0, 0, 0, 0⟩, 8, 0, 0, ⟨1, -1, 8, false⟩⟩
  mc := fun _ => ⟨1, fun _ => 64, 1, 8, 2⟩

theorem setup : AxisNoc.Setup cfg chans where
  k := by decide
  n := by decide
  ok := ⟨⟨by decide, by decide, by decide⟩, rfl, .inl rfl, rfl, rfl, rfl, rfl⟩
  rf := rfl
  vcs := fun _ => show 0 < 1 by decide
  buf := fun _ _ => rfl
  types := by
    intro u _ t
    cases t <;> rfl
  few := by
    intro t
    cases t <;> decide
  ports := fun _ _ => ⟨Nat.zero_lt_succ _, Nat.zero_lt_succ _⟩
  sameVcs := fun _ _ => rfl
  deep := fun _ _ => show (8 : Int) ≤ 8 by decide

theorem allocs : Allocs islip islip (mesh cfg.m) cfg.b (fun _ => Islip.init 3 3 1) (fun _ => Islip.init 3 3 1) where
  va := fun _ _ => Alloc.C44_islip 3 3 1
  sa := fun _ _ => Alloc.C44_islip 3 3 1

def node : Block → Nat
  | .disp m => m
  | .mvm l m => 2 + 2 * l + m
  | .coll => 5

def block : Nat → Option Block
  | 0 => some (.disp 0)
  | 1 => some (.disp 1)
  | 2 => some (.mvm 0 0)
  | 3 => some (.mvm 0 1)
  | 4 => some (.mvm 1 0)
  | 5 => some .coll
  | _ => none

def design : Params := ⟨small, actualConsts, cfg, 0, node, block⟩

theorem works : Works design chans where
  ok := small_ok
  setup := setup
  placed := by
    rintro (m | ⟨l, m⟩ | _) h
    · have h : m < 2 := h
      exact ⟨show m < 6 by omega, show m < 128 by omega⟩
    · have h : l < 2 ∧ m < 2 - l := h
      exact ⟨show 2 + 2 * l + m < 6 by omega, show 2 + 2 * l + m < 128 by omega⟩
    · exact ⟨show 5 < 6 by decide, show 5 < 128 by decide⟩
  apart := by
    intro u b
    show block u = some b ↔ small.Has b ∧ node b = u
    constructor
    · intro h
      unfold block at h
      split at h <;> cases h <;> exact ⟨by unfold Design.Has; decide, rfl⟩
    · rintro ⟨h, rfl⟩
      cases b with
      | disp m =>
        have h : m < 2 := h
        have : m = 0 ∨ m = 1 := by omega
        rcases this with rfl | rfl <;> rfl
      | mvm l m =>
        have h : l < 2 ∧ m < 2 - l := h
        have : (l = 0 ∧ m = 0) ∨ (l = 0 ∧ m = 1) ∨ (l = 1 ∧ m = 0) := by omega
        rcases this with ⟨rfl, rfl⟩ | ⟨rfl, rfl⟩ | ⟨rfl, rfl⟩ <;> rfl
      | coll => rfl
  rad := ⟨show 0 < 128 by decide, fun _ _ => rfl⟩
  lanes := show 64 ≤ 512 by decide
  wide := fun _ _ => ⟨rfl, rfl⟩
  channel := fun _ _ => rfl
  inputs := by
    intro m (hm : m < 2)
    have : m = 0 ∨ m = 1 := by omega
    rcases this with rfl | rfl
    · exact (by decide : ∀ line ∈ small.inputFile 0, ∀ v ∈ line, -2147483648 ≤ v ∧ v < 2147483648)
    · exact (by decide : ∀ line ∈ small.inputFile 1, ∀ v ∈ line, -2147483648 ≤ v ∧ v < 2147483648)
  shows := show ∀ line ∈ small.goldenFile, ∃ v ∈ line, v % 4294967296 ≠ 0 by decide

def tick (k : Nat) : Tick Unit Unit where
  now := k
  rnd := fun _ _ _ => false
  rva := fun _ => ()
  rsa := fun _ => ()
  sPre := fun _ => if k % 5 = 0 then [.node] else []
  sPost := fun _ => if k % 5 = 4 then [] else [.adapter]
  mPre := fun _ => if k % 5 = 4 then [] else [.adapter true]
  mPost := fun _ => if k % 5 = 0 then [.node] else []
  seen := fun _ => false
  edge := k % 5 = 0
  drive := k % 5 = 0
  room := fun _ => true
  later := fun _ => []

theorem paced (d : Params) {N : Nat} (hN : N < 2 ^ 31) : ∀ k < N, Paced d (tick k) := by
  intro k hk
  refine ⟨show (0 : Int) ≤ (k : Int) ∧ (k : Int) + 1 ≤ 2147483647 by omega, rfl, fun u _ => ?_, fun u _ => ?_⟩
  all_goals
    unfold tick
    dsimp only
    by_cases h0 : k % 5 = 0 <;> by_cases h4 : k % 5 = 4 <;> simp [h0, h4]

/-- The hypotheses of the theorems above. -/
example : Works design chans ∧ Allocs islip islip (mesh design.noc.m) design.noc.b (fun _ => Islip.init 3 3 1) (fun _ => Islip.init 3 3 1) ∧
    (∀ k < 1000000, Paced design (tick k)) ∧ InRange design.D.goldenFile ∧
    design.D.goldenFile.map parse = [[195, 250], [305, 0], [360, 460], [560, 0], [525, 670], [815, 0]] :=
  ⟨works, allocs, paced design (by decide),
    (by decide : ∀ line ∈ small.goldenFile, ∀ v ∈ line, -2147483648 ≤ v ∧ v < 2147483648),
    show small.goldenFile.map parse = _ by decide⟩

end MeshExample

/-! ## Golden outputs that do not fit an `int`

One layer of one module, whose result is 2 ^ 31. The module computes it modulo 2 ^ 32, and the driver reads 2 ^ 31 - 1. -/

namespace RangeExample

open Alloc (islip Islip)
open MeshExample (chans)

def cfg : AxisNoc.Cfg where
  m := ⟨3, 1⟩
  b := ⟨0, 0, ⟨1, -1, 8, false⟩, -1, 1, 1, 1, 1, 1⟩
  rf := Routing.dimOrderMesh ⟨3, 1⟩ chans
  sc := fun _ => ⟨1, fun _ => 64, fun _ => .writeData, ⟨0, 0, 0, 0, 0⟩, 8, 0, 0, ⟨1, -1, 8, false⟩⟩
  mc := fun _ => ⟨1, fun _ => 64, 1, 8, 2⟩

theorem setup : AxisNoc.Setup cfg chans where
  k := by decide
  n := by decide
  ok := ⟨⟨by decide, by decide, by decide⟩, rfl, .inl rfl, rfl, rfl, rfl, rfl⟩
  rf := rfl
  vcs := fun _ => show 0 < 1 by decide
  buf := fun _ _ => rfl
  types := by
    intro u _ t
    cases t <;> rfl
  few := by
    intro t
    cases t <;> decide
  ports := fun _ _ => ⟨Nat.zero_lt_succ _, Nat.zero_lt_succ _⟩
  sameVcs := fun _ _ => rfl
  deep := fun _ _ => show (8 : Int) ≤ 8 by decide

theorem allocs : Allocs islip islip (mesh cfg.m) cfg.b (fun _ => Islip.init 3 3 1) (fun _ => Islip.init 3 3 1) where
  va := fun _ _ => Alloc.C44_islip 3 3 1
  sa := fun _ _ => Alloc.C44_islip 3 3 1

def one : Design where
  dim := 2
  tests := 1
  layers := 1
  input := 2
  hidden := fun _ => 2
  mvms := fun _ => 1
  weights := fun _ y _ => 32768 - y
  inputs := fun _ _ => 32768

def node : Block → Nat
  | .disp m => m
  | .mvm _ m => 1 + m
  | .coll => 2

def block : Nat → Option Block
  | 0 => some (.disp 0)
  | 1 => some (.mvm 0 0)
  | 2 => some .coll
  | _ => none

def design : Params := ⟨one, actualConsts, cfg, 0, node, block⟩

theorem one_ok : one.Ok actualConsts := by
  refine ⟨by decide, by decide, by decide, ?_, ?_, by decide, by decide, by decide, by decide, ?_⟩
  · exact fun _ _ => Nat.le_of_ble_eq_true rfl
  · exact fun _ _ => Nat.le_of_ble_eq_true rfl
  · intro l (hl : l < 1)
    obtain rfl : l = 0 := by omega
    decide

theorem works : Works design chans where
  ok := one_ok
  setup := setup
  placed := by
    rintro (m | ⟨l, m⟩ | _) h
    · have h : m < 1 := h
      exact ⟨show m < 3 by omega, show m < 128 by omega⟩
    · have h : l < 1 ∧ m < 1 := h
      exact ⟨show 1 + m < 3 by omega, show 1 + m < 128 by omega⟩
    · exact ⟨show 2 < 3 by decide, show 2 < 128 by decide⟩
  apart := by
    intro u b
    show block u = some b ↔ one.Has b ∧ node b = u
    constructor
    · intro h
      unfold block at h
      split at h <;> cases h <;> exact ⟨by unfold Design.Has; decide, rfl⟩
    · rintro ⟨h, rfl⟩
      cases b with
      | disp m =>
        have h : m < 1 := h
        obtain rfl : m = 0 := by omega
        rfl
      | mvm l m =>
        have h : l < 1 ∧ m < 1 := h
        obtain ⟨rfl, rfl⟩ : l = 0 ∧ m = 0 := by omega
        rfl
      | coll => rfl
  rad := ⟨show 0 < 128 by decide, fun _ _ => rfl⟩
  lanes := show 64 ≤ 512 by decide
  wide := fun _ _ => ⟨rfl, rfl⟩
  channel := fun _ _ => rfl
  inputs := by
    intro m (hm : m < 1)
    obtain rfl : m = 0 := by omega
    exact (by decide : ∀ line ∈ one.inputFile 0, ∀ v ∈ line, -2147483648 ≤ v ∧ v < 2147483648)
  shows := show ∀ line ∈ one.goldenFile, ∃ v ∈ line, v % 4294967296 ≠ 0 by decide

/-- One clock for the NoC and the modules, and adapters of twice the frequency. -/
def tick (k : Nat) : Tick Unit Unit where
  now := k
  rnd := fun _ _ _ => false
  rva := fun _ => ()
  rsa := fun _ => ()
  sPre := fun _ => [.node, .adapter]
  sPost := fun _ => [.adapter]
  mPre := fun _ => [.adapter true]
  mPost := fun _ => [.adapter true, .node]
  seen := fun _ => false
  edge := true
  drive := true
  room := fun _ => true
  later := fun _ => []

theorem paced {N : Nat} (hN : N < 2 ^ 31) : ∀ k < N, Paced design (tick k) :=
  fun k hk => ⟨show (0 : Int) ≤ (k : Int) ∧ (k : Int) + 1 ≤ 2147483647 by omega, rfl, fun _ _ => rfl, fun _ _ => rfl⟩

def result (n : Nat) : Option (Option Bool × List Vec) :=
  match sysRun islip islip design (fun _ => Islip.init 3 3 1) (fun _ => Islip.init 3 3 1) tick n with
  | .ok x => some (x.check.report, received design x)
  | .error _ => none

theorem reports : result 61 = some (some false, [[2147483648, 2147418112]]) := by decide +kernel

end RangeExample

/-- C106, why the golden outputs must fit an `int`: a design that meets all other conditions, whose modules compute just what
the compiler wrote down, modulo 2 ^ 32, and whose driver reports a failure. -/
theorem C106_range_violated :
    ∃ (d : Params) (rng : Nat → Nat × Nat) (va : Nat → Alloc.Islip) (sa : Nat → Alloc.Islip) (t : Nat → Tick Unit Unit) (n : Nat)
      (x : Sys Alloc.Islip Alloc.Islip),
      Works d rng ∧ Allocs Alloc.islip Alloc.islip (mesh d.noc.m) d.noc.b va sa ∧ (∀ k < n, Paced d (t k)) ∧
      sysRun Alloc.islip Alloc.islip d va sa t n = .ok x ∧ received d x = d.D.goldenFile.map parse ∧ x.check.report = some false := by
  have h := RangeExample.reports
  unfold RangeExample.result at h
  split at h
  · rename_i x hx
    simp only [Option.some.injEq, Prod.mk.injEq] at h
    refine ⟨RangeExample.design, MeshExample.chans, _, _, RangeExample.tick, 61, x, RangeExample.works, RangeExample.allocs,
      RangeExample.paced (by decide), hx, h.2.trans ?_, h.1⟩
    exact (by decide : [[2147483648, 2147418112]] = RangeExample.one.goldenFile.map parse)
  · cases h

end RadSim.Mlp
