import Verif.Lemmas.MlpIdeal
import Verif.Props.Mvm

/-! # The example design `mlp` and its compiler

C102: the programs and files of the compiler; C103: all modules together send the golden outputs and nothing else;
C104: and in the end all of them. -/

namespace RadSim.Mlp

variable {D : Design} {q : Consts}

/-! ## C102 -/

/-- The program of module `m` of layer `l` never faults, whatever it gets, and result `t` is block `t % limy` of the padded matrix
times the columns of that module, for input `t / limy`; modules but the first of a layer add what they get from the one before. The
last module of the last layer sends to the collector, the last one of any other to the modules of the next layer in turn, and any other
module to the next one of its layer. -/
theorem C102_program (h : D.Ok q) {l m : Nat} (hl : l < D.layers) (hm : m < D.mvms l) (I R : List Vec) :
    Sound (D.mvm q l m) I R ∧ ∀ r, Ref.Reach (D.mvm q l m) (Ref.start I R) r → ∀ t o, r.out[t]? = some o →
      o.vec = ((List.range D.dim).map fun d =>
        ∑ a ∈ Finset.range (D.limx l), ∑ e ∈ Finset.range D.dim, (I.getD (t / D.limy l * D.limx l + a) []).getD e 0 *
          BitVec.ofInt 32 (if t % D.limy l * D.dim + d < D.hidden l ∧ (a * D.mvms l + m) * D.dim + e < D.inDim l then
            D.weights l (t % D.limy l * D.dim + d) ((a * D.mvms l + m) * D.dim + e) else 0) +
        if m = 0 then 0 else (R.getD t []).getD d 0) ∧
      (o.layer.toNat, o.mvm.toNat) = if m + 1 < D.mvms l then (l + 1, m + 1)
        else if l + 1 < D.layers then (l + 2, t % D.mvms (l + 1)) else (0, 0) := by
  refine ⟨(h.job hl).sound I R, fun r hr t o ho => ?_⟩
  have hY := (h.y hl).1
  obtain ⟨h1, -⟩ := (h.job (m := m) hl).along (along_getD I) (fun _ => along_getD R) hr
  rw [h1 t o ho]
  obtain ⟨hb1, hb2⟩ := h.bounds
  have hb := hb2 l hl
  constructor
  · unfold blockOut
    apply List.map_congr_left
    intro d hd
    congr 1
    · apply Finset.sum_congr rfl
      intro a ha
      rw [product_eq h hl hm (Finset.mem_range.1 ha) (Nat.mod_lt _ hY)]
      rfl
    · by_cases hm0 : m = 0 <;> simp [hm0]
  · unfold blockOut Design.dest
    by_cases c1 : m + 1 < D.mvms l
    · simp only [if_pos c1]
      rw [if_neg (by omega), if_neg (by omega), toNat_small (by omega), toNat_small (by omega)]
    · by_cases c2 : l + 1 < D.layers
      · have hb3 := hb2 (l + 1) c2
        have hM := h.mvms (l + 1) c2
        have hmod := Nat.mod_lt t hM
        simp only [if_neg c1, if_pos c2]
        rw [if_neg (by omega), if_pos (by omega), (h.shape c2).2, Nat.mod_mul_left_mod, toNat_small (by omega), toNat_small (by omega)]
      · simp only [if_neg c1, if_neg c2]
        rw [if_pos (by omega)]
        rfl

/-- The golden outputs are the outputs of the unpadded network, in blocks, with zeros after the last one. -/
theorem C102_golden (h : D.Ok q) : D.goldenFile = (List.range D.tests).flatMap fun k =>
    (List.range (D.padY (D.layers - 1) / D.dim)).map fun b => (List.range D.dim).map fun e =>
      if b * D.dim + e < D.hidden (D.layers - 1) then D.net D.layers k (b * D.dim + e) else 0 := by
  unfold Design.goldenFile
  have hin : D.inDim D.layers = D.hidden (D.layers - 1) := by
    unfold Design.inDim
    rw [if_neg]
    have := h.layers
    omega
  simp only [testOutput_eq h D.layers _ _ (Nat.le_refl _), hin]

/-- If the number of modules of the first layer pads the last matrix by a block of rows, then some golden outputs are zeros,
whatever the weights and inputs. -/
theorem C102_padding (h : D.Ok q) (ht : 0 < D.tests) (hp : D.hidden (D.layers - 1) + D.dim ≤ D.padY (D.layers - 1)) :
    List.replicate D.dim 0 ∈ D.goldenFile := by
  have hl : D.layers - 1 < D.layers := by
    have := h.layers
    omega
  obtain ⟨hY, hpy, -⟩ := h.y hl
  rw [C102_golden h, List.mem_flatMap]
  refine ⟨0, List.mem_range.2 ht, ?_⟩
  rw [List.mem_map]
  refine ⟨D.limy (D.layers - 1) - 1, ?_, ?_⟩
  · rw [List.mem_range, hpy, Nat.mul_div_cancel _ h.dim]
    omega
  · apply List.ext_getElem
    · simp
    · intro e h1 h2
      rw [List.getElem_map, List.getElem_range, List.getElem_replicate, if_neg]
      have he : (D.limy (D.layers - 1) - 1) * D.dim = D.padY (D.layers - 1) - D.dim := by
        rw [hpy, Nat.sub_mul, Nat.one_mul]
      omega

/-! ## C103 -/

/-- With a NoC in order that loses nothing and invents nothing, and whatever its timing: no FIFO of any module over- or underflows,
and what the last module sends to the collector is a beginning of the golden outputs. Partial: only if no line of the golden outputs
is all 0; see `C103_mlp_violated` and `C102_padding`. -/
theorem C103_mlp_partial (h : D.Ok q) {t : Nat → Nat → Nat → Cycle} (hw : Wired D q t)
    (hz : ∀ line ∈ D.goldenFile, parse line ≠ List.replicate D.dim 0) (n : Nat) :
    (∀ l < D.layers, ∀ m < D.mvms l, ∃ s h, run (D.mvm q l m) (t l m) n = .ok (s, h)) ∧
    ∃ s h, run (D.mvm q (D.layers - 1) (D.mvms (D.layers - 1) - 1)) (t (D.layers - 1) (D.mvms (D.layers - 1) - 1)) n = .ok (s, h) ∧
      h.sent <+: D.goldenFile.map fun line => (⟨parse line, 0, 0⟩, 3 * 2 ^ 13) := by
  have hl : D.layers - 1 < D.layers := by
    have := h.layers
    omega
  have hM := h.mvms _ hl
  refine ⟨fun l hl m hm => system_run h hw hz hl hm n, ?_⟩
  obtain ⟨s, h1, hr⟩ := system_run h hw hz hl (m := D.mvms (D.layers - 1) - 1) (by omega) n
  exact ⟨s, h1, hr, golden_prefix h hw hz hr⟩

/-! ## C104 -/

/-- If also the NoC and the adapters do not stop, and the FIFOs have room for the vectors of all test inputs, then the
last module has sent all golden outputs some time. Partial as `C103_mlp_partial`. -/
theorem C104_mlp_finishes_partial (h : D.Ok q) {t : Nat → Nat → Nat → Cycle} (hw : Wired D q t) (hd : Delivers D q t)
    (ho : ∀ l < D.layers, ∀ m < D.mvms l, Drains (t l m)) (hs : Small D q)
    (hz : ∀ line ∈ D.goldenFile, parse line ≠ List.replicate D.dim 0) :
    ∃ n s h, run (D.mvm q (D.layers - 1) (D.mvms (D.layers - 1) - 1)) (t (D.layers - 1) (D.mvms (D.layers - 1) - 1)) n = .ok (s, h) ∧
      h.sent = D.goldenFile.map fun line => (⟨parse line, 0, 0⟩, 3 * 2 ^ 13) := by
  have hl : D.layers - 1 < D.layers := by
    have := h.layers
    omega
  have hM := h.mvms _ hl
  obtain ⟨n, s, h1, hr, hlen⟩ := layer_sends h hw hz hs hd ho hl (layer_gets h hw hz hs hd ho _ hl) (D.mvms (D.layers - 1) - 1) (by omega)
  refine ⟨n, s, h1, hr, (golden_prefix h hw hz hr).eq_of_length ?_⟩
  rw [hlen, List.length_map, goldenFile_eq h, List.length_map, List.length_range]

/-- So it is with the network that hands everything on in the next cycle, without any condition on the NoC. -/
theorem C104_mlp_ideal (h : D.Ok q) (hs : Small D q) (hz : ∀ line ∈ D.goldenFile, parse line ≠ List.replicate D.dim 0) :
    ∃ n s h, ideal D q n (D.layers - 1) (D.mvms (D.layers - 1) - 1) = .ok (s, h) ∧
      h.sent = D.goldenFile.map fun line => (⟨parse line, 0, 0⟩, 3 * 2 ^ 13) := by
  obtain ⟨n, s, h1, hr, he⟩ := C104_mlp_finishes_partial h ideal_wired (ideal_delivers h hz) (fun l _ m _ => ideal_drains l m) hs hz
  rw [ideal_run] at hr
  exact ⟨n, s, h1, hr, he⟩

/-! ## examples -/

/-- The constants of `rad-sim/example-designs/mlp/modules/mvm.hpp:21-41` and
`rad-sim/example-designs/mlp/modules/register_file.hpp:7`. -/
def actualConsts : Consts := ⟨1024, 23, 2, 2048⟩

/-- Two layers with 2 modules and 1 module, matrices that need padding in both dimensions, 3 test inputs. -/
def small : Design where
  dim := 2
  tests := 3
  layers := 2
  input := 3
  hidden := fun l => 5 - 2 * l
  mvms := fun l => 2 - l
  weights := fun l y x => l + y + x
  inputs := fun k x => k + x

theorem small_ok : small.Ok actualConsts := by
  refine ⟨by decide, by decide, by decide, ?_, ?_, by decide, by decide, by decide, by decide, ?_⟩
  all_goals
    intro l (hl : l < 2)
    have : l = 0 ∨ l = 1 := by omega
    rcases this with rfl | rfl <;> decide

/-- The hypotheses of all theorems above: a design, the constants of the source and a network. -/
example : small.Ok actualConsts ∧ Small small actualConsts ∧
    small.goldenFile = [[195, 250], [305, 0], [360, 460], [560, 0], [525, 670], [815, 0]] ∧
    (∀ line ∈ small.goldenFile, parse line ≠ List.replicate small.dim 0) ∧
    Wired small actualConsts (idealT small actualConsts) ∧ Delivers small actualConsts (idealT small actualConsts) ∧
    ∀ l < small.layers, ∀ m < small.mvms l, Drains (idealT small actualConsts l m) := by
  have hz : ∀ line ∈ small.goldenFile, parse line ≠ List.replicate small.dim 0 := by decide
  refine ⟨small_ok, ?_, by decide, hz, ideal_wired, ideal_delivers small_ok hz, fun l _ m _ => ideal_drains l m⟩
  intro l (hl : l < 2)
  have : l = 0 ∨ l = 1 := by omega
  rcases this with rfl | rfl <;> decide

/-! ## a design whose last matrix is padded by a block -/

/-- One layer of 16 rows on 2 modules: the compiler pads the matrix to 32 rows. -/
def two : Design := ⟨16, 1, 1, 16, fun _ => 16, fun _ => 2, fun _ _ _ => 1, fun _ _ => 1⟩

theorem two_ok : two.Ok actualConsts := by
  refine ⟨by decide, by decide, by decide, ?_, ?_, by decide, by decide, by decide, by decide, ?_⟩
  · exact fun _ _ => Nat.le_of_ble_eq_true rfl
  · exact fun _ _ => Nat.le_of_ble_eq_true rfl
  · intro l (hl : l < 1)
    obtain rfl : l = 0 := by omega
    decide

/-- The hypotheses of `C102_padding`. -/
example : two.Ok actualConsts ∧ 0 < two.tests ∧ two.hidden (two.layers - 1) + two.dim ≤ two.padY (two.layers - 1) :=
  ⟨two_ok, by decide, by decide⟩

/-- The cycles of its two modules. The second one gets its zeros first, and then the two results of the first. -/
def twoT (_ m n : Nat) : Cycle :=
  if m = 0 then ⟨⟨n == 2, List.replicate 16 1⟩, if n == 1 then 3 * 2 ^ 13 else 0, true, []⟩
  else ⟨⟨n == 2 || n == 33 || n == 34, List.replicate 16 (if n = 33 then 16 else 0)⟩,
    if n = 1 then 3 * 2 ^ 13 else if n = 32 ∨ n = 33 then 2 * 2 ^ 13 else 0, true, []⟩

/-- All that is seen of a run. -/
def seen (y : Except Err (Sig × Seen)) : Option Err × List Vec × List Vec × List (Out × Nat) :=
  match y with
  | .error e => (some e, [], [], [])
  | .ok (_, h) => (none, h.ins, h.reds, h.sent)

theorem of_seen {y : Except Err (Sig × Seen)} {a b : List Vec} {c : List (Out × Nat)} (h : seen y = (none, a, b, c)) :
    ∃ s, y = .ok (s, ⟨a, b, c⟩) := by
  cases y with
  | error e => simp [seen] at h
  | ok z =>
    simp only [seen, Prod.mk.injEq, true_and] at h
    obtain ⟨rfl, rfl, rfl⟩ := h
    exact ⟨z.1, rfl⟩

theorem run_down {c : Mvm} {t : Nat → Cycle} {n k : Nat} {s : Sig} {h : Seen} (hr : run c t (n + k) = .ok (s, h)) :
    ∃ s' h', run c t n = .ok (s', h') := by
  induction k generalizing s h with
  | zero => exact ⟨s, h, hr⟩
  | succ k ih =>
    obtain ⟨s1, h1, hr1⟩ := run_before hr
    exact ih hr1

/-- What a module has taken after a cycle, if nothing comes from cycle `N` on. -/
theorem taken_quiet {c : Mvm} {t : Nat → Cycle} {N : Nat} {s : Sig} {h : Seen} (hr : run c t N = .ok (s, h))
    (hq : ∀ n ≥ N, (t n).rx.valid = false) {n : Nat} {s' : Sig} {h' : Seen} (hr' : run c t n = .ok (s', h')) :
    (h'.add s' (t n)).ins <+: h.ins ∧ (h'.add s' (t n)).reds <+: h.reds := by
  by_cases hn : n < N
  · obtain ⟨k, rfl⟩ := Nat.exists_eq_add_of_lt hn
    obtain ⟨s1, h1, hr1⟩ := run_down (n := n + 1) (k := k) (by rw [show n + 1 + k = n + k + 1 by omega]; exact hr)
    obtain ⟨e1, e2, -⟩ := run_mono (k := k) hr1 (by rw [show n + 1 + k = n + k + 1 by omega]; exact hr)
    rw [run_one hr' hr1] at e1 e2
    exact ⟨e1, e2⟩
  · obtain ⟨k, rfl⟩ := Nat.exists_eq_add_of_le (Nat.le_of_not_lt hn)
    have H : ∀ k {s' h'}, run c t (N + k) = .ok (s', h') → h'.ins = h.ins ∧ h'.reds = h.reds := by
      intro k
      induction k with
      | zero =>
        intro s' h' hr'
        rw [Nat.add_zero, hr] at hr'
        cases hr'
        exact ⟨rfl, rfl⟩
      | succ k ih =>
        intro s' h' hr'
        obtain ⟨s1, h1, hr1⟩ := run_before hr'
        obtain ⟨e1, e2⟩ := ih hr1
        rw [run_one hr1 hr', ← e1, ← e2]
        simp [Seen.add, hq (N + k) (by omega)]
    obtain ⟨e1, e2⟩ := H k hr'
    simp [Seen.add, hq (N + k) (by omega), e1, e2]

/-- After 32 cycles the first module has sent both results; the second one is zeros. -/
theorem two_first : seen (run (two.mvm actualConsts 0 0) (twoT 0 0) 32) = (none, [List.replicate 16 1], [],
    [(⟨List.replicate 16 16, 1, 1⟩, 2 * 2 ^ 13), (⟨List.replicate 16 0, 1, 1⟩, 2 * 2 ^ 13)]) := by
  decide +kernel

/-- The second one has not taken them after 33 cycles, but after 35. -/
theorem two_second : seen (run (two.mvm actualConsts 0 1) (twoT 0 1) 33) = (none, [List.replicate 16 0], [], []) ∧
    seen (run (two.mvm actualConsts 0 1) (twoT 0 1) 35) =
      (none, [List.replicate 16 0], [List.replicate 16 16, List.replicate 16 0], []) := by
  constructor <;> decide +kernel

theorem two_wired : Wired two actualConsts twoT := by
  obtain ⟨sa, ha⟩ := of_seen two_first
  obtain ⟨sb, hb⟩ := of_seen two_second.1
  obtain ⟨sc, hc⟩ := of_seen two_second.2
  have qa : ∀ n ≥ 32, (twoT 0 0 n).rx.valid = false := by
    intro n hn
    simp only [twoT, if_true, beq_eq_false_iff_ne]
    omega
  have qb : ∀ n ≥ 35, (twoT 0 1 n).rx.valid = false := by
    intro n hn
    simp only [twoT, Nat.one_ne_zero, if_false, Bool.or_eq_false_iff, beq_eq_false_iff_ne]
    omega
  refine ⟨?_, ?_, ?_, ?_⟩
  · intro m (hm : m < 2) n s h hr
    have : m = 0 ∨ m = 1 := by omega
    rcases this with rfl | rfl
    · exact (taken_quiet ha qa hr).1
    · exact (taken_quiet hc qb hr).1
  · intro l (hl : l + 1 < 1)
    omega
  · intro l (hl : l < 1) m (hm : m + 1 < 2) n s h s' h' hr hr'
    obtain rfl : l = 0 := by omega
    obtain rfl : m = 0 := by omega
    by_cases hn : n < 33
    · obtain ⟨k, hk⟩ := Nat.exists_eq_add_of_lt hn
      rw [hk] at hb
      obtain ⟨s1, h1, hr1⟩ := run_down (n := n + 1) (k := k) (by rw [show n + 1 + k = n + k + 1 by omega]; exact hb)
      obtain ⟨-, e2, -⟩ := run_mono (k := k) hr1 (by rw [show n + 1 + k = n + k + 1 by omega]; exact hb)
      rw [run_one hr hr1] at e2
      simp only [List.prefix_nil] at e2
      rw [e2]
      exact List.nil_prefix
    · obtain ⟨k, rfl⟩ := Nat.exists_eq_add_of_le (show 32 ≤ n by omega)
      refine (taken_quiet hc qb hr).2.trans ?_
      have hm := (run_mono ha hr').2.2
      exact List.IsPrefix.trans (l₂ := toward 1 1 2 [(⟨List.replicate 16 16, 1, 1⟩, 2 * 2 ^ 13), (⟨List.replicate 16 0, 1, 1⟩, 2 * 2 ^ 13)])
        (by decide) (List.IsPrefix.filterMap _ hm)
  · intro l (hl : l < 1) n s h hr
    obtain rfl : l = 0 := by omega
    simpa using (taken_quiet ha qa hr).2

/-- A design with the constants of the source and adapters that always have room, whose last module sends all golden outputs, the last
one zeros, and then ends the simulation with an error. -/
theorem C103_mlp_violated : ∃ D : Design, D.Ok actualConsts ∧ ∃ t, Wired D actualConsts t ∧ (∀ l m, Drains (t l m)) ∧
    (seen (run (D.mvm actualConsts 0 1) (t 0 1) 63)).2.2.2 = D.goldenFile.map (fun line => (⟨parse line, 0, 0⟩, 3 * 2 ^ 13)) ∧
    (seen (run (D.mvm actualConsts 0 1) (t 0 1) 64)).1 = some (.fifo .underflow) := by
  refine ⟨two, two_ok, twoT, two_wired, fun l m n => ⟨n, Nat.le_refl _, ?_⟩, by decide +kernel, by decide +kernel⟩
  unfold twoT
  split <;> rfl

end RadSim.Mlp
