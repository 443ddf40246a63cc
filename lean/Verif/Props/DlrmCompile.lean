import Verif.Lemmas.DlrmSchedule

/-!
Properties of the instructions that the DLRM compiler writes for the
feature-interaction module (`dlrm.py`).
-/
namespace RadSim.Dlrm

open Spec

/-- The instructions cannot go wrong in the module; every vector is full; the number
of vectors per input is the smallest multiple of the number of MVMs that holds all
tables; and the vectors of input `j` are, one after the other, the vectors of the
tables, each read from the `j`-th round of words of its channel, and zeros.

Partial: asks that the tables fit (`Fits`); `C118_shipped_violated` and
`C118_overshoot_violated` below tell why. -/
theorem C118_schedule_partial (nd mvms : Nat) (tabs : List Tab) (cfg : Cfg) (hnd : 0 < nd)
    (hm : 0 < mvms) (hni : nd ≤ cfg.inElems) (hno : cfg.outElems = nd)
    (hp : cfg.prog = compile nd mvms tabs) (hf : Fits nd cfg.inElems cfg.numCh [] 0 tabs) :
    (∀ inst ∈ cfg.prog, Sound cfg inst) ∧
    (cfg.prog ≠ [] → ∀ σ k, (vector cfg.prog σ k).length = nd) ∧
    mvms ∣ cfg.prog.length ∧
    (tabs.map fun t => t.row.len).sum ≤ cfg.prog.length * nd ∧
    cfg.prog.length * nd < (tabs.map fun t => t.row.len).sum + nd * mvms ∧
    ∀ σ j, (List.range cfg.prog.length).flatMap
        (fun q => vector cfg.prog σ (j * cfg.prog.length + q)) =
      contents σ (fun c => j * tablesOn c tabs) tabs ++
        List.replicate (cfg.prog.length * nd - (tabs.map fun t => t.row.len).sum) 0 := by
  have h := compile_ok (numCh := cfg.numCh) hnd hm hni tabs hf
  rw [← hp] at h
  have hNd : 0 < nd * mvms := Nat.mul_pos hnd hm
  have hup := round_up (tabs.map fun t => t.row.len).sum (nd * mvms) hNd
  refine ⟨?_, ?_, ?_, ?_, ?_, ?_⟩
  · intro inst hi
    refine ⟨fun st hst => (h.ok inst hi st hst).1, fun st hst => (h.ok inst hi st hst).2, ?_,
      h.once inst hi⟩
    rw [hno]
    exact Nat.le_of_eq (h.size inst hi)
  · intro hne σ k
    unfold vector
    rw [assemble_length]
    have hlt : k % cfg.prog.length < cfg.prog.length :=
      Nat.mod_lt _ (List.length_pos_iff.mpr hne)
    have : instAt cfg.prog k = cfg.prog[k % cfg.prog.length] := by
      unfold instAt
      rw [List.getElem?_eq_getElem hlt]
      rfl
    rw [this]
    exact h.size _ (List.getElem_mem hlt)
  · refine ⟨((tabs.map fun t => t.row.len).sum + nd * mvms - 1) / (nd * mvms), ?_⟩
    have := h.len
    refine Nat.eq_of_mul_eq_mul_right hnd ?_
    rw [this, Nat.mul_comm nd mvms, Nat.mul_comm, Nat.mul_right_comm]
  · rw [h.len]; exact hup
  · rw [h.len]
    have := Nat.div_mul_le_self ((tabs.map fun t => t.row.len).sum + nd * mvms - 1) (nd * mvms)
    omega
  · intro σ j
    obtain ⟨zs, hz, hzs⟩ := h.flat
    have hmem := fits_mem tabs [] 0 hf
    obtain ⟨t1, t2⟩ := tabs_ok σ nd hnd tabs
      (fun t ht => ⟨(hmem t ht).1, (hmem t ht).2.2.1, (hmem t ht).2.2.2⟩)
    have hp1 := pass_assembles cfg.prog σ j cfg.prog.length (Nat.le_refl _)
    rw [List.take_length] at hp1
    rw [hp1]
    have hpops : (fun c => j * popsIn c cfg.prog.flatten) = fun c => j * tablesOn c tabs := by
      funext c
      rw [hz, popsIn_append, t2 c, popsIn_zeros c zs hzs, Nat.add_zero]
    rw [hpops, hz, assemble_append, t1, assemble_zeros σ zs _ hzs]
    congr 2
    have hsz := size_flatten cfg.prog h.size
    rw [hz, size_append, size_tabSteps hnd tabs [] 0 hf] at hsz
    omega

namespace Shipped

/-- The rows of a model file, runs of equal rows written with their number. -/
def expand (l : List (Nat × Nat × Nat)) : List Row :=
  ((l.flatMap fun x => List.replicate x.1 (x.2.1, x.2.2)).zipIdx).map
    fun y => ⟨y.2, y.1.1, y.1.2⟩

/-- The rows of `ab_small.csv`. -/
def rows : List Row :=
  expand [(4, 4, 100), (2, 4, 500), (10, 4, 1000), (1, 8, 3000), (15, 8, 10000), (1, 8, 20000),
    (1, 8, 30000), (10, 8, 100000), (1, 16, 500000), (1, 16, 1000000), (1, 32, 10000000)]

/-- The rows of `ab_large.csv`. -/
def largeRows : List Row :=
  expand [(2, 4, 500), (4, 4, 1000), (5, 8, 1000), (14, 8, 5000), (2, 8, 15000), (30, 8, 50000),
    (2, 8, 100000), (2, 8, 150000), (16, 16, 500000), (2, 16, 1000000), (1, 16, 5000000),
    (1, 32, 10000000), (1, 32, 100000000), (12, 4, 100), (4, 4, 500)]

/-- The tables as the compiler visits them: 2 DDR channels of 8 GiB and 16 HBM
channels of 1 GiB, in words of 64 bytes. -/
def tabsOf (rows : List Row) : List Tab :=
  match alloc 10 (sortRows rows) (Bank.fresh 2 134217728, Bank.fresh 16 16777216, 1) with
  | none => []
  | some (d, h, _) => visit d h

/-- The tables of `ab_small.csv`. -/
def tabs : List Tab := tabsOf rows

/-- The module with vectors of `nd` elements. -/
def cfg (nd : Nat) : Cfg where
  numCh := 18
  depth := 64
  numOut := 4
  inElems := 32
  outElems := nd
  prog := compile nd 4 tabs

theorem cfg_out (nd : Nat) : (cfg nd).outElems = nd := rfl

theorem cfg_prog (nd : Nat) : (cfg nd).prog = compile nd 4 tabs := rfl

theorem cfg_in (nd : Nat) : (cfg nd).inElems = 32 := rfl

theorem cfg_ch (nd : Nat) : (cfg nd).numCh = 18 := rfl

theorem fits : Fits 32 32 18 [] 0 tabs := by decide +kernel

/-- The tables of the shipped model fit, all 47 of them, and take twelve vectors, the
last one of which is zeros: the hypotheses of `C118_schedule_partial` hold together. -/
example : tabs.length = 47 ∧ (cfg 32).prog.length = 12 ∧
    ∀ σ j, (List.range (cfg 32).prog.length).flatMap
        (fun q => vector (cfg 32).prog σ (j * (cfg 32).prog.length + q)) =
      contents σ (fun c => j * tablesOn c tabs) tabs ++
        List.replicate ((cfg 32).prog.length * 32 - (tabs.map fun t => t.row.len).sum) 0 :=
  ⟨by decide +kernel, by decide +kernel,
    (C118_schedule_partial 32 4 tabs (cfg 32) (by decide) (by decide) (Nat.le_of_eq (cfg_in 32).symm) (cfg_out 32)
      (cfg_prog 32) (by rw [cfg_in, cfg_ch]; exact fits)).2.2.2.2.2⟩

/-- Also with 16 lanes, where the widest table takes two vectors. -/
example : Fits 16 32 18 [] 0 tabs := by decide +kernel

/-- The larger model fits as well; one channel holds six of its tables. -/
example : (tabsOf largeRows).length = 98 ∧ Fits 32 32 18 [] 0 (tabsOf largeRows) ∧
    Fits 16 32 18 [] 0 (tabsOf largeRows) ∧ tablesOn 0 (tabsOf largeRows) = 6 := by
  decide +kernel

/-- Words whose elements are all 1 in the first round of a channel and all 2 in the
later ones. -/
def σ (_c i : Nat) : Nat := if i = 0 then (2 ^ 512 - 1) / 65535 else 2 * ((2 ^ 512 - 1) / 65535)

end Shipped

/-- The claim is false for the shipped model with 8 lanes (`dlrm.py -l 8`): a table of
16 elements in HBM gets a number too many per part (line 493), so its FIFO is never
popped for it, and what the channel delivers afterwards comes one round late. -/
theorem C118_shipped_violated :
    (∀ t ∈ Shipped.tabs, t.row.len ≤ 32) ∧ (Shipped.tabs.map fun t => t.row.len).sum % (8 * 4) = 0 ∧
    ¬ ∀ σ j, (List.range (Shipped.cfg 8).prog.length).flatMap
        (fun q => vector (Shipped.cfg 8).prog σ (j * (Shipped.cfg 8).prog.length + q)) =
      contents σ (fun c => j * tablesOn c Shipped.tabs) Shipped.tabs ++
        List.replicate ((Shipped.cfg 8).prog.length * 8 -
          (Shipped.tabs.map fun t => t.row.len).sum) 0 := by
  refine ⟨by decide +kernel, by decide +kernel, fun h => ?_⟩
  have := h Shipped.σ 0
  revert this
  decide +kernel

/-- Tables of 24, 24 and 16 elements and vectors of 32: the count of elements goes
from 24 to 48 to 64 and is never equal to 32, so no instruction is written at all,
although the tables fill two vectors exactly. -/
theorem C118_overshoot_violated :
    ∃ tabs : List Tab, (∀ t ∈ tabs, 0 < t.row.len ∧ t.row.len ≤ 32) ∧
      (tabs.map fun t => t.fifo).Nodup ∧ (tabs.map fun t => t.row.len).sum = 2 * 32 ∧
      compile 32 1 tabs = [] :=
  ⟨[⟨true, 1, 0, ⟨0, 24, 10⟩⟩, ⟨true, 2, 0, ⟨1, 24, 10⟩⟩, ⟨false, 3, 0, ⟨2, 16, 10⟩⟩],
    by decide, by decide, by decide, by decide +kernel⟩

end RadSim.Dlrm
