import Verif.Lemmas.DlrmAlloc
import Verif.Props.DlrmCompile

/-!
Properties of the allocation of the embedding tables in the DLRM compiler
(`greedy_allocation` in `dlrm.py`).
-/
namespace RadSim.Dlrm

open Spec

/-- If the allocation ends, then the lookups and the instructions visit every table
exactly once, no two tables share a word of memory, and every table lies in a channel
that exists, within its capacity. -/
theorem C121_layout (rows : List Row) (nD capD nH capH fuel : Nat) (d h : Bank) (round : Nat)
    (hrun : alloc fuel (sortRows rows) (Bank.fresh nD capD, Bank.fresh nH capH, 1) =
      some (d, h, round)) :
    ((visit d h).map Tab.row).Perm rows ∧ (visit d h).Pairwise Apart ∧
    ∀ t ∈ visit d h, Inside nD capD nH capH t := by
  have hi := alloc_inv fuel _ _ _ _ (alloc_init nD capD nH capH) hrun
  have hd := hi.ddr
  have hh := hi.hbm
  dsimp only at hd hh
  have hv := visit_perm d h
  rw [hd.numCh] at hv
  refine ⟨?_, ?_, ?_⟩
  · refine (hv.map Tab.row).trans (hi.rows.trans ?_)
    rw [List.append_nil]
    exact (List.reverse_perm _).trans (sortRows_perm rows)
  · refine (hv.pairwise_iff (fun hxy => apart_symm hxy)).mpr ?_
    rw [List.pairwise_append]
    refine ⟨hd.apart, hh.apart, ?_⟩
    intro x hx y hy e
    obtain ⟨c, hc, h1, -, -⟩ := hd.below x hx
    obtain ⟨c', hc', h2, -, -⟩ := hh.below y hy
    omega
  · intro t ht
    rcases List.mem_append.mp (hv.mem_iff.mp ht) with ht | ht
    · obtain ⟨c, hc, h1, h2, h3⟩ := hd.below t ht
      have := hd.used c
      unfold Inside
      rw [h2, if_pos rfl]
      omega
    · obtain ⟨c, hc, h1, h2, h3⟩ := hh.below t ht
      have := hh.used c
      unfold Inside
      rw [h2, if_neg (by decide)]
      omega

/-- So lookups of different tables never go to the same address of the same channel:
the compiler draws the entry from `0 .. entries/2` and multiplies it and the base with
the bytes of a word. -/
theorem C121_addresses (rows : List Row) (nD capD nH capH fuel : Nat) (d h : Bank) (round : Nat)
    (hrun : alloc fuel (sortRows rows) (Bank.fresh nD capD, Bank.fresh nH capH, 1) =
      some (d, h, round))
    (hrows : ∀ r ∈ rows, 0 < r.len ∧ 0 < r.entries) (i j : Nat) (x y : Tab) (hij : i ≠ j)
    (hx : (visit d h)[i]? = some x) (hy : (visit d h)[j]? = some y) (hf : x.fifo = y.fifo)
    (a b : Nat) (ha : a ≤ x.row.entries / 2) (hb : b ≤ y.row.entries / 2) :
    x.base * 64 + a * 64 ≠ y.base * 64 + b * 64 := by
  obtain ⟨h1, h2, -⟩ := C121_layout rows nD capD nH capH fuel d h round hrun
  have hap : Apart x y := by
    obtain ⟨hi, rfl⟩ := List.getElem?_eq_some_iff.mp hx
    obtain ⟨hj, rfl⟩ := List.getElem?_eq_some_iff.mp hy
    rcases Nat.lt_or_gt_of_ne hij with hlt | hgt
    · exact List.pairwise_iff_getElem.mp h2 i j hi hj hlt
    · exact apart_symm (List.pairwise_iff_getElem.mp h2 j i hj hi hgt)
  have hin : ∀ (z : Tab) (k e : Nat), (visit d h)[k]? = some z → e ≤ z.row.entries / 2 →
      e < z.row.words := by
    intro z k e hz he
    have hm : z.row ∈ rows := h1.mem_iff.mp (List.mem_map.mpr ⟨z, List.mem_of_getElem? hz, rfl⟩)
    obtain ⟨p1, p2⟩ := hrows _ hm
    have h3 : 1 ≤ (z.row.len + 63) / 64 := by omega
    have h4 : 1 * z.row.entries ≤ (z.row.len + 63) / 64 * z.row.entries :=
      Nat.mul_le_mul_right _ h3
    unfold Row.words
    omega
  have hax := hin x i a hx ha
  have hby := hin y j b hy hb
  intro he
  exact hap hf (x.base + a) ⟨by omega, by omega, by omega, by omega⟩

/-- The allocation ends, after at most one more round than there are tables for any one
of them, if a single DDR channel could hold all tables.

Partial: the condition is far from necessary; `C121_stuck_violated` shows that some
condition is needed. -/
theorem C121_ends_partial (rows : List Row) (nD capD nH capH fuel : Nat) (hn : 0 < nD)
    (hw : (rows.map Row.words).sum ≤ capD) (hfuel : rows.length < fuel) :
    ∃ t, alloc fuel (sortRows rows) (Bank.fresh nD capD, Bank.fresh nH capH, 1) = some t := by
  have hp := sortRows_perm rows
  refine alloc_ends (capD := capD) hn fuel (sortRows rows) _ _ _ 0 0
    ⟨rfl, rfl, fun _ => Nat.le_refl _, fun _ => Nat.le_refl _⟩ ?_ ?_
  · rw [(hp.map Row.words).sum_nat, Nat.zero_add]; exact hw
  · rw [hp.length_eq, Nat.zero_add]; exact hfuel

/-- The shipped model: the allocation ends and has the properties above; the two
tables of 16 elements lie in different channels, and channel 0 holds three tables. -/
example : ∃ d h round, alloc 48 (sortRows Shipped.rows)
      (Bank.fresh 2 134217728, Bank.fresh 16 16777216, 1) = some (d, h, round) ∧
    ((visit d h).map Tab.row).Perm Shipped.rows ∧ (visit d h).Pairwise Apart := by
  obtain ⟨⟨d, h, round⟩, ht⟩ := C121_ends_partial Shipped.rows 2 134217728 16 16777216 48
    (by decide) (by decide +kernel) (by decide +kernel)
  obtain ⟨h1, h2, -⟩ := C121_layout _ _ _ _ _ _ d h round ht
  exact ⟨d, h, round, ht, h1, h2⟩

example : (Shipped.tabs.filter fun t => t.fifo == 1).map (fun t => (t.base, t.row.words)) =
    [(0, 10000000), (10000000, 10000), (10010000, 1000)] := by decide +kernel

/-- A table that is larger than every channel keeps the loop `while not allocated`
going for ever: there is no check. -/
theorem C121_stuck_violated : ∀ fuel,
    alloc fuel (sortRows [⟨0, 32, 20⟩]) (Bank.fresh 1 10, Bank.fresh 1 10, 1) = none := by
  have h : ∀ fuel round, allocOne ⟨0, 32, 20⟩ fuel (Bank.fresh 1 10, Bank.fresh 1 10, round) =
      none := by
    intro fuel
    induction fuel with
    | zero => intro _; rfl
    | succ fuel ih =>
      intro round
      have hf : (Bank.fresh 1 10).find round (Row.words ⟨0, 32, 20⟩) = none := by
        simp [Bank.find, Bank.fresh, Row.words]
      unfold allocOne
      rw [hf]
      exact ih (round + 1)
  intro fuel
  have hs : sortRows [⟨0, 32, 20⟩] = [⟨0, 32, 20⟩] := rfl
  rw [hs, alloc, h fuel 1]

end RadSim.Dlrm
