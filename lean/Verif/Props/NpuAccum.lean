import Verif.Lemmas.NpuAccum

/-!
# The accumulator of a sector of the matrix-vector unit of the example design `npu`

C134. -/

namespace RadSim.Npu

variable {A : Type} [Add A]

/-- The accumulator after a reset: nothing in the pipeline, any values in the scratchpad. -/
structure Acc.Fresh (a : Acc A) : Prop where
  len : a.mem.length = 24
  raddr : a.raddr = 0
  s0 : a.s0.addr = 0 ∧ a.s0.valid = false
  s1 : a.s1.addr = 0 ∧ a.s1.valid = false
  s2 : a.s2.addr = 0 ∧ a.s2.valid = false

omit [Add A] in
/-- The reset of the source leads there, whatever was going on. -/
theorem Acc.reset_fresh {a : Acc A} (h : a.mem.length = 24) : a.reset.Fresh :=
  ⟨h, rfl, ⟨rfl, rfl⟩, ⟨rfl, rfl⟩, ⟨rfl, rfl⟩⟩

theorem Acc.Fresh.inv {a : Acc A} (h : a.Fresh) : a.Inv ⟨0, a.mem⟩ := by
  have e1 : a.m1 = a.mem := by simp [Acc.m1, Acc.app, h.s2.2]
  have e2 : a.m2 = a.mem := by simp [Acc.m2, Acc.app, h.s1.2, e1]
  have e3 : a.m3 = a.mem := by simp [Acc.m3, Acc.app, h.s0.2, e2]
  refine ⟨h.len, h.raddr, by show 0 < 24; decide, by rw [h.s0.1]; decide, by rw [h.s1.1]; decide, by rw [h.s2.1]; decide,
    e3.symm, ?_, ?_, ?_, ?_⟩
  · intro hh; rw [h.s1.2] at hh; cases hh
  · intro hh; rw [h.s0.2] at hh; cases hh
  · intro hh; rw [h.s1.2] at hh; cases hh
  · intro hh; rw [h.s2.2] at hh; cases hh

theorem Acc.Fresh.pend {a : Acc A} (h : a.Fresh) : a.pend = [] := by
  simp [Acc.pend, Acc.emit, h.s0.2, h.s1.2, h.s2.2]

/-- Whenever partial sums come and whenever the sector stalls, the accumulator puts out what is put out if each of them is added at
once, the first of it; it never reads or writes outside the scratchpad. Partial: there are at least three entries to go round (see
`C134_hazard_violated`). -/
theorem C134_accumulates_partial {a : Acc A} (h : a.Fresh) (es : List (Option (AccIn A))) (hs : ∀ i, some i ∈ es → i.size ≤ 24)
    (hf : (AccSpec.mk 0 a.mem).Fits ((es.filterMap id).filter (·.valid))) :
    ∃ o a', a.run es = some (o, a') ∧ o <+: ((AccSpec.mk 0 a.mem).run ((es.filterMap id).filter (·.valid))).1 := by
  obtain ⟨o, a', h1, _, h3⟩ := Acc.run_ok es h.inv hs hf
  rw [h.pend, List.nil_append] at h3
  exact ⟨o, a', h1, ⟨_, h3⟩⟩

/-- Once there have been three more cycles without a stall and without a partial sum everything is put out. -/
theorem C134_completes_partial {a : Acc A} (h : a.Fresh) (es : List (Option (AccIn A))) (hs : ∀ i, some i ∈ es → i.size ≤ 24)
    (hf : (AccSpec.mk 0 a.mem).Fits ((es.filterMap id).filter (·.valid))) {i j k : AccIn A} (hi : i.valid = false ∧ i.size ≤ 24)
    (hj : j.valid = false ∧ j.size ≤ 24) (hk : k.valid = false ∧ k.size ≤ 24) :
    ∃ a', a.run (es ++ [some i, some j, some k]) =
      some (((AccSpec.mk 0 a.mem).run ((es.filterMap id).filter (·.valid))).1, a') := by
  have hfed : Acc.fed (es ++ [some i, some j, some k]) = (es.filterMap id).filter (·.valid) := by
    simp [Acc.fed, List.filterMap_append, List.filter_append, hi.1, hj.1, hk.1]
  obtain ⟨o, a', h1, hI, h3⟩ := Acc.run_ok (es ++ [some i, some j, some k]) h.inv (by
    intro x hx
    rcases List.mem_append.1 hx with hx | hx
    · exact hs x hx
    · simp only [List.mem_cons, Option.some.injEq, List.not_mem_nil, or_false] at hx
      rcases hx with rfl | rfl | rfl
      · exact hi.2
      · exact hj.2
      · exact hk.2) (by rw [hfed]; exact hf)
  rw [h.pend, List.nil_append, hfed] at h3
  have hp : a'.pend = [] := by
    clear hI h3 hf hs hfed h
    induction es generalizing a o with
    | nil =>
      simp only [List.nil_append, Acc.run] at h1
      split at h1
      · cases h1
      · rename_i a1 e1
        split at h1
        · cases h1
        · rename_i o2 a2 e2
          split at e2
          · cases e2
          · rename_i b1 f1
            split at e2
            · cases e2
            · rename_i o3 b2 f2
              split at f2
              · cases f2
              · rename_i c1 g1
                simp only [Option.some.injEq, Prod.mk.injEq] at h1 e2 f2
                obtain ⟨_, rfl⟩ := h1
                obtain ⟨_, rfl⟩ := e2
                obtain ⟨_, rfl⟩ := f2
                exact Acc.drained hi.1 hj.1 hk.1 e1 f1 g1
    | cons e es ih =>
      cases e with
      | none => exact ih _ h1
      | some x =>
        simp only [List.cons_append, Acc.run] at h1
        split at h1
        · cases h1
        · split at h1
          · cases h1
          · rename_i o2 a2 e2
            simp only [Option.some.injEq, Prod.mk.injEq] at h1
            obtain ⟨_, rfl⟩ := h1
            exact ih _ e2
  rw [hp, List.append_nil] at h3
  exact ⟨a', by rw [h1, h3]⟩

/-- Fed with the products the micro-ops of a list of macro-ops ask for, with any stalls and any cycles without one between them,
the accumulator puts out the rows of the products of the matrices and vectors in order: for each row the sum over its words. -/
theorem C134_rows {a : Acc A} (h : a.Fresh) (ms : List MvuMop) (hm : ∀ m ∈ ms, m.Legal) (P : Nat → Nat → Nat → A)
    (es : List (Option (AccIn A))) (hs : ∀ i, some i ∈ es → i.size ≤ 24)
    (hf : (es.filterMap id).filter (·.valid) = sectorFeed P 0 ms) {i j k : AccIn A} (hi : i.valid = false ∧ i.size ≤ 24)
    (hj : j.valid = false ∧ j.size ≤ 24) (hk : k.valid = false ∧ k.size ≤ 24) :
    ∃ a', a.run (es ++ [some i, some j, some k]) = some (sectorRows P 0 ms, a') := by
  obtain ⟨f1, f2⟩ := AccSpec.feed_run P ms 0 (s := ⟨0, a.mem⟩) hm rfl h.len
  obtain ⟨a', h1⟩ := C134_completes_partial h es hs (by rw [hf]; exact f1) hi hj hk
  rw [hf, f2] at h1
  exact ⟨a', h1⟩

omit [Add A] in
/-- What it is fed with there is, for the accumulator, what the sector's decoder writes for the same macro-ops (C133). -/
theorem C134_fed_as_decoded (P : Nat → Nat → Nat → A) (ms : List MvuMop) (reg : Bool) (hm : ∀ m ∈ ms, m.op = true) :
    (sectorFeed P 0 ms).map (fun i => (i.op, i.size)) = (expandAll MvuMop.expand reg ms).1.map fun u => (u.accumOp, u.accumSize) :=
  AccSpec.feed_uops P ms 0 reg hm

/-- An accumulator of numbers after a reset, with other values left in the scratchpad. -/
def accNode : Acc Nat := ⟨0, ⟨0, false, 0, 5⟩, ⟨0, false, 0, 6⟩, ⟨0, false, 0, 7⟩, 8, 9, List.replicate 24 1000⟩

example : accNode.Fresh := ⟨rfl, rfl, ⟨rfl, rfl⟩, ⟨rfl, rfl⟩, ⟨rfl, rfl⟩⟩

/-- Three rows of two words, with a stall and a cycle without a partial sum. -/
def accSample : List (Option (AccIn Nat)) :=
  [some ⟨true, 0, 3, 1⟩, some ⟨true, 0, 3, 2⟩, none, some ⟨true, 0, 3, 3⟩, some ⟨true, 2, 3, 10⟩, some ⟨false, 2, 3, 77⟩,
    some ⟨true, 2, 3, 20⟩, some ⟨true, 2, 3, 30⟩]

example : (AccSpec.mk 0 accNode.mem).Fits ((accSample.filterMap id).filter (·.valid)) ∧
    ((AccSpec.mk 0 accNode.mem).run ((accSample.filterMap id).filter (·.valid))).1 = [11, 22, 33] := by
  refine ⟨⟨by decide, by decide, by decide, by decide, by decide, by decide, by decide, by decide, by decide, by decide, by decide,
    by decide, by decide, by decide, by decide, by decide, by decide, by decide, trivial⟩, by decide⟩

example : (accNode.run (accSample ++ List.replicate 3 (some ⟨false, 0, 0, 0⟩))).map (·.1) = some [11, 22, 33] := by decide

/-- 12 rows of 3 words and 13 of 1; the product of word `v` of row `r` is `100 * r + v` in the first, 7 in the second. -/
example : sectorRows (fun k r v => if k = 0 then 100 * r + v else 7) 0
      [⟨[0, 0, 0], 3, 0, 36, 12, 0, true⟩, ⟨[0, 0, 0], 1, 36, 13, 13, 0, true⟩] =
    [3, 303, 603, 903, 1203, 1503, 1803, 2103, 2403, 2703, 3003, 3303, 7, 7, 7, 7, 7, 7, 7, 7, 7, 7, 7, 7, 7] := by decide +kernel

/-- With only two entries to go round, a partial sum is added to what was there before the one two before it was written. -/
theorem C134_hazard_violated : ∃ es : List (Option (AccIn Nat)), (∀ i, some i ∈ es → i.size = 2) ∧
    (accNode.run (es ++ List.replicate 3 (some ⟨false, 0, 0, 0⟩))).map (·.1) ≠
      some ((AccSpec.mk 0 accNode.mem).run ((es.filterMap id).filter (·.valid))).1 := by
  refine ⟨[some ⟨true, 0, 2, 1⟩, some ⟨true, 0, 2, 2⟩, some ⟨true, 2, 2, 10⟩, some ⟨true, 2, 2, 20⟩], ?_, by decide⟩
  intro i hi
  simp only [List.mem_cons, Option.some.injEq, List.not_mem_nil, or_false] at hi
  rcases hi with rfl | rfl | rfl | rfl <;> rfl

end RadSim.Npu
