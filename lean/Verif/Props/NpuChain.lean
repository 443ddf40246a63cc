import Verif.Lemmas.NpuChain

/-!
# The first write-back channel of the example design `npu`, in the sectors

C143. -/

namespace RadSim.Npu

/-- Every word is taken in the cycle in which it is shown, and the `k`-th sector writes it to its register files exactly `2 k + 1` cycles later, and nothing else; in no cycle is there an error. So the sectors
get the same words, each once and in order. The words have to be for a register file that is there. -/
theorem C143_delay_partial {tiles n : Nat} (hn : 0 < n) {es : List (Option Word)} (hes : ∀ w, some w ∈ es → w ≠ [] ∧ 0 ≤ w.getD 0 0 ∧ w.getD 0 0 < tiles) :
    ∃ os ss', chainRun tiles es (chainReset n) = .ok (os, ss') ∧ os.map (·.1) = es ∧
      ∀ t k, t < es.length → k < n → (os[t]?).bind (fun o => o.2[k]?) = some (if t < 2 * k + 1 then none else (es[t - (2 * k + 1)]?).join) := by
  have hne : chainReset n ≠ [] := by
    intro e
    have : (chainReset n).length = 0 := by rw [e]; rfl
    rw [chainReset, List.length_replicate] at this
    omega
  obtain ⟨os, ss', h1, h2, h3⟩ := Delay.run es (delay_reset tiles n) hne (by intro i w e; cases e) hes
  exact ⟨os, ss', h1, h2, fun t k ht hk => h3 t k ht (by rw [chainReset, List.length_replicate]; exact hk)⟩

/-- What the `k`-th sector writes in the cycles of a run. -/
def writtenBy (os : List (Option Word × List (Option Word))) (k : Nat) : List (Option Word) := os.map fun o => (o.2[k]?).join

/-- What is written in the first `t` cycles is what was shown `2 k + 1` cycles before. -/
theorem written_take {es : List (Option Word)} {os : List (Option Word × List (Option Word))} {n : Nat} (h2 : os.map (·.1) = es)
    (h3 : ∀ t k, t < es.length → k < n → (os[t]?).bind (fun o => o.2[k]?) = some (if t < 2 * k + 1 then none else (es[t - (2 * k + 1)]?).join))
    {k : Nat} (hk : k < n) : writtenBy os k = (List.replicate (2 * k + 1) none ++ es).take es.length := by
  have hl : os.length = es.length := by rw [← h2, List.length_map]
  apply List.ext_getElem?
  intro t
  unfold writtenBy
  rw [List.getElem?_map, List.getElem?_take]
  by_cases ht : t < es.length
  · rw [if_pos ht, List.getElem?_append, List.length_replicate]
    have := h3 t k ht hk
    rw [List.getElem?_eq_getElem (by omega), Option.bind_some] at this
    rw [List.getElem?_eq_getElem (by omega), Option.map_some, this]
    by_cases q : t < 2 * k + 1
    · rw [if_pos q, if_pos q, List.getElem?_replicate, if_pos q]
      rfl
    · rw [if_neg q, if_neg q, List.getElem?_eq_getElem (by omega)]
      rfl
  · rw [if_neg ht, List.getElem?_eq_none (by omega)]
    rfl

theorem replicate_filterMap (m : Nat) (l : List (Option Word)) : (List.replicate m none ++ l).filterMap id = l.filterMap id := by
  rw [List.filterMap_append]
  have : (List.replicate m (none : Option Word)).filterMap id = [] := by
    rw [List.filterMap_replicate_of_none rfl]
  rw [this]
  rfl

/-- The register files of the `k`-th sector hold, after any number of cycles, what the words shown up to `2 k + 1` cycles before make of them: all sectors get the same contents. -/
theorem C143_copies_partial {tiles n : Nat} {es : List (Option Word)} (hes : ∀ w, some w ∈ es → w ≠ [] ∧ 0 ≤ w.getD 0 0 ∧ w.getD 0 0 < tiles)
    {os : List (Option Word × List (Option Word))} {ss' : List ChainSector} (h : chainRun tiles es (chainReset n) = .ok (os, ss')) {k : Nat} (hk : k < n) (lanes : Nat)
    (m : Int → Int → Word) (t : Nat) (ht : t ≤ es.length) :
    (((writtenBy os k).take t).filterMap id).foldl (fileWrite lanes) m = ((es.take (t - (2 * k + 1))).filterMap id).foldl (fileWrite lanes) m := by
  obtain ⟨os1, s1, h1, h2, h3⟩ := C143_delay_partial (show 0 < n by omega) hes
  rw [h1] at h
  cases h
  rw [written_take h2 h3 hk, List.take_take, Nat.min_eq_left ht]
  rw [List.take_append, List.length_replicate]
  congr 1
  rcases Nat.le_total t (2 * k + 1) with q | q
  · rw [show t - (2 * k + 1) = 0 by omega, List.take_replicate]
    exact replicate_filterMap _ _
  · rw [List.take_of_length_le (by rw [List.length_replicate]; exact q)]
    exact replicate_filterMap _ _

/-- What a write leaves: the vector of the word in the register file and at the address that it names, put together from the low and the high bits; all else as before. -/
theorem C143_written (lanes : Nat) (m : Int → Int → Word) (w : Word) :
    fileWrite lanes m w (readCh0 lanes w).file (readCh0 lanes w).addr = (readCh0 lanes w).data ∧
    ∀ f a, ¬ (f = (readCh0 lanes w).file ∧ a = (readCh0 lanes w).addr) → fileWrite lanes m w f a = m f a := by
  refine ⟨?_, ?_⟩
  · unfold fileWrite readCh0
    rw [if_pos ⟨rfl, rfl⟩]
  · intro f a h
    unfold fileWrite
    rw [if_neg]
    exact h

/-! ## The tags -/

/-- A word ends a vector. -/
def ends (w : Word) : Bool := w != [] && w.getD 3 0 % 2 == 1

theorem sectorTag_count : ∀ (ws : List (Option Word)) (tag : Nat), tag + (ws.filterMap id).countP ends ≤ 511 → sectorTag ws tag = some (tag + (ws.filterMap id).countP ends)
  | [], tag, _ => rfl
  | none :: ws, tag, h => sectorTag_count ws tag h
  | some w :: ws, tag, h => by
    rw [sectorTag]
    rw [List.filterMap_cons_some (by rfl), List.countP_cons] at h ⊢
    by_cases e : ends w = true
    · rw [if_pos e] at h ⊢
      unfold ends at e
      rw [if_pos e, if_neg (by omega), sectorTag_count ws (tag + 1) (by omega)]
      congr 1
      omega
    · rw [if_neg e] at h ⊢
      unfold ends at e
      rw [if_neg e, sectorTag_count ws tag (by omega)]
      rfl

theorem sectorTag_over : ∀ (ws : List (Option Word)) (tag : Nat), tag ≤ 511 → 511 < tag + (ws.filterMap id).countP ends → sectorTag ws tag = none
  | [], tag, h, h' => by
    simp only [List.filterMap_nil, List.countP_nil] at h'
    omega
  | none :: ws, tag, h, h' => sectorTag_over ws tag h h'
  | some w :: ws, tag, h, h' => by
    rw [sectorTag]
    rw [List.filterMap_cons_some (by rfl), List.countP_cons] at h'
    by_cases e : ends w = true
    · rw [if_pos e] at h'
      unfold ends at e
      rw [if_pos e]
      split
      · rfl
      · exact sectorTag_over ws (tag + 1) (by omega) (by omega)
    · rw [if_neg e] at h'
      unfold ends at e
      rw [if_neg e]
      exact sectorTag_over ws tag h (by omega)

/-- The tag of the `k`-th sector is the number of vectors that have ended `2 k + 1` cycles before. -/
theorem C143_tag_partial {tiles n : Nat} {es : List (Option Word)} (hes : ∀ w, some w ∈ es → w ≠ [] ∧ 0 ≤ w.getD 0 0 ∧ w.getD 0 0 < tiles)
    (hmax : (es.filterMap id).countP ends ≤ 511)
    {os : List (Option Word × List (Option Word))} {ss' : List ChainSector} (h : chainRun tiles es (chainReset n) = .ok (os, ss')) {k : Nat} (hk : k < n) (t : Nat) (ht : t ≤ es.length) :
    sectorTag ((writtenBy os k).take t) 0 = some (((es.take (t - (2 * k + 1))).filterMap id).countP ends) := by
  have hf : ((writtenBy os k).take t).filterMap id = (es.take (t - (2 * k + 1))).filterMap id := by
    obtain ⟨os1, s1, h1, h2, h3⟩ := C143_delay_partial (show 0 < n by omega) hes
    rw [h1] at h
    cases h
    rw [written_take h2 h3 hk, List.take_take, Nat.min_eq_left ht, List.take_append, List.length_replicate]
    rcases Nat.le_total t (2 * k + 1) with q | q
    · rw [show t - (2 * k + 1) = 0 by omega, List.take_replicate]
      exact replicate_filterMap _ _
    · rw [List.take_of_length_le (by rw [List.length_replicate]; exact q)]
      exact replicate_filterMap _ _
  have hle : ((es.take (t - (2 * k + 1))).filterMap id).countP ends ≤ 511 := by
    have : ((es.take (t - (2 * k + 1))).filterMap id).Sublist (es.filterMap id) := (List.take_sublist _ _).filterMap _
    exact Nat.le_trans this.countP_le hmax
  rw [sectorTag_count _ 0 (by rw [hf]; omega), hf, Nat.zero_add]

/-- The tag of a sector goes with the words of the first core. If the words of another core `es'` come in the same cycles, then all that the tag stands for is written for that core too: if
fewer vectors than the tag says have ended before cycle `p`, each word of the other core shown up to cycle `p` has been written. -/
theorem C143_tag_cores_partial {tiles n : Nat} {es es' : List (Option Word)} (hes : ∀ w, some w ∈ es → w ≠ [] ∧ 0 ≤ w.getD 0 0 ∧ w.getD 0 0 < tiles)
    (hes' : ∀ w, some w ∈ es' → w ≠ [] ∧ 0 ≤ w.getD 0 0 ∧ w.getD 0 0 < tiles) (hlen : es.length = es'.length)
    (hmax : (es.filterMap id).countP ends ≤ 511)
    {os os' : List (Option Word × List (Option Word))} {s s' : List ChainSector} (h : chainRun tiles es (chainReset n) = .ok (os, s))
    (h' : chainRun tiles es' (chainReset n) = .ok (os', s')) {k : Nat} (hk : k < n) {t : Nat} (ht : t ≤ es.length) {tag : Nat} (htag : sectorTag ((writtenBy os k).take t) 0 = some tag)
    {p : Nat} (hj : ((es.take p).filterMap id).countP ends < tag) :
    ∀ q, q ≤ p → ∃ r, r < t ∧ (writtenBy os' k)[r]? = es'[q]? := by
  rw [C143_tag_partial hes hmax h hk t ht] at htag
  cases htag
  -- the word is among those written
  have hpt : p < t - (2 * k + 1) := by
    rcases Nat.lt_or_ge p (t - (2 * k + 1)) with q | q
    · exact q
    · have : ((es.take (t - (2 * k + 1))).filterMap id).Sublist ((es.take p).filterMap id) := (List.take_sublist_take_left q).filterMap _
      have := this.countP_le (p := ends)
      omega
  intro q hq
  obtain ⟨os1, s1, h1, h2, h3⟩ := C143_delay_partial (show 0 < n by omega) hes'
  rw [h1] at h'
  cases h'
  refine ⟨2 * k + 1 + q, by omega, ?_⟩
  rw [written_take h2 h3 hk, List.getElem?_take, if_pos (by omega), List.getElem?_append, List.length_replicate, if_neg (by omega), show 2 * k + 1 + q - (2 * k + 1) = q by omega]

/-- After 511 vectors there is an error when the next ends, in every sector. -/
theorem C143_overflow_violated {ws : List (Option Word)} (h : 511 < (ws.filterMap id).countP ends) : sectorTag ws 0 = none := sectorTag_over ws 0 (by omega) (by omega)

/-- A word for a register file that is not there, which the loader makes of number 8 when there are seven, is written outside of the vector of the write ports. -/
theorem C143_outside_violated :
    (readCh0 1 (packCh0 1 { LdUop.default with vrf0Id := 8 } [5])).file = 7 ∧
    (match chainRun 7 [some (packCh0 1 { LdUop.default with vrf0Id := 8 } [5]), none] (chainReset 10) with
      | .ok _ => none
      | .error e => some e) = some .outside := by
  refine ⟨by decide, by decide +kernel⟩

/-! ## The matrices -/

/-- Of all register files for matrices, exactly one is written to for each number below their count, and every one has such a number. -/
theorem C143_matrix {dpes sectors : Nat} (hd : 0 < dpes) (hs : 0 < sectors) (wid : Nat) :
    ∃ s d t, s < sectors ∧ d < dpes ∧ mrfSelect dpes sectors wid s d t = true ∧
      (∀ tiles, wid < tiles * sectors * dpes → t < tiles) ∧
      ∀ s' d' t', s' < sectors → d' < dpes → mrfSelect dpes sectors wid s' d' t' = true → s' = s ∧ d' = d ∧ t' = t := by
  have split : ∀ s d t, s < sectors → d < dpes → wid = t * dpes * sectors + s * dpes + d → s = wid / dpes % sectors ∧ d = wid % dpes ∧ t = wid / dpes / sectors := by
    intro s d t h1 h2 e
    have e' : wid = dpes * (sectors * t + s) + d := by
      rw [e, Nat.mul_add, Nat.mul_comm s dpes, show t * dpes * sectors = dpes * (sectors * t) by rw [Nat.mul_comm t dpes, Nat.mul_assoc, Nat.mul_comm t sectors]]
    have q1 : wid / dpes = sectors * t + s := by rw [e', Nat.mul_add_div hd, Nat.div_eq_of_lt h2, Nat.add_zero]
    rw [q1, Nat.mul_add_mod, Nat.mod_eq_of_lt h1, Nat.mul_add_div hs, Nat.div_eq_of_lt h1]
    refine ⟨rfl, ?_, rfl⟩
    rw [e', Nat.mul_add_mod, Nat.mod_eq_of_lt h2]
  refine ⟨wid / dpes % sectors, wid % dpes, wid / dpes / sectors, Nat.mod_lt _ hs, Nat.mod_lt _ hd, ?_, ?_, ?_⟩
  · unfold mrfSelect
    rw [beq_iff_eq]
    have a := Nat.div_add_mod wid dpes
    have b := Nat.div_add_mod (wid / dpes) sectors
    generalize wid / dpes / sectors = t at *
    generalize wid / dpes % sectors = s at *
    generalize wid / dpes = x at *
    rw [show t * dpes * sectors + s * dpes = dpes * x by
      rw [← b, Nat.mul_add, Nat.mul_comm s dpes, Nat.mul_comm t dpes, Nat.mul_assoc, Nat.mul_comm t sectors]]
    exact a.symm
  · intro tiles h
    rw [Nat.div_div_eq_div_mul]
    apply Nat.div_lt_of_lt_mul
    rw [Nat.mul_comm (dpes * sectors), Nat.mul_comm dpes, ← Nat.mul_assoc]
    exact h
  · intro s' d' t' h1 h2 h
    unfold mrfSelect at h
    rw [beq_iff_eq] at h
    exact split s' d' t' h1 h2 h

/-! ## Examples -/

/-- A vector of two elements for address 300 of register file 2, then the end of a vector. -/
def chainEx : List (Option Word) := [some [2, 44, 1, 0, 30, -4], none, some [2, 44, 1, 1, 30, -4]] ++ List.replicate 6 none

example : ∀ w, some w ∈ chainEx → w ≠ [] ∧ 0 ≤ w.getD 0 0 ∧ w.getD 0 0 < (7 : Nat) := by
  intro w hw
  simp only [chainEx, List.mem_append, List.mem_cons, Option.some.injEq, reduceCtorEq, List.not_mem_nil, or_false, false_or, List.mem_replicate, and_false] at hw
  rcases hw with rfl | rfl <;> decide

example : (chainEx.filterMap id).countP ends = 1 ∧ chainEx[2]? = some (some [2, 44, 1, 1, 30, -4]) ∧ ends [2, 44, 1, 1, 30, -4] = true := by decide

/-- Three sectors write them one, three and five cycles later. -/
example : (chainRun 7 chainEx (chainReset 3)).toOption.map (fun r => [0, 1, 2].map fun k => (writtenBy r.1 k).map (·.isSome)) =
    some [[false, true, false, true, false, false, false, false, false], [false, false, false, true, false, true, false, false, false],
      [false, false, false, false, false, true, false, true, false]] := by decide +kernel

/-- The tag of the third is 1 after eight cycles, and 0 before. -/
example : (chainRun 7 chainEx (chainReset 3)).toOption.map (fun r => (sectorTag ((writtenBy r.1 2).take 7) 0, sectorTag ((writtenBy r.1 2).take 8) 0)) = some (some 0, some 1) := by decide +kernel

example : fileWrite 2 (fun _ _ => []) [2, 44, 1, 0, 30, -4] 2 300 = [30, -4] := by decide

/-- Number 133 is that of the second engine of the fourth sector in the fourth tile. -/
example : mrfSelect 4 10 133 3 1 3 = true := by decide

end RadSim.Npu
