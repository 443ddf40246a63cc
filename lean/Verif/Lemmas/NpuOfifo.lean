import Verif.Spec.NpuOfifo

/-! # Output FIFOs of the sectors: chunks and space -/

namespace RadSim.Npu.Ofifo

variable {α : Type} {c : WideCfg} {zero : α}

theorem piece (zero : α) (w : List α) (k o : Nat) (h : k + o ≤ w.length) :
    (List.range o).map (fun e => w.getD (k + e) zero) = (w.drop k).take o := by
  apply List.ext_getElem
  · simp; omega
  · intro i h1 h2
    simp only [List.length_map, List.length_range] at h1
    simp only [List.getElem_map, List.getElem_range, List.getElem_take, List.getElem_drop]
    rw [List.getD_eq_getElem?_getD, List.getElem?_eq_getElem (by omega)]
    rfl

theorem pieces (zero : α) (w : List α) (o : Nat) : ∀ r, r * o ≤ w.length →
    ((List.range r).map fun i => (List.range o).map fun e => w.getD (i * o + e) zero).flatten = w.take (r * o)
  | 0, _ => by simp
  | r + 1, h => by
    rw [Nat.add_mul, Nat.one_mul] at h
    rw [List.range_succ, List.map_append, List.flatten_append, pieces zero w o r (by omega), Nat.add_mul, Nat.one_mul,
      List.take_add]
    simp only [List.map_cons, List.map_nil, List.flatten_cons, List.flatten_nil, List.append_nil]
    rw [piece zero w (r * o) o h]

theorem chunks_flatten (w : List α) (h : w.length = c.ratio * c.owidth) : (c.chunks zero w).flatten = w := by
  unfold WideCfg.chunks
  rw [pieces zero w c.owidth c.ratio (by omega), ← h, List.take_length]

theorem chunks_length (w : List α) : (c.chunks zero w).length = c.ratio := by unfold WideCfg.chunks; simp

theorem chunks_width (w : List α) : ∀ x ∈ c.chunks zero w, x.length = c.owidth := by
  intro x hx
  unfold WideCfg.chunks at hx
  obtain ⟨i, -, rfl⟩ := List.mem_map.1 hx
  simp

theorem usub_eq {a b : Nat} (h : b ≤ a) (ha : a < 2 ^ 32) : usub a b = a - b := by unfold usub; omega

/-- Configurations with room. -/
structure Fits (c : WideCfg) : Prop where
  ratio : c.ratio ≤ c.limit
  limit : c.limit ≤ c.cap
  cap : c.cap < 2 ^ 32

/-- States. -/
structure Good (c : WideCfg) (zero : α) (f : WideFifo α) : Prop where
  space : f.mem.length ≤ c.limit
  empty : f.empty = f.mem.isEmpty
  full : f.almostFull = true ↔ f.mem.length > c.limit - c.ratio
  head : f.mem ≠ [] → f.rdata = f.mem.headD []
  width : ∀ x ∈ f.mem, x.length = c.owidth

theorem show_good (hc : Fits c) {m : List (List α)} (h : m.length ≤ c.limit) (hw : ∀ x ∈ m, x.length = c.owidth) :
    Good c zero (c.show zero m) := by
  have := hc.ratio; have := hc.limit; have := hc.cap
  refine ⟨h, rfl, ?_, ?_, hw⟩
  · show decide (m.length > usub c.limit c.ratio) = true ↔ _
    rw [usub_eq hc.ratio (by omega), decide_eq_true_iff]; rfl
  · intro hm
    show m.headD _ = m.headD _
    cases m with
    | nil => exact absurd rfl hm
    | cons => rfl

/-- A cycle. -/
theorem tick (hc : Fits c) {f : WideFifo α} (hg : Good c zero f) (others want : Bool) (word : Option (List α))
    (hw : ∀ w ∈ word, w.length = c.ratio * c.owidth) :
    ∃ f' go ren, ofifoTick c zero f others want word = some (f', go, ren) ∧ Good c zero f' ∧
      go = (!f.almostFull && others) ∧ ren = (want && !f.mem.isEmpty) ∧
      f.mem ++ (if go then word.toList else []).flatMap (c.chunks zero) = (if ren then [f.rdata] else []) ++ f'.mem ∧
      f'.mem.length = f.mem.length - (if ren then 1 else 0) + (if go then word.toList.length * c.ratio else 0) := by
  have := hc.ratio; have := hc.limit; have hcap := hc.cap
  unfold ofifoTick
  generalize hgo : (!f.almostFull && others) = go
  have hren' : (want && !f.empty) = (want && !f.mem.isEmpty) := by rw [hg.empty]
  rw [hren']
  generalize hren : (want && !f.mem.isEmpty) = ren
  have hnr : ¬ (ren = true ∧ f.mem = []) := by
    rintro ⟨h1, h2⟩
    rw [h2] at hren; rw [← hren] at h1; simp at h1
  have hm : ∃ m, (if ren = true then f.mem.tail else f.mem) = m ∧ f.mem = (if ren then [f.rdata] else []) ++ m ∧
      m.length = f.mem.length - (if ren then 1 else 0) := by
    refine ⟨_, rfl, ?_, ?_⟩
    · cases hr : ren
      · rfl
      · have hne : f.mem ≠ [] := fun e => hnr ⟨hr, e⟩
        have := hg.head hne
        cases hmm : f.mem with
        | nil => exact absurd hmm hne
        | cons x l => rw [this, hmm]; rfl
    · cases ren <;> simp
  obtain ⟨m, hm1, hm2, hm3⟩ := hm
  have hmw : ∀ x ∈ m, x.length = c.owidth := fun x hx => hg.width x (by rw [hm2]; exact List.mem_append_right _ hx)
  have hml : m.length ≤ c.limit := by have := hg.space; omega
  unfold WideFifo.tick
  dsimp only
  rw [if_neg hnr]
  rw [hm1]
  by_cases hx : go = true ∧ word ≠ none
  · obtain ⟨rfl, hx⟩ := hx
    obtain ⟨w, rfl⟩ := Option.ne_none_iff_exists'.1 hx
    have hwl := hw w rfl
    have hnf : ¬ f.mem.length > c.limit - c.ratio := fun h => by
      rw [hg.full.2 h] at hgo; simp at hgo
    have hsz : (m ++ c.chunks zero w).length ≤ c.limit := by
      rw [List.length_append, chunks_length]; omega
    rw [if_pos rfl]
    dsimp only
    rw [if_neg (by rw [usub_eq (by omega) hcap]; omega)]
    refine ⟨_, _, _, rfl, show_good hc hsz ?_, rfl, rfl, ?_, ?_⟩
    · intro x hx
      rcases List.mem_append.1 hx with h | h
      · exact hmw x h
      · exact chunks_width w x h
    · show f.mem ++ List.flatMap _ [w] = _ ++ (m ++ _)
      rw [← List.append_assoc, ← hm2]; simp
    · show (m ++ c.chunks zero w).length = _
      rw [List.length_append, chunks_length, hm3]; simp
  · have hp : (if go = true then word else none) = none := by
      split
      · rename_i h; exact Classical.byContradiction fun hn => hx ⟨h, hn⟩
      · rfl
    have hp' : (if go = true then word.toList else []) = [] := by
      split
      · rename_i h; rw [if_pos h] at hp; rw [hp]; rfl
      · rfl
    rw [hp]
    refine ⟨_, _, _, rfl, show_good hc hml hmw, rfl, rfl, ?_, ?_⟩
    · rw [hp']; show f.mem ++ [] = _ ++ m
      rw [List.append_nil]; exact hm2
    · show m.length = _
      rw [hm3]
      cases hgo' : go
      · rfl
      · rw [hgo'] at hp'; rw [if_pos rfl] at hp'; rw [hp']; simp

theorem run (hc : Fits c) : ∀ (is : List (OfifoIn α)) (f : WideFifo α), Good c zero f →
    (∀ i ∈ is, ∀ w ∈ i.word, w.length = c.ratio * c.owidth) →
    ∃ f' wr rd, ofifoRun c zero f is = some (f', wr, rd) ∧ Good c zero f' ∧ f.mem ++ wr.flatMap (c.chunks zero) = rd ++ f'.mem ∧
      ∀ w ∈ wr, w.length = c.ratio * c.owidth
  | [], f, hg, _ => ⟨f, [], [], rfl, hg, by simp, by simp⟩
  | i :: is, f, hg, hw => by
    obtain ⟨f1, go, ren, h1, h2, h3, h4, h5, -⟩ := tick hc hg i.others i.want i.word (hw i List.mem_cons_self)
    obtain ⟨f', wr, rd, e1, e2, e3, e4⟩ := run hc is f1 h2 (fun j hj => hw j (List.mem_cons_of_mem _ hj))
    refine ⟨f', (if go then i.word.toList else []) ++ wr, (if ren then [f.rdata] else []) ++ rd, ?_, e2, ?_, ?_⟩
    · rw [ofifoRun, h1]; dsimp only; rw [e1]; rfl
    · rw [List.flatMap_append, ← List.append_assoc, h5, List.append_assoc, e3, List.append_assoc]
    · intro w hw'
      rcases List.mem_append.1 hw' with h | h
      · split at h
        · exact hw i List.mem_cons_self w (Option.mem_toList.1 h)
        · cases h
      · exact e4 w h

theorem new_good {f : WideFifo α} (h : WideFifo.new c = some f) : Good c zero f ∧ f.mem = [] := by
  unfold WideFifo.new at h
  split at h
  · cases h
  · cases h
    exact ⟨⟨Nat.zero_le _, rfl, by simp, fun h => absurd rfl h, fun x hx => by cases hx⟩, rfl⟩

/-- Words of a result. -/
theorem flatMap_get {β γ : Type} (g : β → List γ) {r : Nat} (hr : 0 < r) (hg : ∀ x, (g x).length = r) : ∀ (l : List β) (n : Nat),
    (l.flatMap g)[n]? = (l[n / r]?).bind fun x => (g x)[n % r]?
  | [], n => by simp
  | x :: l, n => by
    rw [List.flatMap_cons]
    by_cases h : n < r
    · rw [List.getElem?_append_left (by rw [hg]; exact h), Nat.div_eq_of_lt h, Nat.mod_eq_of_lt h]; rfl
    · rw [List.getElem?_append_right (by rw [hg]; omega), hg, flatMap_get g hr hg l (n - r)]
      have h1 : n / r = (n - r) / r + 1 := by rw [Nat.div_eq n r, if_pos ⟨hr, by omega⟩]
      have h2 : n % r = (n - r) % r := Nat.mod_eq_sub_mod (by omega)
      rw [h1, h2, List.getElem?_cons_succ]

end RadSim.Npu.Ofifo
