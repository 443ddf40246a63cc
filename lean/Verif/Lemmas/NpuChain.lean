import Verif.Model.NpuChain
import Verif.Lemmas.NpuVew

/-!
# The first write-back channel in the sectors of the `npu`: lemmas -/

namespace RadSim.Npu

/-- A word that a sector can write. -/
def ChainGood (tiles : Nat) (w : Word) : Prop := w ≠ [] ∧ 0 ≤ w.getD 0 0 ∧ w.getD 0 0 < tiles

/-- The FIFOs are a line of registers: `h i` is the word that was shown to the first of the sectors `i + 1` cycles ago. -/
def Delay (tiles : Nat) : (Nat → Option Word) → List ChainSector → Prop
  | _, [] => True
  | h, s :: ss => DSound (dataDepth - sectorStages) s.rx ∧ DSound (dataDepth - sectorStages) s.tx ∧ s.rx.mem = (h 0).toList ∧
      s.tx.mem = (if ss = [] then [] else (h 1).toList) ∧ Delay tiles (fun i => h (i + 2)) ss

/-- The next cycle. -/
def push (o : Option Word) (h : Nat → Option Word) : Nat → Option Word
  | 0 => o
  | i + 1 => h i

theorem Delay.tick {tiles : Nat} : ∀ (ss : List ChainSector) {h : Nat → Option Word} (o : Option Word), Delay tiles h ss → (∀ i w, h i = some w → ChainGood tiles w) →
    ∃ ws ss', chainTick tiles o ss = .ok (o.isSome && !ss.isEmpty, ws, ss') ∧ Delay tiles (push o h) ss' ∧ (∀ k, k < ss.length → ws[k]? = some (h (2 * k))) ∧ ss'.length = ss.length
  | [], h, o, _, _ => ⟨[], [], by simp [chainTick], trivial, (by intro k hk; cases hk), rfl⟩
  | s :: ss, h, o, hd, hg => by
    obtain ⟨d1, d2, d3, d4, d5⟩ := hd
    have hL : dataDepth - sectorStages = 475 := rfl
    have hlen : ∀ o : Option Word, o.toList.length ≤ 1 := by intro o; cases o <;> simp
    have l1 : s.rx.mem.length ≤ 1 := by rw [d3]; exact hlen _
    have l2 : s.tx.mem.length ≤ 1 := by
      rw [d4]
      split
      · simp
      · exact hlen _
    have a1 : s.rx.almostFull = false := by rw [d1.almostFull]; exact decide_eq_false (by omega)
    have a2 : s.tx.almostFull = false := by rw [d2.almostFull]; exact decide_eq_false (by omega)
    have hw : (if s.writes then some s.rx.rdata else none) = h 0 := by
      unfold ChainSector.writes
      cases e : h 0 with
      | none => rw [d1.empty, d3, e]; simp
      | some w =>
        rw [e] at d3
        have := d1.rdata w [] d3
        have hne := (hg 0 w e).1
        rw [d1.empty, d3, this, a2]
        simp [hne]
    have hwr : s.writes = (h 0).isSome := by rw [← hw]; cases s.writes <;> rfl
    have hin : (s.writes && !tileThere tiles s.rx.rdata) = false := by
      cases e : h 0 with
      | none => rw [hwr, e]; rfl
      | some w =>
        rw [e] at d3
        rw [d1.rdata w [] d3]
        obtain ⟨_, g1, g2⟩ := hg 0 w e
        unfold tileThere
        rw [decide_eq_true g1, decide_eq_true g2]
        simp
    have hoff : (if s.tx.empty then none else some s.tx.rdata) = if ss = [] then none else h 1 := by
      rw [d2.empty]
      by_cases hss : ss = []
      · rw [if_pos hss] at d4 ⊢
        rw [d4]
        rfl
      · rw [if_neg hss] at d4 ⊢
        cases e : h 1 with
        | none => rw [d4, e]; rfl
        | some w =>
          rw [e] at d4
          rw [d4, d2.rdata w [] d4]
          rfl
    obtain ⟨ws, ss', e1, e2, e3, e4⟩ := Delay.tick ss (if ss = [] then none else h 1) d5 (fun i w e => hg (i + 2) w e)
    obtain ⟨rx', r1, r2, r3⟩ := dsound_tick (limit := dataDepth - sectorStages) [] s.rx s.writes
      (by
        intro e
        rw [hwr] at e
        rw [d3]
        cases q : h 0 with
        | none => rw [q] at e; cases e
        | some w => simp)
      (if (o.isSome && !s.rx.almostFull) then o else none) (by intro _; have : dataDepth = 512 := rfl; omega)
    obtain ⟨tx', t1, t2, t3⟩ := dsound_tick (limit := dataDepth - sectorStages) [] s.tx ((if ss = [] then none else h 1).isSome && !ss.isEmpty)
      (by
        intro e
        rw [d4]
        by_cases hss : ss = []
        · rw [if_pos hss] at e; cases e
        · rw [if_neg hss] at e ⊢
          cases q : h 1 with
          | none => rw [q] at e; cases e
          | some w => simp)
      (if ss.isEmpty then none else h 0) (by intro _; have : dataDepth = 512 := rfl; omega)
    refine ⟨h 0 :: ws, ⟨rx', tx'⟩ :: ss', ?_, ⟨r2, t2, ?_, ?_, ?_⟩, ?_, by simp [e4]⟩
    · unfold chainTick
      simp only
      rw [if_neg (by rw [hin]; decide), hoff, e1]
      simp only
      rw [r1, hw, t1, a1]
      simp
    · show rx'.mem = o.toList
      rw [r3, a1, hwr, d3]
      cases h 0 <;> cases o <;> rfl
    · show tx'.mem = if ss' = [] then [] else (h 0).toList
      have hiff : ss' = [] ↔ ss = [] := by rw [← List.length_eq_zero_iff, e4, List.length_eq_zero_iff]
      rw [t3, d4]
      by_cases hss : ss = []
      · subst hss
        rw [if_pos (hiff.2 rfl)]
        rfl
      · rw [if_neg hss, if_neg hss, if_neg (fun e => hss (hiff.1 e))]
        have : ss.isEmpty = false := by
          cases ss with
          | nil => exact absurd rfl hss
          | cons a b => rfl
        rw [this]
        cases h 1 <;> rfl
    · show Delay tiles (fun i => push o h (i + 2)) ss'
      by_cases hss : ss = []
      · have : ss' = [] := List.eq_nil_of_length_eq_zero (by rw [e4, hss]; rfl)
        rw [this]
        trivial
      · have : (fun i => push o h (i + 2)) = push (h 1) (fun i => h (i + 2)) := by
          funext i
          cases i <;> rfl
        rw [this]
        rw [if_neg hss] at e2
        exact e2
    · intro k hk
      cases k with
      | zero => rfl
      | succ k =>
        rw [List.getElem?_cons_succ, e3 k (by simpa using hk)]
        rfl

theorem Delay.run {tiles : Nat} : ∀ (es : List (Option Word)) {ss : List ChainSector} {h : Nat → Option Word}, Delay tiles h ss → ss ≠ [] → (∀ i w, h i = some w → ChainGood tiles w) →
    (∀ w, some w ∈ es → ChainGood tiles w) →
    ∃ os ss', chainRun tiles es ss = .ok (os, ss') ∧ os.map (·.1) = es ∧
      ∀ t k, t < es.length → k < ss.length → (os[t]?).bind (fun o => o.2[k]?) = some (if t < 2 * k + 1 then h (2 * k - t) else (es[t - (2 * k + 1)]?).join)
  | [], ss, h, _, _, _, _ => ⟨[], ss, rfl, rfl, by intro t k ht; cases ht⟩
  | o :: es, ss, h, hd, hne, hg, he => by
    obtain ⟨ws, ss1, e1, e2, e3, e4⟩ := Delay.tick ss o hd hg
    have hg' : ∀ i w, push o h i = some w → ChainGood tiles w := by
      intro i w e
      cases i with
      | zero => exact he w (by rw [← e]; exact List.mem_cons_self ..)
      | succ i => exact hg i w e
    have hne1 : ss1 ≠ [] := by
      intro e
      rw [e] at e4
      exact hne (List.eq_nil_of_length_eq_zero e4.symm)
    obtain ⟨os, ss2, f1, f2, f3⟩ := Delay.run es e2 hne1 hg' (fun w hw => he w (List.mem_cons_of_mem _ hw))
    have hemp : ss.isEmpty = false := by
      cases ss with
      | nil => exact absurd rfl hne
      | cons a b => rfl
    have hto : (if o.isSome && !ss.isEmpty then o else none) = o := by rw [hemp]; cases o <;> rfl
    refine ⟨(o, ws) :: os, ss2, ?_, by rw [List.map_cons, f2], ?_⟩
    · rw [chainRun, e1]
      simp only
      rw [f1, hto]
    · intro t k ht hk
      cases t with
      | zero =>
        rw [List.getElem?_cons_zero, if_pos (by omega)]
        exact e3 k hk
      | succ t =>
        rw [List.getElem?_cons_succ, f3 t k (by simpa using ht) (by omega)]
        by_cases q : t < 2 * k + 1
        · rw [if_pos q]
          by_cases q' : t + 1 < 2 * k + 1
          · rw [if_pos q']
            obtain ⟨j, hj⟩ : ∃ j, 2 * k - t = j + 1 := ⟨2 * k - t - 1, by omega⟩
            rw [hj, show 2 * k - (t + 1) = j by omega]
            rfl
          · rw [if_neg q', show 2 * k - t = 0 by omega, show t + 1 - (2 * k + 1) = 0 by omega]
            rfl
        · rw [if_neg q, if_neg (by omega), show t + 1 - (2 * k + 1) = (t - (2 * k + 1)) + 1 by omega, List.getElem?_cons_succ]

theorem delay_reset (tiles : Nat) : ∀ n, Delay tiles (fun _ => none) (chainReset n)
  | 0 => trivial
  | n + 1 => ⟨⟨rfl, rfl, by intro m t h; cases h⟩, ⟨rfl, rfl, by intro m t h; cases h⟩, rfl, by show [] = _; split <;> rfl, delay_reset tiles n⟩

end RadSim.Npu
