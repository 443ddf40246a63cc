import Verif.Spec.DlrmEnd
import Verif.Lemmas.DlrmSchedule
import Verif.Lemmas.DlrmLookup

/-! From lookups to vectors: lemmas. -/
namespace RadSim.Dlrm

open Spec

theorem wanted_cons (pb : Nat → Nat) (c : Nat) (l : Lookup) (ls : List Lookup) :
    wanted pb c (l :: ls) =
      if l.channel = c then (pb c + l.base + l.index) % 2 ^ 64 :: wanted pb c ls
      else wanted pb c ls := by
  unfold wanted
  rw [List.filter_cons]
  by_cases h : l.channel = c
  · rw [if_pos h, if_pos (by simpa using h)]; rfl
  · rw [if_neg h, if_neg (by simpa using h)]

/-- An input asks as often of a channel as the channel has tables. -/
theorem wanted_length (pb : Nat → Nat) (c : Nat) : ∀ (tabs : List Tab) (ls : List Lookup),
    Matches tabs ls → (wanted pb c ls).length = tablesOn c tabs := by
  intro tabs
  induction tabs with
  | nil =>
    intro ls h
    unfold Matches at h
    rw [List.map_nil, List.map_eq_nil_iff] at h
    subst h
    rfl
  | cons t r ih =>
    intro ls h
    cases ls with
    | nil => cases h
    | cons l ls =>
      unfold Matches at h
      rw [List.map_cons, List.map_cons] at h
      injection h with h1 h2
      have := ih ls h2
      rw [wanted_cons]
      unfold tablesOn at this ⊢
      rw [List.filter_cons]
      by_cases hc : l.channel = c
      · rw [if_pos hc, if_pos (by simp; omega), List.length_cons, List.length_cons, this]
      · rw [if_neg hc, if_neg (by simp; omega), this]

/-- The contents of the streams are the words looked up. -/
theorem contents_looked (pb : Nat → Nat) (mem : Nat → Nat → Nat) (σ : Nat → Nat → Nat) :
    ∀ (tabs : List Tab) (ls : List Lookup) (pos : Nat → Nat), Matches tabs ls →
      (∀ t ∈ tabs, ∀ i a, (wanted pb (t.fifo - 1) ls)[i]? = some a →
        σ (t.fifo - 1) (pos (t.fifo - 1) + i) = mem (t.fifo - 1) a) →
      contents σ pos tabs = looked pb mem ls tabs := by
  intro tabs
  induction tabs with
  | nil => intro ls pos h _; cases ls <;> rfl
  | cons t r ih =>
    intro ls pos h hσ
    cases ls with
    | nil => cases h
    | cons l ls =>
      unfold Matches at h
      rw [List.map_cons, List.map_cons] at h
      injection h with h1 h2
      have hch : t.fifo - 1 = l.channel := by omega
      rw [contents, looked]
      congr 1
      · have := hσ t (by simp) 0 ((pb l.channel + l.base + l.index) % 2 ^ 64) (by
          rw [hch, wanted_cons, if_pos rfl]; rfl)
        rw [Nat.add_zero, hch] at this
        rw [hch, this]
      · apply ih ls _ h2
        intro u hu i a ha
        by_cases hc : l.channel = u.fifo - 1
        · have hu0 : t.fifo = u.fifo - 1 + 1 := by omega
          rw [if_pos hu0]
          have := hσ u (by simp [hu]) (i + 1) a (by
            rw [wanted_cons, if_pos hc, List.getElem?_cons_succ]; exact ha)
          rw [← this]
          congr 1
          omega
        · rw [if_neg (by omega)]
          exact hσ u (by simp [hu]) i a (by rw [wanted_cons, if_neg hc]; exact ha)

theorem wanted_flatten (pb : Nat → Nat) (c m : Nat) : ∀ (samples : List (List Lookup)),
    (∀ ls ∈ samples, (wanted pb c ls).length = m) → ∀ j ls, samples[j]? = some ls →
      ∀ i a, (wanted pb c ls)[i]? = some a →
        (wanted pb c samples.flatten)[j * m + i]? = some a := by
  intro samples
  induction samples with
  | nil => intro _ j ls h; cases h
  | cons x xs ih =>
    intro h j ls hj i a ha
    rw [List.flatten_cons, wanted_append]
    have hx := h x (by simp)
    cases j with
    | zero =>
      cases hj
      rw [Nat.zero_mul, Nat.zero_add, List.getElem?_append_left
        (List.getElem?_eq_some_iff.mp ha).1]
      exact ha
    | succ j =>
      rw [List.getElem?_cons_succ] at hj
      have := ih (fun y hy => h y (by simp [hy])) j ls hj i a ha
      rw [List.getElem?_append_right (by rw [hx, Nat.add_mul]; omega), hx, Nat.add_mul, Nat.one_mul,
        show j * m + m + i - m = j * m + i by omega]
      exact this

/-- The chunk `q` of a list of chunks of equal length. -/
theorem chunk_get (f : Nat → List Nat) (nd : Nat) : ∀ P, (∀ q < P, (f q).length = nd) →
    ∀ q < P, ∀ e < nd, ((List.range P).flatMap f)[q * nd + e]? = (f q)[e]? := by
  intro P
  induction P with
  | zero => intro _ q hq; omega
  | succ P ih =>
    intro h q hq e he
    have hlen : ((List.range P).flatMap f).length = P * nd := by
      have : ∀ Q ≤ P, ((List.range Q).flatMap f).length = Q * nd := by
        intro Q
        induction Q with
        | zero => intro _; simp
        | succ Q ihQ =>
          intro hQ
          rw [List.range_succ, List.flatMap_append, List.length_append, ihQ (by omega), Nat.add_mul,
            List.flatMap_cons, List.flatMap_nil, List.append_nil, h Q (by omega), Nat.one_mul]
      exact this P (Nat.le_refl _)
    rw [List.range_succ, List.flatMap_append, List.flatMap_cons, List.flatMap_nil, List.append_nil]
    rcases Nat.lt_or_ge q P with hlt | hge
    · have : (q + 1) * nd ≤ P * nd := Nat.mul_le_mul_right _ hlt
      rw [Nat.add_mul, Nat.one_mul] at this
      rw [List.getElem?_append_left (by omega)]
      exact ih (fun q hq => h q (by omega)) q hlt e he
    · have : q = P := by omega
      subst this
      rw [List.getElem?_append_right (by omega), hlen, Nat.add_sub_cancel_left]

/-- A step of a table comes before the pop of that table. -/
theorem step_before_pop (nd : Nat) (hnd : 0 < nd) : ∀ (tabs : List Tab),
    (∀ t ∈ tabs, 0 < t.fifo ∧ 0 < t.row.len ∧ (nd < t.row.len → t.row.len % nd = 0)) →
    ∀ (a b : Inst) (st : Step), tabs.flatMap (tabSteps nd) = a ++ st :: b →
      popsIn (st.fifo - 1) a < tablesOn (st.fifo - 1) tabs := by
  intro tabs
  induction tabs with
  | nil => intro _ a b st h; cases a <;> cases h
  | cons t r ih =>
    intro h a b st hab
    obtain ⟨h3, h1, hw⟩ := h t (by simp)
    have hr := fun x (hx : x ∈ r) => h x (by simp [hx])
    have hpt := (tabSteps_ok (fun _ _ => 0) nd hnd t h3 h1 hw (fun _ => 0)).2
    have hon : ∀ c, tablesOn c (t :: r) = (if t.fifo = c + 1 then 1 else 0) + tablesOn c r := by
      intro c
      unfold tablesOn
      rw [List.filter_cons]
      by_cases hc : t.fifo = c + 1
      · rw [if_pos hc, if_pos (by simp [hc]), List.length_cons]; omega
      · rw [if_neg hc, if_neg (by simpa using hc)]; omega
    rw [List.flatMap_cons] at hab
    rw [List.append_eq_append_iff] at hab
    rcases hab with ⟨a', ha, hb⟩ | ⟨b', ha, hb⟩
    · -- the step belongs to a later table
      have := ih hr a' b st hb
      rw [ha, popsIn_append, hpt, hon]
      omega
    · -- the step belongs to this table, or is the first of the rest
      cases b' with
      | nil =>
        rw [List.append_nil] at ha
        rw [List.nil_append] at hb
        have := ih hr [] b st hb.symm
        have h0 : popsIn (st.fifo - 1) ([] : Inst) = 0 := rfl
        rw [← ha, hpt, hon]
        omega
      | cons x b' =>
        rw [List.cons_append] at hb
        injection hb with hb1 hb2
        subst hb1
        have hfifo : st.fifo = t.fifo := by
          have hmem : st ∈ tabSteps nd t := by rw [ha]; simp
          unfold tabSteps at hmem
          split at hmem
          · obtain ⟨i, -, rfl⟩ := List.mem_map.mp hmem
            rfl
          · rw [List.mem_singleton.mp hmem]
        -- the pop of this table is its last step
        have hlast : popsIn (st.fifo - 1) a = 0 := by
          unfold tabSteps at ha
          split at ha
          · have hlen := congrArg List.length ha
            rw [List.length_map, List.length_range, List.length_append, List.length_cons] at hlen
            have hpre : a = (List.range a.length).map (part nd t (t.row.len / nd)) := by
              have := congrArg (List.take a.length) ha
              rw [List.take_left', ← List.map_take, List.take_range] at this
              · rw [show min a.length (t.row.len / nd) = a.length by omega] at this
                exact this.symm
              · rfl
            have := (assemble_parts (fun _ _ => 0) nd hnd t (t.row.len / nd) h3 a.length
              (fun _ => 0) (by omega)).2 (st.fifo - 1)
            rw [← hpre, if_neg (by omega)] at this
            exact this
          · cases a with
            | nil => rfl
            | cons y ys =>
              injection ha with _ ha
              cases ys <;> cases ha
        rw [hlast, hon, if_pos (by omega)]
        omega

end RadSim.Dlrm
