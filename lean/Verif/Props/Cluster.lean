import Verif.Model.Cluster

/-! # Properties of the main loop (C54, C58) -/

namespace RadSim.Cluster

/-- RAD `r` reported completion before time `t`. -/
def DoneBy (calls : Nat → List Call) (r t : Nat) : Prop := ∃ s < t, Call.done r ∈ calls s

/-- RAD `r` reported a failure before time `t`. -/
def FailedBy (calls : Nat → List Call) (r t : Nat) : Prop := ∃ s < t, Call.failure r ∈ calls s

/-- The state reflects exactly the reports made before `t`. -/
structure Reflects (calls : Nat → List Call) (n t : Nat) (s : State) : Prop where
  dlen : s.radDone.length = n
  elen : s.exitCode.length = n
  dn : ∀ r < n, (s.radDone[r]? = some true ∧ DoneBy calls r t) ∨
    (s.radDone[r]? = some false ∧ ¬ DoneBy calls r t)
  ex : ∀ r < n, (s.exitCode[r]? = some 1 ∧ FailedBy calls r t) ∨
    (s.exitCode[r]? = some 0 ∧ ¬ FailedBy calls r t)

theorem notDone_iff (l : List Bool) : allRadsNotDone l = true ↔ ∃ r < l.length, l[r]? = some false := by
  induction l with
  | nil => simp [allRadsNotDone]
  | cons d l ih =>
    unfold allRadsNotDone
    cases d with
    | false => exact ⟨fun _ => ⟨0, by simp, rfl⟩, fun _ => rfl⟩
    | true =>
      simp only [Bool.not_true, Bool.false_eq_true, if_false]
      rw [ih]
      constructor
      · rintro ⟨r, h1, h2⟩; exact ⟨r + 1, by simpa using h1, by simpa using h2⟩
      · rintro ⟨r, h1, h2⟩
        cases r with
        | zero => cases h2
        | succ r => exact ⟨r, by simpa using h1, by simpa using h2⟩

theorem call_dones (cs : List Call) : ∀ (s : State) (r : Nat),
    (cs.foldl call s).radDone.length = s.radDone.length ∧
    (cs.foldl call s).exitCode.length = s.exitCode.length ∧
    (cs.foldl call s).radDone[r]? =
      (if r < s.radDone.length ∧ Call.done r ∈ cs then some true else s.radDone[r]?) ∧
    (cs.foldl call s).exitCode[r]? =
      (if r < s.exitCode.length ∧ Call.failure r ∈ cs then some 1 else s.exitCode[r]?) := by
  induction cs with
  | nil => intro s r; simp
  | cons c cs ih =>
    intro s r
    rw [List.foldl_cons]
    obtain ⟨h1, h2, h3, h4⟩ := ih (call s c) r
    cases c with
    | done q =>
      simp only [call, List.length_set] at h1 h2 h3 h4
      refine ⟨h1, h2, h3.trans ?_, h4.trans ?_⟩
      · simp only [List.getElem?_set, List.mem_cons, Call.done.injEq]
        by_cases hq : q = r
        · subst hq
          by_cases hl : q < s.radDone.length <;> simp [hl]
        · have : ¬ r = q := fun e => hq e.symm
          simp [hq, this]
      · by_cases hx : Call.failure r ∈ cs <;> simp [hx]
    | failure q =>
      simp only [call, List.length_set] at h1 h2 h3 h4
      refine ⟨h1, h2, h3.trans ?_, h4.trans ?_⟩
      · by_cases hx : Call.done r ∈ cs <;> simp [hx]
      · simp only [List.getElem?_set, List.mem_cons, Call.failure.injEq]
        by_cases hq : q = r
        · subst hq
          by_cases hl : q < s.exitCode.length <;> simp [hl]
        · have : ¬ r = q := fun e => hq e.symm
          simp [hq, this]

theorem reflects_init (calls : Nat → List Call) (n : Nat) : Reflects calls n 0 (init n) := by
  refine ⟨by simp [init], by simp [init], ?_, ?_⟩ <;>
    (intro r hr; refine .inr ⟨by simp [init, hr], ?_⟩; rintro ⟨s, hs, -⟩; omega)

theorem reflects_step (calls : Nat → List Call) (n t : Nat) (s : State) (h : Reflects calls n t s) :
    Reflects calls n (t + 1) ((calls t).foldl call s) := by
  have hc := call_dones (calls t) s
  refine ⟨(hc 0).1.trans h.dlen, (hc 0).2.1.trans h.elen, ?_, ?_⟩
  · intro r hr
    rw [(hc r).2.2.1]
    by_cases hm : Call.done r ∈ calls t
    · rw [if_pos ⟨by rw [h.dlen]; exact hr, hm⟩]
      exact .inl ⟨rfl, t, by omega, hm⟩
    · rw [if_neg (fun q => hm q.2)]
      rcases h.dn r hr with ⟨h1, q, hq, h2⟩ | ⟨h1, h2⟩
      · exact .inl ⟨h1, q, by omega, h2⟩
      · refine .inr ⟨h1, ?_⟩
        rintro ⟨q, hq, h3⟩
        by_cases e : q = t
        · subst e; exact hm h3
        · exact h2 ⟨q, by omega, h3⟩
  · intro r hr
    rw [(hc r).2.2.2]
    by_cases hm : Call.failure r ∈ calls t
    · rw [if_pos ⟨by rw [h.elen]; exact hr, hm⟩]
      exact .inl ⟨rfl, t, by omega, hm⟩
    · rw [if_neg (fun q => hm q.2)]
      rcases h.ex r hr with ⟨h1, q, hq, h2⟩ | ⟨h1, h2⟩
      · exact .inl ⟨h1, q, by omega, h2⟩
      · refine .inr ⟨h1, ?_⟩
        rintro ⟨q, hq, h3⟩
        by_cases e : q = t
        · subst e; exact hm h3
        · exact h2 ⟨q, by omega, h3⟩

theorem reflects_notDone (calls : Nat → List Call) (n t : Nat) (s : State) (h : Reflects calls n t s) :
    allRadsNotDone s.radDone = true ↔ ∃ r < n, ¬ DoneBy calls r t := by
  rw [notDone_iff, h.dlen]
  constructor
  · rintro ⟨r, hr, e⟩
    rcases h.dn r hr with ⟨h1, h2⟩ | ⟨-, h2⟩
    · rw [e] at h1; cases h1
    · exact ⟨r, hr, h2⟩
  · rintro ⟨r, hr, e⟩
    rcases h.dn r hr with ⟨-, h2⟩ | ⟨h1, -⟩
    · exact absurd h2 e
    · exact ⟨r, hr, h1⟩

theorem loop_spec (calls : Nat → List Call) (n : Nat) : ∀ (fuel t : Nat) (s : State), Reflects calls n t s →
    (∀ T s', loop calls fuel t s = some (T, s') →
      t ≤ T ∧ Reflects calls n T s' ∧ (∀ r < n, DoneBy calls r T) ∧
        ∀ u, t ≤ u → u < T → ∃ r < n, ¬ DoneBy calls r u) ∧
    (loop calls fuel t s = none → ∃ r < n, ¬ DoneBy calls r (t + fuel)) := by
  have stop : ∀ t s, Reflects calls n t s → ¬ allRadsNotDone s.radDone = true →
      ∀ r < n, DoneBy calls r t := by
    intro t s h hn r hr
    exact Classical.byContradiction fun hd => hn ((reflects_notDone calls n t s h).mpr ⟨r, hr, hd⟩)
  intro fuel
  induction fuel with
  | zero =>
    intro t s h
    unfold loop
    by_cases hn : allRadsNotDone s.radDone = true
    · rw [if_pos hn]
      exact ⟨fun _ _ e => (nomatch e), fun _ => (reflects_notDone calls n t s h).mp hn⟩
    · rw [if_neg hn]
      refine ⟨?_, fun e => by cases e⟩
      intro T s' e
      cases e
      exact ⟨Nat.le_refl _, h, stop t s h hn, fun u h1 h2 => by omega⟩
  | succ fuel ih =>
    intro t s h
    unfold loop
    by_cases hn : allRadsNotDone s.radDone = true
    · rw [if_pos hn]
      obtain ⟨i1, i2⟩ := ih (t + 1) _ (reflects_step calls n t s h)
      refine ⟨?_, ?_⟩
      · intro T s' e
        obtain ⟨a, b, c, d⟩ := i1 T s' e
        refine ⟨by omega, b, c, ?_⟩
        intro u h1 h2
        by_cases hu : u = t
        · subst hu; exact (reflects_notDone calls n u s h).mp hn
        · exact d u (by omega) h2
      · intro e
        have := i2 e
        rwa [show t + 1 + fuel = t + (fuel + 1) by omega] at this
    · rw [if_neg hn]
      refine ⟨?_, fun e => by cases e⟩
      intro T s' e
      cases e
      exact ⟨Nat.le_refl _, h, stop t s h hn, fun u h1 h2 => by omega⟩

/-- **C54.** The simulation stops at time `T` exactly when all RADs have reported completion before `T`
and at no earlier time this was so. -/
theorem C54_stops_when_all_done (calls : Nat → List Call) (n T : Nat) :
    (∃ fuel s, simulate calls n fuel = some (T, s)) ↔
      (∀ r < n, DoneBy calls r T) ∧ ∀ u < T, ∃ r < n, ¬ DoneBy calls r u := by
  constructor
  · rintro ⟨fuel, s, h⟩
    obtain ⟨-, -, h3, h4⟩ := (loop_spec calls n fuel 0 _ (reflects_init calls n)).1 T s h
    exact ⟨h3, fun u hu => h4 u (Nat.zero_le _) hu⟩
  · rintro ⟨h1, h2⟩
    obtain ⟨i1, i2⟩ := loop_spec calls n T 0 _ (reflects_init calls n)
    cases hs : simulate calls n T with
    | none =>
      obtain ⟨r, hr, hd⟩ := i2 hs
      rw [Nat.zero_add] at hd
      exact absurd (h1 r hr) hd
    | some p =>
      obtain ⟨T', s⟩ := p
      obtain ⟨-, -, h3, h4⟩ := i1 T' s hs
      have e : T' = T := by
        rcases Nat.lt_trichotomy T' T with hlt | he | hgt
        · obtain ⟨r, hr, hd⟩ := h2 T' hlt
          exact absurd (h3 r hr) hd
        · exact he
        · obtain ⟨r, hr, hd⟩ := h4 T (Nat.zero_le _) hgt
          exact absurd (h1 r hr) hd
      subst e
      exact ⟨T', s, hs⟩

/-- **C54.** The simulation ends if and only if every RAD reports completion at some time. -/
theorem C54_terminates_iff (calls : Nat → List Call) (n : Nat) :
    (∃ fuel, simulate calls n fuel ≠ none) ↔ ∀ r < n, ∃ t, Call.done r ∈ calls t := by
  constructor
  · rintro ⟨fuel, h⟩ r hr
    cases hs : simulate calls n fuel with
    | none => exact absurd hs h
    | some p =>
      obtain ⟨s, -, hs⟩ := ((C54_stops_when_all_done calls n p.1).mp ⟨fuel, p.2, hs⟩).1 r hr
      exact ⟨s, hs⟩
  · intro h
    have bound : ∃ B, ∀ r < n, DoneBy calls r B := by
      induction n with
      | zero => exact ⟨0, fun r hr => absurd hr (by omega)⟩
      | succ n ih =>
        obtain ⟨B, hB⟩ := ih fun r hr => h r (by omega)
        obtain ⟨t, ht⟩ := h n (by omega)
        refine ⟨max B (t + 1), ?_⟩
        intro r hr
        by_cases e : r = n
        · subst e; exact ⟨t, by omega, ht⟩
        · obtain ⟨s, hs, hd⟩ := hB r (by omega)
          exact ⟨s, by omega, hd⟩
    obtain ⟨B, hB⟩ := bound
    refine ⟨B, ?_⟩
    intro hs
    obtain ⟨r, hr, hd⟩ := (loop_spec calls n B 0 _ (reflects_init calls n)).2 hs
    rw [Nat.zero_add] at hd
    exact hd (hB r hr)

/-- Two RADs: RAD 1 completes first and fails, RAD 0 completes later. -/
def sampleCalls : Nat → List Call
  | 2 => [.failure 1, .done 1]
  | 4 => [.done 0]
  | 6 => [.failure 0]
  | _ => []

example : ∃ s, simulate sampleCalls 2 10 = some (5, s) ∧ mainResult s = some 0 := ⟨_, rfl, rfl⟩

/-- **C58**, the part that holds: the exit code is 1 if RAD 0 reported a failure before the end, else 0.
Missing: reports of the other RADs. -/
theorem C58_exit_code_of_rad_zero_partial (calls : Nat → List Call) (n fuel T : Nat) (s : State) (hn : 0 < n)
    (h : simulate calls n fuel = some (T, s)) :
    (mainResult s = some 1 ↔ FailedBy calls 0 T) ∧ (mainResult s = some 0 ↔ ¬ FailedBy calls 0 T) := by
  obtain ⟨-, hr, -, -⟩ := (loop_spec calls n fuel 0 _ (reflects_init calls n)).1 T s h
  unfold mainResult
  rcases hr.ex 0 hn with ⟨h1, h2⟩ | ⟨h1, h2⟩ <;> simp [h1, h2]

example : ∃ s, simulate (fun t => if t = 1 then [.failure 0, .done 1] else if t = 3 then [.done 0] else [])
    2 10 = some (4, s) ∧ mainResult s = some 1 := ⟨_, rfl, rfl⟩

/-- **C58** is false for RADs other than RAD 0: whatever failures they report, the simulation ends with
exit code 0 when RAD 0 reports none. -/
theorem C58_other_rads_ignored_violated :
    (∀ (calls : Nat → List Call) (n fuel T : Nat) (s : State), 0 < n →
      simulate calls n fuel = some (T, s) → ¬ FailedBy calls 0 T → mainResult s = some 0) ∧
    ∃ s, simulate sampleCalls 2 10 = some (5, s) ∧ FailedBy sampleCalls 1 5 ∧ mainResult s = some 0 :=
  ⟨fun calls n fuel T s hn h hf => (C58_exit_code_of_rad_zero_partial calls n fuel T s hn h).2.mpr hf,
   _, rfl, ⟨2, by decide, by decide⟩, rfl⟩

end RadSim.Cluster
