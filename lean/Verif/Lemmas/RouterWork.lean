import Verif.Lemmas.RouterSa

/-! # A measure of the work a router has left -/

namespace RadSim.Router

variable {δ σ τ ρ ρ' : Type}

/-- The steps before the front packet of a virtual channel may use the switch. -/
def stage : St → Nat
  | .routing => 2
  | .vcAlloc => 1
  | _ => 0

/-- The work left in a virtual channel. -/
def weight (x : Vc δ) : Int := 4 * x.q.length + stage x.st

/-- The work left in the buffers. -/
def work (c : Cfg) (vcs : Nat → Nat → Vc δ) : Int := sumTo c.inputs fun i => sumTo c.vcs fun v => weight (vcs i v)

theorem work_set (c : Cfg) (vcs : Nat → Nat → Vc δ) {i v : Nat} (hi : i < c.inputs) (hv : v < c.vcs) (x : Vc δ) :
    work c (upd vcs i (upd (vcs i) v x)) = work c vcs - weight (vcs i v) + weight x := by
  unfold work
  have h1 : (fun i' => sumTo c.vcs fun v' => weight (upd vcs i (upd (vcs i) v x) i' v')) =
      upd (fun i' => sumTo c.vcs fun v' => weight (vcs i' v')) i
        ((sumTo c.vcs fun v' => weight (vcs i v')) - weight (vcs i v) + weight x) := by
    funext i'
    simp only [upd_apply]
    split
    · have : (fun v' => weight (upd (vcs i) v x v')) = upd (fun v' => weight (vcs i v')) v (weight x) := by
        funext v'
        simp only [upd_apply]
        split <;> rfl
      rw [this, sumTo_upd _ _ _ hv]
      omega
    · rfl
  rw [h1, sumTo_upd _ _ _ hi]
  omega

theorem work_nonneg (c : Cfg) (vcs : Nat → Nat → Vc δ) : 0 ≤ work c vcs := by
  unfold work
  apply sumTo_nonneg
  intro i _
  apply sumTo_nonneg
  intro v _
  unfold weight
  omega

theorem frontOk_range {c : Cfg} {s : R δ σ τ} {i v : Nat} {st : St} (h : frontOk c s i v st = true) :
    i < c.inputs ∧ v < c.vcs ∧ (s.vcs i v).st = st := by
  simp only [frontOk, Bool.and_eq_true, decide_eq_true_eq] at h
  exact ⟨h.1.1.1, h.1.1.2, h.1.2⟩

theorem of_require {α : Type} {b : Bool} {e : Err} {k : Except Err α} {x : α} (h : require b e k = .ok x) :
    b = true ∧ k = .ok x := by
  unfold require at h
  split at h
  · exact ⟨by assumption, h⟩
  · cases h

theorem routeUpd_work {c : Cfg} {now : Int} (hnow : 0 ≤ now) {rf : Nat → Flit δ → List Hop} (l : List Wait)
    {s s' : R δ σ τ} (hl : ∀ w ∈ l, w.time = now) (h : routeUpd c now rf s l = .ok s') :
    work c s'.vcs + l.length = work c s.vcs := by
  induction l generalizing s with
  | nil => simp only [routeUpd, Except.ok.injEq] at h; subst h; simp
  | cons w l ih =>
    have ht := hl w (by simp)
    unfold routeUpd at h
    rw [if_neg (by omega)] at h
    obtain ⟨_, h⟩ := of_require h
    obtain ⟨hf, h⟩ := of_require h
    obtain ⟨h1, h2, h3⟩ := frontOk_range hf
    split at h
    · cases h
    · have := ih (fun w hw => hl w (by simp [hw])) h
      simp only [R.setVc] at this
      rw [work_set c s.vcs h1 h2] at this
      simp only [weight, h3, stage] at this
      simp only [List.length_cons]
      push_cast
      omega

theorem vaUpd_work {c : Cfg} {now : Int} (hnow : 0 ≤ now) (A B : List Wait) {s s' : R δ σ τ}
    (hA : ∀ w ∈ A, w.time = now) (hB : Fresh B) (h : vaUpd c now s (A ++ B) = .ok s') :
    work c s'.vcs ≤ work c s.vcs ∧ ((∃ w ∈ A, ∃ o, w.res = .got o) → work c s'.vcs < work c s.vcs) := by
  induction A generalizing s with
  | nil =>
    refine ⟨?_, by simp⟩
    cases B with
    | nil => simp only [List.append_nil, vaUpd, Except.ok.injEq] at h; subst h; exact Int.le_refl _
    | cons w B =>
      have := (hB w (by simp)).1
      simp only [List.nil_append, vaUpd] at h
      rw [if_pos (by omega)] at h
      cases h
      exact Int.le_refl _
  | cons w A ih =>
    have ht := hA w (by simp)
    simp only [List.cons_append] at h
    unfold vaUpd at h
    rw [if_neg (by omega)] at h
    obtain ⟨_, h⟩ := of_require h
    obtain ⟨hf, h⟩ := of_require h
    obtain ⟨h1, h2, h3⟩ := frontOk_range hf
    cases hres : w.res with
    | pending => rw [hres] at h; cases h
    | stall =>
      rw [hres] at h
      have := ih (fun w hw => hA w (by simp [hw])) h
      refine ⟨this.1, ?_⟩
      rintro ⟨w', hw', o, hr⟩
      rcases List.mem_cons.1 hw' with rfl | hw'
      · rw [hres] at hr; cases hr
      · exact this.2 ⟨w', hw', o, hr⟩
    | got ow =>
      rw [hres] at h
      simp only [] at h
      split at h
      · cases h
      · rename_i s1 hacq
        have := (ih (fun w hw => hA w (by simp [hw])) h).1
        unfold acquire at hacq
        obtain ⟨_, hacq⟩ := of_require hacq
        obtain ⟨_, hacq⟩ := of_require hacq
        split at hacq
        · cases hacq
        · cases hacq
          simp only [R.setVc] at this
          rw [work_set c s.vcs h1 h2] at this
          simp only [weight, h3, stage] at this
          refine ⟨by omega, fun _ => by omega⟩

theorem forward_work {c : Cfg} {s s' : R δ σ τ} {i v o : Nat} (hi : i < c.inputs) (hv : v < c.vcs)
    (hst : (s.vcs i v).st = .active) (h : forward c s i v o = .ok s') :
    work c s'.vcs + 2 ≤ work c s.vcs ∧ s'.xbQ.length = s.xbQ.length + 1 := by
  unfold forward at h
  split at h
  · rename_i f q o' u hq ho
    obtain ⟨_, h⟩ := of_require h
    obtain ⟨_, h⟩ := of_require h
    obtain ⟨_, h⟩ := of_require h
    split at h
    · cases h
    · rename_i b _
      have hw0 : work c (leave s i v f q o u b).vcs = work c s.vcs - 4 := by
        simp only [leave, R.setVc]
        rw [work_set c s.vcs hi hv]
        simp only [weight, hq, List.length_cons]
        push_cast
        omega
      have hx0 : (leave s i v f q o u b).xbQ.length = s.xbQ.length + 1 := by simp [leave]
      have hl : (leave s i v f q o u b).vcs i v = { s.vcs i v with q := q } := by
        simp [leave, setVc_apply]
      unfold follow at h
      split at h
      · simp only [Except.ok.injEq] at h
        split at h
        · subst h
          refine ⟨?_, hx0⟩
          simp only [R.setVc]
          rw [work_set c _ hi hv, hw0, hl]
          simp only [weight, stage, hst]
          omega
        · subst h
          exact ⟨by omega, hx0⟩
      · obtain ⟨_, h⟩ := of_require h
        split at h
        · obtain ⟨_, h⟩ := of_require h
          cases h
          refine ⟨?_, hx0⟩
          simp only [R.setVc]
          rw [work_set c _ hi hv, hw0, hl]
          simp only [weight, stage, hst]
          omega
        · cases h
          exact ⟨by simp only; omega, hx0⟩
  · cases h

theorem saUpd_work {c : Cfg} {now : Int} (hnow : 0 ≤ now) (A B : List Wait) {s s' : R δ σ τ}
    (hA : ∀ w ∈ A, w.time = now) (hB : Fresh B) (h : saUpd c now s (A ++ B) = .ok s') :
    work c s'.vcs + 2 * s'.xbQ.length ≤ work c s.vcs + 2 * s.xbQ.length ∧ s.xbQ.length ≤ s'.xbQ.length ∧
      ((∃ w ∈ A, ∃ o, w.res = .got o) → s.xbQ.length < s'.xbQ.length) := by
  induction A generalizing s with
  | nil =>
    cases B with
    | nil => simp only [List.append_nil, saUpd, Except.ok.injEq] at h; subst h; simp
    | cons w B =>
      have := (hB w (by simp)).1
      simp only [List.nil_append, saUpd] at h
      rw [if_pos (by omega)] at h
      cases h
      simp
  | cons w A ih =>
    have ht := hA w (by simp)
    simp only [List.cons_append] at h
    unfold saUpd at h
    rw [if_neg (by omega)] at h
    obtain ⟨_, h⟩ := of_require h
    obtain ⟨hf, h⟩ := of_require h
    obtain ⟨h1, h2, h3⟩ := frontOk_range hf
    cases hres : w.res with
    | got o =>
      rw [hres] at h
      simp only [] at h
      split at h
      · cases h
      · rename_i s1 hfw
        obtain ⟨k1, k2⟩ := forward_work h1 h2 h3 hfw
        have := ih (fun w hw => hA w (by simp [hw])) h
        refine ⟨by omega, by omega, fun _ => by omega⟩
    | pending =>
      rw [hres] at h
      have := ih (fun w hw => hA w (by simp [hw])) h
      refine ⟨this.1, this.2.1, ?_⟩
      rintro ⟨w', hw', o, hr⟩
      rcases List.mem_cons.1 hw' with rfl | hw'
      · rw [hres] at hr; cases hr
      · exact this.2.2 ⟨w', hw', o, hr⟩
    | stall =>
      rw [hres] at h
      have := ih (fun w hw => hA w (by simp [hw])) h
      refine ⟨this.1, this.2.1, ?_⟩
      rintro ⟨w', hw', o, hr⟩
      rcases List.mem_cons.1 hw' with rfl | hw'
      · rw [hres] at hr; cases hr
      · exact this.2.2 ⟨w', hw', o, hr⟩

/-- Some virtual channel can make a step in the next tick. -/
def Ready (c : Cfg) (s : R δ σ τ) : Prop :=
  s.routeQ ≠ [] ∨ (∃ w ∈ s.vaQ, vaAsks c s w.i w.v ≠ []) ∨
    ∃ w ∈ s.saQ, ∃ o u, (s.vcs w.i w.v).out = some (o, u) ∧ blocked c s o u = false

end RadSim.Router
