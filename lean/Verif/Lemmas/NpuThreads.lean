import Verif.Spec.NpuThreads
import Verif.Lemmas.NpuDecode

/-!
# The choice of the thread: lemmas -/

namespace RadSim.Npu

/-- The outputs of a FIFO agree with its contents. -/
structure Told (f : Fifo MvuUop) : Prop where
  empty : f.empty = f.mem.isEmpty
  rdata : ∀ u t, f.mem = u :: t → f.rdata = u

theorem Told.tick {f f' : Fifo MvuUop} {ren : Bool} {e : Option MvuUop} (h : f.tick mopLimit .default ren e = some f') :
    Told f' ∧ f'.mem = (if ren then f.mem.tail else f.mem) ++ e.toList ∧ (ren = true → f.mem ≠ []) := by
  unfold Fifo.tick at h
  split at h
  · cases h
  · rename_i h1
    have h2 : ren = true → f.mem ≠ [] := fun a b => h1 ⟨a, b⟩
    generalize hm : (if ren then f.mem.tail else f.mem) = m1 at *
    cases e with
    | none =>
      simp only [Option.some.injEq] at h
      subst h
      exact ⟨⟨rfl, headD_sound _ _⟩, by simp, h2⟩
    | some x =>
      by_cases hl : mopLimit < m1.length
      · simp only [if_pos hl] at h
        cases h
      · simp only [if_neg hl] at h
        simp only [Option.some.injEq] at h
        subst h
        exact ⟨⟨rfl, headD_sound _ _⟩, by simp, h2⟩

theorem tickFifos_get {i : ThreadsIn} {ren : Option Nat} : ∀ (fs : List (Fifo MvuUop)) {k : Nat} {fs' : List (Fifo MvuUop)},
    tickFifos i ren k fs = some fs' → fs'.length = fs.length ∧ ∀ (th : Nat) (f : Fifo MvuUop), fs[th]? = some f → ∃ f', fs'[th]? = some f' ∧
      Told f' ∧ f'.mem = (if ren = some (k + th) then f.mem.tail else f.mem) ++ (i.push (k + th)).toList
  | [], k, fs', h => by
    simp only [tickFifos, Option.some.injEq] at h
    subst h
    exact ⟨rfl, fun th f h => by simp at h⟩
  | f :: fs, k, fs', h => by
    unfold tickFifos at h
    split at h
    · rename_i f' fs'' e1 e2
      simp only [Option.some.injEq] at h
      subst h
      obtain ⟨g1, g2⟩ := tickFifos_get fs e2
      refine ⟨by simp [g1], ?_⟩
      intro th f0 hf
      cases th with
      | zero =>
        simp only [List.getElem?_cons_zero, Option.some.injEq] at hf
        subst hf
        obtain ⟨t1, t2, _⟩ := Told.tick e1
        refine ⟨f', rfl, t1, ?_⟩
        rw [t2]
        simp
      | succ th =>
        rw [List.getElem?_cons_succ] at hf
        obtain ⟨f1, t1, t2, t3⟩ := g2 th f0 hf
        refine ⟨f1, by simpa using t1, t2, ?_⟩
        rw [t3, show k + 1 + th = k + (th + 1) by omega]
    · cases h

/-- All FIFOs tell what they hold, and there are four. -/
structure Threads.Sane (s : Threads) : Prop where
  len : s.fifos.length = 4
  told : ∀ f ∈ s.fifos, Told f

theorem Threads.reset_sane (r : MvuUop) : (Threads.reset r).Sane := by
  refine ⟨rfl, fun f hf => ?_⟩
  obtain rfl := List.eq_of_mem_replicate hf
  exact ⟨rfl, fun u t h => by cases h⟩

/-- What a thread holds. -/
def Threads.held (s : Threads) (th : Nat) : List MvuUop := ((s.fifos[th]?).map (·.mem)).getD []

theorem Threads.Sane.ready {s : Threads} (h : s.Sane) (i : ThreadsIn) (th : Nat) :
    s.ready i th = match s.held th with | [] => false | u :: _ => decide (u.tag ≤ i.tag th) := by
  unfold Threads.ready Threads.held
  cases hf : s.fifos[th]? with
  | none => rfl
  | some f =>
    obtain ⟨h1, h2⟩ := h.told f (List.mem_of_getElem? hf)
    simp only [Option.map_some, Option.getD_some]
    cases hm : f.mem with
    | nil => rw [h1, hm]; rfl
    | cons u t => rw [h1, h2 u t hm, hm]; rfl

theorem Threads.Sane.issue {s : Threads} (h : s.Sane) (i : ThreadsIn) :
    s.issue i = if i.stall then none else match s.held s.active with
      | [] => none
      | u :: _ => if u.tag ≤ i.tag s.active then some (s.active, u) else none := by
  unfold Threads.issue
  rw [h.ready]
  cases i.stall
  · simp only [Bool.not_false, Bool.true_and, Bool.false_eq_true, if_false]
    cases hm : s.held s.active with
    | nil => rfl
    | cons u t =>
      simp only [decide_eq_true_eq]
      split
      · unfold Threads.held at hm
        cases hf : s.fifos[s.active]? with
        | none => rw [hf] at hm; cases hm
        | some f =>
          rw [hf] at hm
          obtain ⟨_, h2⟩ := h.told f (List.mem_of_getElem? hf)
          rw [Option.map_some, h2 u t hm]
      · rfl
  · rfl

theorem Threads.Sane.tick {s s' : Threads} {i : ThreadsIn} {o : Option (Nat × MvuUop)} (h : s.Sane) (ht : s.tick i = some (o, s')) :
    s'.Sane ∧ o = s.issue i ∧
      ∀ th, th < 4 → s'.held th = (if (s.issue i).map (·.1) = some th then (s.held th).tail else s.held th) ++ (i.push th).toList := by
  unfold Threads.tick at ht
  split at ht
  · cases ht
  · rename_i fs hfs
    obtain ⟨g1, g2⟩ := tickFifos_get _ hfs
    have key : ∀ (t : Threads), t.fifos = fs → t.Sane ∧ ∀ th, th < 4 →
        t.held th = (if (s.issue i).map (·.1) = some th then (s.held th).tail else s.held th) ++ (i.push th).toList := by
      intro t e
      refine ⟨⟨by rw [e, g1, h.len], ?_⟩, ?_⟩
      · intro f hf
        rw [e] at hf
        obtain ⟨n, hn, rfl⟩ := List.mem_iff_getElem.1 hf
        obtain ⟨f', k1, k2, _⟩ := g2 n _ (List.getElem?_eq_getElem (by omega))
        rw [List.getElem?_eq_getElem hn] at k1
        cases k1
        exact k2
      · intro th hth
        obtain ⟨f', k1, _, k3⟩ := g2 th _ (List.getElem?_eq_getElem (by rw [h.len]; exact hth))
        rw [Nat.zero_add] at k3
        unfold Threads.held
        rw [e, k1, Option.map_some, Option.getD_some, k3, List.getElem?_eq_getElem (by rw [h.len]; exact hth)]
        rfl
    split at ht
    · rename_i hst
      simp only [Option.some.injEq, Prod.mk.injEq] at ht
      obtain ⟨rfl, rfl⟩ := ht
      have hn : s.issue i = none := by rw [h.issue, if_pos hst]
      exact ⟨(key _ rfl).1, hn.symm, (key _ rfl).2⟩
    · simp only [Option.some.injEq, Prod.mk.injEq] at ht
      obtain ⟨rfl, rfl⟩ := ht
      exact ⟨(key _ rfl).1, rfl, (key _ rfl).2⟩

theorem Threads.run_append (a b : List ThreadsIn) (s : Threads) : s.run (a ++ b) = match s.run a with
    | none => none
    | some (os, s') => (s'.run b).map fun r => (os ++ r.1, r.2) := by
  induction a generalizing s with
  | nil =>
    simp only [List.nil_append, Threads.run]
    cases s.run b <;> rfl
  | cons i a ih =>
    rw [List.cons_append]
    simp only [Threads.run]
    cases s.tick i with
    | none => rfl
    | some r =>
      obtain ⟨o, s'⟩ := r
      simp only [ih]
      cases s'.run a with
      | none => rfl
      | some r =>
        obtain ⟨os, s''⟩ := r
        simp only
        cases s''.run b <;> simp

/-- One more cycle at the end. -/
theorem Threads.run_snoc {a : List ThreadsIn} {i : ThreadsIn} {s s2 : Threads} {out : List (Nat × MvuUop)}
    (h : s.run (a ++ [i]) = some (out, s2)) :
    ∃ out1 s1 o, s.run a = some (out1, s1) ∧ s1.tick i = some (o, s2) ∧ out = out1 ++ o.toList := by
  rw [Threads.run_append] at h
  cases hr : s.run a with
  | none => rw [hr] at h; cases h
  | some r =>
    obtain ⟨o1, s1⟩ := r
    rw [hr] at h
    simp only [Threads.run] at h
    cases ht : s1.tick i with
    | none => rw [ht] at h; cases h
    | some r =>
      obtain ⟨o, s'⟩ := r
      rw [ht] at h
      simp only [Option.map_some, List.append_nil, Option.some.injEq, Prod.mk.injEq] at h
      obtain ⟨rfl, rfl⟩ := h
      exact ⟨o1, s1, o, rfl, ht, rfl⟩

/-- Lists by their ends. -/
theorem snoc_induction {α : Type} {P : List α → Prop} (h0 : P []) (h1 : ∀ a i, P a → P (a ++ [i])) (l : List α) : P l := by
  have : ∀ n (l : List α), l.length = n → P l := by
    intro n
    induction n with
    | zero =>
      intro l hl
      rw [List.length_eq_zero_iff.1 hl]
      exact h0
    | succ n ih =>
      intro l hl
      have hne : l ≠ [] := by
        rintro rfl
        cases hl
      rw [← List.dropLast_concat_getLast hne]
      exact h1 _ _ (ih _ (by simp [hl]))
  exact this _ l rfl

theorem Threads.run_sane {s s' : Threads} {es : List ThreadsIn} {out : List (Nat × MvuUop)} (h : s.Sane)
    (hr : s.run es = some (out, s')) : s'.Sane ∧ ∀ th, th < 4 → s.held th ++ given th es = issuedOf th out ++ s'.held th := by
  induction es using snoc_induction generalizing s' out with
  | h0 =>
    simp only [Threads.run, Option.some.injEq, Prod.mk.injEq] at hr
    obtain ⟨rfl, rfl⟩ := hr
    exact ⟨h, fun th _ => by simp [given, issuedOf]⟩
  | h1 a i ih =>
    obtain ⟨out1, s1, o, r1, r2, rfl⟩ := Threads.run_snoc hr
    obtain ⟨k1, k2⟩ := ih r1
    obtain ⟨t1, t2, t3⟩ := k1.tick r2
    refine ⟨t1, fun th hth => ?_⟩
    have e1 : given th (a ++ [i]) = given th a ++ (i.push th).toList := by
      unfold given
      rw [List.filterMap_append]
      cases hp : i.push th <;> simp [hp]
    have e2 : issuedOf th (out1 ++ o.toList) = issuedOf th out1 ++ issuedOf th o.toList := by
      simp [issuedOf]
    rw [e1, e2, t3 th hth, ← List.append_assoc, k2 th hth, t2, k1.issue]
    cases i.stall
    · simp only [Bool.false_eq_true, if_false]
      cases hm : s1.held s1.active with
      | nil => simp [issuedOf]
      | cons u t =>
        simp only
        by_cases hc : u.tag ≤ i.tag s1.active
        · simp only [if_pos hc, Option.map_some, Option.some.injEq]
          by_cases he : s1.active = th
          · subst he
            simp [hm, issuedOf]
          · simp [he, issuedOf]
        · simp [hc, issuedOf]
    · simp [issuedOf]

end RadSim.Npu
