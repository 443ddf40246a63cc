import Verif.Lemmas.NpuThreads
import Verif.Props.NpuPath

/-!
# The choice of the thread in a sector of the matrix-vector unit of the example design `npu`

C137. -/

namespace RadSim.Npu

/-- Whatever comes and whenever the sector stalls: the micro-ops of a thread are issued in the order in which they came, none is lost and
none is issued twice; what is issued is of one of the four threads. -/
theorem C137_order {r : MvuUop} {es : List ThreadsIn} {out : List (Nat × MvuUop)} {s : Threads}
    (h : (Threads.reset r).run es = some (out, s)) (th : Nat) (ht : th < 4) :
    ∃ rest, given th es = issuedOf th out ++ rest := by
  obtain ⟨_, h2⟩ := Threads.run_sane (Threads.reset_sane r) h
  refine ⟨s.held th, ?_⟩
  rw [← h2 th ht]
  have : (Threads.reset r).held th = [] := by
    unfold Threads.held Threads.reset
    rw [List.getElem?_replicate, if_pos ht]
    rfl
  rw [this, List.nil_append]

/-- No micro-op is issued before its tag lets it go, nor in a stall. -/
theorem C137_tag {r : MvuUop} {es : List ThreadsIn} {out : List (Nat × MvuUop)} {s s' : Threads} {i : ThreadsIn} {th : Nat}
    {u : MvuUop} (h : (Threads.reset r).run es = some (out, s)) (ht : s.tick i = some (some (th, u), s')) :
    th < 4 ∧ u.tag ≤ i.tag th ∧ i.stall = false := by
  obtain ⟨h1, _⟩ := Threads.run_sane (Threads.reset_sane r) h
  obtain ⟨_, t2, _⟩ := h1.tick ht
  rw [h1.issue] at t2
  cases hst : i.stall
  · rw [hst] at t2
    simp only [Bool.false_eq_true, if_false] at t2
    cases hm : s.held s.active with
    | nil => rw [hm] at t2; cases t2
    | cons v t =>
      rw [hm] at t2
      simp only at t2
      split at t2
      · rename_i hc
        simp only [Option.some.injEq, Prod.mk.injEq] at t2
        obtain ⟨rfl, rfl⟩ := t2
        refine ⟨?_, hc, rfl⟩
        unfold Threads.held at hm
        rcases Nat.lt_or_ge s.active 4 with h4 | h4
        · exact h4
        · rw [List.getElem?_eq_none (by rw [h1.len]; exact h4)] at hm
          cases hm
      · cases t2
  · rw [hst] at t2
    cases t2

/-- With the sector locked for thread 0 and only thread 0 with micro-ops, thread 0 stays the one that is active. -/
theorem pick_zero {rdy : Nat → Bool} (h : ∀ th, th ≠ 0 → rdy th = false) : ∀ (n : Nat) (q : List Nat) (t : Nat),
    (pickThread rdy n q).1 = some t → t = 0
  | 0, _, _, e => by cases e
  | _ + 1, [], _, e => by cases e
  | n + 1, th :: q, t, e => by
    unfold pickThread at e
    split at e
    · rename_i hr
      simp only [Option.some.injEq] at e
      subst e
      rcases Nat.eq_zero_or_pos th with h0 | h0
      · exact h0
      · rw [h th (by omega)] at hr
        cases hr
    · exact pick_zero h n _ t e

theorem active_zero {r : MvuUop} {es : List ThreadsIn} {out : List (Nat × MvuUop)} {s : Threads}
    (h : (Threads.reset r).run es = some (out, s)) (h0 : ∀ i ∈ es, ∀ th, th ≠ 0 → i.push th = none) :
    s.active = 0 ∧ ∀ x ∈ out, x.1 = 0 := by
  induction es using snoc_induction generalizing s out with
  | h0 =>
    simp only [Threads.run, Option.some.injEq, Prod.mk.injEq] at h
    obtain ⟨rfl, rfl⟩ := h
    exact ⟨rfl, fun x hx => by cases hx⟩
  | h1 a i ih =>
    obtain ⟨out1, s1, o, r1, r2, rfl⟩ := Threads.run_snoc h
    obtain ⟨k1, k2⟩ := ih r1 fun j hj => h0 j (List.mem_append_left _ hj)
    obtain ⟨z1, z2⟩ := Threads.run_sane (Threads.reset_sane r) r1
    have hr : ∀ th, th ≠ 0 → s1.ready i th = false := by
      intro th hth
      rcases Nat.lt_or_ge th 4 with h4 | h4
      · have hg : given th a = [] := by
          refine List.filterMap_eq_nil_iff.2 fun j hj => ?_
          exact h0 j (List.mem_append_left _ hj) th hth
        have hh : (Threads.reset r).held th = [] := by
          unfold Threads.held Threads.reset
          rw [List.getElem?_replicate, if_pos h4]
          rfl
        have := z2 th h4
        rw [hg, hh] at this
        have := (List.append_eq_nil_iff.1 this.symm).2
        rw [z1.ready, this]
      · unfold Threads.ready
        rw [List.getElem?_eq_none (by rw [z1.len]; exact h4)]
    obtain ⟨_, t2, _⟩ := z1.tick r2
    refine ⟨?_, ?_⟩
    · unfold Threads.tick at r2
      split at r2
      · cases r2
      · split at r2
        · simp only [Option.some.injEq, Prod.mk.injEq] at r2
          obtain ⟨_, rfl⟩ := r2
          exact k1
        · simp only [Option.some.injEq, Prod.mk.injEq] at r2
          obtain ⟨_, rfl⟩ := r2
          simp only
          split
          · exact k1
          · cases hp : (pickThread (s1.ready i) 4 s1.order).1 with
            | none => exact k1
            | some t => exact pick_zero hr _ _ _ hp
    · intro x hx
      rcases List.mem_append.1 hx with hx | hx
      · exact k2 x hx
      · rw [t2, z1.issue, Option.mem_toList] at hx
        split at hx
        · cases hx
        · split at hx
          · cases hx
          · split at hx
            · cases hx
              exact k1
            · cases hx

/-- If only thread 0 is used, the next of its micro-ops is issued in every cycle without a stall in which it has come and its tag lets
it go: the choice of the thread is of no effect. -/
theorem C137_alone {r : MvuUop} {es : List ThreadsIn} {out : List (Nat × MvuUop)} {s s' : Threads} {i : ThreadsIn}
    {o : Option (Nat × MvuUop)} (h : (Threads.reset r).run es = some (out, s)) (h0 : ∀ j ∈ es, ∀ th, th ≠ 0 → j.push th = none)
    (hi : i.stall = false) (ht : s.tick i = some (o, s')) :
    o = (((given 0 es)[out.length]?).filter fun u => decide (u.tag ≤ i.tag 0)).map fun u => (0, u) := by
  obtain ⟨a1, a2⟩ := active_zero h h0
  obtain ⟨z1, z2⟩ := Threads.run_sane (Threads.reset_sane r) h
  have hg := z2 0 (by omega)
  rw [show (Threads.reset r).held 0 = [] from rfl, List.nil_append] at hg
  have hlen : (issuedOf 0 out).length = out.length := by
    unfold issuedOf
    rw [List.filter_eq_self.2 fun x hx => by rw [a2 x hx]; rfl, List.length_map]
  obtain ⟨_, t2, _⟩ := z1.tick ht
  rw [t2, z1.issue, a1, hi, hg, List.getElem?_append_right (by omega), hlen, Nat.sub_self]
  simp only [Bool.false_eq_true, if_false]
  cases s.held 0 with
  | nil => rfl
  | cons u t =>
    simp only [List.getElem?_cons_zero]
    by_cases hc : u.tag ≤ i.tag 0
    · rw [if_pos hc, Option.filter_some, if_pos (decide_eq_true hc)]
      rfl
    · rw [if_neg hc, Option.filter_some, if_neg (by simpa using hc)]
      rfl

/-- Macro-ops are not mixed: another thread follows only on the last micro-op of a macro-op. Partial: in the middle of a macro-op the
next micro-op is there in every cycle without a stall; and while no thread holds the sector the one that held it last gets no micro-op
(see `C137_mixed_violated`). -/
theorem C137_whole_partial {r : MvuUop} {es : List ThreadsIn} {out : List (Nat × MvuUop)} {s : Threads}
    (h : (Threads.reset r).run es = some (out, s))
    (hg : ∀ a i b o t x, es = a ++ i :: b → (Threads.reset r).run a = some (o, t) → o.getLast? = some x → x.2.last = false →
      i.stall = false → t.ready i t.active = true)
    (hn : ∀ a i b o t, es = a ++ i :: b → (Threads.reset r).run a = some (o, t) → t.locked = false → t.ready i t.active = false) :
    Whole out := by
  have snocW : ∀ (l : List (Nat × MvuUop)) (y : Nat × MvuUop), Whole l →
      (∀ x, l.getLast? = some x → x.1 ≠ y.1 → x.2.last = true) → Whole (l ++ [y]) := by
    intro l y
    induction l with
    | nil => intro _ _; trivial
    | cons x l ih =>
      intro hw hx
      cases l with
      | nil => exact ⟨hx x rfl, trivial⟩
      | cons z l =>
        obtain ⟨w1, w2⟩ := hw
        exact ⟨w1, ih w2 fun x' h' => hx x' (by rw [List.getLast?_cons_cons]; exact h')⟩
  suffices hs : Whole out ∧ ∀ x, out.getLast? = some x → x.2.last = false → s.locked = true ∧ x.1 = s.active from hs.1
  induction es using snoc_induction generalizing s out with
  | h0 =>
    simp only [Threads.run, Option.some.injEq, Prod.mk.injEq] at h
    obtain ⟨rfl, rfl⟩ := h
    exact ⟨trivial, fun x hx => by cases hx⟩
  | h1 a i ih =>
    obtain ⟨out1, s1, o, r1, r2, rfl⟩ := Threads.run_snoc h
    obtain ⟨k1, k2⟩ := ih r1
      (fun a' j b o t x e => hg a' j (b ++ [i]) o t x (by rw [e, List.append_assoc, List.cons_append]))
      (fun a' j b o t e => hn a' j (b ++ [i]) o t (by rw [e, List.append_assoc, List.cons_append]))
    have hgap := hg a i [] out1 s1
    have hrace := hn a i [] out1 s1 rfl r1
    obtain ⟨z1, _⟩ := Threads.run_sane (Threads.reset_sane r) r1
    obtain ⟨_, t2, _⟩ := z1.tick r2
    unfold Threads.tick at r2
    split at r2
    · cases r2
    · split at r2
      · simp only [Option.some.injEq, Prod.mk.injEq] at r2
        obtain ⟨rfl, rfl⟩ := r2
        rw [Option.toList_none, List.append_nil]
        exact ⟨k1, k2⟩
      · rename_i hst
        have hst : i.stall = false := by simpa using hst
        simp only [Option.some.injEq, Prod.mk.injEq] at r2
        obtain ⟨_, rfl⟩ := r2
        subst t2
        cases hq : s1.issue i with
        | none =>
          rw [Option.toList_none, List.append_nil]
          refine ⟨k1, fun x hx hl => ?_⟩
          have hr := hgap x rfl r1 hx hl hst
          exfalso
          unfold Threads.issue at hq
          rw [hst, hr] at hq
          simp only [Bool.not_false, Bool.true_and, if_true, Option.map_eq_none_iff] at hq
          unfold Threads.ready at hr
          rw [hq] at hr
          cases hr
        | some y =>
          have hr : s1.ready i s1.active = true := by
            cases hr : s1.ready i s1.active
            · unfold Threads.issue at hq
              rw [hr, Bool.and_false] at hq
              cases hq
            · rfl
          have hy : y.1 = s1.active := by
            unfold Threads.issue at hq
            rw [hst, hr] at hq
            simp only [Bool.not_false, Bool.true_and, if_true] at hq
            obtain ⟨f, _, rfl⟩ := Option.map_eq_some_iff.1 hq
            rfl
          have hlk : s1.locked = true := by
            cases hl : s1.locked
            · rw [hrace hl] at hr
              cases hr
            · rfl
          rw [Option.toList_some]
          refine ⟨snocW _ _ k1 fun x hx hne => ?_, fun x hx _ => ?_⟩
          · cases hl : x.2.last
            · exact absurd ((k2 x hx hl).2.trans hy.symm) hne
            · rfl
          · rw [List.getLast?_append, List.getLast?_singleton, Option.some_or] at hx
            cases hx
            simp only [hlk, if_true, Option.isSome_none, Bool.false_eq_true, if_false, Option.getD_none, hr, Bool.not_true,
              Bool.and_false]
            exact ⟨trivial, hy⟩

/-- "Every thread gets its turn" is false: if nothing comes for thread 0, nothing is issued of any thread, whatever comes and however
long. The sector starts locked for thread 0, and only the last micro-op of a macro-op of it can unlock it. -/
theorem C137_starved_violated {r : MvuUop} {es : List ThreadsIn} {out : List (Nat × MvuUop)} {s : Threads}
    (h : (Threads.reset r).run es = some (out, s)) (h0 : ∀ i ∈ es, i.push 0 = none) : out = [] := by
  suffices hs : out = [] ∧ s.active = 0 ∧ s.locked = true ∧ s.done = List.replicate 36 false from hs.1
  induction es using snoc_induction generalizing s out with
  | h0 =>
    simp only [Threads.run, Option.some.injEq, Prod.mk.injEq] at h
    obtain ⟨rfl, rfl⟩ := h
    exact ⟨rfl, rfl, rfl, rfl⟩
  | h1 a i ih =>
    obtain ⟨out1, s1, o, r1, r2, rfl⟩ := Threads.run_snoc h
    obtain ⟨k1, k2, k3, k4⟩ := ih r1 fun j hj => h0 j (List.mem_append_left _ hj)
    obtain ⟨z1, z2⟩ := Threads.run_sane (Threads.reset_sane r) r1
    have hh : s1.held 0 = [] := by
      have hg : given 0 a = [] := List.filterMap_eq_nil_iff.2 fun j hj => h0 j (List.mem_append_left _ hj)
      have := z2 0 (by omega)
      rw [hg, show (Threads.reset r).held 0 = [] from rfl] at this
      exact (List.append_eq_nil_iff.1 this.symm).2
    have hi : s1.issue i = none := by
      rw [z1.issue, k2, hh]
      cases i.stall <;> rfl
    obtain ⟨_, t2, _⟩ := z1.tick r2
    subst k1
    refine ⟨by rw [t2, hi]; rfl, ?_⟩
    unfold Threads.tick at r2
    split at r2
    · cases r2
    · split at r2
      · simp only [Option.some.injEq, Prod.mk.injEq] at r2
        obtain ⟨_, rfl⟩ := r2
        exact ⟨k2, k3, k4⟩
      · simp only [Option.some.injEq, Prod.mk.injEq] at r2
        obtain ⟨_, rfl⟩ := r2
        simp only [k3, k4, hi]
        exact ⟨k2, rfl, rfl⟩

/-! ## Examples -/

/-- The matrix of 12 rows of one word at the address `b`. -/
def threadMop (b : Nat) : MvuMop := ⟨[5, 9, 13], 1, b, 12, 12, 0, true⟩

/-- The micro-ops of `threadMop b` come for thread `th` one after the other from cycle `n` on. -/
def comes (th b n : Nat) (t : Nat) : Nat → Option MvuUop := fun k => if k = th ∧ n ≤ t then ((threadMop b).expand false).1[t - n]? else none

/-- `T` cycles in which several of them come. -/
def threadRun (T : Nat) (l : List (Nat × Nat × Nat)) : List ThreadsIn :=
  (List.range T).map fun t => ⟨t % 7 == 3, fun k => l.findSome? fun (th, b, n) => comes th b n t k, fun _ => 0⟩

instance decWhole : (l : List (Nat × MvuUop)) → Decidable (Whole l)
  | [] => isTrue trivial
  | [_] => isTrue trivial
  | x :: y :: c =>
    have := decWhole (y :: c)
    inferInstanceAs (Decidable ((x.1 ≠ y.1 → x.2.last = true) ∧ Whole (y :: c)))

/-- One macro-op for thread 0 and one for thread 1: both are issued, one after the other. -/
example : ((Threads.reset .default).run (threadRun 90 [(0, 0, 0), (1, 100, 3)])).map (·.1) =
    some (((threadMop 0).expand false).1.map (fun u => (0, u)) ++ ((threadMop 100).expand false).1.map fun u => (1, u)) := by
  decide +kernel

/-- The two conditions of `C137_whole_partial` in cycle `n`. -/
def steadyAt (es : List ThreadsIn) (n : Nat) : Bool :=
  match (Threads.reset .default).run (es.take n), es[n]? with
  | some (o, t), some i =>
    (match o.getLast? with | some x => x.2.last || i.stall || t.ready i t.active | none => true) &&
      (t.locked || !t.ready i t.active)
  | _, _ => true

/-- They hold in that run. -/
example : ∀ out s, (Threads.reset .default).run (threadRun 90 [(0, 0, 0), (1, 100, 3)]) = some (out, s) → Whole out := by
  intro out s h
  have hs : ∀ n < 90, steadyAt (threadRun 90 [(0, 0, 0), (1, 100, 3)]) n = true := by decide +kernel
  have hl : (threadRun 90 [(0, 0, 0), (1, 100, 3)]).length = 90 := rfl
  generalize threadRun 90 [(0, 0, 0), (1, 100, 3)] = es at *
  have key : ∀ a i b o t, es = a ++ i :: b → (Threads.reset .default).run a = some (o, t) →
      ((match o.getLast? with | some x => x.2.last || i.stall || t.ready i t.active | none => true) &&
        (t.locked || !t.ready i t.active)) = true := by
    rintro a i b o t rfl hr
    have := hs a.length (by simp at hl; omega)
    unfold steadyAt at this
    rw [List.take_left, hr] at this
    simpa using this
  refine C137_whole_partial h ?_ ?_
  · intro a i b o t x e hr hx hl hst
    have := key a i b o t e hr
    simp only [hx, hl, hst] at this
    simp at this
    exact this.1
  · intro a i b o t e hr hl
    have := key a i b o t e hr
    rw [hl] at this
    simp at this
    exact this.2

/-- Nothing is ever issued of thread 1 if it is the only one. -/
example : ((Threads.reset .default).run (threadRun 90 [(1, 100, 3)])).map (·.1) = some [] := by decide +kernel

/-- Two macro-ops for thread 0 and two for thread 1, the micro-ops of each in cycles on end. -/
def mixedRun : List ThreadsIn := threadRun 165 [(0, 0, 0), (1, 100, 3), (0, 200, 70), (1, 300, 113)]

/-- Macro-ops can be mixed: the first micro-op of the second macro-op of thread 1 comes in the cycle in which the sector is unlocked;
it is issued in the next, in which thread 0 is chosen; then come all those of thread 0, and then the other eleven of thread 1. -/
theorem C137_mixed_violated : ((Threads.reset .default).run mixedRun).map (fun x => decide (Whole x.1)) = some false ∧
    ((Threads.reset .default).run mixedRun).map (fun x => x.1.map fun y => (y.1, y.2.mrfAddr)) = some (
      (List.range 12).map (fun p => (0, p)) ++ (List.range 12).map (fun p => (1, 100 + p)) ++ [(1, 300)] ++
      (List.range 12).map fun p => (0, 200 + p)) := by
  decide +kernel

/-- The cycles of the data path that belong to a run; both threads have the vectors of `pathVec`. -/
def pathInputs : Threads → List ThreadsIn → List (Option SectorIn)
  | _, [] => []
  | s, i :: es =>
    (if i.stall then none else some ⟨(s.issue i).isSome, ((s.fifos[s.active]?).map (·.rdata)).getD .default, pathVec⟩) ::
      match s.tick i with
      | none => []
      | some (_, s') => pathInputs s' es

/-- And then the products are wrong: of the rows that the data path of C136 puts out the first two dozens are right and not one of the seven
others that are there is a row of any of the four products. -/
theorem C137_mixed_products_violated :
    ((pathSector.run (pathInputs (Threads.reset .default) mixedRun)).map fun x =>
      x.1.map fun d => decide (d ∈ matVec 2 (matrices pathSector.tiles) (fun _ => pathVec) 0
        [threadMop 0, threadMop 100, threadMop 200, threadMop 300])) =
    some (List.replicate 24 true ++ List.replicate 7 false) := by
  decide +kernel

end RadSim.Npu
