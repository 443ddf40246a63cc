import Verif.Lemmas.Int8NetLive

/-!
# A network that hands everything on in the next cycle

Shows that the conditions on the NoC can be met by every design: instructions come first, then weights, then whatever was sent so
far, in order. -/

namespace RadSim.Int8

/-- What was sent so far to a module, of one kind. -/
def src (D : Design) (z : Nat → Nat → Seen) (l m : Nat) : Nat → List Beat
  | 0 => D.instBeats l m
  | 1 =>
    match m with
    | 0 => []
    | m' + 1 => toward (D.place l (m' + 1)) 1 (z l m').sent
  | 2 =>
    match l with
    | 0 => D.inputBeats m
    | l' + 1 => toward (D.place (l' + 1) m) 2 (z l' (D.mvms l' - 1)).sent
  | 3 => D.weightBeats l m
  | _ => []

/-- The next beat of one kind. -/
def nextOf (D : Design) (z : Nat → Nat → Seen) (l m k : Nat) : Option Beat := (src D z l m k)[(only k (z l m).taken).length]?

/-- The next beat. -/
def pick (D : Design) (z : Nat → Nat → Seen) (l m : Nat) : Option Beat :=
  match nextOf D z l m 0 with
  | some b => some b
  | none =>
    match nextOf D z l m 3 with
    | some b => some b
    | none =>
      match nextOf D z l m 2 with
      | some b => some b
      | none => nextOf D z l m 1

/-- All modules with this network. -/
def idealNet (D : Design) (c : Mvm) : Nat → Nat → Nat → Sig × Seen
  | 0 => fun _ _ => (.init c, ⟨[], []⟩)
  | n + 1 => fun l m =>
    (nextSig c (idealNet D c n l m).1 (took c (idealNet D c n l m).1 (pick D (fun l m => (idealNet D c n l m).2) l m)) true,
      (idealNet D c n l m).2.add c (idealNet D c n l m).1 ⟨pick D (fun l m => (idealNet D c n l m).2) l m, true⟩)

/-- The cycles of a module with this network. -/
def idealT (D : Design) (c : Mvm) (l m n : Nat) : Cycle := ⟨pick D (fun l m => (idealNet D c n l m).2) l m, true⟩

variable {D : Design} {c : Mvm}

theorem ideal_at (l m n : Nat) : sigAt c (idealT D c l m) n = idealNet D c n l m := by
  induction n with
  | zero => rfl
  | succ n ih =>
    unfold sigAt
    rw [ih]
    rfl

theorem toward_kind {node k : Nat} {l : List TxBeat} {b : Beat} (hb : b ∈ toward node k l) : b.kind = k := by
  unfold toward at hb
  rw [List.mem_filterMap] at hb
  obtain ⟨a, -, h⟩ := hb
  split at h
  · rename_i hc
    rw [Option.some.injEq] at h
    rw [← h]
    exact hc.2
  · exact absurd h (by simp)

theorem src_kind {z : Nat → Nat → Seen} {l m k : Nat} {b : Beat} (hb : b ∈ src D z l m k) : b.kind = k := by
  unfold src at hb
  split at hb
  · unfold Design.instBeats at hb
    rw [List.mem_map] at hb
    obtain ⟨i, -, rfl⟩ := hb
    exact loadInst_kind i
  · split at hb
    · exact absurd hb (by simp)
    · exact toward_kind hb
  · split at hb
    · unfold Design.inputBeats at hb
      rw [List.mem_map] at hb
      obtain ⟨i, -, rfl⟩ := hb
      exact loadInput_kind _
    · exact toward_kind hb
  · unfold Design.weightBeats at hb
    rw [List.mem_flatMap] at hb
    obtain ⟨d, -, hb⟩ := hb
    rw [List.mem_mapIdx] at hb
    obtain ⟨i, _, rfl⟩ := hb
    exact loadWeight_kind _ _ _
  · exact absurd hb (by simp)

theorem pick_cases {z : Nat → Nat → Seen} {l m : Nat} {b : Beat} (h : pick D z l m = some b) :
    ∃ k, nextOf D z l m k = some b ∧ (k = 2 → nextOf D z l m 0 = none ∧ nextOf D z l m 3 = none) := by
  unfold pick at h
  split at h
  · rename_i b' h0
    exact ⟨0, h0.trans h, by omega⟩
  · rename_i h0
    split at h
    · rename_i b' h3
      exact ⟨3, h3.trans h, by omega⟩
    · rename_i h3
      split at h
      · rename_i b' h2
        exact ⟨2, h2.trans h, fun _ => ⟨h0, h3⟩⟩
      · exact ⟨1, h, by omega⟩

theorem pick_some {z : Nat → Nat → Seen} {l m k : Nat} (hk : k < 4) (h : (only k (z l m).taken).length < (src D z l m k).length) :
    (pick D z l m).isSome := by
  have h1 : ∃ b, nextOf D z l m k = some b := ⟨_, List.getElem?_eq_getElem h⟩
  obtain ⟨b, hb⟩ := h1
  unfold pick
  split
  · rfl
  · split
    · rfl
    · split
      · rfl
      · rcases (show k = 0 ∨ k = 1 ∨ k = 2 ∨ k = 3 by omega) with rfl | rfl | rfl | rfl
        · simp_all
        · rw [hb]; rfl
        · simp_all
        · simp_all

theorem only_other {k : Nat} {bs : List Beat} {b : Beat} (hb : b.kind ≠ k) : only k (bs ++ [b]) = only k bs := by
  rw [only_append]
  have : only k [b] = [] := by
    unfold only
    rw [List.filter_cons_of_neg (by simpa using hb)]
    rfl
  rw [this, List.append_nil]

/-- What is shown, if what is taken is a beginning. -/
theorem shown_step {z : Nat → Nat → Seen} {l m : Nat} (hz : ∀ k, only k (z l m).taken <+: src D z l m k) (k : Nat) :
    only k ((z l m).taken ++ (pick D z l m).toList) <+: src D z l m k := by
  cases hp : pick D z l m with
  | none => simpa using hz k
  | some b =>
    obtain ⟨k', hk', -⟩ := pick_cases hp
    have hm := List.mem_of_getElem? hk'
    have hbk := src_kind hm
    show only k ((z l m).taken ++ [b]) <+: _
    by_cases hkk : k' = k
    · subst hkk
      rw [only_snoc hbk]
      obtain ⟨y, hy⟩ := hz k'
      unfold nextOf at hk'
      rw [← hy, List.getElem?_append_right (Nat.le_refl _), Nat.sub_self] at hk'
      cases y with
      | nil => simp at hk'
      | cons w y =>
        simp only [List.getElem?_cons_zero, Option.some.injEq] at hk'
        subst hk'
        exact ⟨y, by rw [← hy]; simp⟩
    · rw [only_other (by rw [hbk]; exact hkk)]
      exact hz k

theorem toward_prefix {a b : List TxBeat} (hab : a <+: b) (node k : Nat) : toward node k a <+: toward node k b := hab.filterMap _

theorem src_mono {z z' : Nat → Nat → Seen} (hz : ∀ l m, (z l m).sent <+: (z' l m).sent) (l m k : Nat) :
    src D z l m k <+: src D z' l m k := by
  unfold src
  split
  · exact List.prefix_refl _
  · split
    · exact List.prefix_refl _
    · exact toward_prefix (hz _ _) _ _
  · split
    · exact List.prefix_refl _
    · exact toward_prefix (hz _ _) _ _
  · exact List.prefix_refl _
  · exact List.prefix_refl _

/-- The history of the modules with this network. -/
abbrev hist (D : Design) (c : Mvm) (n : Nat) : Nat → Nat → Seen := fun l m => (idealNet D c n l m).2

theorem ideal_taken (n l m : Nat) : (hist D c (n + 1) l m).taken <+: (hist D c n l m).taken ++ (pick D (hist D c n) l m).toList := by
  show (hist D c n l m).taken ++ ((pick D (hist D c n) l m).filter _).toList <+: _
  cases hp : pick D (hist D c n) l m with
  | none => exact List.prefix_refl _
  | some b =>
    rw [Option.filter_some]
    split
    · exact List.prefix_refl _
    · simp

theorem ideal_ok (n l m k : Nat) : only k (hist D c n l m).taken <+: src D (hist D c n) l m k := by
  induction n generalizing l m k with
  | zero => exact List.nil_prefix
  | succ n ih =>
    have h1 : only k (hist D c (n + 1) l m).taken <+: only k ((hist D c n l m).taken ++ (pick D (hist D c n) l m).toList) :=
      (ideal_taken n l m).filter _
    refine h1.trans ((shown_step (ih l m) k).trans (src_mono ?_ l m k))
    intro l m
    exact List.prefix_append _ _

theorem ideal_loaded (n l m : Nat) {p q : List Beat} {b : Beat}
    (h : (hist D c n l m).taken ++ (pick D (hist D c n) l m).toList = p ++ b :: q) (hb : b.kind = 2) :
    only 0 p = D.instBeats l m ∧ only 3 p = D.weightBeats l m := by
  induction n generalizing p q with
  | zero =>
    have h0 : (hist D c 0 l m).taken = [] := rfl
    rw [h0, List.nil_append] at h
    cases hp : pick D (hist D c 0) l m with
    | none => rw [hp] at h; simp at h
    | some b' =>
      rw [hp] at h
      have h1 : [b'] = p ++ b :: q := h
      have h2 : 1 = p.length + (q.length + 1) := by
        have := congrArg List.length h1
        rwa [List.length_append] at this
      have hp0 : p = [] := List.length_eq_zero_iff.1 (by omega)
      subst hp0
      rw [List.nil_append, List.cons.injEq] at h1
      rw [h1.1] at hp
      obtain ⟨k, hk, hk2⟩ := pick_cases hp
      have hkb := src_kind (List.mem_of_getElem? hk)
      obtain ⟨a0, a3⟩ := hk2 (by omega)
      unfold nextOf at a0 a3
      rw [h0] at a0 a3
      rw [List.getElem?_eq_none_iff] at a0 a3
      have e0 : (D.instBeats l m).length ≤ 0 := a0
      have e3 : (D.weightBeats l m).length ≤ 0 := a3
      exact ⟨(List.length_eq_zero_iff.1 (by omega)).symm, (List.length_eq_zero_iff.1 (by omega)).symm⟩
  | succ n ih =>
    have hin : ∀ {p q : List Beat}, (hist D c (n + 1) l m).taken = p ++ b :: q →
        only 0 p = D.instBeats l m ∧ only 3 p = D.weightBeats l m := by
      intro p q hpq
      obtain ⟨e, he⟩ := ideal_taken (D := D) (c := c) n l m
      rw [hpq, List.append_assoc] at he
      exact ih (q := q ++ e) he.symm
    cases hp : pick D (hist D c (n + 1)) l m with
    | none =>
      rw [hp] at h
      exact hin (by simpa using h)
    | some b' =>
      rw [hp] at h
      rcases List.eq_nil_or_concat q with rfl | ⟨q', x, rfl⟩
      · have h1 := List.append_inj' h rfl
        have h2 : b' = b := by simpa using h1.2
        rw [h2] at hp
        obtain ⟨k, hk, hk2⟩ := pick_cases hp
        have hkb := src_kind (List.mem_of_getElem? hk)
        obtain ⟨a0, a3⟩ := hk2 (by omega)
        unfold nextOf at a0 a3
        rw [List.getElem?_eq_none_iff] at a0 a3
        rw [← h1.1]
        exact ⟨eq_of_prefix_length (ideal_ok (n + 1) l m 0) a0, eq_of_prefix_length (ideal_ok (n + 1) l m 3) a3⟩
      · have h1 : (hist D c (n + 1) l m).taken ++ [b'] = (p ++ b :: q') ++ [x] := by
          refine Eq.trans h ?_
          simp
        exact hin (List.append_inj' h1 rfl).1

theorem seen_of (hc : c.Fits) {l m n : Nat} {s : Sig} {h : Seen} (hr : run c (idealT D c l m) n = .ok (s, h)) : h = hist D c n l m := by
  rw [run_at hc, Except.ok.injEq, ideal_at] at hr
  show h = (idealNet D c n l m).2
  rw [hr]

theorem ideal_shown (n l m k : Nat) : only k ((hist D c n l m).shown (idealT D c l m n)) <+: src D (hist D c n) l m k :=
  shown_step (ideal_ok n l m) k

theorem ideal_wired (hc : c.Fits) : Wired D c (idealT D c) where
  insts l _ m _ n s h hr := by rw [seen_of hc hr]; exact ideal_shown n l m 0
  weights l _ m _ n s h hr := by rw [seen_of hc hr]; exact ideal_shown n l m 3
  loaded l _ m _ n s h hr p b q := by rw [seen_of hc hr]; exact fun e hb => ideal_loaded n l m e hb
  first m _ n s h hr := by rw [seen_of hc hr]; exact ideal_shown n 0 m 2
  input l _ m _ n s h s' h' hr hr' := by rw [seen_of hc hr, seen_of hc hr']; exact ideal_shown n (l + 1) m 2
  add l _ m _ n s h s' h' hr hr' := by rw [seen_of hc hr, seen_of hc hr']; exact ideal_shown n l (m + 1) 1
  none l _ n s h hr := by
    rw [seen_of hc hr]
    exact List.prefix_nil.1 (ideal_shown n l 0 1)

theorem ideal_delivers (hc : c.Fits) : Delivers D c (idealT D c) where
  insts l _ m _ n s h hr := by rw [seen_of hc hr]; exact fun e => ⟨n, Nat.le_refl _, pick_some (k := 0) (by omega) e⟩
  weights l _ m _ n s h hr := by rw [seen_of hc hr]; exact fun e => ⟨n, Nat.le_refl _, pick_some (k := 3) (by omega) e⟩
  first m _ n s h hr := by rw [seen_of hc hr]; exact fun e => ⟨n, Nat.le_refl _, pick_some (k := 2) (by omega) e⟩
  input l _ m _ n s h s' h' hr hr' := by
    rw [seen_of hc hr, seen_of hc hr']; exact fun e => ⟨n, Nat.le_refl _, pick_some (k := 2) (by omega) e⟩
  add l _ m _ n s h s' h' hr hr' := by
    rw [seen_of hc hr, seen_of hc hr']; exact fun e => ⟨n, Nat.le_refl _, pick_some (k := 1) (by omega) e⟩

theorem ideal_drains (l m : Nat) : Drains (idealT D c l m) := fun n => ⟨n, Nat.le_refl _, rfl⟩

end RadSim.Int8
