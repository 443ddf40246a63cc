import Verif.Lemmas.MlpLive

/-!
# A network that hands everything on in the next cycle

Shows that the conditions on the NoC can be met by every design: whatever was sent so far is offered in order, tags 2 and 3 in
turn. -/

namespace RadSim.Mlp

/-- What was sent to a module as inputs so far. -/
def inputsOf (D : Design) (z : Nat → Nat → Except Err (Sig × Seen)) : Nat → Nat → List Vec
  | 0, m => (D.inputFile m).map parse
  | l + 1, m =>
    match z l (D.mvms l - 1) with
    | .ok (_, h) => toward (l + 2) m 3 h.sent
    | .error _ => []

/-- What was sent to a module to be added so far. -/
def addsOf (z : Nat → Nat → Except Err (Sig × Seen)) (l : Nat) : Nat → List Vec
  | 0 => []
  | m + 1 =>
    match z l m with
    | .ok (_, h) => toward (l + 1) (m + 1) 2 h.sent
    | .error _ => []

/-- The beat with element `i` of a list. -/
def beatOf (l : List Vec) (i : Nat) : Rx :=
  match l[i]? with
  | some v => ⟨true, v⟩
  | none => ⟨false, []⟩

/-- A cycle of a module with this network. -/
def idealCycle (D : Design) (z : Nat → Nat → Except Err (Sig × Seen)) (n l m : Nat) : Cycle where
  rx := match z l m with
    | .error _ => ⟨false, []⟩
    | .ok (s, h) =>
      if tag s.rxUser = 3 then beatOf (inputsOf D z l m) h.ins.length
      else if tag s.rxUser = 2 then beatOf (addsOf z l m) h.reds.length else ⟨false, []⟩
  user := if n % 2 = 0 then 2 * 2 ^ 13 else 3 * 2 ^ 13
  room := true
  later := []

/-- All modules with this network. -/
def ideal (D : Design) (q : Consts) : Nat → Nat → Nat → Except Err (Sig × Seen)
  | 0 => fun l m => .ok (.init (D.mvm q l m), ⟨[], [], []⟩)
  | n + 1 => fun l m =>
    match ideal D q n l m with
    | .error e => .error e
    | .ok (s, h) =>
      match cycle (D.mvm q l m) s (idealCycle D (ideal D q n) n l m) with
      | .error e => .error e
      | .ok s' => .ok (s', h.add s (idealCycle D (ideal D q n) n l m))

/-- The cycles of a module with this network. -/
def idealT (D : Design) (q : Consts) (l m n : Nat) : Cycle := idealCycle D (ideal D q n) n l m

variable {D : Design} {q : Consts}

theorem ideal_run (l m n : Nat) : run (D.mvm q l m) (idealT D q l m) n = ideal D q n l m := by
  induction n with
  | zero => rfl
  | succ n ih =>
    simp only [run, ideal, ih]
    rfl

theorem ideal_mono {n l m : Nat} {s' : Sig} {h' : Seen} (h : ideal D q (n + 1) l m = .ok (s', h')) :
    ∃ s h, ideal D q n l m = .ok (s, h) ∧ h' = h.add s (idealT D q l m n) ∧ h.sent <+: h'.sent := by
  rw [← ideal_run] at h
  obtain ⟨s, h1, hr⟩ := run_before h
  have hm := (run_mono (k := 1) hr h).2.2
  exact ⟨s, h1, by rw [← ideal_run]; exact hr, run_one hr h, hm⟩

theorem inputsOf_mono {n l m : Nat} (h : l = 0 ∨ ∃ s h, ideal D q (n + 1) (l - 1) (D.mvms (l - 1) - 1) = .ok (s, h)) :
    inputsOf D (ideal D q n) l m <+: inputsOf D (ideal D q (n + 1)) l m := by
  cases l with
  | zero => exact List.prefix_refl _
  | succ l =>
    obtain ⟨s, h1, hr⟩ := h.resolve_left (by omega)
    rw [Nat.add_sub_cancel] at hr
    obtain ⟨s0, h0, hr0, -, hp⟩ := ideal_mono hr
    simp only [inputsOf, hr, hr0]
    exact List.IsPrefix.filterMap _ hp

theorem addsOf_mono {n l m : Nat} (h : m = 0 ∨ ∃ s h, ideal D q (n + 1) l (m - 1) = .ok (s, h)) :
    addsOf (ideal D q n) l m <+: addsOf (ideal D q (n + 1)) l m := by
  cases m with
  | zero => exact List.prefix_refl _
  | succ m =>
    obtain ⟨s, h1, hr⟩ := h.resolve_left (by omega)
    rw [Nat.add_sub_cancel] at hr
    obtain ⟨s0, h0, hr0, -, hp⟩ := ideal_mono hr
    simp only [addsOf, hr, hr0]
    exact List.IsPrefix.filterMap _ hp

theorem prefix_next {α : Type} {a b : List α} {v : α} (h : a <+: b) (hv : b[a.length]? = some v) : a ++ [v] <+: b := by
  obtain ⟨y, rfl⟩ := h
  rw [List.getElem?_append_right (Nat.le_refl _), Nat.sub_self] at hv
  cases y with
  | nil => simp at hv
  | cons w y =>
    simp only [List.getElem?_cons_zero, Option.some.injEq] at hv
    subst hv
    exact ⟨y, by simp⟩

/-- What is taken is a beginning of what was sent. -/
theorem ideal_ins (l m : Nat) (n : Nat) : ∀ {s : Sig} {h : Seen}, ideal D q n l m = .ok (s, h) →
    (l = 0 ∨ ∃ s h, ideal D q n (l - 1) (D.mvms (l - 1) - 1) = .ok (s, h)) →
    (h.add s (idealT D q l m n)).ins <+: inputsOf D (ideal D q n) l m := by
  have step : ∀ n {s : Sig} {h : Seen}, ideal D q n l m = .ok (s, h) → h.ins <+: inputsOf D (ideal D q n) l m →
      (h.add s (idealT D q l m n)).ins <+: inputsOf D (ideal D q n) l m := by
    intro n s h hr hp
    simp only [Seen.add]
    split
    · rename_i hc
      simp only [Bool.and_eq_true, decide_eq_true_eq] at hc
      obtain ⟨⟨hv, -⟩, ht⟩ := hc
      have ht' : tag s.rxUser = 3 := ht
      simp only [idealT, idealCycle, hr, if_pos ht', beatOf] at hv ⊢
      split at hv
      · rename_i v hv'
        simp only
        exact prefix_next hp hv'
      · simp at hv
    · simpa using hp
  induction n with
  | zero =>
    intro s h hr _
    refine step 0 hr ?_
    simp only [ideal, Except.ok.injEq, Prod.mk.injEq] at hr
    rw [← hr.2]
    exact List.nil_prefix
  | succ n ih =>
    intro s h hr hsrc
    refine step (n + 1) hr ?_
    obtain ⟨s0, h0, hr0, rfl, -⟩ := ideal_mono hr
    refine List.IsPrefix.trans (ih hr0 ?_) (inputsOf_mono hsrc)
    rcases hsrc with h0 | ⟨s1, h1, hs⟩
    · exact .inl h0
    · obtain ⟨s2, h2, hr2, -⟩ := ideal_mono hs
      exact .inr ⟨s2, h2, hr2⟩

theorem ideal_reds (l m : Nat) (n : Nat) : ∀ {s : Sig} {h : Seen}, ideal D q n l m = .ok (s, h) →
    (m = 0 ∨ ∃ s h, ideal D q n l (m - 1) = .ok (s, h)) →
    (h.add s (idealT D q l m n)).reds <+: addsOf (ideal D q n) l m := by
  have step : ∀ n {s : Sig} {h : Seen}, ideal D q n l m = .ok (s, h) → h.reds <+: addsOf (ideal D q n) l m →
      (h.add s (idealT D q l m n)).reds <+: addsOf (ideal D q n) l m := by
    intro n s h hr hp
    simp only [Seen.add]
    split
    · rename_i hc
      simp only [Bool.and_eq_true, decide_eq_true_eq] at hc
      obtain ⟨⟨hv, -⟩, ht⟩ := hc
      have ht' : tag s.rxUser = 2 := ht
      simp only [idealT, idealCycle, hr, ht', Nat.reduceEqDiff, if_false, if_true, beatOf] at hv ⊢
      split at hv
      · rename_i v hv'
        simp only
        exact prefix_next hp hv'
      · simp at hv
    · simpa using hp
  induction n with
  | zero =>
    intro s h hr _
    refine step 0 hr ?_
    simp only [ideal, Except.ok.injEq, Prod.mk.injEq] at hr
    rw [← hr.2]
    exact List.nil_prefix
  | succ n ih =>
    intro s h hr hsrc
    refine step (n + 1) hr ?_
    obtain ⟨s0, h0, hr0, rfl, -⟩ := ideal_mono hr
    refine List.IsPrefix.trans (ih hr0 ?_) (addsOf_mono hsrc)
    rcases hsrc with h0 | ⟨s1, h1, hs⟩
    · exact .inl h0
    · obtain ⟨s2, h2, hr2, -⟩ := ideal_mono hs
      exact .inr ⟨s2, h2, hr2⟩

theorem ideal_wired : Wired D q (idealT D q) := by
  refine ⟨?_, ?_, ?_, ?_⟩
  · intro m _ n s h hr
    rw [ideal_run] at hr
    exact ideal_ins 0 m n hr (.inl rfl)
  · intro l _ m _ n s h s' h' hr hr'
    rw [ideal_run] at hr hr'
    have := ideal_ins (l + 1) m n hr (.inr ⟨s', h', hr'⟩)
    simpa only [inputsOf, hr'] using this
  · intro l _ m _ n s h s' h' hr hr'
    rw [ideal_run] at hr hr'
    have := ideal_reds l (m + 1) n hr (.inr ⟨s', h', hr'⟩)
    simpa only [addsOf, hr'] using this
  · intro l _ n s h hr
    rw [ideal_run] at hr
    have := ideal_reds l 0 n hr (.inl rfl)
    simpa only [addsOf, List.prefix_nil] using this

theorem ideal_drains (l m : Nat) : Drains (idealT D q l m) := fun n => ⟨n, Nat.le_refl _, rfl⟩

theorem delta_user (c : Mvm) (room : Bool) (y : Sig × Sig) : (delta c room y).2.rxUser = y.2.rxUser := by
  simp only [delta]

theorem settle_user (c : Mvm) (room : Bool) (p s : Sig) : (settle c room p s).rxUser = s.rxUser := by
  unfold settle
  rw [delta_user, delta_user, delta_user, delta_user]

theorem settles_user (c : Mvm) (l : List Bool) : ∀ z : Sig, (l.foldl (fun z a => settle c a z z) z).rxUser = z.rxUser := by
  induction l with
  | nil => exact fun _ => rfl
  | cons a l ih =>
    intro z
    rw [List.foldl_cons, ih, settle_user]

theorem cycle_user {c : Mvm} {s s' : Sig} {t : Cycle} (h : cycle c s t = .ok s') : s'.rxUser = t.user := by
  unfold cycle at h
  cases he : edge c s t.rx with
  | error e => simp [he] at h
  | ok r =>
    rw [he] at h
    simp only [Except.ok.injEq] at h
    rw [← h, settles_user, settle_user]

theorem ideal_tag {n l m : Nat} {s : Sig} {h : Seen} (hr : ideal D q (n + 1) l m = .ok (s, h)) :
    tag s.rxUser = if n % 2 = 0 then 2 else 3 := by
  simp only [ideal] at hr
  split at hr
  · simp at hr
  · split at hr
    · simp at hr
    · rename_i hc
      simp only [Except.ok.injEq, Prod.mk.injEq] at hr
      rw [← hr.1, cycle_user hc]
      simp only [idealCycle]
      split <;> rfl

theorem beatOf_valid {l : List Vec} {i : Nat} (h : i < l.length) : (beatOf l i).valid = true := by
  unfold beatOf
  rw [List.getElem?_eq_getElem h]

/-- If something was sent and is not yet taken, it is offered within two cycles. -/
theorem ideal_offers {l m n : Nat} (hok : ∀ n, ∃ s h, ideal D q n l m = .ok (s, h))
    (hi : l = 0 ∨ ∀ n, ∃ s h, ideal D q n (l - 1) (D.mvms (l - 1) - 1) = .ok (s, h))
    (ha : m = 0 ∨ ∀ n, ∃ s h, ideal D q n l (m - 1) = .ok (s, h)) {s : Sig} {h : Seen} (hr : ideal D q n l m = .ok (s, h))
    (hp : h.ins.length < (inputsOf D (ideal D q n) l m).length ∨ h.reds.length < (addsOf (ideal D q n) l m).length) :
    ∃ n' s' h', n ≤ n' ∧ run (D.mvm q l m) (idealT D q l m) n' = .ok (s', h') ∧ offered s' (idealT D q l m n') := by
  simp only [ideal_run]
  -- what is not offered is not taken
  have keep : ∀ n {s : Sig} {h : Seen}, ideal D q n l m = .ok (s, h) → ¬ offered s (idealT D q l m n) →
      (h.ins.length < (inputsOf D (ideal D q n) l m).length ∨ h.reds.length < (addsOf (ideal D q n) l m).length) →
      ∃ s' h', ideal D q (n + 1) l m = .ok (s', h') ∧ h'.ins = h.ins ∧ h'.reds = h.reds ∧
        (h.ins.length < (inputsOf D (ideal D q n) l m).length → h'.ins.length < (inputsOf D (ideal D q (n + 1)) l m).length) ∧
        (h.reds.length < (addsOf (ideal D q n) l m).length → h'.reds.length < (addsOf (ideal D q (n + 1)) l m).length) := by
    intro n s h hr hno _
    obtain ⟨s', h', hr'⟩ := hok (n + 1)
    obtain ⟨s0, h0, hr0, he, -⟩ := ideal_mono hr'
    rw [hr] at hr0
    cases hr0
    have e1 : h'.ins = h.ins := by
      rw [he]
      simp only [Seen.add]
      rw [if_neg, List.append_nil]
      intro hc
      simp only [Bool.and_eq_true, decide_eq_true_eq] at hc
      exact hno ⟨hc.1.1, .inr hc.2⟩
    have e2 : h'.reds = h.reds := by
      rw [he]
      simp only [Seen.add]
      rw [if_neg, List.append_nil]
      intro hc
      simp only [Bool.and_eq_true, decide_eq_true_eq] at hc
      exact hno ⟨hc.1.1, .inl hc.2⟩
    have m1 := (inputsOf_mono (m := m) (n := n) (hi.imp_right fun f => f (n + 1))).length_le
    have m2 := (addsOf_mono (l := l) (n := n) (ha.imp_right fun f => f (n + 1))).length_le
    refine ⟨s', h', hr', e1, e2, fun h1 => ?_, fun h1 => ?_⟩
    · rw [e1]
      omega
    · rw [e2]
      omega
  have offI : ∀ n {s : Sig} {h : Seen}, ideal D q n l m = .ok (s, h) → tag s.rxUser = 3 →
      h.ins.length < (inputsOf D (ideal D q n) l m).length → offered s (idealT D q l m n) := by
    intro n s h hr ht hlt
    refine ⟨?_, .inr ht⟩
    simp only [idealT, idealCycle, hr, if_pos ht]
    exact beatOf_valid hlt
  have offR : ∀ n {s : Sig} {h : Seen}, ideal D q n l m = .ok (s, h) → tag s.rxUser = 2 →
      h.reds.length < (addsOf (ideal D q n) l m).length → offered s (idealT D q l m n) := by
    intro n s h hr ht hlt
    refine ⟨?_, .inl ht⟩
    simp only [idealT, idealCycle, hr, ht, Nat.reduceEqDiff, if_false, if_true]
    exact beatOf_valid hlt
  by_contra hno
  simp only [not_exists, not_and] at hno
  obtain ⟨s1, h1, hr1, -, -, a1, b1⟩ := keep n hr (hno n s h (Nat.le_refl _) hr) hp
  have hp1 : h1.ins.length < (inputsOf D (ideal D q (n + 1)) l m).length ∨ h1.reds.length < (addsOf (ideal D q (n + 1)) l m).length :=
    hp.imp a1 b1
  obtain ⟨s2, h2, hr2, -, -, a2, b2⟩ := keep (n + 1) hr1 (hno _ s1 h1 (by omega) hr1) hp1
  have t1 := ideal_tag hr1
  have t2 := ideal_tag hr2
  rcases hp with hp | hp
  · by_cases hpar : n % 2 = 0
    · exact hno _ s2 h2 (by omega) hr2 (offI _ hr2 (by rw [t2, if_neg (by omega)]) (a2 (a1 hp)))
    · exact hno _ s1 h1 (by omega) hr1 (offI _ hr1 (by rw [t1, if_neg hpar]) (a1 hp))
  · by_cases hpar : n % 2 = 0
    · exact hno _ s1 h1 (by omega) hr1 (offR _ hr1 (by rw [t1, if_pos hpar]) (b1 hp))
    · exact hno _ s2 h2 (by omega) hr2 (offR _ hr2 (by rw [t2, if_pos (by omega)]) (b2 (b1 hp)))

theorem ideal_delivers (h : D.Ok q) (hz : ∀ line ∈ D.goldenFile, parse line ≠ List.replicate D.dim 0) : Delivers D q (idealT D q) := by
  have hok : ∀ {l m : Nat}, l < D.layers → m < D.mvms l → ∀ n, ∃ s h, ideal D q n l m = .ok (s, h) := by
    intro l m hl hm n
    rw [← ideal_run]
    exact system_run h ideal_wired hz hl hm n
  have ad : ∀ {l m : Nat}, l < D.layers → m < D.mvms l → m = 0 ∨ ∀ n, ∃ s h, ideal D q n l (m - 1) = .ok (s, h) := by
    intro l m hl hm
    rcases Nat.eq_zero_or_pos m with h0 | h0
    · exact .inl h0
    · exact .inr (hok hl (by omega))
  have inp : ∀ {l : Nat}, l < D.layers → l = 0 ∨ ∀ n, ∃ s h, ideal D q n (l - 1) (D.mvms (l - 1) - 1) = .ok (s, h) := by
    intro l hl
    rcases Nat.eq_zero_or_pos l with h0 | h0
    · exact .inl h0
    · have := h.mvms (l - 1) (by omega)
      exact .inr (hok (by omega) (by omega))
  refine ⟨?_, ?_, ?_⟩
  · intro m hm n s h1 hr hp
    rw [ideal_run] at hr
    refine ideal_offers (hok h.layers hm) (inp h.layers) (ad h.layers hm) hr (.inl ?_)
    simpa only [inputsOf, List.length_map] using hp
  · intro l hl m hm n s h1 s' h' hr hr' hp
    rw [ideal_run] at hr hr'
    refine ideal_offers (hok hl hm) (inp hl) (ad hl hm) hr (.inl ?_)
    simpa only [inputsOf, hr'] using hp
  · intro l hl m hm n s h1 s' h' hr hr' hp
    rw [ideal_run] at hr hr'
    refine ideal_offers (hok hl hm) (inp hl) (ad hl hm) hr (.inr ?_)
    simpa only [addsOf, hr'] using hp

end RadSim.Mlp
