import Verif.Model.Arbiter
import Mathlib.Data.List.Nodup
import Mathlib.Order.Basic

/-! # Lemmas about arbiters -/

namespace RadSim.Arb

variable {σ : Type}

/-! ## What an allocator may rely on -/

/-- An arbiter of size `n`: `idle` are its states between rounds and `wait` bounds the rounds an input
waits. -/
structure Lawful (A : Ops σ) (n : Nat) (idle : σ → Prop) (wait : σ → Nat → Nat) : Prop where
  feed : ∀ {s rs}, idle s → Ok n rs → ∃ s1, addAll A s rs = some s1
  pick : ∀ {s rs s1}, idle s → Ok n rs → addAll A s rs = some s1 → rs ≠ [] →
    ∃ s2 w, A.arbitrate s1 = some (s2, some w) ∧ Best rs w ∧ A.lastWinner s2 = some w.input ∧ A.numReqs s2 ≠ 0 ∧
      idle (A.clear s2) ∧ (∀ i < n, wait (A.clear s2) i = wait s i) ∧
      ∃ s3, A.update s2 = some s3 ∧ A.numReqs s3 ≠ 0 ∧ idle (A.clear s3) ∧
        ∀ r ∈ rs, r.pri = w.pri → r ≠ w → wait (A.clear s3) r.input < wait s r.input
  rest : ∀ {s}, idle s → A.numReqs s = 0 ∧ A.arbitrate s = some (s, none) ∧ A.update s = some s ∧
    idle (A.clear s) ∧ ∀ i < n, wait (A.clear s) i = wait s i
  bound : ∀ {s i}, idle s → i < n → wait s i < n

theorem Ok.nil (n : Nat) : Ok n [] := by simp [Ok]

theorem Ok.eq {n : Nat} {rs : List Rq} (h : Ok n rs) {a b : Rq} (ha : a ∈ rs) (hb : b ∈ rs)
    (e : a.input = b.input) : a = b := List.inj_on_of_nodup_map h.2 ha hb e

/-! ## The base class -/

/-- The base class holds just the requests `rs`. -/
structure BInv (n : Nat) (b : Base) (rs : List Rq) : Prop where
  size : b.size = n
  num : b.numReqs = rs.length
  sel : b.selected = none
  some_ : ∀ r ∈ rs, b.request r.input = some (r.id, r.pri)
  none_ : ∀ i, (∀ r ∈ rs, r.input ≠ i) → b.request i = none

theorem BInv.init (n : Nat) : BInv n (Base.init n) [] :=
  ⟨rfl, rfl, rfl, by simp, by simp [Base.init]⟩

theorem Ok.snoc_left {n : Nat} {rs : List Rq} {r : Rq} (h : Ok n (rs ++ [r])) : Ok n rs := by
  refine ⟨fun q hq => h.1 q (by simp [hq]), ?_⟩
  have := h.2
  rw [List.map_append, List.nodup_append] at this
  exact this.1

theorem Ok.snoc_ne {n : Nat} {rs : List Rq} {r : Rq} (h : Ok n (rs ++ [r])) :
    ∀ q ∈ rs, q.input ≠ r.input := by
  have := h.2
  rw [List.map_append, List.nodup_append] at this
  intro q hq
  exact this.2.2 q.input (List.mem_map_of_mem hq) r.input (by simp)

theorem BInv.add {n : Nat} {b : Base} {rs : List Rq} {r : Rq} (h : BInv n b rs) (ok : Ok n (rs ++ [r])) :
    ∃ b', b.add r = some b' ∧ BInv n b' (rs ++ [r]) := by
  have hne := ok.snoc_ne
  have hlt : r.input < b.size := by rw [h.size]; exact ok.1 r (by simp)
  have hno : b.request r.input = none := h.none_ _ hne
  have e : b.add r = some { b with numReqs := b.numReqs + 1, request := setAt b.request r.input (some (r.id, r.pri)) } := by
    simp only [Base.add, hlt, hno, and_self, if_true]
  refine ⟨_, e, ?_⟩
  constructor
  · exact h.size
  · simp [h.num]
  · exact h.sel
  · intro q hq
    rcases List.mem_append.1 hq with hq | hq
    · simp only [setAt, hne q hq, if_false]; exact h.some_ q hq
    · rw [List.mem_singleton] at hq; subst hq; simp [setAt]
  · intro i hi
    have h1 : r.input ≠ i := hi r (by simp)
    simp only [setAt, Ne.symm h1, if_false]
    exact h.none_ i fun q hq => hi q (by simp [hq])

theorem BInv.clear {n : Nat} {b : Base} {rs : List Rq} (h : BInv n b rs) (x : Option Nat) (hx : rs = [] → x = none) :
    BInv n { b with selected := x }.clear [] := by
  unfold Base.clear
  by_cases hr : rs = []
  · subst hr
    have : ¬ b.numReqs > 0 := by simp [h.num]
    simp only [this, if_false, hx rfl]
    exact ⟨h.size, h.num, rfl, h.some_, h.none_⟩
  · have : b.numReqs > 0 := by
      rw [h.num]; exact List.length_pos_iff.2 hr
    simp only [this, if_true]
    exact ⟨h.size, rfl, rfl, by simp, by simp⟩

theorem BInv.arbitrate {n : Nat} {b : Base} {rs : List Rq} (h : BInv n b rs) {w : Rq} (hw : w ∈ rs) :
    ({ b with selected := some w.input } : Base).arbitrate = some (some w) := by
  simp [Base.arbitrate, h.some_ w hw]

/-- An invariant over the requests added so far carries over to all of them. -/
theorem addAll_inv {A : Ops σ} {n : Nat} {I : σ → List Rq → Prop}
    (step : ∀ s rs r, I s rs → Ok n (rs ++ [r]) → ∃ s', A.add s r = some s' ∧ I s' (rs ++ [r]))
    (s : σ) (pre rs : List Rq) (h : I s pre) (ok : Ok n (pre ++ rs)) :
    ∃ s', addAll A s rs = some s' ∧ I s' (pre ++ rs) := by
  induction rs generalizing s pre with
  | nil => exact ⟨s, rfl, by simpa using h⟩
  | cons r rs ih =>
    have e : pre ++ r :: rs = (pre ++ [r]) ++ rs := by simp
    rw [e] at ok
    have ok' : Ok n (pre ++ [r]) := by
      refine ⟨fun q hq => ok.1 q (List.mem_append_left _ hq), ?_⟩
      have := ok.2
      rw [List.map_append, List.nodup_append] at this
      exact this.1
    obtain ⟨s', hs', hi⟩ := step s pre r h ok'
    obtain ⟨s'', hs'', hi'⟩ := ih s' (pre ++ [r]) hi ok
    exact ⟨s'', by simp only [addAll, hs', hs''], by rw [e]; exact hi'⟩

/-! ## Round robin -/

theorem behind_eq {n a i : Nat} (ha : a < n) (hi : i < n) :
    behind n a i = if a ≤ i then i - a else i + n - a := by
  unfold behind
  split
  · rw [show i + n - a = i - a + n by omega, Nat.add_mod_right, Nat.mod_eq_of_lt (by omega)]
  · exact Nat.mod_eq_of_lt (by omega)

theorem behind_lt {n a i : Nat} (h : 0 < n) : behind n a i < n := Nat.mod_lt _ h

theorem behind_inj {n a i j : Nat} (ha : a < n) (hi : i < n) (hj : j < n)
    (h : behind n a i = behind n a j) : i = j := by
  rw [behind_eq ha hi, behind_eq ha hj] at h
  split at h <;> split at h <;> omega

theorem behind_next {n a w i : Nat} (ha : a < n) (hw : w < n) (hi : i < n)
    (h : behind n a w < behind n a i) : behind n ((w + 1) % n) i < behind n a i := by
  have h1 : (w + 1) % n = if w + 1 = n then 0 else w + 1 := by
    split
    · next e => rw [e]; exact Nat.mod_self n
    · exact Nat.mod_eq_of_lt (by omega)
  have h2 : (w + 1) % n < n := Nat.mod_lt _ (by omega)
  rw [behind_eq ha hi, behind_eq ha hw] at h
  rw [behind_eq h2 hi, behind_eq ha hi, h1]
  split at h <;> split at h <;> split <;> simp_all <;> first | omega | (split <;> omega)

/-- The round-robin arbiter has the requests `rs` and points to `p`. -/
structure RInv (n p : Nat) (s : RR) (rs : List Rq) : Prop where
  base : BInv n s.base rs
  pointer : s.pointer = p
  best : (rs = [] ∧ s.best = none) ∨
    ∃ w, s.best = some w.input ∧ s.highest = w.pri ∧ FirstFrom n p rs w

theorem RInv.init (n : Nat) : RInv n 0 (RR.init n) [] := ⟨BInv.init n, rfl, Or.inl ⟨rfl, rfl⟩⟩

theorem RInv.add {n p : Nat} (hp : p < n) {s : RR} {rs : List Rq} {r : Rq} (h : RInv n p s rs)
    (ok : Ok n (rs ++ [r])) : ∃ s', s.add r = some s' ∧ RInv n p s' (rs ++ [r]) := by
  obtain ⟨b', hb, hi⟩ := h.base.add ok
  have hne := ok.snoc_ne
  have hr : r.input < n := ok.1 r (by simp)
  rcases h.best with ⟨rfl, hbest⟩ | ⟨w, hbest, hpri, ⟨hw, hmax⟩, htie⟩
  · have e : s.add r = some { s with base := b', highest := r.pri, best := some r.input } := by
      simp only [RR.add, hbest, hb, Option.map_some, if_true]
    refine ⟨_, e, ⟨hi, h.pointer, Or.inr ⟨r, rfl, rfl, ⟨by simp, by simp⟩, ?_⟩⟩⟩
    simp
  · have hnum : s.base.numReqs ≠ 0 := by
      rw [h.base.num]; have := List.length_pos_of_mem hw; omega
    have hwn : w.input < n := ok.1 w (by simp [hw])
    have hwr : w.input ≠ r.input := hne w hw
    by_cases hsup : supersedes r.input r.pri w.input w.pri p n = true
    · have hs : s.add r = some { s with base := b', highest := r.pri, best := some r.input } := by
        simp only [RR.add, hbest, hb, Option.map_some, hnum, decide_false, Bool.false_or, hpri, h.pointer,
          h.base.size, hsup, if_true]
      refine ⟨_, hs, hi, h.pointer, Or.inr ⟨r, rfl, rfl, ⟨by simp, ?_⟩, ?_⟩⟩
      · intro q hq
        rcases List.mem_append.1 hq with hq | hq
        · have := hmax q hq
          simp only [supersedes, Bool.or_eq_true, Bool.and_eq_true, decide_eq_true_eq] at hsup
          omega
        · rw [List.mem_singleton] at hq; subst hq; exact Int.le_refl _
      · intro q hq hpq hqr
        simp only [supersedes, Bool.or_eq_true, Bool.and_eq_true, decide_eq_true_eq] at hsup
        rcases List.mem_append.1 hq with hq | hq
        · have h1 := hmax q hq
          rcases hsup with hgt | ⟨heq, hlt⟩
          · omega
          · by_cases e : q = w
            · subst e; exact hlt
            · exact Nat.lt_trans hlt (htie q hq (by omega) e)
        · rw [List.mem_singleton] at hq; exact absurd hq hqr
    · have hs : s.add r = some { s with base := b' } := by
        simp only [RR.add, hbest, hb, Option.map_some, hnum, decide_false, Bool.false_or, hpri, h.pointer,
          h.base.size, hsup]
        rfl
      refine ⟨_, hs, hi, h.pointer, Or.inr ⟨w, hbest, hpri, ⟨by simp [hw], ?_⟩, ?_⟩⟩
      · intro q hq
        rcases List.mem_append.1 hq with hq | hq
        · exact hmax q hq
        · rw [List.mem_singleton] at hq; subst hq
          simp only [supersedes, Bool.or_eq_true, Bool.and_eq_true, decide_eq_true_eq] at hsup
          omega
      · intro q hq hpq hqw
        rcases List.mem_append.1 hq with hq | hq
        · exact htie q hq hpq hqw
        · rw [List.mem_singleton] at hq; subst hq
          simp only [supersedes, Bool.or_eq_true, Bool.and_eq_true, decide_eq_true_eq] at hsup
          have h1 : ¬ behind n p q.input < behind n p w.input := fun hlt => hsup (Or.inr ⟨hpq, hlt⟩)
          have h2 : behind n p w.input ≠ behind n p q.input := fun e => hwr (behind_inj hp hwn hr e)
          omega

theorem RInv.addAll {n p : Nat} (hp : p < n) {s : RR} {rs : List Rq} (h : RInv n p s [])
    (ok : Ok n rs) : ∃ s', addAll rr s rs = some s' ∧ RInv n p s' rs := by
  obtain ⟨s', hs, hi⟩ := addAll_inv (A := rr) (n := n) (I := fun s rs => RInv n p s rs)
    (fun s rs r hI hok => hI.add hp hok) s [] rs h (by simpa using ok)
  exact ⟨s', hs, by simpa using hi⟩

/-- A round of the round-robin arbiter, with the order of the grants. -/
theorem RInv.pick {n p : Nat} {s : RR} {rs : List Rq} (h : RInv n p s rs) (hne : rs ≠ []) :
    ∃ s2 w, s.arbitrate = some (s2, some w) ∧ FirstFrom n p rs w ∧ s2.base.selected = some w.input ∧ s2.base.numReqs ≠ 0 ∧
      RInv n p s2.clear [] ∧ RInv n ((w.input + 1) % n) s2.update.clear [] := by
  rcases h.best with ⟨e, _⟩ | ⟨w, hbest, hpri, hff⟩
  · exact absurd e hne
  · have hw := hff.1.1
    have hclear := h.base.clear (some w.input) (fun e => absurd e hne)
    have hnum : s.base.numReqs ≠ 0 := by
      rw [h.base.num]; have := List.length_pos_of_mem hw; omega
    refine ⟨{ s with base := { s.base with selected := some w.input } }, w, ?_, hff, rfl, hnum, ?_, ?_⟩
    · simp only [RR.arbitrate, hbest, h.base.arbitrate hw, Option.map_some]
    · exact ⟨hclear, h.pointer, Or.inl ⟨rfl, rfl⟩⟩
    · refine ⟨hclear, ?_, Or.inl ⟨rfl, rfl⟩⟩
      simp [RR.update, RR.clear, h.base.size]

theorem RInv.rest {n p : Nat} {s : RR} (h : RInv n p s []) :
    s.arbitrate = some (s, none) ∧ s.update = s ∧ RInv n p s.clear [] := by
  have hb : s.best = none := by
    rcases h.best with ⟨_, e⟩ | ⟨w, _, _, hff⟩
    · exact e
    · exact absurd hff.1.1 (by simp)
  have hsel := h.base.sel
  have e : ({ s.base with selected := none } : Base) = s.base := by
    cases hs : s.base with
    | mk a b c d => rw [hs] at hsel; simp_all
  refine ⟨?_, ?_, ?_, h.pointer, Or.inl ⟨rfl, rfl⟩⟩
  · have hnum : s.base.numReqs = 0 := h.base.num
    cases s with
    | mk base p h best => cases base; simp_all [RR.arbitrate, Base.arbitrate]
  · simp [RR.update, hsel]
  · have := h.base.clear none (fun _ => rfl)
    rw [e] at this
    exact this

theorem rr_lawful {n : Nat} (hn : 0 < n) :
    Lawful rr n (fun s => ∃ p < n, RInv n p s []) (fun s i => behind n s.pointer i) where
  feed := fun ⟨p, hp, h⟩ ok => let ⟨s', hs, _⟩ := h.addAll hp ok; ⟨s', hs⟩
  pick := by
    rintro s rs s1 ⟨p, hp, h⟩ ok h1 hne
    obtain ⟨s', hs, hi⟩ := h.addAll hp ok
    rw [hs] at h1; cases h1
    obtain ⟨s2, w, ha, hff, hsel, hnum, hc, hu⟩ := hi.pick hne
    have hnum' : s2.update.base.numReqs ≠ 0 := by unfold RR.update; split <;> exact hnum
    refine ⟨s2, w, ha, hff.1, hsel, hnum, ⟨p, hp, hc⟩, ?_, s2.update, rfl, hnum',
      ⟨_, Nat.mod_lt _ hn, hu⟩, ?_⟩
    · intro i _
      show behind n s2.clear.pointer i = _
      rw [hc.pointer, h.pointer]
    · intro r hr hpr hrw
      show behind n s2.update.clear.pointer _ < _
      rw [hu.pointer, h.pointer]
      exact behind_next hp (ok.1 w hff.1.1) (ok.1 r hr) (hff.2 r hr hpr hrw)
  rest := by
    rintro s ⟨p, hp, h⟩
    obtain ⟨a, b, c⟩ := h.rest
    refine ⟨h.base.num, a, congrArg some b, ⟨p, hp, c⟩, ?_⟩
    intro i _
    show behind n s.clear.pointer i = _
    rw [c.pointer, h.pointer]
  bound := fun _ _ => behind_lt hn

/-! ## Matrix -/

theorem LessRecent.irrefl (gs : List Nat) (i : Nat) : ¬ LessRecent gs i i := by
  induction gs with
  | nil => simp [LessRecent]
  | cons g gs ih =>
    rintro ⟨h, e | h'⟩
    · exact h e
    · exact ih h'

theorem LessRecent.trans {gs : List Nat} {i j l : Nat} (h : LessRecent gs i j) (h' : LessRecent gs j l) :
    LessRecent gs i l := by
  induction gs with
  | nil => simp only [LessRecent] at *; omega
  | cons g gs ih =>
    obtain ⟨a, b⟩ := h
    obtain ⟨c, d⟩ := h'
    refine ⟨a, ?_⟩
    rcases b with b | b
    · exact absurd b c
    · rcases d with d | d
      · exact Or.inl d
      · exact Or.inr (ih b d)

theorem LessRecent.total (gs : List Nat) {i j : Nat} (h : i ≠ j) : LessRecent gs i j ∨ LessRecent gs j i := by
  induction gs with
  | nil => simp only [LessRecent]; omega
  | cons g gs ih =>
    simp only [LessRecent]
    by_cases hi : i = g
    · subst hi; exact Or.inr ⟨Ne.symm h, Or.inl rfl⟩
    · by_cases hj : j = g
      · exact Or.inl ⟨hi, Or.inl hj⟩
      · rcases ih with ih | ih
        · exact Or.inl ⟨hi, Or.inr ih⟩
        · exact Or.inr ⟨hj, Or.inr ih⟩

theorem leastRecent_exists (gs : List Nat) {rs : List Rq} (hne : rs ≠ [])
    (hd : (rs.map Rq.input).Nodup) : ∃ w, LeastRecent gs rs w := by
  induction rs with
  | nil => exact absurd rfl hne
  | cons r rs ih =>
    by_cases h : rs = []
    · subst h; exact ⟨r, ⟨by simp, by simp⟩, by simp⟩
    · rw [List.map_cons, List.nodup_cons] at hd
      obtain ⟨w, ⟨hw, hmax⟩, htie⟩ := ih h hd.2
      have hrw : r.input ≠ w.input := fun e => hd.1 (e ▸ List.mem_map_of_mem hw)
      by_cases hr : r.pri > w.pri ∨ (r.pri = w.pri ∧ LessRecent gs r.input w.input)
      · refine ⟨r, ⟨by simp, ?_⟩, ?_⟩
        · intro q hq
          rcases List.mem_cons.1 hq with rfl | hq
          · exact Int.le_refl _
          · have := hmax q hq; omega
        · intro q hq hpq hqr
          rcases List.mem_cons.1 hq with rfl | hq
          · exact absurd rfl hqr
          · have := hmax q hq
            rcases hr with hr | ⟨hr, hl⟩
            · omega
            · by_cases e : q = w
              · subst e; exact hl
              · exact hl.trans (htie q hq (by omega) e)
      · refine ⟨w, ⟨by simp [hw], ?_⟩, ?_⟩
        · intro q hq
          rcases List.mem_cons.1 hq with rfl | hq
          · have : ¬ q.pri > w.pri := fun h => hr (Or.inl h)
            omega
          · exact hmax q hq
        · intro q hq hpq hqw
          rcases List.mem_cons.1 hq with rfl | hq
          · rcases LessRecent.total gs hrw with hl | hl
            · exact absurd (Or.inr ⟨hpq, hl⟩) hr
            · exact hl
          · exact htie q hq hpq hqw

/-- The matrix arbiter has the requests `rs` and its matrix is the order given by the grants `gs`. -/
structure MInv (n : Nat) (gs : List Nat) (s : Mat) (rs : List Rq) : Prop where
  base : BInv n s.base rs
  last : (rs = [] ∧ s.lastReq = none) ∨ ∃ l r, rs = l ++ [r] ∧ s.lastReq = some r.input
  matrix : ∀ i j, i < n → j < n → (s.matrix i j = true ↔ LessRecent gs i j)

theorem MInv.init (n : Nat) : MInv n [] (Mat.init n) [] := by
  refine ⟨BInv.init n, Or.inl ⟨rfl, rfl⟩, ?_⟩
  intro i j hi _
  simp [Mat.init, LessRecent, hi]

theorem MInv.add {n : Nat} {gs : List Nat} {s : Mat} {rs : List Rq} {r : Rq} (h : MInv n gs s rs)
    (ok : Ok n (rs ++ [r])) : ∃ s', s.add r = some s' ∧ MInv n gs s' (rs ++ [r]) := by
  obtain ⟨b', hb, hi⟩ := h.base.add ok
  have e : s.add r = some { s with base := b', lastReq := some r.input } := by
    simp only [Mat.add, hb, Option.map_some]
  exact ⟨_, e, hi, Or.inr ⟨rs, r, rfl, rfl⟩, h.matrix⟩

theorem MInv.addAll {n : Nat} {gs : List Nat} {s : Mat} {rs : List Rq} (h : MInv n gs s [])
    (ok : Ok n rs) : ∃ s', addAll mat s rs = some s' ∧ MInv n gs s' rs := by
  obtain ⟨s', hs, hi⟩ := addAll_inv (A := mat) (n := n) (I := fun s rs => MInv n gs s rs)
    (fun s rs r hI hok => hI.add hok) s [] rs h (by simpa using ok)
  exact ⟨s', hs, by simpa using hi⟩

/-- The request of an input, if there is one. -/
theorem BInv.request_some {n : Nat} {b : Base} {rs : List Rq} (h : BInv n b rs) {i : Nat} {x : Int × Int}
    (hx : b.request i = some x) : ∃ r ∈ rs, r.input = i ∧ x = (r.id, r.pri) := by
  by_cases hr : ∃ r ∈ rs, r.input = i
  · obtain ⟨r, hr, rfl⟩ := hr
    refine ⟨r, hr, rfl, ?_⟩
    rw [h.some_ r hr] at hx
    exact (Option.some.inj hx).symm
  · rw [h.none_ i fun r hr' e => hr ⟨r, hr', e⟩] at hx
    cases hx

theorem MInv.not_blocked {n : Nat} {gs : List Nat} {s : Mat} {rs : List Rq} (h : MInv n gs s rs)
    (ok : Ok n rs) {w : Rq} (hw : w ∈ rs) : s.blocked w.input w.pri = false ↔ LeastRecent gs rs w := by
  unfold Mat.blocked
  rw [List.any_eq_false]
  constructor
  · intro hb
    have key : ∀ r ∈ rs, ¬ ((r.pri = w.pri ∧ LessRecent gs r.input w.input) ∨ r.pri > w.pri) := by
      intro r hr hc
      have h1 := hb r.input (by rw [List.mem_range, h.base.size]; exact ok.1 r hr)
      rw [h.base.some_ r hr] at h1
      simp only [Bool.or_eq_true, Bool.and_eq_true, decide_eq_true_eq] at h1
      rw [h.matrix _ _ (ok.1 r hr) (ok.1 w hw)] at h1
      exact h1 hc
    refine ⟨⟨hw, fun r hr => ?_⟩, fun r hr hp hne => ?_⟩
    · have := key r hr
      have : ¬ r.pri > w.pri := fun h => this (Or.inr h)
      omega
    · have hin : r.input ≠ w.input := fun e => hne (ok.eq hr hw e)
      rcases LessRecent.total gs hin with hl | hl
      · exact absurd (Or.inl ⟨hp, hl⟩) (key r hr)
      · exact hl
  · rintro ⟨⟨_, hmax⟩, htie⟩ i _
    cases hx : s.base.request i with
    | none => simp
    | some x =>
      obtain ⟨r, hr, rfl, rfl⟩ := h.base.request_some hx
      simp only [Bool.or_eq_true, Bool.and_eq_true, decide_eq_true_eq]
      rw [h.matrix _ _ (ok.1 r hr) (ok.1 w hw)]
      rintro (⟨hp, hl⟩ | hp)
      · by_cases e : r = w
        · subst e; exact LessRecent.irrefl _ _ hl
        · exact LessRecent.irrefl _ _ (hl.trans (htie r hr hp e))
      · have := hmax r hr; omega

theorem leastRecent_unique {gs : List Nat} {rs : List Rq} {v w : Rq} (hv : LeastRecent gs rs v)
    (hw : LeastRecent gs rs w) : v = w := by
  by_cases e : v = w
  · exact e
  · have h1 := hv.1.2 w hw.1.1
    have h2 := hw.1.2 v hv.1.1
    have a := hv.2 w hw.1.1 (by omega) (Ne.symm e)
    have b := hw.2 v hv.1.1 (by omega) e
    exact absurd (a.trans b) (LessRecent.irrefl _ _)

/-- A round of the matrix arbiter, with the order of the grants. -/
theorem MInv.pick {n : Nat} {gs : List Nat} {s : Mat} {rs : List Rq} (h : MInv n gs s rs) (ok : Ok n rs)
    (hne : rs ≠ []) :
    ∃ s2 w, s.arbitrate = some (s2, some w) ∧ LeastRecent gs rs w ∧ s2.base.selected = some w.input ∧ s2.base.numReqs ≠ 0 ∧
      MInv n gs s2.clear [] ∧ MInv n (w.input :: gs) s2.update.clear [] := by
  obtain ⟨w, hl⟩ := leastRecent_exists gs hne ok.2
  have hw := hl.1.1
  have hsel : s.choice = some w.input := by
    unfold Mat.choice
    split
    · next h2 =>
      rw [h.base.num] at h2
      rcases h.last with ⟨e, _⟩ | ⟨l, r, e, hr⟩
      · exact absurd e hne
      · rw [e] at h2
        have : l = [] := by
          cases l with
          | nil => rfl
          | cons a l => simp at h2; omega
        subst this
        rw [e] at hw
        simp only [List.nil_append, List.mem_singleton] at hw
        rw [hr, hw]
    · have hblk : ∀ i, (match s.base.request i with
          | none => false
          | some (_, p) => !s.blocked i p) = true ↔ i = w.input := by
        intro i
        cases hx : s.base.request i with
        | none =>
          simp only [Bool.false_eq_true, false_iff]
          rintro rfl
          rw [h.base.some_ w hw] at hx
          cases hx
        | some x =>
          obtain ⟨r, hr, rfl, rfl⟩ := h.base.request_some hx
          simp only [Bool.not_eq_true']
          rw [h.not_blocked ok hr]
          constructor
          · intro hr'; rw [leastRecent_unique hr' hl]
          · intro e; rw [ok.eq hr hw e]; exact hl
      cases hf : (List.range s.base.size).find? fun input =>
        match s.base.request input with
        | none => false
        | some (_, p) => !s.blocked input p with
      | none =>
        rw [List.find?_eq_none] at hf
        have := hf w.input (by rw [List.mem_range, h.base.size]; exact ok.1 w hw)
        exact absurd ((hblk w.input).2 rfl) this
      | some i =>
        have := List.find?_some hf
        rw [(hblk i).1 this]
  have hclear := h.base.clear (some w.input) (fun e => absurd e hne)
  have hsize : s.base.clear.size = n := by
    have := h.base.size
    unfold Base.clear; split <;> exact this
  have hnum : s.base.numReqs ≠ 0 := by
    rw [h.base.num]; have := List.length_pos_of_mem hw; omega
  refine ⟨{ s with base := { s.base with selected := some w.input } }, w, ?_, hl, rfl, hnum, ?_, ?_⟩
  · simp only [Mat.arbitrate, hsel, h.base.arbitrate hw, Option.map_some]
  · exact ⟨hclear, Or.inl ⟨rfl, rfl⟩, h.matrix⟩
  · refine ⟨hclear, Or.inl ⟨rfl, rfl⟩, ?_⟩
    intro i j hi hj
    simp only [Mat.update, Mat.clear, h.base.size, hi, hj, true_and]
    by_cases hij : i = j
    · subst hij
      simp only [ne_eq, not_true_eq_false, if_false]
      rw [h.matrix i i hi hi]
      exact ⟨fun x => absurd x (LessRecent.irrefl _ _), fun x => absurd x (LessRecent.irrefl _ _)⟩
    · simp only [ne_eq, hij, not_false_eq_true, if_true, LessRecent]
      by_cases hiw : i = w.input
      · simp [hiw]
      · by_cases hjw : j = w.input
        · subst hjw; simp [hiw]
        · simp [hiw, hjw, h.matrix i j hi hj]

theorem MInv.rest {n : Nat} {gs : List Nat} {s : Mat} (h : MInv n gs s []) :
    s.arbitrate = some (s, none) ∧ s.update = s ∧ MInv n gs s.clear [] := by
  have hb : s.lastReq = none := by
    rcases h.last with ⟨_, e⟩ | ⟨l, r, e, _⟩
    · exact e
    · simp at e
  have hsel := h.base.sel
  have hnum : s.base.numReqs = 0 := h.base.num
  have e : ({ s.base with selected := none } : Base) = s.base := by
    cases hs : s.base with
    | mk a b c d => rw [hs] at hsel; simp_all
  refine ⟨?_, ?_, ?_, Or.inl ⟨rfl, rfl⟩, h.matrix⟩
  · cases s with
    | mk base p h => cases base; simp_all [Mat.arbitrate, Mat.choice, Base.arbitrate]
  · simp [Mat.update, hsel]
  · have := h.base.clear none (fun _ => rfl)
    rw [e] at this
    exact this

/-- The number of inputs that come before input `i`. -/
def before (n : Nat) (s : Mat) (i : Nat) : Nat := (List.range n).countP fun j => s.matrix j i

theorem countP_lt {α : Type} (l : List α) (p q : α → Bool) (h : ∀ a ∈ l, p a = true → q a = true)
    (hx : ∃ a ∈ l, q a = true ∧ p a = false) : l.countP p < l.countP q := by
  induction l with
  | nil => simp at hx
  | cons a l ih =>
    have hle : l.countP p ≤ l.countP q := List.countP_mono_left fun x hx => h x (by simp [hx])
    rw [List.countP_cons, List.countP_cons]
    obtain ⟨b, hb, hq, hp⟩ := hx
    rcases List.mem_cons.1 hb with rfl | hb
    · simp only [hq, hp, if_true]; simp; omega
    · have := ih (fun x hx => h x (by simp [hx])) ⟨b, hb, hq, hp⟩
      have h1 := h a (by simp)
      by_cases hpa : p a = true
      · simp only [hpa, h1 hpa, if_true]; omega
      · simp only [hpa]; simp; omega

theorem mat_lawful (n : Nat) :
    Lawful mat n (fun s => ∃ gs, MInv n gs s []) (fun s i => before n s i) where
  feed := fun ⟨gs, h⟩ ok => let ⟨s', hs, _⟩ := h.addAll ok; ⟨s', hs⟩
  pick := by
    rintro s rs s1 ⟨gs, h⟩ ok h1 hne
    obtain ⟨s', hs, hi⟩ := h.addAll ok
    rw [hs] at h1; cases h1
    obtain ⟨s2, w, ha, hl, hsel, hnum, hc, hu⟩ := hi.pick ok hne
    have hnum' : s2.update.base.numReqs ≠ 0 := by unfold Mat.update; split <;> exact hnum
    have hwn := ok.1 w hl.1.1
    refine ⟨s2, w, ha, hl.1, hsel, hnum, ⟨gs, hc⟩, ?_, s2.update, rfl, hnum', ⟨_, hu⟩, ?_⟩
    · intro i hi
      apply List.countP_congr
      intro j hj
      have hjn := List.mem_range.1 hj
      exact (hc.matrix _ _ hjn hi).trans (h.matrix _ _ hjn hi).symm
    · intro r hr hpr hrw
      have hrn := ok.1 r hr
      have hlt := hl.2 r hr hpr hrw
      apply countP_lt
      · intro j hj hm
        have hjn := List.mem_range.1 hj
        have hm' := (hu.matrix _ _ hjn hrn).1 hm
        rw [h.matrix _ _ hjn hrn]
        rcases hm'.2 with e | h'
        · exact absurd (ok.eq hr hl.1.1 e) hrw
        · exact h'
      · refine ⟨w.input, List.mem_range.2 hwn, (h.matrix _ _ hwn hrn).2 hlt, ?_⟩
        have : ¬ s2.update.clear.matrix w.input r.input = true := by
          rw [hu.matrix _ _ hwn hrn]
          exact fun x => x.1 rfl
        exact Bool.eq_false_iff.2 this
  rest := by
    rintro s ⟨gs, h⟩
    obtain ⟨a, b, c⟩ := h.rest
    exact ⟨h.base.num, a, congrArg some b, ⟨gs, c⟩, fun _ _ => rfl⟩
  bound := by
    rintro s i ⟨gs, h⟩ hi
    have : before n s i < (List.range n).countP fun _ => true := by
      refine countP_lt _ _ _ (fun _ _ _ => rfl) ⟨i, List.mem_range.2 hi, rfl, ?_⟩
      exact Bool.eq_false_iff.2 ((h.matrix i i hi hi).not.2 (LessRecent.irrefl _ _))
    simpa using this

end RadSim.Arb
