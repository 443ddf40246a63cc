import Verif.Lemmas.Arbiter

/-! # The tree arbiter is lawful when its sub-arbiters are -/

namespace RadSim.Arb

variable {σ : Type} {A : Ops σ}

theorem addAll_append (s : σ) (l : List Rq) (r : Rq) :
    addAll A s (l ++ [r]) = (addAll A s l).bind fun s' => A.add s' r := by
  induction l generalizing s with
  | nil => simp only [List.nil_append, addAll, Option.bind_some]; cases A.add s r <;> rfl
  | cons q l ih =>
    simp only [List.cons_append, addAll]
    cases A.add s q with
    | none => rfl
    | some s' => exact ih s'

/-- The request that a group sees. -/
def local_ (m : Nat) (r : Rq) : Rq := ⟨r.input % m, r.id, r.pri⟩

/-- The requests that group `i` sees. -/
def sub (m : Nat) (rs : List Rq) (i : Nat) : List Rq :=
  (rs.filter fun r => r.input / m = i).map (local_ m)

theorem mem_sub {m i : Nat} {rs : List Rq} {q : Rq} :
    q ∈ sub m rs i ↔ ∃ r ∈ rs, r.input / m = i ∧ q = local_ m r := by
  simp only [sub, List.mem_map, List.mem_filter, decide_eq_true_eq]
  constructor
  · rintro ⟨r, ⟨a, b⟩, c⟩; exact ⟨r, a, b, c.symm⟩
  · rintro ⟨r, a, b, c⟩; exact ⟨r, ⟨a, b⟩, c.symm⟩

theorem sub_ok {g m : Nat} (hm : 0 < m) {rs : List Rq} (ok : Ok (g * m) rs) (i : Nat) : Ok m (sub m rs i) := by
  refine ⟨fun q hq => ?_, ?_⟩
  · obtain ⟨r, _, _, rfl⟩ := mem_sub.1 hq
    exact Nat.mod_lt _ hm
  · unfold sub
    rw [List.map_map]
    have hn : (rs.filter fun r => r.input / m = i).Nodup :=
      (List.Nodup.of_map _ ok.2).filter _
    refine List.Nodup.map_on ?_ hn
    intro a ha b hb e
    rw [List.mem_filter, decide_eq_true_eq] at ha hb
    refine ok.eq ha.1 hb.1 ?_
    have e' : a.input % m = b.input % m := e
    have h1 := Nat.div_add_mod a.input m
    have h2 := Nat.div_add_mod b.input m
    rw [ha.2, e'] at h1
    rw [hb.2] at h2
    omega

theorem sub_append (m : Nat) (rs : List Rq) (r : Rq) (i : Nat) :
    sub m (rs ++ [r]) i = sub m rs i ++ if r.input / m = i then [local_ m r] else [] := by
  unfold sub
  rw [List.filter_append, List.map_append]
  congr 1
  by_cases h : r.input / m = i <;> simp [h]

section

variable {g m : Nat} {idleG idleW : σ → Prop} {waitG waitW : σ → Nat → Nat}

/-- The tree between rounds. -/
structure TIdle (g m : Nat) (idleG idleW : σ → Prop) (s : Tree σ) : Prop where
  base : BInv (g * m) s.base []
  groups : s.groups = g
  groupSize : s.groupSize = m
  group : ∀ i < g, idleG (s.group i)
  reqs : ∀ i < g, s.groupReqs i = 0
  glob : idleW s.glob

/-- The tree after the requests `rs`, from the state `s0`. -/
structure TFed (A : Ops σ) (g m : Nat) (s0 s : Tree σ) (rs : List Rq) : Prop where
  base : BInv (g * m) s.base rs
  groups : s.groups = g
  groupSize : s.groupSize = m
  group : ∀ i < g, addAll A (s0.group i) (sub m rs i) = some (s.group i)
  reqs : ∀ i < g, s.groupReqs i = (sub m rs i).length
  glob : s.glob = s0.glob

theorem TFed.add (LG : Lawful A m idleG waitG) (hm : 0 < m) {s0 s : Tree σ} (h0 : TIdle g m idleG idleW s0)
    {rs : List Rq} {r : Rq} (h : TFed A g m s0 s rs) (ok : Ok (g * m) (rs ++ [r])) :
    ∃ s', Tree.add A s r = some s' ∧ TFed A g m s0 s' (rs ++ [r]) := by
  obtain ⟨b', hb, hi⟩ := h.base.add ok
  have hr : r.input < g * m := ok.1 r (by simp)
  have hg : r.input / m < g := (Nat.div_lt_iff_lt_mul hm).2 hr
  obtain ⟨x, hx⟩ := LG.feed (h0.group _ hg) (sub_ok hm ok (r.input / m))
  have hx' := hx
  rw [sub_append, if_pos rfl, addAll_append, h.group _ hg, Option.bind_some] at hx'
  have e : Tree.add A s r = some { s with base := b', group := setAt s.group (r.input / m) x, groupReqs := setAt s.groupReqs (r.input / m) (s.groupReqs (r.input / m) + 1) } := by
    have hx2 : A.add (s.group (r.input / m)) ⟨r.input % m, r.id, r.pri⟩ = some x := hx'
    simp only [Tree.add, hb, h.groupSize, hx2]
  refine ⟨_, e, hi, h.groups, h.groupSize, ?_, ?_, h.glob⟩
  · intro i hig
    by_cases he : i = r.input / m
    · subst he
      simp only [setAt, if_true]
      exact hx
    · simp only [setAt, he, if_false]
      rw [sub_append, if_neg (Ne.symm he), List.append_nil]
      exact h.group i hig
  · intro i hig
    rw [sub_append]
    by_cases he : i = r.input / m
    · subst he
      simp [setAt, h.reqs _ hig]
    · simp [setAt, he, Ne.symm he, h.reqs _ hig]

theorem TFed.addAll (LG : Lawful A m idleG waitG) (hm : 0 < m) {s0 : Tree σ} (h0 : TIdle g m idleG idleW s0)
    {rs : List Rq} (ok : Ok (g * m) rs) :
    ∃ s', addAll (tree A) s0 rs = some s' ∧ TFed A g m s0 s' rs := by
  have hnil : TFed A g m s0 s0 [] :=
    ⟨h0.base, h0.groups, h0.groupSize, fun _ _ => rfl, fun i hi => h0.reqs i hi, rfl⟩
  obtain ⟨s', hs, hi⟩ := addAll_inv (A := tree A) (n := g * m) (I := fun s rs => TFed A g m s0 s rs)
    (fun s rs r hI hok => hI.add LG hm h0 hok) s0 [] rs hnil (by simpa using ok)
  exact ⟨s', hs, by simpa using hi⟩

/-- The requests to the global arbiter when `q` are the winners of the groups. -/
def upward (q : Nat → Option Rq) : Nat → Nat → List Rq
  | 0, _ => []
  | k + 1, i =>
    match q i with
    | none => upward q k (i + 1)
    | some w => ⟨i, w.id, w.pri⟩ :: upward q k (i + 1)

theorem mem_upward {q : Nat → Option Rq} {k i : Nat} {r : Rq} :
    r ∈ upward q k i ↔ ∃ j w, i ≤ j ∧ j < i + k ∧ q j = some w ∧ r = ⟨j, w.id, w.pri⟩ := by
  induction k generalizing i with
  | zero =>
    simp only [upward, List.not_mem_nil, false_iff]
    rintro ⟨j, w, a, b, _⟩; omega
  | succ k ih =>
    simp only [upward]
    cases hq : q i with
    | none =>
      rw [ih]
      constructor
      · rintro ⟨j, w, a, b, c⟩; exact ⟨j, w, by omega, by omega, c⟩
      · rintro ⟨j, w, a, b, c, d⟩
        have : i ≠ j := by rintro rfl; rw [hq] at c; cases c
        exact ⟨j, w, by omega, by omega, c, d⟩
    | some v =>
      rw [List.mem_cons, ih]
      constructor
      · rintro (e | ⟨j, w, a, b, c⟩)
        · exact ⟨i, v, by omega, by omega, hq, e⟩
        · exact ⟨j, w, by omega, by omega, c⟩
      · rintro ⟨j, w, a, b, c, d⟩
        by_cases e : i = j
        · subst e
          rw [hq] at c; cases c
          exact Or.inl d
        · exact Or.inr ⟨j, w, by omega, by omega, c, d⟩

theorem upward_ok (q : Nat → Option Rq) (k i : Nat) : Ok (i + k) (upward q k i) := by
  refine ⟨fun r hr => ?_, ?_⟩
  · obtain ⟨j, w, a, b, c, rfl⟩ := mem_upward.1 hr; exact b
  · induction k generalizing i with
    | zero => simp [upward]
    | succ k ih =>
      simp only [upward]
      cases hq : q i with
      | none => exact ih (i + 1)
      | some v =>
        simp only [List.map_cons, List.nodup_cons]
        refine ⟨?_, ih (i + 1)⟩
        intro hmem
        obtain ⟨r, hr, e⟩ := List.mem_map.1 hmem
        obtain ⟨j, w, a, b, c, rfl⟩ := mem_upward.1 hr
        simp only at e
        omega

/-- The state of a group after arbitration. -/
def after (A : Ops σ) (x : σ) : σ := match A.arbitrate x with | some (y, _) => y | none => x

theorem gather_eq {q : Nat → Option Rq} {k i : Nat} {s : Tree σ} {y : σ}
    (h0 : ∀ j, i ≤ j → j < i + k → s.groupReqs j = 0 → q j = none)
    (h1 : ∀ j, i ≤ j → j < i + k → s.groupReqs j ≠ 0 → ∃ x w, A.arbitrate (s.group j) = some (x, some w) ∧ q j = some w)
    (hy : addAll A s.glob (upward q k i) = some y) :
    Tree.gather A k i s = some { s with
      group := fun j => if i ≤ j ∧ j < i + k ∧ s.groupReqs j ≠ 0 then after A (s.group j) else s.group j,
      glob := y } := by
  induction k generalizing i s with
  | zero =>
    simp only [upward, addAll, Option.some.injEq] at hy
    subst hy
    simp only [Tree.gather]
    congr 1
    cases s
    congr
    funext j
    rw [if_neg (by omega)]
  | succ k ih =>
    by_cases hr : s.groupReqs i = 0
    · have hq := h0 i (by omega) (by omega) hr
      simp only [upward, hq] at hy
      have := ih (i := i + 1) (s := s) (fun j a b => h0 j (by omega) (by omega))
        (fun j a b => h1 j (by omega) (by omega)) hy
      simp only [Tree.gather, hr, if_true, this]
      congr 1
      congr
      funext j
      by_cases e : j = i
      · subst e
        rw [if_neg (by omega), if_neg (by rintro ⟨_, _, h⟩; exact h hr)]
      · congr 1
        simp only [eq_iff_iff]
        constructor
        · rintro ⟨a, b, c⟩; exact ⟨by omega, by omega, c⟩
        · rintro ⟨a, b, c⟩; exact ⟨by omega, by omega, c⟩
    · obtain ⟨x, w, hx, hq⟩ := h1 i (by omega) (by omega) hr
      simp only [upward, hq, addAll] at hy
      cases hz : A.add s.glob ⟨i, w.id, w.pri⟩ with
      | none => rw [hz] at hy; cases hy
      | some z =>
        rw [hz] at hy
        have := ih (i := i + 1) (s := { s with group := setAt s.group i x, glob := z })
          (fun j a b => h0 j (by omega) (by omega))
          (fun j a b c => by
            have hji : j ≠ i := by omega
            simp only [setAt, hji, if_false]
            exact h1 j (by omega) (by omega) c) hy
        simp only [Tree.gather, hr, if_false, hx, hz, this]
        congr 1
        congr
        funext j
        by_cases e : j = i
        · subst e
          rw [if_neg (by omega), if_pos ⟨by omega, by omega, hr⟩]
          simp [setAt, after, hx]
        · simp only [setAt, e, if_false]
          congr 1
          simp only [eq_iff_iff]
          constructor
          · rintro ⟨a, b, c⟩; exact ⟨by omega, by omega, c⟩
          · rintro ⟨a, b, c⟩; exact ⟨by omega, by omega, c⟩

/-- The winner of a group. -/
def winner (A : Ops σ) (x : σ) : Option Rq := (A.arbitrate x).bind (·.2)

/-- The bound on the rounds that input `i` of a tree waits. -/
def treeWait (g m : Nat) (waitG waitW : σ → Nat → Nat) (s : Tree σ) (i : Nat) : Nat :=
  waitW s.glob (i / m) + g * waitG (s.group (i / m)) (i % m)

theorem tree_rest {s : Tree σ} (h : TIdle g m idleG idleW s) :
    Tree.arbitrate A s = some (s, none) ∧ Tree.update A s = some s ∧ Tree.clear A s = s := by
  have hnum : s.base.numReqs = 0 := h.base.num
  have hsel := h.base.sel
  refine ⟨by simp [Tree.arbitrate, hnum], by simp [Tree.update, hsel], by simp [Tree.clear, hnum]⟩

theorem tree_pick (LG : Lawful A m idleG waitG) (LW : Lawful A g idleW waitW) (hm : 0 < m)
    {s0 s : Tree σ} (h0 : TIdle g m idleG idleW s0) {rs : List Rq} (ok : Ok (g * m) rs) (hne : rs ≠ [])
    (h : TFed A g m s0 s rs) :
    ∃ s2 w, Tree.arbitrate A s = some (s2, some w) ∧ Best rs w ∧ s2.base.selected = some w.input ∧ s2.base.numReqs ≠ 0 ∧
      TIdle g m idleG idleW (Tree.clear A s2) ∧
      (∀ i < g * m, treeWait g m waitG waitW (Tree.clear A s2) i = treeWait g m waitG waitW s0 i) ∧
      ∃ s3, Tree.update A s2 = some s3 ∧ s3.base.numReqs ≠ 0 ∧ TIdle g m idleG idleW (Tree.clear A s3) ∧
        ∀ r ∈ rs, r.pri = w.pri → r ≠ w →
          treeWait g m waitG waitW (Tree.clear A s3) r.input < treeWait g m waitG waitW s0 r.input := by
  -- the groups
  have G : ∀ i < g, sub m rs i ≠ [] → ∃ s2 w, A.arbitrate (s.group i) = some (s2, some w) ∧
      Best (sub m rs i) w ∧ A.lastWinner s2 = some w.input ∧ A.numReqs s2 ≠ 0 ∧
      idleG (A.clear s2) ∧ (∀ j < m, waitG (A.clear s2) j = waitG (s0.group i) j) ∧
      ∃ s3, A.update s2 = some s3 ∧ A.numReqs s3 ≠ 0 ∧ idleG (A.clear s3) ∧
        ∀ r ∈ sub m rs i, r.pri = w.pri → r ≠ w → waitG (A.clear s3) r.input < waitG (s0.group i) r.input :=
    fun i hi hs => LG.pick (h0.group i hi) (sub_ok hm ok i) (h.group i hi) hs
  have G0 : ∀ i < g, sub m rs i = [] → s.group i = s0.group i := by
    intro i hi hs
    have := h.group i hi
    rw [hs] at this
    simpa [addAll] using this.symm
  have hreq : ∀ i < g, (s.groupReqs i ≠ 0 ↔ sub m rs i ≠ []) := by
    intro i hi
    rw [h.reqs i hi]
    simp [List.length_eq_zero_iff]
  have hdiv : ∀ r ∈ rs, r.input / m < g := fun r hr => (Nat.div_lt_iff_lt_mul hm).2 (ok.1 r hr)
  have hin : ∀ r ∈ rs, local_ m r ∈ sub m rs (r.input / m) := fun r hr => mem_sub.2 ⟨r, hr, rfl, rfl⟩
  -- the global arbiter
  let q : Nat → Option Rq := fun j => if s.groupReqs j = 0 then none else winner A (s.group j)
  have hq0 : ∀ j, s.groupReqs j = 0 → q j = none := fun j hj => by simp [q, hj]
  have hq1 : ∀ j, j < g → s.groupReqs j ≠ 0 → ∃ x w, A.arbitrate (s.group j) = some (x, some w) ∧ q j = some w := by
    intro j hj hr
    obtain ⟨x, w, hx, _⟩ := G j hj ((hreq j hj).1 hr)
    exact ⟨x, w, hx, by simp [q, hr, winner, hx]⟩
  have uok : Ok g (upward q g 0) := by simpa using upward_ok q g 0
  have ug : ∀ r ∈ rs, ∃ w, q (r.input / m) = some w ∧ Best (sub m rs (r.input / m)) w ∧
      (⟨r.input / m, w.id, w.pri⟩ : Rq) ∈ upward q g 0 := by
    intro r hr
    have hs : sub m rs (r.input / m) ≠ [] := List.ne_nil_of_mem (hin r hr)
    obtain ⟨x, w, hx, hb, _⟩ := G _ (hdiv r hr) hs
    have hqw : q (r.input / m) = some w := by
      have := (hreq _ (hdiv r hr)).2 hs
      simp [q, this, winner, hx]
    exact ⟨w, hqw, hb, mem_upward.2 ⟨_, w, Nat.zero_le _, by simpa using hdiv r hr, hqw, rfl⟩⟩
  have une : upward q g 0 ≠ [] := by
    obtain ⟨r, hr⟩ := List.exists_mem_of_ne_nil _ hne
    obtain ⟨w, _, _, hmem⟩ := ug r hr
    exact List.ne_nil_of_mem hmem
  obtain ⟨y, hy⟩ := LW.feed h0.glob uok
  obtain ⟨y2, v, hy2, hv, hlast, _, hyc, hyw, y3, hy3, _, hyi, hyd⟩ := LW.pick h0.glob uok hy une
  obtain ⟨vj, vw, _, hvg, hvq, rfl⟩ := mem_upward.1 hv.1
  simp only [Nat.zero_add] at hvg
  have hvr : s.groupReqs vj ≠ 0 := fun e => by rw [hq0 vj e] at hvq; cases hvq
  obtain ⟨x2, w', hx2, hvb, hxl, _, hxc, hxw, x3, hx3, _, hxi, hxd⟩ := G vj hvg ((hreq vj hvg).1 hvr)
  have : w' = vw := by
    simp only [q, hvr, if_false, winner, hx2, Option.bind_some, Option.some.injEq] at hvq
    exact hvq
  subst this
  obtain ⟨w, hw, hwg, hwl⟩ := mem_sub.1 hvb.1
  have hwin : vj * m + w'.input = w.input := by
    rw [hwl, ← hwg]; exact Nat.div_add_mod' w.input m
  have hwm : w'.input < m := by rw [hwl]; exact Nat.mod_lt _ hm
  have hwp : w'.pri = w.pri := by rw [hwl]; rfl
  have hnum : s.base.numReqs ≠ 0 := by
    rw [h.base.num]; have := List.length_pos_of_mem hw; omega
  have hnum' : s.base.numReqs > 0 := Nat.pos_of_ne_zero hnum
  let grp : Nat → σ := fun j => if 0 ≤ j ∧ j < 0 + g ∧ s.groupReqs j ≠ 0 then after A (s.group j) else s.group j
  have hgat : Tree.gather A g 0 s = some { s with group := grp, glob := y } :=
    gather_eq (fun j _ _ => hq0 j) (fun j _ hj => hq1 j (by simpa using hj)) (by rw [h.glob]; exact hy)
  have hgrp1 : ∀ j < g, s.groupReqs j ≠ 0 → grp j = after A (s.group j) := by
    intro j hj hr
    simp only [grp]
    rw [if_pos ⟨Nat.zero_le _, by simpa using hj, hr⟩]
  have hgrp0 : ∀ j, s.groupReqs j = 0 → grp j = s.group j := by
    intro j hr
    simp only [grp]
    rw [if_neg (fun h => h.2.2 hr)]
  have hgv : grp vj = x2 := by rw [hgrp1 vj hvg hvr]; simp [after, hx2]
  let s2 : Tree σ := { s with group := grp, glob := y2, base := { s.base with selected := some w.input } }
  have hclr : ∀ j < g, idleG (A.clear (grp j)) ∧ ∀ i < m, waitG (A.clear (grp j)) i = waitG (s0.group j) i := by
    intro j hj
    by_cases hr : s.groupReqs j = 0
    · have hs : sub m rs j = [] := by
        by_contra hs; exact (hreq j hj).2 hs hr
      rw [hgrp0 j hr, G0 j hj hs]
      exact (LG.rest (h0.group j hj)).2.2.2
    · obtain ⟨x, u, hx, _, _, _, a, b, _⟩ := G j hj ((hreq j hj).1 hr)
      rw [hgrp1 j hj hr]
      simp only [after, hx]
      exact ⟨a, b⟩
  have hbclr := h.base.clear (some w.input) (fun e => absurd e hne)
  refine ⟨s2, w, ?_, ⟨hw, ?_⟩, rfl, hnum, ?_, ?_, ?_⟩
  · have harb := h.base.arbitrate hw
    simp only [Tree.arbitrate, hnum, if_false, h.groups, hgat, hy2, hgv, hxl, h.groupSize, hwm, hvg, and_self,
      if_true, hwin, harb, Option.map_some, s2]
  · intro r hr
    obtain ⟨u, hu, hub, humem⟩ := ug r hr
    have h1 := hv.2 _ humem
    have h2 := hub.2 _ (hin r hr)
    simp only [local_] at h1 h2
    rw [← hwp]
    omega
  · have hn2 : s2.base.numReqs ≠ 0 := hnum
    unfold Tree.clear
    rw [if_neg hn2]
    refine ⟨hbclr, h.groups, h.groupSize, ?_, ?_, hyc⟩
    · intro i hi
      simp only [s2, h.groups, hi, if_true]
      exact (hclr i hi).1
    · intro i hi
      simp only [s2, h.groups, hi, if_true]
  · intro i hi
    have hn2 : s2.base.numReqs ≠ 0 := hnum
    have hi' : i / m < g := (Nat.div_lt_iff_lt_mul hm).2 hi
    unfold Tree.clear treeWait
    rw [if_neg hn2]
    simp only [s2, h.groups, hi', if_true]
    rw [hyw _ hi', (hclr _ hi').2 _ (Nat.mod_lt _ hm)]
  · let s3 : Tree σ := { s2 with group := setAt grp vj x3, glob := y3 }
    have hu : Tree.update A s2 = some s3 := by
      simp only [Tree.update, s2, hlast, h.groups, hvg, if_true, hgv, hx3, hy3, s3]
    have hn3 : s3.base.numReqs ≠ 0 := hnum
    refine ⟨s3, hu, hn3, ?_, ?_⟩
    · unfold Tree.clear
      rw [if_neg hn3]
      refine ⟨hbclr, h.groups, h.groupSize, ?_, ?_, hyi⟩
      · intro i hi
        simp only [s3, s2, h.groups, hi, if_true]
        by_cases e : i = vj
        · subst e; simp only [setAt, if_true]; exact hxi
        · simp only [setAt, e, if_false]; exact (hclr i hi).1
      · intro i hi
        simp only [s3, s2, h.groups, hi, if_true]
    · intro r hr hpr hrw
      have hi' := hdiv r hr
      have hlm : r.input % m < m := Nat.mod_lt _ hm
      unfold Tree.clear treeWait
      rw [if_neg hn3]
      simp only [s3, s2, h.groups, hi', if_true]
      by_cases e : r.input / m = vj
      · have hloc : local_ m r ≠ w' := by
          intro e'
          rw [hwl] at e'
          have e2 : r.input % m = w.input % m := congrArg Rq.input e'
          have a := Nat.div_add_mod r.input m
          have b := Nat.div_add_mod w.input m
          rw [e, e2] at a
          rw [hwg] at b
          exact hrw (ok.eq hr hw (by omega))
        have hd := hxd (local_ m r) (e ▸ hin r hr) (by rw [hwp]; exact hpr) hloc
        have hd' : waitG (A.clear x3) (r.input % m) < waitG (s0.group vj) (r.input % m) := hd
        have hb := LW.bound hyi hvg
        simp only [setAt, e, if_true]
        have hmul : g * (waitG (A.clear x3) (r.input % m) + 1) ≤ g * waitG (s0.group vj) (r.input % m) :=
          Nat.mul_le_mul_left g hd'
        rw [Nat.mul_add, Nat.mul_one] at hmul
        omega
      · simp only [setAt, e, if_false]
        rw [(hclr _ hi').2 _ hlm]
        obtain ⟨u, hu', hub, humem⟩ := ug r hr
        have h1 := hv.2 _ humem
        have h2 := hub.2 _ (hin r hr)
        simp only [local_] at h1 h2
        have hd := hyd _ humem (by simp only; omega) (by
          intro e'; exact e (congrArg Rq.input e'))
        simp only at hd
        omega

theorem tree_lawful (LG : Lawful A m idleG waitG) (LW : Lawful A g idleW waitW) (hm : 0 < m) :
    Lawful (tree A) (g * m) (TIdle g m idleG idleW) (treeWait g m waitG waitW) where
  feed := fun h0 ok => let ⟨s', hs, _⟩ := TFed.addAll LG hm h0 ok; ⟨s', hs⟩
  pick := by
    intro s rs s1 h0 ok h1 hne
    obtain ⟨s', hs, hi⟩ := TFed.addAll LG hm h0 ok
    rw [hs] at h1; cases h1
    exact tree_pick LG LW hm h0 ok hne hi
  rest := by
    intro s h
    obtain ⟨a, b, c⟩ := tree_rest (A := A) h
    refine ⟨h.base.num, a, b, ?_, ?_⟩
    · show TIdle g m idleG idleW (Tree.clear A s)
      rw [c]; exact h
    · intro i _
      show treeWait g m waitG waitW (Tree.clear A s) i = _
      rw [c]
  bound := by
    intro s i h hi
    have hi' : i / m < g := (Nat.div_lt_iff_lt_mul hm).2 hi
    have a := LW.bound h.glob hi'
    have b := LG.bound (h.group _ hi') (Nat.mod_lt i hm)
    unfold treeWait
    have : g * (waitG (s.group (i / m)) (i % m) + 1) ≤ g * m := Nat.mul_le_mul_left g b
    rw [Nat.mul_add, Nat.mul_one] at this
    omega

theorem tree_init (make : Nat → σ) (hG : idleG (make m)) (hW : idleW (make g)) :
    TIdle g m idleG idleW (Tree.init make g m) :=
  ⟨BInv.init _, rfl, rfl, fun _ _ => hG, fun _ _ => rfl, hW⟩

end

end RadSim.Arb
