import Verif.Lemmas.ArbiterTree

/-!
# Properties of the arbiters

C42: a grant goes to a request of highest priority, ties by the order of the class. C43: no starvation.
-/

namespace RadSim.Arb

variable {σ : Type} {A : Ops σ} {n : Nat} {idle : σ → Prop} {wait : σ → Nat → Nat}

/-- One round of a lawful arbiter. -/
theorem Lawful.round (L : Lawful A n idle wait) {s : σ} (h : idle s) {rs : List Rq} (ok : Ok n rs) (upd : Bool) :
    ∃ s' w, round A s rs upd = some (s', w) ∧ idle s' ∧
      ((rs = [] ∧ w = none) ∨ ∃ v, w = some v ∧ Best rs v) ∧
      (upd = false → ∀ i < n, wait s' i = wait s i) ∧
      (∀ v, upd = true → w = some v → ∀ r ∈ rs, r.pri = v.pri → r ≠ v → wait s' r.input < wait s r.input) := by
  by_cases hne : rs = []
  · subst hne
    obtain ⟨_, a, b, c, d⟩ := L.rest h
    refine ⟨A.clear s, none, ?_, c, Or.inl ⟨rfl, rfl⟩, fun _ => d, by simp⟩
    cases upd <;> simp [Arb.round, addAll, a, b]
  · obtain ⟨s1, h1⟩ := L.feed h ok
    obtain ⟨s2, w, ha, hb, _, _, hc, hw, s3, hu, _, hi, hd⟩ := L.pick h ok h1 hne
    cases upd with
    | false =>
      exact ⟨A.clear s2, some w, by simp [Arb.round, h1, ha], hc, Or.inr ⟨w, rfl, hb⟩, fun _ => hw, by simp⟩
    | true =>
      refine ⟨A.clear s3, some w, by simp [Arb.round, h1, ha, hu], hi, Or.inr ⟨w, rfl, hb⟩, by simp, ?_⟩
      intro v _ e
      cases e
      exact hd

/-- Several rounds of a lawful arbiter. -/
theorem Lawful.rounds (L : Lawful A n idle wait) {s : σ} (h : idle s) {hist : List (List Rq × Bool)}
    (ok : ∀ x ∈ hist, Ok n x.1) :
    ∃ s' ws, rounds A s hist = some (s', ws) ∧ idle s' ∧
      List.Forall₂ (fun x w => (x.1 = [] ∧ w = none) ∨ ∃ v, w = some v ∧ Best x.1 v) hist ws := by
  induction hist generalizing s with
  | nil => exact ⟨s, [], rfl, h, .nil⟩
  | cons x l ih =>
    obtain ⟨rs, upd⟩ := x
    obtain ⟨s', w, hr, hi, hb, _⟩ := L.round h (ok (rs, upd) (by simp)) upd
    obtain ⟨s'', ws, hs, hi', hf⟩ := ih hi fun x hx => ok x (by simp [hx])
    exact ⟨s'', w :: ws, by simp [Arb.rounds, hr, hs], hi', .cons hb hf⟩

/-- Every class of arbiter is lawful at every size it can be built with. -/
theorem Kind.lawful (k : Kind) (n : Nat) (h : k.Fits n) :
    ∃ idle wait, Lawful k.ops n idle wait ∧ idle (k.make n) := by
  induction k generalizing n with
  | roundRobin => exact ⟨_, _, rr_lawful h, 0, h, RInv.init n⟩
  | matrix => exact ⟨_, _, mat_lawful n, [], MInv.init n⟩
  | tree g k ih =>
    obtain ⟨hg, hn, h1, h2⟩ := h
    obtain ⟨iw, ww, LW, hW⟩ := ih g h1
    obtain ⟨ig, wg, LG, hG⟩ := ih (n / g) h2
    have hm : 0 < n / g := by
      cases hk : n / g with
      | zero =>
        rw [hk] at h2
        exfalso
        clear * - h2
        induction k with
        | roundRobin => exact Nat.lt_irrefl 0 h2
        | matrix => exact Nat.lt_irrefl 0 h2
        | tree g k ih =>
          have := h2.2.2.2
          rw [Nat.zero_div] at this
          exact ih this
      | succ m => omega
    have L := tree_lawful LG LW hm
    rw [hn] at L
    exact ⟨_, _, L, tree_init _ hG hW⟩

/-- C42. Any arbiter, after any history: no assertion fails, a round without requests has no winner and any
other round has a winner of highest priority. -/
theorem C42_highest_priority (k : Kind) (n : Nat) (fits : k.Fits n) (hist : List (List Rq × Bool))
    (ok : ∀ x ∈ hist, Ok n x.1) :
    ∃ s ws, rounds k.ops (k.make n) hist = some (s, ws) ∧
      List.Forall₂ (fun x w => (x.1 = [] ∧ w = none) ∨ ∃ v, w = some v ∧ Best x.1 v) hist ws := by
  obtain ⟨idle, wait, L, h⟩ := k.lawful n fits
  obtain ⟨s, ws, hs, _, hf⟩ := L.rounds h ok
  exact ⟨s, ws, hs, hf⟩

/-- The hypotheses hold and a tree of four groups grants the urgent request. -/
example : (Kind.tree 4 .roundRobin).Fits 8 ∧
    Ok 8 [⟨1, 0, 0⟩, ⟨6, 1, 3⟩, ⟨7, 2, 3⟩] ∧
    (rounds (Kind.tree 4 .roundRobin).ops ((Kind.tree 4 .roundRobin).make 8)
      [([⟨1, 0, 0⟩, ⟨6, 1, 3⟩, ⟨7, 2, 3⟩], true), ([⟨1, 0, 0⟩, ⟨6, 1, 3⟩, ⟨7, 2, 3⟩], true)]).map (·.2)
      = some [some ⟨6, 1, 3⟩, some ⟨7, 2, 3⟩] := by
  refine ⟨by simp [Kind.Fits], by simp [Ok], by decide +kernel⟩

theorem rr_history {p : Nat} (hn : 0 < n) (hp : p < n) {s s' : RR} {hist : List (List Rq × Bool)} {ws : List (Option Rq)}
    {acc : List Nat} (hacc : start n acc = p) (h : RInv n p s []) (ok : ∀ x ∈ hist, Ok n x.1)
    (hr : rounds rr s hist = some (s', ws)) :
    start n (grants hist ws acc) < n ∧ RInv n (start n (grants hist ws acc)) s' [] := by
  induction hist generalizing s p acc ws with
  | nil =>
    simp only [rounds, Option.some.injEq, Prod.mk.injEq] at hr
    obtain ⟨rfl, rfl⟩ := hr
    simp only [grants, hacc]; exact ⟨hp, h⟩
  | cons x l ih =>
    obtain ⟨rs, upd⟩ := x
    have okl : ∀ x ∈ l, Ok n x.1 := fun x hx => ok x (by simp [hx])
    simp only [rounds] at hr
    cases hx : round rr s rs upd with
    | none => rw [hx] at hr; cases hr
    | some y =>
      obtain ⟨s1, w⟩ := y
      rw [hx] at hr
      simp only at hr
      cases hy : rounds rr s1 l with
      | none => rw [hy] at hr; cases hr
      | some z =>
        obtain ⟨s2, ws'⟩ := z
        rw [hy] at hr
        simp only [Option.some.injEq, Prod.mk.injEq] at hr
        obtain ⟨rfl, rfl⟩ := hr
        by_cases hne : rs = []
        · subst hne
          obtain ⟨a, b, c⟩ := h.rest
          have e : round rr s [] upd = some (RR.clear s, none) := by
            cases upd <;> simp [round, addAll, rr, a, b]
          rw [e] at hx; cases hx
          have := ih hp hacc c okl hy
          cases upd <;> simpa only [grants] using this
        · obtain ⟨t, ht, hi⟩ := h.addAll hp (ok (rs, upd) (by simp))
          obtain ⟨t2, v, ha, _, _, _, hc, hu⟩ := hi.pick hne
          cases upd with
          | false =>
            have e : round rr s rs false = some (RR.clear t2, some v) := by
              simp only [round, ht]; simp [rr, ha]
            rw [e] at hx; cases hx
            simpa only [grants] using ih hp hacc hc okl hy
          | true =>
            have e : round rr s rs true = some (RR.clear t2.update, some v) := by
              simp only [round, ht]; simp [rr, ha]
            rw [e] at hx; cases hx
            simpa only [grants] using ih (Nat.mod_lt _ hn) rfl hu okl hy

/-- C42. Round robin: after any history the winner among the requests of highest priority is the first one
behind the input of the last grant that was used. -/
theorem C42_round_robin (n : Nat) (hn : 0 < n) (hist : List (List Rq × Bool)) (ok : ∀ x ∈ hist, Ok n x.1)
    (rs : List Rq) (upd : Bool) (okr : Ok n rs) (hne : rs ≠ []) :
    ∃ s ws s' w, rounds rr (RR.init n) hist = some (s, ws) ∧ round rr s rs upd = some (s', some w) ∧
      FirstFrom n (start n (grants hist ws [])) rs w := by
  obtain ⟨s, ws, hs, _⟩ := (rr_lawful hn).rounds ⟨0, hn, RInv.init n⟩ ok
  obtain ⟨hp, hi⟩ := rr_history (acc := []) hn hn rfl (RInv.init n) ok hs
  obtain ⟨t, ht, hi'⟩ := hi.addAll hp okr
  obtain ⟨t2, v, ha, hf, _⟩ := hi'.pick hne
  refine ⟨s, ws, if upd then RR.clear t2.update else RR.clear t2, v, hs, ?_, hf⟩
  have ha' : rr.arbitrate t = some (t2, some v) := ha
  simp only [round, ht, ha']
  cases upd <;> rfl

/-- After a grant to input 2 the turn goes to input 3, then to input 0. -/
example : (rounds rr (RR.init 4) [([⟨2, 0, 0⟩], true), ([⟨0, 0, 0⟩, ⟨3, 0, 0⟩], true), ([⟨0, 0, 0⟩, ⟨3, 0, 0⟩], true)]).map (·.2)
    = some [some ⟨2, 0, 0⟩, some ⟨3, 0, 0⟩, some ⟨0, 0, 0⟩] := by decide +kernel

theorem mat_history {s s' : Mat} {hist : List (List Rq × Bool)} {ws : List (Option Rq)}
    {acc : List Nat} (h : MInv n acc s []) (ok : ∀ x ∈ hist, Ok n x.1)
    (hr : rounds mat s hist = some (s', ws)) : MInv n (grants hist ws acc) s' [] := by
  induction hist generalizing s acc ws with
  | nil =>
    simp only [rounds, Option.some.injEq, Prod.mk.injEq] at hr
    obtain ⟨rfl, rfl⟩ := hr
    simp only [grants]; exact h
  | cons x l ih =>
    obtain ⟨rs, upd⟩ := x
    have okl : ∀ x ∈ l, Ok n x.1 := fun x hx => ok x (by simp [hx])
    simp only [rounds] at hr
    cases hx : round mat s rs upd with
    | none => rw [hx] at hr; cases hr
    | some y =>
      obtain ⟨s1, w⟩ := y
      rw [hx] at hr
      simp only at hr
      cases hy : rounds mat s1 l with
      | none => rw [hy] at hr; cases hr
      | some z =>
        obtain ⟨s2, ws'⟩ := z
        rw [hy] at hr
        simp only [Option.some.injEq, Prod.mk.injEq] at hr
        obtain ⟨rfl, rfl⟩ := hr
        by_cases hne : rs = []
        · subst hne
          obtain ⟨a, b, c⟩ := h.rest
          have e : round mat s [] upd = some (Mat.clear s, none) := by
            cases upd <;> simp [round, addAll, mat, a, b]
          rw [e] at hx; cases hx
          have := ih c okl hy
          cases upd <;> simpa only [grants] using this
        · have okx := ok (rs, upd) (by simp)
          obtain ⟨t, ht, hi⟩ := h.addAll okx
          obtain ⟨t2, v, ha, _, _, _, hc, hu⟩ := hi.pick okx hne
          cases upd with
          | false =>
            have e : round mat s rs false = some (Mat.clear t2, some v) := by
              simp only [round, ht]; simp [mat, ha]
            rw [e] at hx; cases hx
            simpa only [grants] using ih hc okl hy
          | true =>
            have e : round mat s rs true = some (Mat.clear t2.update, some v) := by
              simp only [round, ht]; simp [mat, ha]
            rw [e] at hx; cases hx
            simpa only [grants] using ih hu okl hy

/-- C42. Matrix: after any history the winner among the requests of highest priority is the one whose last
grant is the oldest. -/
theorem C42_matrix (n : Nat) (hist : List (List Rq × Bool)) (ok : ∀ x ∈ hist, Ok n x.1)
    (rs : List Rq) (upd : Bool) (okr : Ok n rs) (hne : rs ≠ []) :
    ∃ s ws s' w, rounds mat (Mat.init n) hist = some (s, ws) ∧ round mat s rs upd = some (s', some w) ∧
      LeastRecent (grants hist ws []) rs w := by
  obtain ⟨s, ws, hs, _⟩ := (mat_lawful n).rounds ⟨[], MInv.init n⟩ ok
  have hi := mat_history (MInv.init n) ok hs
  obtain ⟨t, ht, hi'⟩ := hi.addAll okr
  obtain ⟨t2, v, ha, hf, _⟩ := hi'.pick okr hne
  refine ⟨s, ws, if upd then Mat.clear t2.update else Mat.clear t2, v, hs, ?_, hf⟩
  have ha' : mat.arbitrate t = some (t2, some v) := ha
  simp only [round, ht, ha']
  cases upd <;> rfl

/-- Inputs 2 and 0 were granted, in this order; input 1 never, so it comes first, and then input 2. -/
example : (rounds mat (Mat.init 3) [([⟨2, 0, 0⟩], true), ([⟨0, 0, 0⟩], true), ([⟨0, 0, 0⟩, ⟨1, 0, 0⟩, ⟨2, 0, 0⟩], true),
    ([⟨0, 0, 0⟩, ⟨1, 0, 0⟩, ⟨2, 0, 0⟩], true)]).map (·.2)
    = some [some ⟨2, 0, 0⟩, some ⟨0, 0, 0⟩, some ⟨1, 0, 0⟩, some ⟨2, 0, 0⟩] := by decide +kernel

/-- Starvation freedom of a lawful arbiter, with the remaining wait as bound. -/
theorem Lawful.served (L : Lawful A n idle wait) {s s' : σ} (h : idle s) {i : Nat} (hi : i < n)
    {hist : List (List Rq × Bool)} {ws : List (Option Rq)} (ok : ∀ x ∈ hist, Ok n x.1)
    (top : ∀ x ∈ hist, x.2 = true → Top x.1 i)
    (long : wait s i < (hist.filter (·.2)).length) (hr : Arb.rounds A s hist = some (s', ws)) :
    ∃ x ∈ hist.zip ws, x.1.2 = true ∧ x.2.map Rq.input = some i := by
  induction hist generalizing s ws with
  | nil => simp at long
  | cons x l ih =>
    obtain ⟨rs, upd⟩ := x
    have okx := ok (rs, upd) (by simp)
    have okl : ∀ x ∈ l, Ok n x.1 := fun x hx => ok x (by simp [hx])
    have topl : ∀ x ∈ l, x.2 = true → Top x.1 i := fun x hx => top x (by simp [hx])
    obtain ⟨s1, w, hw, hi1, hb, hsame, hdec⟩ := L.round h okx upd
    simp only [Arb.rounds, hw] at hr
    cases hy : Arb.rounds A s1 l with
    | none => rw [hy] at hr; cases hr
    | some z =>
      obtain ⟨s2, ws'⟩ := z
      rw [hy] at hr
      simp only [Option.some.injEq, Prod.mk.injEq] at hr
      obtain ⟨rfl, rfl⟩ := hr
      have fin : (∃ x ∈ l.zip ws', x.1.2 = true ∧ x.2.map Rq.input = some i) →
          ∃ x ∈ ((rs, upd) :: l).zip (w :: ws'), x.1.2 = true ∧ x.2.map Rq.input = some i := by
        rintro ⟨x, hx, hx'⟩
        exact ⟨x, by simp [hx], hx'⟩
      cases upd with
      | false =>
        refine fin (ih hi1 okl topl ?_ hy)
        rw [hsame rfl i hi]
        simpa using long
      | true =>
        obtain ⟨r, hbest, rfl⟩ := top (rs, true) (by simp) rfl
        rcases hb with ⟨e, _⟩ | ⟨v, rfl, hv⟩
        · simp only at hbest e; rw [e] at hbest; exact absurd hbest.1 (by simp)
        · by_cases e : r = v
          · exact ⟨((rs, true), some v), by simp, rfl, by simp [e]⟩
          · refine fin (ih hi1 okl topl ?_ hy)
            have h1 := hv.2 r hbest.1
            have h2 := hbest.2 v hv.1
            have := hdec v rfl rfl r hbest.1 (by omega) e
            simp only [List.filter_cons, if_true, List.length_cons] at long
            omega

/-- C43. In any arbiter of size `n`, after any history, an input that has a request of highest priority in
each of `n` rounds whose grant is used wins one of them, whatever the others do and whatever happens in the
rounds in between whose grant is not used. -/
theorem C43_no_starvation (k : Kind) (n : Nat) (fits : k.Fits n) (hist l : List (List Rq × Bool))
    (okh : ∀ x ∈ hist, Ok n x.1) (ok : ∀ x ∈ l, Ok n x.1) (i : Nat) (hi : i < n)
    (top : ∀ x ∈ l, x.2 = true → Top x.1 i) (long : n ≤ (l.filter (·.2)).length) :
    ∃ s ws s' ws', rounds k.ops (k.make n) hist = some (s, ws) ∧ rounds k.ops s l = some (s', ws') ∧
      ∃ x ∈ l.zip ws', x.1.2 = true ∧ x.2.map Rq.input = some i := by
  obtain ⟨idle, wait, L, h⟩ := k.lawful n fits
  obtain ⟨s, ws, hs, hidle, _⟩ := L.rounds h okh
  obtain ⟨s', ws', hs', _, _⟩ := L.rounds hidle ok
  refine ⟨s, ws, s', ws', hs, hs', L.served hidle hi ok top ?_ hs'⟩
  have := L.bound hidle hi
  omega

/-- Input 0 waits for all three others in a matrix arbiter of size four: the bound is reached. -/
example : Top [⟨0, 0, 0⟩, ⟨1, 0, 0⟩, ⟨2, 0, 0⟩, ⟨3, 0, 0⟩] 0 ∧
    (rounds (Kind.matrix).ops ((Kind.matrix).make 4)
      (List.replicate 4 ([⟨0, 0, 0⟩, ⟨1, 0, 0⟩, ⟨2, 0, 0⟩, ⟨3, 0, 0⟩], true))).map
        (fun x => x.2.map (Option.map Rq.input)) = some [some 3, some 2, some 1, some 0] := by
  refine ⟨⟨⟨0, 0, 0⟩, by simp [Best], rfl⟩, by decide +kernel⟩

end RadSim.Arb
