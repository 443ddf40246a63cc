import Verif.Lemmas.AllocClass
import Verif.Lemmas.ArbiterTree

/-! # Lemmas about the separable allocators -/

namespace RadSim.Alloc

open Arb (setAt Lawful Ok Rq addAll)

variable {σ : Type} {A : Arb.Ops σ} {n m : Nat} {id1 id2 : σ → Prop} {w1 w2 : σ → Nat → Nat}

/-- An arbiter that the next `Clear` makes idle. -/
def Clears (A : Arb.Ops σ) (idle : σ → Prop) (a : σ) : Prop := idle (if A.numReqs a = 0 then a else A.clear a)

theorem _root_.RadSim.Arb.Lawful.clears {idle : σ → Prop} {w : σ → Nat → Nat} (L : Lawful A n idle w) {s : σ} (h : idle s) :
    Clears A idle s := by
  unfold Clears; rw [if_pos (L.rest h).1]; exact h

/-- An arbiter of the first stage that has chosen. -/
def Half (A : Arb.Ops σ) (idle : σ → Prop) (a : σ) : Prop :=
  Clears A idle a ∧ ∃ a', A.update a = some a' ∧ Clears A idle a'

/-- The requests to the arbiter of port `x`. -/
def offers (req : Nat → Nat → Option (Nat × Int × Int)) (n x : Nat) : List Rq :=
  (List.range n).filterMap fun y => (req x y).map fun r => (⟨y, r.1, r.2.1⟩ : Rq)

theorem offers_ok (req : Nat → Nat → Option (Nat × Int × Int)) (n x : Nat) : Ok n (offers req n x) := by
  constructor
  · intro r hr
    obtain ⟨y, hy, h⟩ := List.mem_filterMap.1 hr
    cases hq : req x y with
    | none => rw [hq] at h; cases h
    | some q => rw [hq] at h; cases h; exact List.mem_range.1 hy
  · rw [offers, List.map_filterMap]
    apply List.Nodup.filterMap _ List.nodup_range
    intro a a' b h h'
    simp only [Option.mem_def, Option.map_map, Option.map_eq_some_iff, Function.comp_apply] at h h'
    obtain ⟨_, _, rfl⟩ := h
    obtain ⟨_, _, h⟩ := h'
    exact h.symm

theorem offers_mem {req : Nat → Nat → Option (Nat × Int × Int)} {n x : Nat} {w : Rq} (h : w ∈ offers req n x) :
    ∃ r, req x w.input = some r ∧ (r.1 : Int) = w.id := by
  obtain ⟨y, _, h⟩ := List.mem_filterMap.1 h
  cases hq : req x y with
  | none => rw [hq] at h; cases h
  | some q => rw [hq] at h; cases h; exact ⟨q, hq, rfl⟩

/-- After the ports `P` of the first side: `bs` are the requests to the arbiters of the second side. -/
structure S1 (A : Arb.Ops σ) (id1 : σ → Prop) (req : Nat → Nat → Option (Nat × Int × Int)) (a0 b0 : Nat → σ)
    (P : List Nat) (a b : Nat → σ) (bs : Nat → List Rq) : Prop where
  same : ∀ x, x ∉ P → a x = a0 x
  half : ∀ x, x ∈ P → Half A id1 (a x)
  fed : ∀ y, addAll A (b0 y) (bs y) = some (b y)
  mem : ∀ y q, q ∈ bs y → q.input ∈ P ∧ req q.input y ≠ none
  one : ∀ y y' q q', q ∈ bs y → q' ∈ bs y' → q.input = q'.input → y = y'
  nodup : ∀ y, ((bs y).map Rq.input).Nodup
  some_ : P ≠ [] → ∃ y, bs y ≠ []

theorem stage1_spec (L1 : Lawful A n id1 w1) (L2 : Lawful A m id2 w2)
    {req : Nat → Nat → Option (Nat × Int × Int)} (hr : ∀ x y, req x y ≠ none → x < m ∧ y < n)
    {a0 b0 : Nat → σ} (h1 : ∀ x < m, id1 (a0 x)) (h2 : ∀ y < n, id2 (b0 y)) (l P : List Nat)
    {a b : Nat → σ} {bs : Nat → List Rq} (hs : S1 A id1 req a0 b0 P a b bs)
    (hl : ∀ x ∈ l, ∃ y, req x y ≠ none) (hnd : (P ++ l).Nodup) :
    ∃ a' b' bs', stage1 A req n l a b = some (a', b') ∧ S1 A id1 req a0 b0 (P ++ l) a' b' bs' := by
  induction l generalizing P a b bs with
  | nil => exact ⟨a, b, bs, rfl, by simpa using hs⟩
  | cons x l ih =>
    obtain ⟨y0, hy0⟩ := hl x (by simp)
    have hxm : x < m := (hr x y0 hy0).1
    have hxP : x ∉ P := by
      intro hx
      rw [List.nodup_append] at hnd
      exact hnd.2.2 x hx x (by simp) rfl
    have hax : id1 (a x) := by rw [hs.same x hxP]; exact h1 x hxm
    obtain ⟨s1, hs1⟩ := L1.feed hax (offers_ok req n x)
    have hne : offers req n x ≠ [] := by
      intro e
      cases hq : req x y0 with
      | none => exact hy0 hq
      | some r =>
        have : (⟨y0, r.1, r.2.1⟩ : Rq) ∈ offers req n x :=
          List.mem_filterMap.2 ⟨y0, List.mem_range.2 (hr x y0 hy0).2, by rw [hq]; rfl⟩
        rw [e] at this; cases this
    obtain ⟨s2, w, hp, hbest, _, hnum, hcl, _, s3, hu, hnum3, hcl3, _⟩ := L1.pick hax (offers_ok req n x) hs1 hne
    obtain ⟨r, hreq, hid⟩ := offers_mem hbest.1
    have hyn : w.input < n := (hr x w.input (by rw [hreq]; simp)).2
    have hok : Ok m (bs w.input ++ [⟨x, r.1, r.2.2⟩]) := by
      constructor
      · intro q hq
        rcases List.mem_append.1 hq with hq | hq
        · have := (hs.mem _ _ hq).2
          exact (hr _ _ this).1
        · rw [List.mem_singleton] at hq; subst hq; exact hxm
      · rw [List.map_append, List.nodup_append]
        refine ⟨hs.nodup _, by simp, ?_⟩
        intro i hi j hj
        simp only [List.map_cons, List.map_nil, List.mem_singleton] at hj
        subst hj
        obtain ⟨q, hq, rfl⟩ := List.mem_map.1 hi
        intro e
        exact hxP (e ▸ (hs.mem _ _ hq).1)
    obtain ⟨t, ht⟩ := L2.feed (h2 _ hyn) hok
    have hadd : A.add (b w.input) ⟨x, r.1, r.2.2⟩ = some t := by
      have := Arb.addAll_append (A := A) (b0 w.input) (bs w.input) ⟨x, r.1, r.2.2⟩
      rw [ht, hs.fed, Option.bind_some] at this
      exact this.symm
    have e : stage1 A req n (x :: l) a b = stage1 A req n l (setAt a x s2) (setAt b w.input t) := by
      simp only [stage1]
      have hs1' : addAll A (a x) ((List.range n).filterMap fun y =>
        (req x y).map fun r => (⟨y, r.1, r.2.1⟩ : Rq)) = some s1 := hs1
      rw [hs1']
      simp only [hp, hreq]
      rw [if_pos hid]
      simp only [hadd]
    rw [e]
    have e2 : P ++ x :: l = (P ++ [x]) ++ l := by simp
    rw [e2] at hnd ⊢
    refine ih (P ++ [x]) (bs := setAt bs w.input (bs w.input ++ [⟨x, r.1, r.2.2⟩])) ?_
      (fun z hz => hl z (by simp [hz])) hnd
    refine ⟨?_, ?_, ?_, ?_, ?_, ?_, fun _ => ⟨w.input, by simp [setAt]⟩⟩
    · intro z hz
      have : z ≠ x := by rintro rfl; exact hz (by simp)
      simp only [setAt, this, if_false]
      exact hs.same z fun hzP => hz (by simp [hzP])
    · intro z hz
      simp only [setAt]
      split
      · refine ⟨?_, s3, hu, ?_⟩
        · unfold Clears; rw [if_neg hnum]; exact hcl
        · unfold Clears; rw [if_neg hnum3]; exact hcl3
      · next hzx =>
        rcases List.mem_append.1 hz with hz | hz
        · exact hs.half z hz
        · rw [List.mem_singleton] at hz; exact absurd hz hzx
    · intro y
      simp only [setAt]
      split
      · next e => subst e; exact ht
      · exact hs.fed y
    · intro y q hq
      simp only [setAt] at hq
      split at hq
      · next e =>
        subst e
        rcases List.mem_append.1 hq with hq | hq
        · obtain ⟨c, d⟩ := hs.mem _ _ hq
          exact ⟨by simp [c], d⟩
        · rw [List.mem_singleton] at hq; subst hq
          exact ⟨by simp, by rw [hreq]; simp⟩
      · obtain ⟨c, d⟩ := hs.mem _ _ hq
        exact ⟨by simp [c], d⟩
    · have key : ∀ y q, q ∈ setAt bs w.input (bs w.input ++ [⟨x, r.1, r.2.2⟩]) y →
          (q ∈ bs y ∧ q.input ≠ x) ∨ (y = w.input ∧ q.input = x) := by
        intro y q hq
        have old : q ∈ bs y → q.input ≠ x := fun h e => hxP (e ▸ (hs.mem _ _ h).1)
        simp only [setAt] at hq
        split at hq
        · next e =>
          subst e
          rcases List.mem_append.1 hq with hq | hq
          · exact Or.inl ⟨hq, old hq⟩
          · rw [List.mem_singleton] at hq; subst hq; exact Or.inr ⟨rfl, rfl⟩
        · exact Or.inl ⟨hq, old hq⟩
      intro y y' q q' hq hq' hi
      rcases key y q hq with ⟨a1, a2⟩ | ⟨a1, a2⟩ <;> rcases key y' q' hq' with ⟨b1, b2⟩ | ⟨b1, b2⟩
      · exact hs.one y y' q q' a1 b1 hi
      · exact absurd (hi.trans b2) a2
      · exact absurd (hi.symm.trans a2) b2
      · rw [a1, b1]
    · intro y
      simp only [setAt]
      split
      · next e => exact hok.2
      · exact hs.nodup y

/-- After the ports `Q` of the second side. -/
structure S2 (A : Arb.Ops σ) (id1 id2 : σ → Prop) (rq : Reqs) (a1 b1 : Nat → σ) (bs : Nat → List Rq)
    (Q : List Nat) (a b : Nat → σ) (mt : Match) : Prop where
  valid : Valid rq mt
  from_ : ∀ x y, mt.inm x = some y → y ∈ Q ∧ ∃ q ∈ bs y, q.input = x
  keepA : ∀ x, mt.inm x = none → a x = a1 x
  clearA : ∀ x, mt.inm x ≠ none → Clears A id1 (a x)
  keepB : ∀ y, y ∉ Q → b y = b1 y
  clearB : ∀ y, y ∈ Q → Clears A id2 (b y)
  some_ : (∃ y ∈ Q, bs y ≠ []) → mt.Some

theorem stage2_spec (L2 : Lawful A m id2 w2) {rq : Reqs} {a1 b0 b1 : Nat → σ} {bs : Nat → List Rq}
    (hb0 : ∀ y < n, id2 (b0 y)) (hfed : ∀ y, addAll A (b0 y) (bs y) = some (b1 y)) (hok : ∀ y, Ok m (bs y))
    (hhalf : ∀ y q, q ∈ bs y → Half A id1 (a1 q.input)) (hrq : ∀ y q, q ∈ bs y → rq q.input y ≠ none)
    (hone : ∀ y y' q q', q ∈ bs y → q' ∈ bs y' → q.input = q'.input → y = y')
    (l Q : List Nat) {a b : Nat → σ} {mt : Match} (hs : S2 A id1 id2 rq a1 b1 bs Q a b mt)
    (hln : ∀ y ∈ l, y < n) (hnd : (Q ++ l).Nodup) :
    ∃ a' b' mt', stage2 A l a b mt = some (a', b', mt') ∧ S2 A id1 id2 rq a1 b1 bs (Q ++ l) a' b' mt' := by
  induction l generalizing Q a b mt with
  | nil => exact ⟨a, b, mt, rfl, by simpa using hs⟩
  | cons y l ih =>
    have hyQ : y ∉ Q := by
      intro hx
      rw [List.nodup_append] at hnd
      exact hnd.2.2 y hx y (by simp) rfl
    have hby : b y = b1 y := hs.keepB y hyQ
    have hidle := hb0 y (hln y (by simp))
    have e2 : Q ++ y :: l = (Q ++ [y]) ++ l := by simp
    rw [e2] at hnd ⊢
    by_cases hne : bs y = []
    · have hb1 : b1 y = b0 y := by
        have := hfed y
        rw [hne] at this
        simpa [addAll] using this.symm
      obtain ⟨r1, r2, _, _, _⟩ := L2.rest hidle
      have e : stage2 A (y :: l) a b mt = stage2 A l a (setAt b y (b0 y)) mt := by
        simp only [stage2, hby, hb1, r2]
      rw [e]
      refine ih (Q ++ [y]) ?_ (fun z hz => hln z (by simp [hz])) hnd
      refine ⟨hs.valid, ?_, hs.keepA, hs.clearA, ?_, ?_, ?_⟩
      · intro x z hz
        obtain ⟨c, d⟩ := hs.from_ x z hz
        exact ⟨by simp [c], d⟩
      · intro z hz
        have : z ≠ y := by rintro rfl; exact hz (by simp)
        simp only [setAt, this, if_false]
        exact hs.keepB z fun h => hz (by simp [h])
      · intro z hz
        simp only [setAt]
        split
        · unfold Clears; rw [if_pos r1]; exact hidle
        · next hzy =>
          rcases List.mem_append.1 hz with hz | hz
          · exact hs.clearB z hz
          · rw [List.mem_singleton] at hz; exact absurd hz hzy
      · rintro ⟨z, hz, hzs⟩
        rcases List.mem_append.1 hz with hz | hz
        · exact hs.some_ ⟨z, hz, hzs⟩
        · rw [List.mem_singleton] at hz; subst hz; exact absurd hne hzs
    · obtain ⟨s2, w, hp, hbest, _, hnum, hcl, _, s3, hu, hnum3, hcl3, _⟩ := L2.pick hidle (hok y) (hfed y) hne
      have hin : mt.inm w.input = none := by
        cases hx : mt.inm w.input with
        | none => rfl
        | some z =>
          obtain ⟨c, q, hq, hqi⟩ := hs.from_ _ _ hx
          have := hone z y q w hq hbest.1 hqi
          subst this; exact absurd c hyQ
      have hout : mt.outm y = none := by
        cases hx : mt.outm y with
        | none => rfl
        | some x =>
          have := (hs.from_ x y ((hs.valid.1 x y).2 hx)).1
          exact absurd this hyQ
      obtain ⟨_, a', hua, hca⟩ := hhalf y w hbest.1
      have hua' : A.update (a w.input) = some a' := by rw [hs.keepA _ hin]; exact hua
      have e : stage2 A (y :: l) a b mt = stage2 A l (setAt a w.input a') (setAt b y s3) (mt.link w.input y) := by
        simp only [stage2, hby, hp, hin, hout, hua', hu]
        simp
      rw [e]
      refine ih (Q ++ [y]) ?_ (fun z hz => hln z (by simp [hz])) hnd
      refine ⟨valid_link hs.valid hin hout (hrq y w hbest.1), ?_, ?_, ?_, ?_, ?_,
        fun _ => ⟨w.input, y, by simp [Match.link, setAt]⟩⟩
      · intro x z hz
        simp only [Match.link, setAt] at hz
        split at hz
        · next e => cases hz; exact ⟨by simp, w, hbest.1, e.symm⟩
        · obtain ⟨c, d⟩ := hs.from_ x z hz
          exact ⟨by simp [c], d⟩
      · intro x hx
        simp only [Match.link, setAt] at hx ⊢
        split at hx
        · cases hx
        · next hxw => rw [if_neg hxw]; exact hs.keepA x hx
      · intro x hx
        simp only [Match.link, setAt] at hx ⊢
        split
        · exact hca
        · next hxw => rw [if_neg hxw] at hx; exact hs.clearA x hx
      · intro z hz
        have : z ≠ y := by rintro rfl; exact hz (by simp)
        simp only [setAt, this, if_false]
        exact hs.keepB z fun h => hz (by simp [h])
      · intro z hz
        simp only [setAt]
        split
        · unfold Clears; rw [if_neg hnum3]; exact hcl3
        · next hzy =>
          rcases List.mem_append.1 hz with hz | hz
          · exact hs.clearB z hz
          · rw [List.mem_singleton] at hz; exact absurd hz hzy

/-- Both stages. -/
theorem stages_spec (L1 : Lawful A n id1 w1) (L2 : Lawful A m id2 w2)
    {req : Nat → Nat → Option (Nat × Int × Int)} {rq : Reqs} (hrq : ∀ x y, req x y ≠ none ↔ rq x y ≠ none)
    (hr : InRange m n rq) {a0 b0 : Nat → σ} (h1 : ∀ x < m, id1 (a0 x)) (h2 : ∀ y < n, id2 (b0 y)) {l1 l2 : List Nat}
    (hl1 : ∀ x, x ∈ l1 ↔ ∃ y, rq x y ≠ none) (hl2 : ∀ y, y ∈ l2 ↔ ∃ x, rq x y ≠ none) (hn1 : l1.Nodup) (hn2 : l2.Nodup) :
    ∃ a b a' b' mt, stage1 A req n l1 a0 b0 = some (a, b) ∧ stage2 A l2 a b Match.empty = some (a', b', mt) ∧
      Valid rq mt ∧ (l1 ≠ [] → mt.Some) ∧ (∀ x < m, Clears A id1 (a' x)) ∧ ∀ y < n, Clears A id2 (b' y) := by
  obtain ⟨a, b, bs, e1, hs⟩ := stage1_spec L1 L2 (fun x y h => hr x y ((hrq x y).1 h)) h1 h2 l1 [] (bs := fun _ => [])
    (a := a0) (b := b0) ⟨fun _ _ => rfl, by simp, by simp [addAll], by simp, by simp, by simp, by simp⟩
    (fun x hx => by
      obtain ⟨y, hy⟩ := (hl1 x).1 hx
      exact ⟨y, (hrq x y).2 hy⟩) (by simpa using hn1)
  rw [List.nil_append] at hs
  have hmem : ∀ y q, q ∈ bs y → rq q.input y ≠ none := fun y q hq => (hrq _ _).1 (hs.mem y q hq).2
  obtain ⟨a', b', mt, e2, ht⟩ := stage2_spec (n := n) (id1 := id1) L2 (rq := rq) (a1 := a) h2 hs.fed
    (fun y => ⟨fun q hq => (hr _ _ (hmem y q hq)).1, hs.nodup y⟩) (fun y q hq => hs.half _ (hs.mem y q hq).1) hmem hs.one
    l2 [] (a := a) (b := b) (mt := Match.empty)
    ⟨valid_empty _, by simp [Match.empty], by simp, by simp [Match.empty], by simp, by simp, by simp⟩
    (fun y hy => by
      obtain ⟨x, hx⟩ := (hl2 y).1 hy
      exact (hr x y hx).2) (by simpa using hn2)
  rw [List.nil_append] at ht
  have idleClears : ∀ {k : Nat} {idle : σ → Prop} {w : σ → Nat → Nat}, Lawful A k idle w → ∀ s, idle s → Clears A idle s := by
    intro k idle w L s h
    unfold Clears; rw [if_pos (L.rest h).1]; exact h
  have inl2 : ∀ y, bs y ≠ [] → y ∈ l2 := by
    intro y hy
    obtain ⟨q, t, hq⟩ := List.exists_cons_of_ne_nil hy
    exact (hl2 y).2 ⟨q.input, hmem y q (by simp [hq])⟩
  refine ⟨a, b, a', b', mt, e1, e2, ht.valid, ?_, ?_, ?_⟩
  · intro h
    obtain ⟨y, hy⟩ := hs.some_ h
    exact ht.some_ ⟨y, inl2 y hy, hy⟩
  · intro x hx
    cases hm : mt.inm x with
    | some y => exact ht.clearA x (by rw [hm]; simp)
    | none =>
      rw [ht.keepA x hm]
      by_cases hp : x ∈ l1
      · exact (hs.half x hp).1
      · rw [hs.same x hp]; exact idleClears L1 _ (h1 x hx)
  · intro y hy
    by_cases hq : y ∈ l2
    · exact ht.clearB y hq
    · rw [ht.keepB y hq]
      have hbs : bs y = [] := by
        by_contra hne
        exact hq (inl2 y hne)
      have := hs.fed y
      rw [hbs] at this
      have : b0 y = b y := by simpa [addAll] using this
      rw [← this]; exact idleClears L2 _ (h2 y hy)

/-! ## The class -/

theorem sep_good {I O : Nat} {id1 id2 : σ → Prop} {w1 w2 : σ → Nat → Nat} (L1 : Lawful A O id1 w1)
    (L2 : Lawful A I id2 w2) (inputFirst : Bool) :
    Good (sep A inputFirst) I O
      (fun s => BIdle I O s.base ∧ (∀ i < I, Clears A id1 (s.inputArb i)) ∧ ∀ o < O, Clears A id2 (s.outputArb o))
      (fun l s => BReady I O l s.base ∧ (∀ i < I, id1 (s.inputArb i)) ∧ ∀ o < O, id2 (s.outputArb o)) Serves where
  clear := fun h => ⟨h.1.clear, fun i hi => h.2.1 i hi, fun o ho => h.2.2 o ho⟩
  put := by
    intro l s a h hi ho
    obtain ⟨b, hb, hr⟩ := put_sparse (C := sep A inputFirst) (fun s b => { s with base := b }) h.1 hi ho (fun _ _ => rfl)
      (fun _ _ _ => rfl) (fun _ _ => rfl) (fun _ _ => rfl)
    exact ⟨_, hb, hr, h.2⟩
  rest := fun h => by
    refine ⟨⟨h.1.idle, ?_, ?_⟩, by rw [show ((sep A inputFirst).base _).m = Match.empty from h.1.m]; exact serves_nil⟩
    · intro i hi
      unfold Clears; rw [if_pos (L1.rest (h.2.1 i hi)).1]; exact h.2.1 i hi
    · intro o ho
      unfold Clears; rw [if_pos (L2.rest (h.2.2 o ho)).1]; exact h.2.2 o ho
  allocate := by
    intro l s _ ha h
    have hr : InRange I O s.base.req := by rw [h.1.req]; exact ha.inRange
    have hr' : InRange s.base.inputs s.base.outputs s.base.req := by rw [h.1.inputs, h.1.outputs]; exact hr
    have hin : ∀ i, i ∈ (List.range s.base.inputs).filter (fun i => outputsOf s.base i ≠ []) ↔ ∃ o, s.base.req i o ≠ none := by
      intro i
      simp only [List.mem_filter, List.mem_range, decide_eq_true_eq]
      constructor
      · rintro ⟨_, hne⟩
        obtain ⟨o, t, ho⟩ := List.exists_cons_of_ne_nil hne
        exact ⟨o, (mem_outputsOf hr').1 (by rw [ho]; simp)⟩
      · rintro ⟨o, ho⟩
        exact ⟨(hr' i o ho).1, fun e => by
          have := (mem_outputsOf hr').2 ho
          rw [e] at this; cases this⟩
    have hout : ∀ o, o ∈ (List.range s.base.outputs).filter (fun o => inputsOf s.base o ≠ []) ↔ ∃ i, s.base.req i o ≠ none := by
      intro o
      simp only [List.mem_filter, List.mem_range, decide_eq_true_eq]
      constructor
      · rintro ⟨_, hne⟩
        obtain ⟨i, t, hi⟩ := List.exists_cons_of_ne_nil hne
        exact ⟨i, (mem_inputsOf hr').1 (by rw [hi]; simp)⟩
      · rintro ⟨i, hi⟩
        exact ⟨(hr' i o hi).2, fun e => by
          have := (mem_inputsOf hr').2 hi
          rw [e] at this; cases this⟩
    have hex : l ≠ [] → ∃ i o, s.base.req i o ≠ none := by
      intro hl
      obtain ⟨a, t, rfl⟩ := List.exists_cons_of_ne_nil hl
      exact ⟨a.i, a.o, by rw [h.1.req]; exact asked_some (by simp)⟩
    cases inputFirst with
    | true =>
      obtain ⟨a, b, a', b', mt, e1, e2, hv, hsm, hc1, hc2⟩ := stages_spec L1 L2
        (req := fun i o => (s.base.req i o).map fun r => (r.label, r.inPri, r.outPri)) (rq := s.base.req)
        (by intro x y; simp) hr h.2.1 h.2.2 hin hout (List.nodup_range.filter _) (List.nodup_range.filter _)
      refine ⟨⟨{ s.base with m := mt }, a', b'⟩, ?_, ⟨?_, hc1, hc2⟩, ?_, ?_⟩
      · rw [← h.1.outputs] at e1
        simp only [sep, if_true, Sep.allocateInputFirst, e1, h.1.m, e2]
      · exact h.1.after ⟨rfl, rfl, rfl, rfl⟩ (by rw [← h.1.req]; exact hv)
      · rw [← h.1.req]; exact hv
      · intro hl
        apply hsm
        obtain ⟨i, o, hq⟩ := hex hl
        intro e
        have := (hin i).2 ⟨o, hq⟩
        rw [e] at this; cases this
    | false =>
      obtain ⟨a, b, a', b', mt, e1, e2, hv, hsm, hc1, hc2⟩ := stages_spec L2 L1
        (req := fun o i => (s.base.req i o).map fun r => (r.label, r.outPri, r.inPri)) (rq := fun o i => s.base.req i o)
        (by intro x y; simp) (fun o i hq => ⟨(hr i o hq).2, (hr i o hq).1⟩) h.2.2 h.2.1 hout hin
        (List.nodup_range.filter _) (List.nodup_range.filter _)
      have hv' : Valid (asked l) ⟨mt.outm, mt.inm⟩ := by
        rw [← h.1.req]
        refine ⟨fun i o => (hv.1 o i).symm, fun i o ho => hv.2 o i ((hv.1 o i).2 ho)⟩
      refine ⟨⟨{ s.base with m := ⟨mt.outm, mt.inm⟩ }, b', a'⟩, ?_, ⟨?_, hc2, hc1⟩, hv', ?_⟩
      · rw [← h.1.inputs] at e1
        simp only [sep, Sep.allocateOutputFirst, e1, h.1.m]
        have : (⟨Match.empty.outm, Match.empty.inm⟩ : Match) = Match.empty := rfl
        simp only [this, e2]
        rfl
      · exact h.1.after ⟨rfl, rfl, rfl, rfl⟩ hv'
      · intro hl
        obtain ⟨i, o, hq⟩ := hex hl
        obtain ⟨x, y, hxy⟩ := hsm (by
          intro e
          have := (hout o).2 ⟨i, hq⟩
          rw [e] at this; cases this)
        exact ⟨y, x, (hv.1 x y).1 hxy⟩

end RadSim.Alloc
