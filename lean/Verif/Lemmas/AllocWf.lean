import Verif.Lemmas.AllocClass

/-! # Lemmas about the wavefront allocator -/

namespace RadSim.Alloc

open Arb (setAt)

/-! ## The set of priorities -/

theorem pairLt_irrefl (a : Int × Int) : pairLt a a = false := by
  simp [pairLt]

theorem pairLt_trans {a b c : Int × Int} (h : pairLt a b = true) (h' : pairLt b c = true) : pairLt a c = true := by
  simp only [pairLt, Bool.or_eq_true, Bool.and_eq_true, decide_eq_true_eq] at *
  omega

theorem pairLt_total {a b : Int × Int} (h : a ≠ b) (h' : pairLt a b = false) : pairLt b a = true := by
  obtain ⟨a1, a2⟩ := a
  obtain ⟨b1, b2⟩ := b
  simp only [pairLt, Bool.or_eq_false_iff, Bool.and_eq_false_iff, decide_eq_false_iff_not, Bool.or_eq_true,
    Bool.and_eq_true, decide_eq_true_eq, ne_eq, Prod.mk.injEq] at *
  omega

theorem pairLt_asymm {a b : Int × Int} (h : pairLt a b = true) : pairLt b a = false := by
  cases hx : pairLt b a with
  | false => rfl
  | true =>
    have := pairLt_trans h hx
    rw [pairLt_irrefl] at this; cases this

theorem mem_insertPri {x y : Int × Int} {l : List (Int × Int)} : y ∈ insertPri x l ↔ y = x ∨ y ∈ l := by
  induction l with
  | nil => simp [insertPri]
  | cons z l ih =>
    simp only [insertPri]
    split
    · next e => subst e; simp
    · split
      · simp
      · simp only [List.mem_cons, ih]; grind

theorem insertPri_sorted {x : Int × Int} {l : List (Int × Int)} (h : l.Pairwise fun a b => pairLt b a = true) :
    (insertPri x l).Pairwise fun a b => pairLt b a = true := by
  induction l with
  | nil => simp [insertPri]
  | cons z l ih =>
    rw [List.pairwise_cons] at h
    simp only [insertPri]
    split
    · exact List.pairwise_cons.2 h
    · next e =>
      split
      · next hlt =>
        refine List.pairwise_cons.2 ⟨?_, List.pairwise_cons.2 h⟩
        intro b hb
        rcases List.mem_cons.1 hb with rfl | hb
        · exact hlt
        · exact pairLt_trans (h.1 b hb) hlt
      · next hlt =>
        refine List.pairwise_cons.2 ⟨?_, ih h.2⟩
        intro b hb
        rcases mem_insertPri.1 hb with rfl | hb
        · exact pairLt_total (fun e' => e e'.symm) (by simpa using hlt)
        · exact h.1 b hb

/-! ## The cells -/

theorem mem_cells {sq pri i o : Nat} (hp : pri < sq) (hi : i < sq) (ho : o < sq) : (i, o) ∈ cells sq pri := by
  unfold cells
  rw [List.mem_flatMap]
  have hex : ∃ p, p < sq ∧ (pri + p + (sq - o)) % sq = i := by
    by_cases h1 : i + o < pri
    · refine ⟨i + o + sq - pri, by omega, ?_⟩
      rw [show pri + (i + o + sq - pri) + (sq - o) = i + sq + sq by omega, Nat.add_mod_right, Nat.add_mod_right,
        Nat.mod_eq_of_lt hi]
    · by_cases h2 : i + o - pri < sq
      · refine ⟨i + o - pri, h2, ?_⟩
        rw [show pri + (i + o - pri) + (sq - o) = i + sq by omega, Nat.add_mod_right, Nat.mod_eq_of_lt hi]
      · refine ⟨i + o - pri - sq, by omega, ?_⟩
        rw [show pri + (i + o - pri - sq) + (sq - o) = i by omega, Nat.mod_eq_of_lt hi]
  obtain ⟨p, h1, h2⟩ := hex
  refine ⟨p, List.mem_range.2 h1, List.mem_map.2 ⟨o, List.mem_range.2 ho, ?_⟩⟩
  rw [h2]

/-! ## The loops -/

/-- After the visits `done`. -/
structure WInv (req : Reqs) (done : List ((Int × Int) × (Nat × Nat))) (acc : Match × Option Nat) : Prop where
  valid : Valid req acc.1
  seen : ∀ i o, acc.1.inm i = some o → ∃ r, req i o = some r ∧ ((r.outPri, r.inPri), (i, o)) ∈ done
  ranked : ∀ i o r, req i o = some r → ((r.outPri, r.inPri), (i, o)) ∈ done →
    ∃ i' o' r', acc.1.inm i' = some o' ∧ req i' o' = some r' ∧ (i' = i ∨ o' = o) ∧ ¬ r'.Below r
  diag : acc.2 = none → ∀ i, acc.1.inm i = none

theorem WInv.start (req : Reqs) : WInv req [] (Match.empty, none) :=
  ⟨valid_empty _, by simp [Match.empty], by simp, by simp [Match.empty]⟩

theorem below_iff (a b : Rqst) : a.Below b ↔ pairLt (a.outPri, a.inPri) (b.outPri, b.inPri) = true := by
  simp [Rqst.Below, pairLt]

theorem WInv.visit {b : Base} (hr : InRange b.inputs b.outputs b.req) {done : List ((Int × Int) × (Nat × Nat))}
    {acc : Match × Option Nat} (h : WInv b.req done acc) {x : (Int × Int) × (Nat × Nat)}
    (hx : ∀ y ∈ done, pairLt y.1 x.1 = false) : WInv b.req (done ++ [x]) (Wf.visit b acc x) := by
  obtain ⟨q, i, o⟩ := x
  have nochange : (∀ r, b.req i o = some r → (r.outPri, r.inPri) = q → acc.1.inm i ≠ none ∨ acc.1.outm o ≠ none) →
      WInv b.req (done ++ [(q, i, o)]) acc := by
    intro hno
    refine ⟨h.valid, ?_, ?_, h.diag⟩
    · intro i' o' hm
      obtain ⟨r, h1, h2⟩ := h.seen i' o' hm
      exact ⟨r, h1, by simp [h2]⟩
    · intro i' o' r hreq hmem
      rcases List.mem_append.1 hmem with hmem | hmem
      · exact h.ranked i' o' r hreq hmem
      · simp only [List.mem_singleton, Prod.mk.injEq] at hmem
        obtain ⟨hq, rfl, rfl⟩ := hmem
        have finish : ∀ i'' o'', acc.1.inm i'' = some o'' → (i'' = i' ∨ o'' = o') →
            ∃ i1 o1 r', acc.1.inm i1 = some o1 ∧ b.req i1 o1 = some r' ∧ (i1 = i' ∨ o1 = o') ∧ ¬ r'.Below r := by
          intro i'' o'' hm hor
          obtain ⟨r', h1, h2⟩ := h.seen i'' o'' hm
          refine ⟨i'', o'', r', hm, h1, hor, ?_⟩
          rw [below_iff, hq]
          have := hx _ h2
          simp only at this
          rw [this]; simp
        rcases hno r hreq hq with hn | hn
        · cases hc : acc.1.inm i' with
          | none => exact absurd hc hn
          | some o'' => exact finish i' o'' hc (Or.inl rfl)
        · cases hc : acc.1.outm o' with
          | none => exact absurd hc hn
          | some i'' => exact finish i'' o' ((h.valid.1 _ _).2 hc) (Or.inr rfl)
  unfold Wf.visit
  simp only
  cases hreq : b.req i o with
  | none => exact nochange (by rw [hreq]; simp)
  | some r =>
    simp only
    split
    · next hc =>
      obtain ⟨_, _, fi, fo, hip, hop⟩ := hc
      have hq : (r.outPri, r.inPri) = q := by rw [hip, hop]
      refine ⟨valid_link h.valid fi fo (by rw [hreq]; simp), ?_, ?_, ?_⟩
      · intro i' o' hm
        simp only [Match.link, setAt] at hm
        split at hm
        · next e =>
          subst e; cases hm
          exact ⟨r, hreq, by simp [hq]⟩
        · obtain ⟨r, h1, h2⟩ := h.seen i' o' hm
          exact ⟨r, h1, by simp [h2]⟩
      · intro i' o' r' hreq' hmem
        rcases List.mem_append.1 hmem with hmem | hmem
        · obtain ⟨i1, o1, r1, a1, a2, a3, a4⟩ := h.ranked i' o' r' hreq' hmem
          refine ⟨i1, o1, r1, ?_, a2, a3, a4⟩
          have : i1 ≠ i := by rintro rfl; rw [fi] at a1; cases a1
          simp only [Match.link, setAt, this, if_false]; exact a1
        · simp only [List.mem_singleton, Prod.mk.injEq] at hmem
          obtain ⟨_, rfl, rfl⟩ := hmem
          rw [hreq] at hreq'; cases hreq'
          refine ⟨i', o', r, by simp [Match.link, setAt], hreq, Or.inl rfl, ?_⟩
          rw [below_iff, pairLt_irrefl]; simp
      · simp only; split <;> simp
    · next hc =>
      apply nochange
      intro r' hr' hq
      rw [hreq] at hr'; cases hr'
      by_contra hcon
      rw [not_or, not_not, not_not] at hcon
      have := hr i o (by rw [hreq]; simp)
      apply hc
      rw [← hq]
      exact ⟨this.1, this.2, hcon.1, hcon.2, rfl, rfl⟩

theorem WInv.visits {b : Base} (hr : InRange b.inputs b.outputs b.req) (l done : List ((Int × Int) × (Nat × Nat)))
    {acc : Match × Option Nat} (h : WInv b.req done acc) (hp : (done ++ l).Pairwise fun x y => pairLt x.1 y.1 = false) :
    WInv b.req (done ++ l) (l.foldl (Wf.visit b) acc) := by
  induction l generalizing done acc with
  | nil => simpa using h
  | cons x l ih =>
    rw [List.foldl_cons]
    have e : done ++ x :: l = (done ++ [x]) ++ l := by simp
    rw [e] at hp ⊢
    apply ih _ _ hp
    apply h.visit hr
    intro y hy
    rw [List.append_assoc, List.pairwise_append] at hp
    exact hp.2.2 y hy x (by simp)

theorem visits_sorted {ps : List (Int × Int)} (h : ps.Pairwise fun a b => pairLt b a = true) (cs : List (Nat × Nat)) :
    (ps.flatMap fun q => cs.map fun c => (q, c)).Pairwise fun x y => pairLt x.1 y.1 = false := by
  induction ps with
  | nil => simp
  | cons q ps ih =>
    rw [List.pairwise_cons] at h
    rw [List.flatMap_cons, List.pairwise_append]
    refine ⟨?_, ih h.2, ?_⟩
    · rw [List.pairwise_map]
      exact List.pairwise_of_forall fun _ _ => pairLt_irrefl q
    · intro x hx y hy
      obtain ⟨c, _, rfl⟩ := List.mem_map.1 hx
      obtain ⟨q', hq', hy⟩ := List.mem_flatMap.1 hy
      obtain ⟨c', _, rfl⟩ := List.mem_map.1 hy
      exact pairLt_asymm (h.1 q' hq')

/-! ## The class -/

/-- Between rounds. -/
structure FIdle (I O : Nat) (s : Wf) : Prop where
  base : BIdle I O s.base
  num : s.numRequests = 0
  pris : s.priorities = []
  square : s.square = max I O
  pri : s.pri < s.square ∨ s.square = 0

/-- After the arrivals `l`. -/
structure FReady (I O : Nat) (l : List Ask) (s : Wf) : Prop where
  base : BReady I O l s.base
  num : s.numRequests = l.length
  last : ∀ a, l = [a] → s.last = some (a.i, a.o)
  pris : ∀ a ∈ l, (a.rq.outPri, a.rq.inPri) ∈ s.priorities
  sorted : s.priorities.Pairwise fun a b => pairLt b a = true
  square : s.square = max I O
  pri : s.pri < s.square ∨ s.square = 0
  empty : l = [] → s.priorities = []

theorem FIdle.init (I O : Nat) (skip : Bool) : FIdle I O (Wf.init I O skip) :=
  ⟨BIdle.init I O, rfl, rfl, rfl, by simp only [Wf.init]; omega⟩

theorem FIdle.clear {I O : Nat} {s : Wf} (h : FIdle I O s) : FReady I O [] s.clear :=
  ⟨h.base.clear, h.num, by simp, by simp, by rw [show s.clear.priorities = [] from h.pris]; exact .nil, h.square, h.pri,
    fun _ => h.pris⟩

theorem FReady.put {I O : Nat} {l : List Ask} {s : Wf} {a : Ask} (h : FReady I O l s) (hi : a.i < I) (ho : a.o < O) :
    ∃ s', put wf s a = some s' ∧ FReady I O (l ++ [a]) s' := by
  obtain ⟨h1, h2⟩ := h.base.put hi ho
  have fin : ∀ b, BReady I O (l ++ [a]) b →
      FReady I O (l ++ [a])
        { s with
          base := b
          numRequests := s.numRequests + 1
          last := some (a.i, a.o)
          priorities := insertPri (a.rq.outPri, a.rq.inPri) s.priorities } := by
    intro b hb
    refine ⟨hb, by simp [h.num], ?_, ?_, insertPri_sorted h.sorted, h.square, h.pri, by simp⟩
    · intro a' ha'
      cases l with
      | nil => simp only [List.nil_append, List.cons.injEq, and_true] at ha'; rw [ha']
      | cons x l => simp at ha'
    · intro a' ha'
      rw [mem_insertPri]
      rcases List.mem_append.1 ha' with ha' | ha'
      · exact Or.inr (h.pris a' ha')
      · rw [List.mem_singleton] at ha'; subst ha'; exact Or.inl rfl
  unfold Alloc.put
  cases hq : (wf.base s).req a.i a.o with
  | none =>
    obtain ⟨b, hb, hr⟩ := h1 hq
    refine ⟨_, ?_, fin b hr⟩
    simp [wf, Wf.add, hb]
  | some r =>
    obtain ⟨b1, b2, b, hb1, _, rfl, hb, hr⟩ := h2 r hq
    refine ⟨_, ?_, fin b hr⟩
    simp [wf, Wf.add, Wf.remove, hb1, hb]

theorem ranked_maximal {req : Reqs} {m : Match} (hv : Valid req m) (h : Ranked req m) : Maximal req m := by
  intro i o hq
  cases hx : req i o with
  | none => exact absurd hx hq
  | some r =>
    obtain ⟨i', o', _, h1, _, h2, _⟩ := h i o r hx
    rcases h2 with rfl | rfl
    · exact Or.inl (by rw [h1]; simp)
    · exact Or.inr (by rw [(hv.1 _ _).1 h1]; simp)

theorem FReady.allocate {I O : Nat} {l : List Ask} {s : Wf} (ha : Asks I O l) (h : FReady I O l s) :
    ∃ s', s.allocate = some s' ∧ FIdle I O s' ∧ Valid (asked l) s'.base.m ∧ Ranked (asked l) s'.base.m := by
  unfold Wf.allocate
  by_cases h0 : l = []
  · subst h0
    rw [if_pos (by simpa using h.num)]
    refine ⟨s, rfl, ⟨h.base.idle, by simpa using h.num, h.empty rfl, h.square, h.pri⟩, ?_, ?_⟩
    · rw [h.base.m]; exact valid_empty _
    · intro i o r hr; simp [asked] at hr
  have hlen : l.length ≠ 0 := by simpa using h0
  rw [if_neg (by rw [h.num]; exact hlen)]
  obtain ⟨a0, t0, hl0⟩ := List.exists_cons_of_ne_nil h0
  have hsq : 0 < s.square := by
    have := (ha a0 (by simp [hl0])).1
    rw [h.square]; omega
  have hpri : s.pri < s.square := by rcases h.pri with h | h <;> omega
  have close : ∀ (m : Match) (d : Nat), Valid (asked l) m → Ranked (asked l) m →
      ∃ s', some { s with base := { s.base with m := m }, numRequests := 0, last := none, priorities := [],
                          pri := ((if s.skipDiags then d else s.pri) + 1) % s.square } = some s' ∧
        FIdle I O s' ∧ Valid (asked l) s'.base.m ∧ Ranked (asked l) s'.base.m := by
    intro m d hv hr
    refine ⟨_, rfl, ⟨?_, rfl, rfl, h.square, Or.inl (Nat.mod_lt _ hsq)⟩, hv, hr⟩
    exact h.base.after ⟨rfl, rfl, rfl, rfl⟩ hv
  by_cases h1 : l.length = 1
  · obtain ⟨a, rfl⟩ := List.length_eq_one_iff.1 h1
    simp only [h.num, List.length_singleton, if_true, h.last a rfl, Option.map_some, h.base.m]
    apply close
    · apply valid_link (valid_empty _) rfl rfl
      exact asked_some (by simp)
    · intro i o r hr
      have hm := asked_mem hr
      simp only [List.mem_singleton] at hm
      subst hm
      exact ⟨i, o, r, by simp [Match.link, setAt], hr, Or.inl rfl, by rw [below_iff, pairLt_irrefl]; simp⟩
  · rw [h.num, if_neg h1, h.base.m]
    have hr : InRange s.base.inputs s.base.outputs s.base.req := by
      rw [h.base.inputs, h.base.outputs, h.base.req]; exact ha.inRange
    have key := WInv.visits hr (s.priorities.flatMap fun q => (cells s.square s.pri).map fun c => (q, c)) []
      (WInv.start _) (by rw [List.nil_append]; exact visits_sorted h.sorted _)
    rw [List.nil_append] at key
    generalize hacc : (s.priorities.flatMap fun q => (cells s.square s.pri).map fun c => (q, c)).foldl
        (Wf.visit s.base) (Match.empty, none) = acc at key
    rw [h.base.req] at key
    have hrank : Ranked (asked l) acc.1 := by
      intro i o r hreq
      apply key.ranked i o r hreq
      rw [List.mem_flatMap]
      refine ⟨_, h.pris _ (asked_mem hreq), List.mem_map.2 ⟨(i, o), ?_, rfl⟩⟩
      have := ha.inRange i o (by rw [hreq]; simp)
      exact mem_cells hpri (by rw [h.square]; omega) (by rw [h.square]; omega)
    obtain ⟨i, o, hs⟩ := some_of_maximal key.valid (ranked_maximal key.valid hrank) h0
    cases hd : acc.2 with
    | none => rw [key.diag hd i] at hs; cases hs
    | some d =>
      have e : acc = (acc.1, some d) := by rw [← hd]
      rw [e]
      exact close acc.1 d key.valid hrank

theorem wf_good (I O : Nat) : Good wf I O (FIdle I O) (FReady I O)
    (fun l m => Valid (asked l) m ∧ Ranked (asked l) m) where
  clear := FIdle.clear
  put := fun h => h.put
  rest := fun h => by
    refine ⟨⟨h.base.idle, by simpa using h.num, h.empty rfl, h.square, h.pri⟩, ?_, ?_⟩
    · rw [show (wf.base _).m = _ from h.base.m]; exact valid_empty _
    · intro i o r hr; simp [asked] at hr
  allocate := fun _ ha h => h.allocate ha

end RadSim.Alloc
