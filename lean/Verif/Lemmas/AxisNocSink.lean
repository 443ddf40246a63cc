import Verif.Lemmas.AxisNoc

/-! # A sink side adapter in periods in which it hands over nothing -/

namespace RadSim.AxisNoc

variable {c : MasterCfg} {s s' s1 : MasterState} {h h' h1 : MasterHist} {hist : List (Nat × List ScFlit)}

theorem run_cons {e : MasterEvent} {es : List MasterEvent} (hr : masterRun c s h (e :: es) = (h', .ok s')) :
    ∃ s1 h1, masterStep c s h e = (h1, .ok s1) ∧ masterRun c s1 h1 es = (h', .ok s') := by
  rw [masterRun] at hr
  split at hr
  · cases hr
  · rename_i h1 s1 he
    exact ⟨s1, h1, he, hr⟩

theorem run_append {es es' : List MasterEvent} (hr : masterRun c s h (es ++ es') = (h', .ok s')) :
    ∃ s1 h1, masterRun c s h es = (h1, .ok s1) ∧ masterRun c s1 h1 es' = (h', .ok s') := by
  rw [masterRun_append] at hr
  split at hr
  · cases hr
  · rename_i h1 s1 he
    exact ⟨s1, h1, he, hr⟩

/-- Histories only grow. -/
structure Grows (h h' : MasterHist) : Prop where
  pops : h.pops <+: h'.pops
  del : ∀ p, beatsOn p h.delivered <+: beatsOn p h'.delivered

theorem Grows.refl (h : MasterHist) : Grows h h := ⟨List.prefix_refl _, fun _ => List.prefix_refl _⟩

theorem Grows.trans (a : Grows h h1) (b : Grows h1 h') : Grows h h' :=
  ⟨a.pops.trans b.pops, fun p => (a.del p).trans (b.del p)⟩

theorem masterStep_grows (c : MasterCfg) (s : MasterState) (h : MasterHist) (e : MasterEvent) :
    Grows h (masterStep c s h e).1 := by
  cases e with
  | noc a =>
    simp only [masterStep]
    split <;> exact ⟨List.prefix_refl _, fun _ => List.prefix_refl _⟩
  | adapter cm =>
    simp only [masterStep]
    split
    · exact Grows.refl h
    · exact ⟨List.prefix_append _ _, fun _ => List.prefix_refl _⟩
  | node r => exact ⟨List.prefix_refl _, fun p => by simp only [masterStep, beatsOn_append]; exact List.prefix_append _ _⟩
  | tick => exact ⟨List.prefix_refl _, fun _ => List.prefix_refl _⟩

theorem masterRun_grows (c : MasterCfg) : ∀ (es : List MasterEvent) (s : MasterState) (h : MasterHist),
    Grows h (masterRun c s h es).1 := by
  intro es
  induction es with
  | nil => intro s h; exact Grows.refl h
  | cons e es ih =>
    intro s h
    have h1 := masterStep_grows c s h e
    rw [masterRun]
    split <;> rename_i he <;> rw [he] at h1
    · exact h1
    · exact h1.trans (ih _ _)

/-- Nothing was taken from an ejection FIFO, and no port handed over a beat. -/
structure Quiet (c : MasterCfg) (h h' : MasterHist) : Prop where
  pops : h'.pops = h.pops
  del : ∀ p < c.n, beatsOn p h'.delivered = beatsOn p h.delivered

theorem Quiet.split (q : Quiet c h h') (a : Grows h h1) (b : Grows h1 h') : Quiet c h h1 ∧ Quiet c h1 h' := by
  have key : ∀ {α : Type} {x y z : List α}, x <+: y → y <+: z → z = x → y = x ∧ z = y := by
    intro α x y z h1 h2 e
    subst e
    have := h1.eq_of_length (Nat.le_antisymm h1.length_le h2.length_le)
    exact ⟨this.symm, this⟩
  have h1 := key a.pops b.pops q.pops
  have h2 := fun p hp => key (a.del p) (b.del p) (q.del p hp)
  exact ⟨⟨h1.1, fun p hp => (h2 p hp).1⟩, ⟨h1.2, fun p hp => (h2 p hp).2⟩⟩

/-- What stays the same. -/
structure Idle (c : MasterCfg) (s s' : MasterState) : Prop where
  fifos : s'.fifos = s.fifos
  pushNext : s'.pushNext = s.pushNext
  outq : s'.outq = s.outq
  depack : s'.depack = s.depack
  push : s.push = s.pushNext → s'.push = s'.pushNext
  port : ∀ p < c.n, (s.port p).isSome → (s'.port p).isSome

theorem Idle.refl (c : MasterCfg) (s : MasterState) : Idle c s s := ⟨rfl, rfl, rfl, rfl, id, fun _ _ => id⟩

theorem Idle.trans (a : Idle c s s1) (b : Idle c s1 s') : Idle c s s' :=
  ⟨b.fifos.trans a.fifos, b.pushNext.trans a.pushNext, b.outq.trans a.outq, b.depack.trans a.depack,
    fun h => b.push (a.push h), fun p hp h => b.port p hp (a.port p hp h)⟩

theorem depackStep_nil {cm : Bool} (hd : depackStep c s cm = .ok (s', [])) :
    ∃ prio push, s' = { s with prio, push } ∧ (push = s.push ∨ push = s.pushNext) := by
  have hpop : ∀ {t t' : MasterState} {d : Nat} {b : Bool}, popPhase c t d b = .ok (t', []) → ∃ prio, t' = { t with prio } := by
    intro t t' d b hp
    simp only [popPhase] at hp
    split at hp
    · cases hp
    · split at hp
      · split at hp
        · cases hp
        · split at hp
          · cases hp
          · split at hp
            · split at hp <;> cases hp
            · cases hp
      · cases hp
        exact ⟨_, rfl⟩
  obtain ⟨t, push, rfl, ht, hpu⟩ : ∃ (t : MasterState) (push : Nat → Nat), t = { s with push } ∧
      (if cm then { s with push := s.pushNext } else s) = t ∧ (push = s.push ∨ push = s.pushNext) := by
    cases cm
    · exact ⟨s, s.push, rfl, rfl, .inl rfl⟩
    · exact ⟨_, s.pushNext, rfl, rfl, .inr rfl⟩
  simp only [depackStep, ht] at hd
  split at hd
  · cases hd
  · split at hd
    · cases hd
    · split at hd
      · obtain ⟨prio, rfl⟩ := hpop hd
        exact ⟨prio, push, rfl, hpu⟩
      · split at hd
        · cases hd
        · obtain ⟨prio, rfl⟩ := hpop hd
          exact ⟨prio, push, rfl, hpu⟩

theorem adapter_edge {cm : Bool} (hs : masterStep c s h (.adapter cm) = (h', .ok s')) :
    ∃ popped, depackStep c s cm = .ok (s', popped) ∧ h' = { h with pops := h.pops ++ popped } := by
  simp only [masterStep] at hs
  split at hs
  · cases hs
  · rename_i s'' popped hd
    cases hs
    exact ⟨popped, hd, rfl⟩

/-- An edge of one of the other clocks at which nothing is handed over. -/
theorem edge_idle (hn : 0 < c.n) (hvc : 0 < c.vcs) (hi : MasterInv c s h hist) (hg : GoodArrivals c h.accepted)
    {e : MasterEdge} (hs : masterStep c s h e.event = (h', .ok s')) (hq : Quiet c h h') :
    Idle c s s' ∧ s'.credit = s.credit ∧
      (∀ r, e = .node r → ∀ p < c.n, (s.outq p ≠ [] → (s'.port p).isSome) ∧ (r p = true → s.port p = none)) ∧
      (∀ cm, e = .adapter cm → s.push = s.pushNext → (∀ d < c.n, (s.outq d).length < c.outDepth) →
        ∀ w < c.vcs, (s.fifos w).countP (fun f => f.tail) = 0) := by
  cases e with
  | adapter cm =>
    obtain ⟨popped, hd, rfl⟩ := adapter_edge hs
    have hp : popped = [] := by
      have := hq.pops
      simpa using this
    subst hp
    refine ⟨?_, ?_, fun r h => by (cases h), fun cm' he hpush hroom w hw => ?_⟩
    · obtain ⟨prio, push, rfl, hpu⟩ := depackStep_nil hd
      exact ⟨rfl, rfl, rfl, rfl, fun h => by rcases hpu with rfl | rfl; exacts [h, rfl], fun _ _ => id⟩
    · obtain ⟨prio, push, rfl, hpu⟩ := depackStep_nil hd
      rfl
    · by_contra hne
      obtain ⟨s2, v, h2⟩ := depackStep_progress hn hvc hi.fifo hg.2 hroom w hw (by omega)
      have e : depackStep c s true = depackStep c s cm := by
        cases cm with
        | true => rfl
        | false =>
          have : ({ s with push := s.pushNext } : MasterState) = s :=
            congrArg (fun x => ({ s with push := x } : MasterState)) hpush.symm
          unfold depackStep
          simp only [if_true, this]
          rfl
      rw [e, hd] at h2
      cases h2
  | node r =>
    obtain ⟨s2, h1, ⟨oq, ch, po, hs2⟩, h2, h3, h4, h5⟩ := portLoop_ok hi.ports r c.n (Nat.le_refl _)
    simp only [MasterEdge.event, masterStep, h1, Prod.mk.injEq, Except.ok.injEq] at hs
    obtain ⟨rfl, rfl⟩ := hs
    have hno : ∀ p < c.n, r p = true → s.port p = none := by
      intro p hp hrp
      have := hq.del p hp
      rw [beatsOn_append, beatsOn_handshakes r hp, if_pos hrp] at this
      have : (s.port p).toList = [] := by simpa using this
      cases hpp : s.port p with
      | none => rfl
      | some o => rw [hpp] at this; cases this
    have hoq : ∀ p, s2.outq p = s.outq p := by
      intro p
      by_cases hp : p < c.n
      · have := (h4 p hp).1
        unfold acceptPhase at this
        rw [if_neg] at this
        · injection this with this
          exact (congrArg Prod.fst this).symm
        · simp only [Bool.and_eq_true, not_and, Bool.not_eq_true]
          intro hrp
          rw [hno p hp hrp]
          rfl
      · exact (h2 p (by omega)).1
    have hpr : ∀ p < c.n, s.outq p ≠ [] → (s2.port p).isSome := by
      intro p hp hne
      have := (h4 p hp).2
      rw [hoq p] at this
      simp only [presentPhase] at this
      split at this
      · exact absurd (by assumption) hne
      · split at this
        · cases this
        · injection this with this
          rw [← this]
          rfl
    refine ⟨⟨?_, ?_, funext hoq, ?_, ?_, fun p hp hsome => hpr p hp ?_⟩, ?_, fun r' he p hp => ?_, fun cm he => by (cases he)⟩
    · rw [hs2]
    · rw [hs2]
    · rw [hs2]
    · rw [hs2]; exact id
    · obtain ⟨o, ho⟩ := Option.isSome_iff_exists.1 hsome
      obtain ⟨q, rest, hq', _⟩ := (hi.ports p hp).port o ho
      rw [hq']
      simp
    · rw [hs2]
    · cases he
      exact ⟨hpr p hp, hno p hp⟩

theorem edges_idle (hn : 0 < c.n) (hvc : 0 < c.vcs) : ∀ (es : List MasterEdge) {s s' : MasterState} {h h' : MasterHist}
    {hist : List (Nat × List ScFlit)}, MasterInv c s h hist → GoodArrivals c h.accepted →
    masterRun c s h (es.map MasterEdge.event) = (h', .ok s') → Quiet c h h' →
    Idle c s s' ∧ s'.credit = s.credit ∧ (∃ hist', MasterInv c s' h' hist') ∧ h'.accepted = h.accepted ∧
      (∀ r, .node r ∈ es → ∀ p < c.n, (s.outq p ≠ [] → (s'.port p).isSome) ∧
        (r p = true → (s.port p).isSome → False)) ∧
      (∀ cm, .adapter cm ∈ es → s.push = s.pushNext → (∀ d < c.n, (s.outq d).length < c.outDepth) →
        ∀ w < c.vcs, (s.fifos w).countP (fun f => f.tail) = 0) := by
  intro es
  induction es with
  | nil =>
    intro s s' h h' hist hi hg hr hq
    cases hr
    exact ⟨Idle.refl _ _, rfl, ⟨_, hi⟩, rfl, by simp, by simp⟩
  | cons e es ih =>
    intro s s' h h' hist hi hg hr hq
    rw [List.map_cons] at hr
    obtain ⟨s1, h1, hs1, hr1⟩ := run_cons hr
    have g1 := masterStep_grows c s h e.event
    have g2 := masterRun_grows c (es.map MasterEdge.event) s1 h1
    rw [hs1] at g1
    rw [hr1] at g2
    obtain ⟨q1, q2⟩ := hq.split g1 g2
    have hacc : h1.accepted = h.accepted := by
      have : h1 = (masterStep c s h e.event).1 := by rw [hs1]
      rw [this]
      cases e with
      | adapter cm =>
        simp only [MasterEdge.event, masterStep]
        split <;> rfl
      | node r => rfl
    obtain ⟨s1', hist', hs1', hi1⟩ := masterStep_inv hn hvc hi e.event (by rw [hs1, hacc]; exact hg)
    rw [hs1] at hs1' hi1
    injection hs1' with hs1'
    subst hs1'
    obtain ⟨i1, c1, n1, a1⟩ := edge_idle hn hvc hi hg hs1 q1
    obtain ⟨i2, c2, m2, e2, n2, a2⟩ := ih hi1 (by rw [hacc]; exact hg) hr1 q2
    refine ⟨i1.trans i2, c2.trans c1, m2, e2.trans hacc, fun r hm p hp => ?_, fun cm hm hpush hroom w hw => ?_⟩
    · rcases List.mem_cons.1 hm with rfl | hm
      · have := n1 r rfl p hp
        exact ⟨fun hne => i2.port p hp (this.1 hne), fun hrp hsome => by rw [this.2 hrp] at hsome; cases hsome⟩
      · have := n2 r hm p hp
        exact ⟨fun hne => this.1 (by rw [i1.outq]; exact hne), fun hrp hsome => this.2 hrp (i1.port p hp hsome)⟩
    · rcases List.mem_cons.1 hm with rfl | hm
      · exact a1 cm rfl hpush hroom w hw
      · rw [← i1.fifos]
        exact a2 cm hm (i1.push hpush) (by rw [i1.outq]; exact hroom) w hw

/-- A period in which nothing arrives and nothing is handed over. -/
theorem period_idle (hn : 0 < c.n) (hvc : 0 < c.vcs) (hi : MasterInv c s h hist) (hg : GoodArrivals c h.accepted)
    (hheld : s.held = none) {pre post : List MasterEdge}
    (hr : masterRun c s h (.tick :: pre.map MasterEdge.event ++ .noc none :: post.map MasterEdge.event) = (h', .ok s'))
    (hq : Quiet c h h') :
    Idle c s s' ∧ s'.credit = none ∧ s'.push = s'.pushNext ∧
      (∀ r, .node r ∈ pre ++ post → ∀ p < c.n, (s.outq p ≠ [] → (s'.port p).isSome) ∧
        (r p = true → (s.port p).isSome → False)) ∧
      (∀ cm, .adapter cm ∈ pre ++ post → s.push = s.pushNext → (∀ d < c.n, (s.outq d).length < c.outDepth) →
        ∀ w < c.vcs, (s.fifos w).countP (fun f => f.tail) = 0) := by
  rw [List.cons_append] at hr
  obtain ⟨s0, h0, hs0, hr⟩ := run_cons hr
  obtain ⟨s1, h1, hr1, hr⟩ := run_append hr
  obtain ⟨s2, h2, hs2, hr2⟩ := run_cons hr
  have g0 := masterStep_grows c s h .tick
  have g1 := masterRun_grows c (pre.map MasterEdge.event) s0 h0
  have g2 := masterStep_grows c s1 h1 (.noc none)
  have g3 := masterRun_grows c (post.map MasterEdge.event) s2 h2
  rw [hs0] at g0
  rw [hr1] at g1
  rw [hs2] at g2
  rw [hr2] at g3
  obtain ⟨q0, q⟩ := hq.split g0 (g1.trans (g2.trans g3))
  obtain ⟨q1, q⟩ := q.split g1 (g2.trans g3)
  obtain ⟨q2, q3⟩ := q.split g2 g3
  obtain ⟨s0', hist0, e0, i0⟩ := masterStep_inv hn hvc hi .tick hg
  rw [hs0] at e0 i0
  injection e0 with e0
  subst e0
  simp only [masterStep, Prod.mk.injEq, Except.ok.injEq] at hs0
  obtain ⟨rfl, rfl⟩ := hs0
  have hg0 : GoodArrivals c ({ h with credits := h.credits ++ s.credit.toList } : MasterHist).accepted := hg
  obtain ⟨id1, c1, ⟨hist1, i1⟩, a1, n1, t1⟩ := edges_idle hn hvc pre i0 hg0 hr1 q1
  have hheld1 : s1.held = none := by
    have : ∀ (es : List MasterEdge) {s s' : MasterState} {h h' : MasterHist} {hist : List (Nat × List ScFlit)},
        MasterInv c s h hist → GoodArrivals c h.accepted →
        masterRun c s h (es.map MasterEdge.event) = (h', .ok s') → s'.held = s.held := by
      intro es
      induction es with
      | nil => intro s s' h h' hist _ _ hr; cases hr; rfl
      | cons e es ih =>
        intro s s' h h' hist hi hg hr
        rw [List.map_cons] at hr
        obtain ⟨s1, h1, hs1, hr1⟩ := run_cons hr
        have hacc : h1.accepted = h.accepted := by
          have : h1 = (masterStep c s h e.event).1 := by rw [hs1]
          rw [this]
          cases e with
          | adapter cm =>
            simp only [MasterEdge.event, masterStep]
            split <;> rfl
          | node r => rfl
        obtain ⟨s1', hist', hs1', hi1⟩ := masterStep_inv hn hvc hi e.event (by rw [hs1, hacc]; exact hg)
        rw [hs1] at hs1' hi1
        injection hs1' with hs1'
        subst hs1'
        rw [ih hi1 (by rw [hacc]; exact hg) hr1]
        cases e with
        | adapter cm =>
          obtain ⟨popped, hd, _⟩ := adapter_edge hs1
          obtain ⟨s2, p2, hist2, e1, _, _, _, _, _, _, _, _, hh, _⟩ := depackStep_inv hn hvc hi.fifo hg.2 cm
          rw [hd] at e1
          cases e1
          exact hh
        | node r =>
          obtain ⟨s2, e1, ⟨oq, ch, po, hs2⟩, _⟩ := portLoop_ok hi.ports r c.n (Nat.le_refl _)
          simp only [MasterEdge.event, masterStep, e1, Prod.mk.injEq, Except.ok.injEq] at hs1
          rw [← hs1.2, hs2]
    rw [this pre i0 hg0 hr1]
    exact hheld
  obtain ⟨s2', hist2, e2, i2⟩ := masterStep_inv hn hvc i1 (.noc none) (by
    rw [hs2]
    have : h2 = (masterStep c s1 h1 (.noc none)).1 := by rw [hs2]
    rw [this]
    simp only [masterStep, hheld1, Option.toList_none, List.append_nil]
    rw [a1]
    exact hg)
  rw [hs2] at e2 i2
  injection e2 with e2
  subst e2
  simp only [masterStep, ejectStep, hheld1, Prod.mk.injEq, Except.ok.injEq, Option.toList_none, List.append_nil] at hs2
  obtain ⟨rfl, rfl⟩ := hs2
  obtain ⟨id2, c2, m2, a2, n2, t2⟩ := edges_idle hn hvc post i2 (show GoodArrivals c h1.accepted by rw [a1]; exact hg) hr2 q3
  have id0 : Idle c s { s with credit := none } := ⟨rfl, rfl, rfl, rfl, id, fun _ _ => id⟩
  have id1' : Idle c s1 { s1 with push := s1.pushNext, held := none } := ⟨rfl, rfl, rfl, rfl, fun _ => rfl, fun _ _ => id⟩
  have idA := id0.trans id1
  have idB := idA.trans id1'
  refine ⟨idB.trans id2, ?_, id2.push rfl, fun r hm p hp => ?_, fun cm hm hpush hroom w hw => ?_⟩
  · rw [c2]
    exact c1
  · rcases List.mem_append.1 hm with hm | hm
    · have := n1 r hm p hp
      exact ⟨fun hne => (id1'.trans id2).port p hp (this.1 hne), this.2⟩
    · have := n2 r hm p hp
      exact ⟨fun hne => this.1 (by rw [idB.outq]; exact hne), fun hrp hsome => this.2 hrp (idB.port p hp hsome)⟩
  · rcases List.mem_append.1 hm with hm | hm
    · exact t1 cm hm hpush hroom w hw
    · have := t2 cm hm rfl (by rw [idB.outq]; exact hroom) w hw
      rwa [idB.fifos] at this

/-! ## Credits -/

/-- Every flit taken from an ejection FIFO has its credit. -/
def Exact (s : MasterState) (h : MasterHist) : Prop := ∀ v, h.credits.count v + s.credit.toList.count v = h.pops.count v

theorem edges_exact (hn : 0 < c.n) (hvc : 0 < c.vcs) : ∀ (es : List MasterEdge) {s s' : MasterState} {h h' : MasterHist}
    {hist : List (Nat × List ScFlit)}, MasterInv c s h hist → GoodArrivals c h.accepted →
    masterRun c s h (es.map MasterEdge.event) = (h', .ok s') → es.countP MasterEdge.isAdapter ≤ 1 →
    (es.countP MasterEdge.isAdapter = 1 → s.credit = none) → Exact s h →
    Exact s' h' ∧ (es.countP MasterEdge.isAdapter = 0 → s'.credit = s.credit) ∧ (∃ hist', MasterInv c s' h' hist') ∧
      h'.accepted = h.accepted := by
  intro es
  induction es with
  | nil =>
    intro s s' h h' hist hi _ hr _ _ he
    cases hr
    exact ⟨he, fun _ => rfl, ⟨_, hi⟩, rfl⟩
  | cons e es ih =>
    intro s s' h h' hist hi hg hr hone hcr he
    rw [List.map_cons] at hr
    obtain ⟨s1, h1, hs1, hr1⟩ := run_cons hr
    have hacc : h1.accepted = h.accepted := by
      have : h1 = (masterStep c s h e.event).1 := by rw [hs1]
      rw [this]
      cases e with
      | adapter cm =>
        simp only [MasterEdge.event, masterStep]
        split <;> rfl
      | node r => rfl
    obtain ⟨s1', hist', hs1', hi1⟩ := masterStep_inv hn hvc hi e.event (by rw [hs1, hacc]; exact hg)
    rw [hs1] at hs1' hi1
    injection hs1' with hs1'
    subst hs1'
    cases e with
    | adapter cm =>
      simp only [List.countP_cons, MasterEdge.isAdapter, if_true] at hone hcr ⊢
      obtain ⟨popped, hd, rfl⟩ := adapter_edge hs1
      obtain ⟨s2, p2, hist2, e1, _, _, _, _, _, hlen, _, hcred, _, _⟩ := depackStep_inv hn hvc hi.fifo hg.2 cm
      rw [hd] at e1
      cases e1
      rw [hcr (by omega)] at hcred
      have hx : Exact s1 { h with pops := h.pops ++ popped } := by
        intro v
        have := he v
        rw [hcr (by omega)] at this
        rw [hcred]
        simp only [List.count_append]
        match popped, hlen with
        | [], _ => simpa using this
        | [w], _ => simpa using this
      obtain ⟨a1, a2, a3, a4⟩ := ih hi1 hg hr1 (by omega) (by omega) hx
      exact ⟨a1, by omega, a3, a4⟩
    | node r =>
      simp only [List.countP_cons, MasterEdge.isAdapter, Bool.false_eq_true, if_false, Nat.add_zero] at hone hcr ⊢
      obtain ⟨s2, e1, ⟨oq, ch, po, hs2⟩, _⟩ := portLoop_ok hi.ports r c.n (Nat.le_refl _)
      simp only [MasterEdge.event, masterStep, e1, Prod.mk.injEq, Except.ok.injEq] at hs1
      obtain ⟨rfl, rfl⟩ := hs1
      have hc2 : s2.credit = s.credit := by rw [hs2]
      obtain ⟨a1, a2, a3, a4⟩ := ih hi1 hg hr1 hone (by rw [hc2]; exact hcr) (by
        intro v
        rw [hc2]
        exact he v)
      exact ⟨a1, fun h0 => (a2 h0).trans hc2, a3, a4⟩

/-- A period with at most one edge of the adapter clock. -/
theorem period_exact (hn : 0 < c.n) (hvc : 0 < c.vcs) (hi : MasterInv c s h hist) {a : Option BsFlit}
    (hg : GoodArrivals c (h.accepted ++ a.toList)) {pre post : List MasterEdge}
    (hr : masterRun c s h (.tick :: pre.map MasterEdge.event ++ .noc a :: post.map MasterEdge.event) = (h', .ok s'))
    (hone : (pre ++ post).countP MasterEdge.isAdapter ≤ 1) (he : Exact s h) : Exact s' h' := by
  rw [List.countP_append] at hone
  rw [List.cons_append] at hr
  obtain ⟨s0, h0, hs0, hr⟩ := run_cons hr
  obtain ⟨s1, h1, hr1, hr⟩ := run_append hr
  obtain ⟨s2, h2, hs2, hr2⟩ := run_cons hr
  obtain ⟨s0', hist0, e0, i0⟩ := masterStep_inv hn hvc hi .tick hg.prefix
  rw [hs0] at e0 i0
  injection e0 with e0
  subst e0
  simp only [masterStep, Prod.mk.injEq, Except.ok.injEq] at hs0
  obtain ⟨rfl, rfl⟩ := hs0
  have hx0 : Exact { s with credit := none } { h with credits := h.credits ++ s.credit.toList } := by
    intro v
    have := he v
    simpa [List.count_append] using this
  obtain ⟨x1, c1, ⟨hist1, i1⟩, a1⟩ := edges_exact hn hvc pre i0 hg.prefix hr1 (by omega) (fun _ => rfl) hx0
  have a1' : h1.accepted = h.accepted := a1
  have hcr2 : s2.credit = s1.credit := by
    simp only [masterStep, Prod.mk.injEq] at hs2
    have := hs2.2
    simp only [ejectStep] at this
    split at this
    · cases this; rfl
    · split at this
      · split at this <;> cases this <;> rfl
      · cases this
  have hh2 : h2.pops = h1.pops ∧ h2.credits = h1.credits ∧ GoodArrivals c h2.accepted := by
    simp only [masterStep, Prod.mk.injEq] at hs2
    rw [← hs2.1]
    split
    · exact ⟨rfl, rfl, by rw [← a1'] at hg; exact hg⟩
    · exact ⟨rfl, rfl, by rw [← a1'] at hg; exact hg.prefix⟩
  obtain ⟨s2', hist2, e2, i2⟩ := masterStep_inv hn hvc i1 (.noc a) (by rw [hs2]; exact hh2.2.2)
  rw [hs2] at e2 i2
  injection e2 with e2
  subst e2
  have hx2 : Exact s2 h2 := by
    intro v
    rw [hh2.1, hh2.2.1, hcr2]
    exact x1 v
  exact (edges_exact hn hvc post i2 hh2.2.2 hr2 (by omega) (fun h1 => by
    rw [hcr2, c1 (by omega)]) hx2).1

end RadSim.AxisNoc
