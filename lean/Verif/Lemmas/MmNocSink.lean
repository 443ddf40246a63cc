import Verif.Lemmas.MmNocNode
import Verif.Spec.MmNoc

/-! # The sink side of an AXI memory-mapped adapter when nothing moves -/

namespace RadSim.MmNoc

open MmSink (Hist State)

/-- The edges of the sink side since some moment, when nothing has moved. -/
structure Stays (c : MmSink.Cfg) (es : List SinkEdge) (s s' : State) : Prop where
  same : MmSink.Same s s'
  credit : s'.credit = s.credit
  port : (s.port = none ∨ ∃ r, SinkEdge.node r ∈ es) → s'.port = none
  ready : ∀ r, SinkEdge.node r ∈ es → ∀ p q b, MmSink.taken s = (some p, q) → MmSink.beatOf c.master p = some b →
    r b.type = false
  tails : (∃ b, SinkEdge.adapter b ∈ es) → s.push = s.pushNext → s.outq = [] →
    ∀ k ∈ c.types, ∀ f ∈ s.fifos k, f.tail = false

theorem taken_same {s t : State} (h : MmSink.Same s t) : MmSink.taken t = MmSink.taken s := by
  unfold MmSink.taken
  rw [h.cur, h.outq]

theorem Stays.nil (c : MmSink.Cfg) (s : State) : Stays c [] s s :=
  ⟨.refl s, rfl, fun h => h.elim id fun ⟨_, h⟩ => (by cases h), fun _ h => (by cases h), fun ⟨_, h⟩ => (by cases h)⟩

theorem Stays.trans {c : MmSink.Cfg} {a b : List SinkEdge} {s t u : State} (h : Stays c a s t) (g : Stays c b t u) :
    Stays c (a ++ b) s u where
  same := h.same.trans g.same
  credit := g.credit.trans h.credit
  port := by
    rintro (hp | ⟨r, hr⟩)
    · exact g.port (.inl (h.port (.inl hp)))
    · rcases List.mem_append.1 hr with hr | hr
      · exact g.port (.inl (h.port (.inr ⟨r, hr⟩)))
      · exact g.port (.inr ⟨r, hr⟩)
  ready := by
    intro r hr p q b h1 h2
    rcases List.mem_append.1 hr with hr | hr
    · exact h.ready r hr p q b h1 h2
    · exact g.ready r hr p q b (by rw [taken_same h.same]; exact h1) h2
  tails := by
    rintro ⟨x, hx⟩ hp ho
    rcases List.mem_append.1 hx with hx | hx
    · exact h.tails ⟨x, hx⟩ hp ho
    · have := g.tails ⟨x, hx⟩ (h.same.push hp) (h.same.outq.trans ho)
      rw [h.same.fifos] at this
      exact this

section
variable {c : MmSink.Cfg} {s s' : State} {h h' : Hist} {ac : List BsFlit} {re : List Nat}

/-- An edge that moves nothing. -/
theorem Sink.edge_stays (hs : MmSink.Separate c) (hi : Sink c s h ac re) {e : SinkEdge}
    (he : MmSink.step c s h e.event = (h', .ok s')) :
    MmSink.load s' ≤ MmSink.load s ∧ (MmSink.load s ≤ MmSink.load s' → Stays c [e] s s') := by
  obtain ⟨made, pres, ha⟩ := hi.all hs
  cases e with
  | adapter b =>
    have he' : MmSink.step c s h (.adapter b) = (h', .ok s') := he
    unfold MmSink.step at he'
    dsimp only at he'
    cases hd : MmSink.depackStep c s b with
    | error x => rw [hd] at he'; cases he'
    | ok y =>
      obtain ⟨t, w⟩ := y
      rw [hd] at he'
      cases he'
      have hl := MmSink.load_depack hd
      refine ⟨?_, fun hle => ?_⟩
      · rcases hl with g | g
        · omega
        · exact Nat.le_of_eq (MmSink.load_same g)
      · have g : MmSink.Same s s' := hl.resolve_left (by omega)
        refine ⟨g, ?_, ?_, ?_, ?_⟩
        · rcases (MmSink.depack_counted hd 0).2 with ⟨-, g2⟩ | ⟨y, g1, g2⟩
          · exact g2
          · exfalso
            have h1 := (MmSink.depack_counted hd y).1
            rw [g1] at h1
            have h2 : MmSink.waiting y s' = MmSink.waiting y s := by
              unfold MmSink.waiting; rw [g.held, g.fifos]
            simp at h1
            omega
        · rintro (hp | ⟨r, hr⟩)
          · have key : ∀ t : State, t.port = s.port → MmSink.popPhase t = .ok (s', w) → s'.port = s.port := by
              intro t ht hp
              unfold MmSink.popPhase at hp
              repeat' split at hp
              all_goals first
                | (cases hp; exact ht)
                | cases hp
            rw [← hp]
            unfold MmSink.depackStep at hd
            cases b <;> simp only [Bool.false_eq_true, if_false, if_true] at hd <;> split at hd <;>
              refine key _ ?_ hd <;> rfl
          · simp at hr
        · intro r hr; simp at hr
        · intro _ hp ho k hk f hf
          cases hft : f.tail with
          | false => rfl
          | true =>
            have := MmSink.adapter_progress ha.1.1 hp ho hf hft hk hd
            omega
  | node r =>
    have hd : MmSink.outStep c s r = .ok s' := congrArg Prod.snd he
    have hl := MmSink.load_out hd
    refine ⟨?_, fun hle => ?_⟩
    · rcases hl with g | g
      · omega
      · exact Nat.le_of_eq (MmSink.load_same g)
    · have g : MmSink.Same s s' := hl.resolve_left (by omega)
      have hb := hi.belongs
      rw [← hi.acc] at hb
      have hport : s'.port = none ∧ s'.credit = s.credit ∧ ∀ p q b, MmSink.taken s = (some p, q) →
          MmSink.beatOf c.master p = some b → r b.type = false := by
        rw [MmSink.outStep_eq] at hd
        rcases ht : MmSink.taken s with ⟨_ | p, q⟩
        · rw [ht] at hd; cases hd; exact ⟨rfl, rfl, fun _ _ _ h => (by cases h)⟩
        · rw [ht] at hd
          cases p with
          | nil => cases hd
          | cons f fs =>
            dsimp only at hd
            split at hd
            · rename_i hbe
              cases hd
              refine ⟨rfl, rfl, ?_⟩
              intro p q b h1 h2
              cases h1
              rw [hbe] at h2
              cases h2
            · rename_i b hbe
              split at hd
              · cases hd
                exfalso
                have h1 := (MmSink.load_taken s).1
                rw [ht] at h1
                simp [MmSink.load, MmSink.stored] at h1 hle
                omega
              · rename_i hr
                cases hd
                refine ⟨rfl, rfl, ?_⟩
                intro p q b' h1 h2
                cases h1
                rw [hbe] at h2
                cases h2
                simpa using hr
      refine ⟨g, hport.2.1, fun _ => hport.1, ?_, ?_⟩
      · intro r' hr' p q b h1 h2
        simp only [List.mem_singleton] at hr'
        cases hr'
        exact hport.2.2 p q b h1 h2
      · rintro ⟨b, hb⟩; simp at hb

theorem run_cons_ok {e : MmSink.Event} {es : List MmSink.Event} (hr : MmSink.run c s h (e :: es) = (h', .ok s')) :
    ∃ t g, MmSink.step c s h e = (g, .ok t) ∧ MmSink.run c t g es = (h', .ok s') := by
  unfold MmSink.run at hr
  split at hr
  · cases hr
  · rename_i g t hg
    exact ⟨t, g, hg, hr⟩

theorem run_append_ok {a b : List MmSink.Event} (hr : MmSink.run c s h (a ++ b) = (h', .ok s')) :
    ∃ t g, MmSink.run c s h a = (g, .ok t) ∧ MmSink.run c t g b = (h', .ok s') := by
  induction a generalizing s h with
  | nil => exact ⟨s, h, rfl, hr⟩
  | cons e a ih =>
    obtain ⟨t, g, h1, h2⟩ := run_cons_ok hr
    obtain ⟨u, k, h3, h4⟩ := ih h2
    exact ⟨u, k, by rw [MmSink.run_cons _ h1, h3], h4⟩

theorem Sink.edge_keeps (hs : MmSink.Separate c) (hi : Sink c s h ac re) {e : SinkEdge}
    (he : MmSink.step c s h e.event = (h', .ok s')) : Sink c s' h' ac re := by
  have : ∃ t g, MmSink.step c s h e.event = (g, .ok t) ∧ Sink c t g ac re := by
    cases e with
    | adapter b => exact hi.adapter hs b
    | node r => exact hi.node hs r
  obtain ⟨t, g, h1, h2⟩ := this
  rw [he] at h1
  cases h1
  exact h2

/-- Edges that move nothing. -/
theorem Sink.edges_stays (hs : MmSink.Separate c) (es : List SinkEdge) : ∀ {s : State} {h : Hist}, Sink c s h ac re →
    MmSink.run c s h (es.map SinkEdge.event) = (h', .ok s') →
    Sink c s' h' ac re ∧ MmSink.load s' ≤ MmSink.load s ∧ (MmSink.load s ≤ MmSink.load s' → Stays c es s s') := by
  induction es with
  | nil =>
    intro s h hi hr
    cases hr
    exact ⟨hi, Nat.le_refl _, fun _ => .nil c _⟩
  | cons e es ih =>
    intro s h hi hr
    obtain ⟨t, g, h1, h2⟩ := run_cons_ok hr
    obtain ⟨a1, a2⟩ := hi.edge_stays hs h1
    obtain ⟨b1, b2, b3⟩ := ih (hi.edge_keeps hs h1) h2
    refine ⟨b1, by omega, fun hle => ?_⟩
    exact (a2 (by omega)).trans (b3 (by omega))

/-- A period in which nothing arrives and nothing moves. -/
structure Quiet (c : MmSink.Cfg) (i : NodeIn) (s s' : State) : Prop where
  same : MmSink.Same s s'
  push : s'.push = s'.pushNext
  credit : s'.credit = none
  port : (s.port = none ∨ ∃ r, SinkEdge.node r ∈ i.outPre ++ i.outPost) → s'.port = none
  ready : ∀ r, SinkEdge.node r ∈ i.outPre ++ i.outPost → ∀ p q b, MmSink.taken s = (some p, q) →
    MmSink.beatOf c.master p = some b → r b.type = false
  tails : (∃ b, SinkEdge.adapter b ∈ i.outPre ++ i.outPost) → s.push = s.pushNext → s.outq = [] →
    ∀ k ∈ c.types, ∀ f ∈ s.fifos k, f.tail = false

theorem Sink.quiet (hs : MmSink.Separate c) (hi : Sink c s h ac re) {i : NodeIn}
    (hr : MmSink.run c s h (sinkEvents i none) = (h', .ok s')) (hle : MmSink.load s ≤ MmSink.load s') :
    Quiet c i s s' := by
  unfold sinkEvents at hr
  obtain ⟨s1, h1, e1, hr⟩ := run_cons_ok hr
  obtain ⟨s1', h1', e1', i1⟩ := hi.tick
  rw [e1] at e1'
  cases e1'
  cases e1
  obtain ⟨s2, h2, e2, hr⟩ := run_append_ok hr
  obtain ⟨s3, h3, e3, e4⟩ := run_cons_ok hr
  obtain ⟨i2, l2, q2⟩ := i1.edges_stays hs i.outPre e2
  have l1 : MmSink.load { s with credit := none } = MmSink.load s := rfl
  have e3' : MmSink.ejectStep c s2 none = .ok s3 := congrArg Prod.snd e3
  have l3 := MmSink.load_eject e3'
  have c3 := (MmSink.eject_counted e3' 0).2
  have p3 : s3.port = s2.port := by
    rw [MmSink.ejectStep_eq] at e3'
    have : MmSink.inHand s2 none = none := by unfold MmSink.inHand; rw [i2.held]
    rw [this] at e3'
    cases e3'
    rfl
  have i3 : Sink c s3 h3 ac (re ++ s.credit.toList) := by
    have e5 : MmSink.step c s2 h2 (.noc none) = (h2, .ok s3) := by
      unfold MmSink.step
      dsimp only
      rw [e3', i2.held]
      simp
    rw [e3] at e5
    cases e5
    have hsm : MmSink.Same s2 s3 := by
      rw [MmSink.ejectStep_eq] at e3'
      have : MmSink.inHand s2 none = none := by unfold MmSink.inHand; rw [i2.held]
      rw [this] at e3'
      cases e3'
      exact ⟨by simp [i2.held], rfl, rfl, rfl, rfl, fun _ => rfl⟩
    refine ⟨i2.extend e3, i2.acc, i2.drop, i2.cred, hsm.held.trans i2.held, ?_, ?_, i2.belongs⟩
    · intro v
      have := i2.counted v
      simpa [MmSink.waiting, hsm.held, hsm.fifos] using this
    · intro v
      rw [c3]
      exact i2.pops v
  obtain ⟨i4, l4, q4⟩ := i3.edges_stays hs i.outPost e4
  have l3' : MmSink.load s3 ≤ MmSink.load s2 := by
    rcases l3.2 rfl with g | g
    · omega
    · exact Nat.le_of_eq (MmSink.load_same g.1)
  have l3'' := l3.2 rfl
  have g3 := l3''.resolve_left (by omega)
  have r2 := q2 (by omega)
  have r4 := q4 (by omega)
  have r3 : Stays c [] s2 s3 := ⟨g3.1, c3, fun hp => p3.trans (hp.elim id fun ⟨_, h⟩ => (by cases h)),
    fun _ h => (by cases h), fun ⟨_, h⟩ => (by cases h)⟩
  have r := (r2.trans r3).trans r4
  simp only [List.append_nil] at r
  exact ⟨⟨r.same.held, r.same.fifos, r.same.outq, r.same.cur, r.same.next, r.same.push⟩, r4.same.push g3.2, r.credit,
    r.port, r.ready, r.tails⟩

/-! ## the credits -/

/-- Every flit taken out of the FIFOs has its credit on the way. -/
def Exact (s : State) (h : Hist) : Prop := ∀ v, h.credits.count v + s.credit.toList.count v = h.pops.count v

/-- The adapter edges among the edges of the sink side. -/
def adapterEdges (es : List SinkEdge) : Nat := es.countP isAdapter

theorem edge_exact {e : SinkEdge} (he : MmSink.step c s h e.event = (h', .ok s')) (hx : Exact s h)
    (h1 : adapterEdges [e] + s.credit.toList.length ≤ 1) :
    Exact s' h' ∧ s'.credit.toList.length ≤ adapterEdges [e] + s.credit.toList.length := by
  cases e with
  | adapter b =>
    have he' : MmSink.step c s h (.adapter b) = (h', .ok s') := he
    unfold MmSink.step at he'
    dsimp only at he'
    cases hd : MmSink.depackStep c s b with
    | error x => rw [hd] at he'; cases he'
    | ok y =>
      obtain ⟨t, w⟩ := y
      rw [hd] at he'
      cases he'
      have hnone : s.credit = none := by
        cases hc : s.credit with
        | none => rfl
        | some x => rw [hc] at h1; simp [adapterEdges, isAdapter] at h1
      rcases (MmSink.depack_counted hd 0).2 with ⟨g1, g2⟩ | ⟨y, g1, g2⟩
      · refine ⟨fun v => ?_, by rw [g2]; omega⟩
        have := hx v
        rw [g2, g1]
        simpa using this
      · refine ⟨fun v => ?_, by rw [g2, hnone]; simp [adapterEdges, isAdapter]⟩
        have := hx v
        rw [hnone] at this
        rw [g2, g1, hnone]
        simp [List.count_append] at this ⊢
        omega
  | node r =>
    have hd : MmSink.outStep c s r = .ok s' := congrArg Prod.snd he
    have hh : h' = { h with shown := h.shown ++ s.port.toList.map fun b => (b, r b.type) } := (congrArg Prod.fst he).symm
    have hc : s'.credit = s.credit := by
      rw [MmSink.outStep_eq] at hd
      split at hd
      · cases hd; rfl
      · cases hd
      · split at hd
        · cases hd; rfl
        · split at hd <;> (cases hd; rfl)
    refine ⟨fun v => ?_, by rw [hc]; omega⟩
    rw [hc, hh]
    exact hx v

theorem edges_exact (es : List SinkEdge) : ∀ {s : State} {h : Hist}, MmSink.run c s h (es.map SinkEdge.event) = (h', .ok s') →
    Exact s h → adapterEdges es + s.credit.toList.length ≤ 1 →
    Exact s' h' ∧ s'.credit.toList.length ≤ adapterEdges es + s.credit.toList.length := by
  induction es with
  | nil => intro s h hr hx h1; cases hr; exact ⟨hx, by omega⟩
  | cons e es ih =>
    intro s h hr hx h1
    obtain ⟨t, g, g1, g2⟩ := run_cons_ok hr
    have hsum : adapterEdges (e :: es) = adapterEdges [e] + adapterEdges es := by
      unfold adapterEdges
      rw [show e :: es = [e] ++ es from rfl, List.countP_append]
    obtain ⟨a1, a2⟩ := edge_exact g1 hx (by omega)
    obtain ⟨b1, b2⟩ := ih g2 a1 (by omega)
    exact ⟨b1, by omega⟩

theorem period_exact {i : NodeIn} {a : Option BsFlit} (hr : MmSink.run c s h (sinkEvents i a) = (h', .ok s')) (hx : Exact s h)
    (h1 : adapterEdges (i.outPre ++ i.outPost) ≤ 1) : Exact s' h' := by
  unfold sinkEvents at hr
  obtain ⟨s1, h1', e1, hr⟩ := run_cons_ok hr
  cases e1
  obtain ⟨s2, h2, e2, hr⟩ := run_append_ok hr
  obtain ⟨s3, h3, e3, e4⟩ := run_cons_ok hr
  have hsum : adapterEdges (i.outPre ++ i.outPost) = adapterEdges i.outPre + adapterEdges i.outPost := by
    unfold adapterEdges
    rw [List.countP_append]
  obtain ⟨a1, a2⟩ := edges_exact i.outPre e2 (fun v => by
    have := hx v
    simpa [List.count_append] using this) (by simp; omega)
  have e3' : MmSink.ejectStep c s2 a = .ok s3 := congrArg Prod.snd e3
  have c3 := (MmSink.eject_counted e3' 0).2
  have hh : h3.credits = h2.credits ∧ h3.pops = h2.pops := by
    have : h3 = _ := (congrArg Prod.fst e3).symm
    rw [this]
    unfold MmSink.step
    dsimp only
    split <;> exact ⟨rfl, rfl⟩
  refine (edges_exact i.outPost e4 (fun v => ?_) ?_).1
  · rw [c3, hh.1, hh.2]; exact a1 v
  · rw [c3]
    simp at a2
    omega

/-! ## FIFOs that are not used -/

theorem step_outside {e : MmSink.Event} {j : MmType} (hj : j ∉ c.types) (h0 : s.fifos j = [])
    (he : MmSink.step c s h e = (h', .ok s')) : s'.fifos j = [] := by
  cases e with
  | noc a =>
    have hd : MmSink.ejectStep c s a = .ok s' := congrArg Prod.snd he
    rw [MmSink.ejectStep_eq] at hd
    split at hd
    · cases hd; exact h0
    · split at hd
      · cases hd
      · rename_i k hk
        split at hd
        · cases hd
          have : j ≠ k := fun e => hj (e ▸ MmSink.classOf_mem hk)
          simp [MmSink.put, this, h0]
        · cases hd; exact h0
  | adapter b =>
    unfold MmSink.step at he
    dsimp only at he
    cases hd : MmSink.depackStep c s b with
    | error x => rw [hd] at he; cases he
    | ok y =>
      obtain ⟨t, w⟩ := y
      rw [hd] at he
      cases he
      have key : ∀ t : State, t.fifos j = [] → MmSink.popPhase t = .ok (s', w) → s'.fifos j = [] := by
        intro t ht hp
        unfold MmSink.popPhase at hp
        have hput : ∀ k f rest, t.fifos k = f :: rest → MmSink.put t.fifos k rest j = [] := by
          intro k f rest hk
          have : j ≠ k := by rintro rfl; rw [ht] at hk; cases hk
          simp [MmSink.put, this, ht]
        repeat' split at hp
        all_goals first
          | (cases hp; exact ht)
          | (cases hp; exact hput _ _ _ (by assumption))
          | cases hp
      unfold MmSink.depackStep at hd
      cases b <;> simp only [Bool.false_eq_true, if_false, if_true] at hd <;> split at hd <;>
        refine key _ ?_ hd <;> exact h0
  | node r =>
    have hd : MmSink.outStep c s r = .ok s' := congrArg Prod.snd he
    rw [MmSink.outStep_eq] at hd
    repeat' split at hd
    all_goals first
      | (cases hd; exact h0)
      | cases hd
  | tick => cases he; exact h0

theorem run_outside {j : MmType} (hj : j ∉ c.types) : ∀ (es : List MmSink.Event) {s : State} {h : Hist}, s.fifos j = [] →
    MmSink.run c s h es = (h', .ok s') → s'.fifos j = [] := by
  intro es
  induction es with
  | nil => intro s h h0 hr; cases hr; exact h0
  | cons e es ih =>
    intro s h h0 hr
    obtain ⟨t, g, g1, g2⟩ := run_cons_ok hr
    exact ih (step_outside hj h0 g1) g2

theorem Sink.outside (hi : Sink c s h ac re) {j : MmType} (hj : j ∉ c.types) : s.fifos j = [] := by
  obtain ⟨es, he⟩ := hi.run
  exact run_outside hj es rfl he

/-- What has been done is no more than what has come. -/
theorem Sink.load_le (hs : MmSink.Separate c) (hi : Sink c s h ac re) : MmSink.load s ≤ 4 * h.accepted.length := by
  obtain ⟨es, he⟩ := hi.run
  have hb := hi.belongs
  rw [← hi.acc] at hb
  have e1 : (MmSink.run c (.init c) .empty es).1 = h := by rw [he]
  obtain ⟨s', made, pres, h1, -, h3⟩ := MmSink.run_all es (MmSink.All.init c) (by
    rw [e1]; exact MmSink.belongs_mapped hs hb)
  rw [e1] at h3
  rw [he] at h1
  cases h1
  have h4 : MmSink.load (.init c) = 0 := rfl
  have h5 : Hist.empty.accepted.length = 0 := rfl
  omega

/-- A period undoes nothing. -/
theorem Sink.load_period (hs : MmSink.Separate c) (hi : Sink c s h ac re) {ac' : List BsFlit} {re' : List Nat}
    (hi' : Sink c s' h' ac' re') {es : List MmSink.Event} (hr : MmSink.run c s h es = (h', .ok s')) :
    MmSink.load s' + 4 * h.accepted.length ≤ MmSink.load s + 4 * h'.accepted.length := by
  obtain ⟨made, pres, ha⟩ := hi.all hs
  have hb := hi'.belongs
  rw [← hi'.acc] at hb
  have e1 : (MmSink.run c s h es).1 = h' := by rw [hr]
  obtain ⟨s1, made, pres, h1, -, h3⟩ := MmSink.run_all es ha (by rw [e1]; exact MmSink.belongs_mapped hs hb)
  rw [e1] at h3
  rw [hr] at h1
  cases h1
  exact h3

theorem shown_step {e : MmSink.Event} (he : MmSink.step c s h e = (h', .ok s')) : h.shown <+: h'.shown := by
  cases e with
  | noc a =>
    have : (MmSink.step c s h (.noc a)).1 = h' := congrArg Prod.fst he
    rw [← this]
    unfold MmSink.step
    dsimp only
    split <;> exact List.prefix_refl _
  | adapter b =>
    unfold MmSink.step at he
    dsimp only at he
    split at he
    · cases he
    · cases he; exact List.prefix_refl _
  | node r =>
    have : (MmSink.step c s h (.node r)).1 = h' := congrArg Prod.fst he
    rw [← this]
    exact List.prefix_append _ _
  | tick => cases he; exact List.prefix_refl _

/-- What has been shown stays. -/
theorem shown_run : ∀ (es : List MmSink.Event) {s : State} {h : Hist}, MmSink.run c s h es = (h', .ok s') →
    h.shown <+: h'.shown := by
  intro es
  induction es with
  | nil => intro s h hr; cases hr; exact List.prefix_refl _
  | cons e es ih =>
    intro s h hr
    obtain ⟨t, g, g1, g2⟩ := run_cons_ok hr
    exact (shown_step g1).trans (ih g2)

end

end RadSim.MmNoc
