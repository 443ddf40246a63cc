import Verif.Spec.AxisNoc
import Verif.Props.AxisSlave
import Verif.Props.AxisMaster

/-! # A period of an AXI-Stream adapter on a NoC -/

namespace RadSim.AxisNoc

/-! ## source side -/

theorem slaveRun_append (c : SlaveCfg) (es es' : List SlaveEvent) :
    ∀ (s : SlaveState), slaveRun c s (es ++ es') =
      match slaveRun c s es with
      | .error e => .error e
      | .ok (s', acc, out) =>
        match slaveRun c s' es' with
        | .error e => .error e
        | .ok (s'', acc', out') => .ok (s'', acc ++ acc', out ++ out') := by
  induction es with
  | nil =>
    intro s
    simp only [List.nil_append, slaveRun]
    split <;> rename_i h <;> simp [h]
  | cons e es ih =>
    intro s
    simp only [List.cons_append, slaveRun]
    cases h1 : slaveStep c s e with
    | error x => rfl
    | ok y =>
      obtain ⟨s1, o1⟩ := y
      dsimp only
      rw [ih]
      cases h2 : slaveRun c s1 es with
      | error x => rfl
      | ok y =>
        obtain ⟨s2, a2, o2⟩ := y
        dsimp only
        cases h3 : slaveRun c s2 es' with
        | error x => rfl
        | ok y => simp

/-- The beats accepted at an edge were offered at it. -/
theorem handshakes_mem {c : SlaveCfg} {s : SlaveState} {e : SlaveEvent} {t : AxisTxn} (h : t ∈ handshakes c s e) :
    ∃ beats seen p b, e = .node beats seen ∧ p < c.n ∧ beats p = some b ∧ t = registerTxn c p b := by
  cases e with
  | node beats seen =>
    simp only [handshakes] at h
    split at h
    · cases h
    · rename_i q ready _
      simp only [List.mem_filterMap, List.mem_range] at h
      obtain ⟨p, hp, h⟩ := h
      split at h
      · cases hb : beats p with
        | none => simp [hb] at h
        | some b =>
          simp only [hb, Option.map_some, Option.some.injEq] at h
          exact ⟨beats, seen, p, b, rfl, hp, hb, h.symm⟩
      · cases h
  | _ => cases h

theorem slaveRun_mem {c : SlaveCfg} : ∀ {es : List SlaveEvent} {s s' : SlaveState} {acc : List AxisTxn} {out : List BsFlit},
    slaveRun c s es = .ok (s', acc, out) → ∀ t ∈ acc,
      ∃ beats seen p b, .node beats seen ∈ es ∧ p < c.n ∧ beats p = some b ∧ t = registerTxn c p b := by
  intro es
  induction es with
  | nil => intro s s' acc out h; cases h; simp
  | cons e es ih =>
    intro s s' acc out h t ht
    simp only [slaveRun] at h
    split at h
    · cases h
    · split at h
      · cases h
      · rename_i h2
        cases h
        rcases List.mem_append.1 ht with ht | ht
        · obtain ⟨beats, seen, p, b, rfl, h1⟩ := handshakes_mem ht
          exact ⟨beats, seen, p, b, by simp, h1⟩
        · obtain ⟨beats, seen, p, b, h1, h3⟩ := ih h2 t ht
          exact ⟨beats, seen, p, b, by simp [h1], h3⟩

/-- The flits written so far are the first ones of the beats accepted so far. -/
def Stream (c : SlaveCfg) (s : SlaveState) (got : List AxisTxn) (sent : List BsFlit) : Prop :=
  ∃ fs, sent = fs.map (injectFlit c.radId c.portalId) ∧ got.flatMap (beatFlits c) = fs ++ pending c s

theorem Stream.run {c : SlaveCfg} (hn : 0 < c.n) {es : List SlaveEvent} {s s' : SlaveState} {got acc : List AxisTxn}
    {sent out : List BsFlit} (h : Stream c s got sent) (hi : SlaveInv c s) (hr : ∀ e ∈ es, e.isReset = false)
    (he : slaveRun c s es = .ok (s', acc, out)) : Stream c s' (got ++ acc) (sent ++ out) := by
  obtain ⟨fs, h1, h2⟩ := h
  obtain ⟨_, fs', h3, h4⟩ := slaveRun_inv c hn es s s' acc out hi hr he
  exact ⟨fs ++ fs', by rw [h1, h3, List.map_append], by rw [List.flatMap_append, h2, List.append_assoc, h4, List.append_assoc]⟩

theorem event_reset (e : SlaveEdge) : e.event.isReset = false := by cases e <;> rfl

/-- Edges of the other clocks. -/
theorem slave_edges {c : SlaveCfg} (hn : 0 < c.n) (hv : c.VcOk) (hc : c.buf.Ok) {sent : List BsFlit} {cred : List Nat} :
    ∀ (es : List SlaveEdge) {s : SlaveState}, CreditInv c s sent cred →
      ∃ s' acc, slaveRun c s (es.map SlaveEdge.event) = .ok (s', acc, []) ∧ CreditInv c s' sent cred := by
  intro es
  induction es with
  | nil => intro s hi; exact ⟨s, [], rfl, hi⟩
  | cons e es ih =>
    intro s hi
    obtain ⟨s1, o, h1, h2⟩ := creditInv_step hn hv hc hi e.event (event_reset e) (fun l h => by cases e <;> cases h)
    have ho : o = [] := by
      cases e with
      | node b seen =>
        simp only [SlaveEdge.event, slaveStep] at h1
        split at h1
        · cases h1
        · cases h1; rfl
      | adapter => cases h1; rfl
    subst ho
    have h2' : CreditInv c s1 sent cred := by cases e <;> simpa [SlaveEdge.event] using h2
    obtain ⟨s2, acc, h3, h4⟩ := ih h2'
    exact ⟨s2, handshakes c s e.event ++ acc, by simp only [List.map_cons, slaveRun, h1, h3, List.append_nil], h4⟩

/-- A period: nothing fails when the credits are for flits written before. -/
theorem slave_period {c : SlaveCfg} (hn : 0 < c.n) (hv : c.VcOk) (hc : c.buf.Ok) {sent : List BsFlit} {cred : List Nat}
    {s : SlaveState} (hi : CreditInv c s sent cred) (pre post : List SlaveEdge) {l : List Nat} (hl : l.Nodup)
    (hcr : ∀ v, (cred ++ l).count v ≤ sent.countP fun b => b.vc == v) :
    ∃ s' acc out, slaveRun c s (pre.map SlaveEdge.event ++ .noc l :: post.map SlaveEdge.event) = .ok (s', acc, out) ∧
      CreditInv c s' (sent ++ out) (cred ++ l) ∧ out.length ≤ 1 := by
  obtain ⟨s1, a1, h1, i1⟩ := slave_edges hn hv hc pre hi
  obtain ⟨s2, o, h2, i2⟩ := creditInv_step hn hv hc i1 (.noc l) rfl (fun l' h => by
    cases h
    refine ⟨hl, fun _ o _ v hv => ?_⟩
    have := hcr v
    rw [List.count_append] at this
    have := List.count_pos_iff.2 hv
    rw [List.countP_append]
    omega)
  obtain ⟨s3, a3, h3, i3⟩ := slave_edges hn hv hc post i2
  refine ⟨s3, a1 ++ a3, o, ?_, i3, ?_⟩
  · rw [slaveRun_append, h1]
    dsimp only
    rw [slaveRun, h2]
    dsimp only
    rw [h3]
    simp [handshakes]
  · simp only [slaveStep, nocStep] at h2
    split at h2
    · cases h2
    · rename_i s' out h4
      split at h2
      · cases h2
      · cases h2
        rcases (injectPhase_cases h4 i1.inv).2 with ⟨rfl, _⟩ | ⟨f, rfl, _⟩ <;> simp

/-! ## sink side -/

theorem master_step {c : MasterCfg} (hn : 0 < c.n) (hvc : 0 < c.vcs) {b : Nat} (hb : b ≤ c.depth) {s : MasterState}
    {h : MasterHist} {hist : List (Nat × List ScFlit)} (hi : MasterInv c s h hist) (hd : DropInv c s h) (e : MasterEvent)
    (hg : GoodArrivals c (masterStep c s h e).1.accepted)
    (hr : ∀ f, e = .noc (some f) →
      (h.accepted ++ h.dropped).countP (fun g => g.vc == f.vc) < b + h.credits.count f.vc) :
    ∃ s' hist', masterStep c s h e = ((masterStep c s h e).1, .ok s') ∧
      MasterInv c s' (masterStep c s h e).1 (hist ++ hist') ∧ DropInv c s' (masterStep c s h e).1 := by
  obtain ⟨s1, hist1, h1, h2⟩ := masterStep_inv hn hvc hi e hg
  obtain ⟨s1', h1', hd1⟩ := dropInv_step hn hvc hb hi hd e hg hr
  have : s1' = s1 := by have := h1'.symm.trans h1; simpa using this
  subst this
  exact ⟨s1', hist1, by rw [← h1], h2, hd1⟩

theorem master_edges {c : MasterCfg} (hn : 0 < c.n) (hvc : 0 < c.vcs) :
    ∀ (es : List MasterEdge) {s : MasterState} {h : MasterHist} {hist : List (Nat × List ScFlit)}, MasterInv c s h hist →
      DropInv c s h → GoodArrivals c h.accepted →
      ∃ s' h' hist', masterRun c s h (es.map MasterEdge.event) = (h', .ok s') ∧ MasterInv c s' h' (hist ++ hist') ∧
        DropInv c s' h' ∧ h'.accepted = h.accepted ∧ h'.credits = h.credits := by
  intro es
  induction es with
  | nil => intro s h hist hi hd _; exact ⟨s, h, [], rfl, by simpa using hi, hd, rfl, rfl⟩
  | cons e es ih =>
    intro s h hist hi hd hg
    have hsame : (masterStep c s h e.event).1.accepted = h.accepted ∧ (masterStep c s h e.event).1.credits = h.credits := by
      cases e with
      | adapter cm =>
        simp only [MasterEdge.event, masterStep]
        split <;> exact ⟨rfl, rfl⟩
      | node r => exact ⟨rfl, rfl⟩
    obtain ⟨s1, hist1, h1, h2, h3⟩ := master_step hn hvc (Nat.zero_le _) hi hd e.event (by rw [hsame.1]; exact hg)
      (fun f h => by cases e <;> cases h)
    obtain ⟨s2, h', hist2, h4, h5, h6, h7, h8⟩ := ih h2 h3 (by rw [hsame.1]; exact hg)
    refine ⟨s2, h', hist1 ++ hist2, ?_, by rw [← List.append_assoc]; exact h5, h6, h7.trans hsame.1, h8.trans hsame.2⟩
    rw [List.map_cons, masterRun, h1]
    exact h4

/-- A period: nothing fails when the flit that arrives is one the FIFO has a place for. -/
theorem master_period {c : MasterCfg} (hn : 0 < c.n) (hvc : 0 < c.vcs) {b : Nat} (hb : b ≤ c.depth) {s : MasterState}
    {h : MasterHist} {hist : List (Nat × List ScFlit)} (hi : MasterInv c s h hist) (hd : DropInv c s h)
    (pre post : List MasterEdge) (a : Option BsFlit) (hg : GoodArrivals c (h.accepted ++ a.toList))
    (hr : ∀ f ∈ a, (h.accepted ++ a.toList).countP (fun g => g.vc == f.vc) ≤ b + (h.credits ++ s.credit.toList).count f.vc) :
    ∃ s' h' hist', masterRun c s h
        (.tick :: pre.map MasterEdge.event ++ .noc a :: post.map MasterEdge.event) = (h', .ok s') ∧
      MasterInv c s' h' (hist ++ hist') ∧ DropInv c s' h' ∧ h'.accepted = h.accepted ++ a.toList ∧
      h'.credits = h.credits ++ s.credit.toList := by
  obtain ⟨s0, hist0, h0, i0, d0⟩ := master_step hn hvc hb hi hd .tick hg.prefix (fun f h => by cases h)
  obtain ⟨s1, h1, hist1, r1, i1, d1, ha1, hc1⟩ := master_edges hn hvc pre i0 d0 hg.prefix
  have ha1' : h1.accepted = h.accepted := ha1
  have hc1' : h1.credits = h.credits ++ s.credit.toList := hc1
  have hst : (masterStep c s1 h1 (.noc a)).1 = { h1 with accepted := h1.accepted ++ a.toList } := by
    simp [masterStep, d1.held]
  obtain ⟨s2, hist2, h2, i2, d2⟩ := master_step hn hvc hb i1 d1 (.noc a) (by rw [hst, ha1']; exact hg) (fun f hf => by
    cases hf
    have := hr f (Option.mem_def.2 rfl)
    rw [d1.dropped, List.append_nil, ha1', hc1']
    rw [List.countP_append] at this
    simp only [Option.toList_some, List.countP_singleton, beq_self_eq_true, if_true] at this
    omega)
  rw [hst] at h2 i2 d2
  obtain ⟨s3, h3, hist3, r3, i3, d3, ha3, hc3⟩ := master_edges hn hvc post i2 d2 (by
    show GoodArrivals c (h1.accepted ++ a.toList)
    rw [ha1']; exact hg)
  refine ⟨s3, h3, hist0 ++ (hist1 ++ (hist2 ++ hist3)), ?_, ?_, d3, ?_, ?_⟩
  · rw [List.cons_append, masterRun, h0]
    dsimp only
    rw [masterRun_append, r1]
    dsimp only
    rw [masterRun, h2]
    exact r3
  · simpa [List.append_assoc] using i3
  · rw [ha3, ← ha1']
  · rw [hc3, ← hc1']

end RadSim.AxisNoc
