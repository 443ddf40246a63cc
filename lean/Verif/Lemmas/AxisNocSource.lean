import Verif.Lemmas.AxisNoc

/-! # A source side adapter in periods in which it writes nothing -/

namespace RadSim.AxisNoc

variable {c : SlaveCfg} {s s' : SlaveState}

/-- A flit is ready for the process that writes flits. -/
def Loaded (s : SlaveState) : Prop := s.toInj ≠ none ∨ s.injFifo ≠ []

theorem srun_append {es es' : List SlaveEvent} {acc : List AxisTxn} {out : List BsFlit}
    (hr : slaveRun c s (es ++ es') = .ok (s', acc, out)) :
    ∃ s1 a1 o1 a2 o2, slaveRun c s es = .ok (s1, a1, o1) ∧ slaveRun c s1 es' = .ok (s', a2, o2) ∧ acc = a1 ++ a2 ∧
      out = o1 ++ o2 := by
  rw [slaveRun_append] at hr
  split at hr
  · cases hr
  · rename_i s1 a1 o1 h1
    split at hr
    · cases hr
    · rename_i s2 a2 o2 h2
      cases hr
      exact ⟨s1, a1, o1, a2, o2, h1, h2, rfl, rfl⟩

theorem srun_cons {e : SlaveEvent} {es : List SlaveEvent} {acc : List AxisTxn} {out : List BsFlit}
    (hr : slaveRun c s (e :: es) = .ok (s', acc, out)) :
    ∃ s1 o1 a2 o2, slaveStep c s e = .ok (s1, o1) ∧ slaveRun c s1 es = .ok (s', a2, o2) ∧ acc = handshakes c s e ++ a2 ∧
      out = o1 ++ o2 := by
  rw [slaveRun] at hr
  split at hr
  · cases hr
  · rename_i s1 o1 h1
    split at hr
    · cases hr
    · rename_i s2 a2 o2 h2
      cases hr
      exact ⟨s1, o1, a2, o2, h1, h2, rfl, rfl⟩

theorem adapterStep_loads (hd : 0 < c.depth) :
    (adapterStep c s).toInj = s.toInj ∧ (Loaded s → Loaded (adapterStep c s)) ∧
      (pending c s ≠ [] → Loaded (adapterStep c s)) := by
  have h1 : (adapterStep c s).toInj = s.toInj := by
    unfold adapterStep
    split
    · rfl
    · split
      · dsimp only
        split <;> rfl
      · rfl
  have h2 : s.injFifo ≠ [] → (adapterStep c s).injFifo ≠ [] := by
    intro h
    unfold adapterStep
    split
    · exact h
    · split
      · dsimp only
        split <;> simp
      · exact h
  have h3 : Loaded s → Loaded (adapterStep c s) := by
    rintro (h | h)
    · exact .inl (by rw [h1]; exact h)
    · exact .inr (h2 h)
  refine ⟨h1, h3, fun hp => ?_⟩
  by_cases hl : Loaded s
  · exact h3 hl
  · simp only [Loaded, not_or, not_not] at hl
    refine .inr ?_
    cases hf : s.inFifo with
    | nil =>
      refine absurd ?_ hp
      simp [pending, hl.1, hl.2, hf]
    | cons t r =>
      unfold adapterStep
      simp only [hf, hl.2, List.length_nil, hd, if_true]
      split <;> simp

theorem edges_source (hn : 0 < c.n) (hd : 0 < c.depth) : ∀ (es : List SlaveEdge) {s s' : SlaveState} {acc : List AxisTxn}
    {out : List BsFlit}, SlaveInv c s → slaveRun c s (es.map SlaveEdge.event) = .ok (s', acc, out) →
    SlaveInv c s' ∧ s'.buf = s.buf ∧ out = [] ∧ pending c s' = pending c s ++ acc.flatMap (beatFlits c) ∧
      (Loaded s → Loaded s') ∧ (.adapter ∈ es → pending c s ≠ [] → Loaded s') := by
  intro es
  induction es with
  | nil =>
    intro s s' acc out hi hr
    cases hr
    exact ⟨hi, rfl, rfl, by simp, id, by simp⟩
  | cons e es ih =>
    intro s s' acc out hi hr
    rw [List.map_cons] at hr
    obtain ⟨s1, o1, a2, o2, h1, h2, rfl, rfl⟩ := srun_cons hr
    obtain ⟨i1, fs, f1, f2⟩ := slaveStep_inv hn (event_reset e) h1 hi
    obtain ⟨i2, b2, e2, p2, l2, a2'⟩ := ih i1 h2
    cases e with
    | adapter =>
      cases h1
      obtain ⟨_, hp, hb⟩ := adapterStep_inv hi
      obtain ⟨_, hl, hpe⟩ := adapterStep_loads (s := s) hd
      refine ⟨i2, b2.trans hb, e2, ?_, fun h => l2 (hl h), fun _ h => l2 (hpe h)⟩
      rw [p2, hp]
      rfl
    | node b seen =>
      have hk : s1.toInj = s.toInj ∧ s1.injFifo = s.injFifo ∧ s1.buf = s.buf ∧ o1 = [] := by
        simp only [SlaveEdge.event, slaveStep, nodeStep] at h1
        split at h1
        · cases h1
        · rename_i h3
          split at h3
          · cases h3
          · split at h3 <;> split at h3 <;> cases h3 <;> cases h1 <;> exact ⟨rfl, rfl, rfl, rfl⟩
      have hfs : fs = [] := by
        rw [hk.2.2.2] at f1
        exact List.map_eq_nil_iff.1 f1.symm
      rw [hfs, List.nil_append] at f2
      have hl : Loaded s → Loaded s1 := by
        unfold Loaded
        rw [hk.1, hk.2.1]
        exact id
      refine ⟨i2, b2.trans hk.2.2.1, by rw [hk.2.2.2, e2]; rfl, ?_, fun h => l2 (hl h), fun hm hp => ?_⟩
      · rw [p2, ← f2, List.flatMap_append, List.append_assoc]
      · refine a2' (by simpa using hm) ?_
        rw [← f2]
        simp [hp]

/-- A loaded adapter whose buffer is not full writes a flit. -/
theorem nocStep_writes (hw : c.buf.waitTail = false) {l : List Nat} {f : ScFlit} {r : List ScFlit} (hp : pending c s = f :: r)
    (hf : s.buf.isFullFor c.buf f.vc.toNat = false) (hl : Loaded s) : nocStep c s l ≠ .ok (s', []) := by
  intro h
  unfold nocStep at h
  split at h
  · cases h
  · rename_i s1 o h1
    split at h
    · cases h
    · have ho : o = [] := by
        injection h with h
        exact congrArg Prod.snd h
      subst ho
      cases hto : s.toInj with
      | some g =>
        have : g = f := by
          simp only [pending, hto, Option.toList_some, List.cons_append, List.nil_append, List.cons.injEq] at hp
          exact hp.1
        subst this
        simp only [injectPhase, hto, hf, hw, Bool.not_false, Bool.true_or, Bool.or_true, Bool.and_self, if_true] at h1
        split at h1
        · cases h1
        · split at h1 <;> cases h1
      | none =>
        cases hq : s.injFifo with
        | nil =>
          rcases hl with hl | hl
          · exact hl hto
          · exact hl hq
        | cons g q =>
          have : g = f := by
            simp only [pending, hto, hq, Option.toList_none, List.cons_append, List.nil_append, List.cons.injEq] at hp
            exact hp.1
          subst this
          simp only [injectPhase, hto, hq, hf, hw, Bool.not_false, Bool.true_or, Bool.or_true, Bool.and_self, if_true] at h1
          split at h1
          · cases h1
          · split at h1 <;> cases h1

/-- A period in which nothing is written although the buffer has a place for the next flit. -/
theorem period_source (hn : 0 < c.n) (hd : 0 < c.depth) (hw : c.buf.waitTail = false) (hi : SlaveInv c s)
    {pre post : List SlaveEdge} {l : List Nat} {acc : List AxisTxn} {f : ScFlit} {r : List ScFlit}
    (hp : pending c s = f :: r) (hf : s.buf.isFullFor c.buf f.vc.toNat = false)
    (hr : slaveRun c s (pre.map SlaveEdge.event ++ .noc l :: post.map SlaveEdge.event) = .ok (s', acc, [])) :
    ¬ Loaded s ∧ (.adapter ∈ pre ++ post → Loaded s') := by
  obtain ⟨s1, a1, o1, a2, o2, h1, hr2, rfl, ho⟩ := srun_append hr
  obtain ⟨s2, o3, a4, o4, h2, h3, rfl, rfl⟩ := srun_cons hr2
  have ho1 : o1 = [] ∧ o3 = [] ∧ o4 = [] := by simpa using ho.symm
  obtain ⟨rfl, rfl, rfl⟩ := ho1
  obtain ⟨i1, b1, _, p1, l1, ad1⟩ := edges_source hn hd pre hi h1
  have hp1 : pending c s1 = f :: (r ++ a1.flatMap (beatFlits c)) := by rw [p1, hp]; rfl
  have hno : ¬ Loaded s1 := fun hl => nocStep_writes hw hp1 (by rw [b1]; exact hf) hl h2
  obtain ⟨i2, fs, f1, f2⟩ := slaveStep_inv hn (e := .noc l) rfl h2 i1
  have hfs : fs = [] := List.map_eq_nil_iff.1 f1.symm
  obtain ⟨_, _, _, _, _, ad2⟩ := edges_source hn hd post i2 h3
  refine ⟨fun h => hno (l1 h), fun hm => ?_⟩
  rcases List.mem_append.1 hm with hm | hm
  · exact absurd (ad1 hm (by rw [hp]; simp)) hno
  · refine ad2 hm ?_
    rw [hfs] at f2
    simp only [handshakes, List.flatMap_nil, List.append_nil, List.nil_append] at f2
    rw [← f2, hp1]
    simp

end RadSim.AxisNoc
