import Verif.Lemmas.NpuWriteBack

/-!
# The second write-back channel of the example design `npu`

C142. -/

namespace RadSim.Npu

/-- In no run is there an error, and the words that a module writes to its register files are those of its block that the loader has written, each once and in order; those that it has not written yet are in
its FIFO or in that of the loader. -/
theorem C142_order (es : List (Option Word)) :
    ∃ os s', WbCore.reset.run es = some (os, s') ∧ os.length = es.length ∧
      os.filterMap (·.w1) ++ s'.rx1.mem ++ s'.src.mem.filter (blockIs 1) = (os.filterMap (·.word)).filter (blockIs 1) ∧
      os.filterMap (·.w2) ++ s'.rx2.mem ++ s'.src.mem.filter (blockIs 2) = (os.filterMap (·.word)).filter (blockIs 2) ∧
      os.filterMap (·.w3) ++ s'.rx3.mem ++ s'.src.mem.filter (blockIs 3) = (os.filterMap (·.word)).filter (blockIs 3) := by
  obtain ⟨os, s', h1, h2, h3⟩ := WbInv.run es wb_reset_inv
  exact ⟨os, s', h1, h2, h3.order1, h3.order2, h3.order3⟩

/-! ## All words arrive -/

/-- A word for one of the three modules and for one of its register files. -/
structure GoodWord (w : Word) : Prop where
  ne : w ≠ []
  block : w.getD 0 0 / 4 = 1 ∨ w.getD 0 0 / 4 = 2 ∨ w.getD 0 0 / 4 = 3
  file : w.getD 0 0 / 4 ≠ 1 → w.getD 0 0 % 4 ≠ 0

structure Flows (s : WbCore) : Prop where
  src : s.src.mem.length ≤ 1
  srcGood : ∀ w ∈ s.src.mem, GoodWord w
  rx1 : s.rx1.mem.length ≤ 1
  rx1Good : ∀ w ∈ s.rx1.mem, w ≠ []
  rx2 : s.rx2.mem.length ≤ 1
  rx2Good : ∀ w ∈ s.rx2.mem, w ≠ [] ∧ w.getD 0 0 % 4 ≠ 0
  rx3 : s.rx3.mem.length ≤ 1
  rx3Good : ∀ w ∈ s.rx3.mem, w ≠ [] ∧ w.getD 0 0 % 4 ≠ 0

theorem dataTick_mem {L : Nat} {f f' : Fifo Word} {p : Bool} {w : Option Word} (h : f.dataTick L [] p w = some f') :
    f'.mem = (if p then f.mem.tail else f.mem) ++ w.toList := by
  unfold Fifo.dataTick at h
  split at h
  · cases h
  · cases w with
    | none => cases h; simp
    | some x =>
      simp only at h
      generalize (if p = true then f.mem.tail else f.mem) = m at h ⊢
      split at h
      · cases h
      · cases h; rfl

theorem rx_flows {L : Nat} {f f' : Fifo Word} {p : Bool} {w : Option Word} (hlen : f.mem.length ≤ 1) (hp : f.mem ≠ [] → p = true)
    (h : f.dataTick L [] p w = some f') : f'.mem = w.toList := by
  rw [dataTick_mem h]
  cases hm : f.mem with
  | nil => cases p <;> rfl
  | cons x l =>
    rw [hm] at hlen
    have : l = [] := List.eq_nil_of_length_eq_zero (by simp only [List.length_cons] at hlen; omega)
    rw [hp (by rw [hm]; exact List.cons_ne_nil _ _), this]
    rfl

theorem Flows.tick {os : List WbOut} {s : WbCore} (h : WbInv os s) (hf : Flows s) (i : Option Word) (hi : ∀ w, i = some w → GoodWord w) :
    ∃ o s', s.tick i = some (o, s') ∧ WbInv (os ++ [o]) s' ∧ Flows s' ∧ o.word = i ∧ s'.src.mem = i.toList ∧
      (s.src.mem = [] → s'.rx1.mem = [] ∧ s'.rx2.mem = [] ∧ s'.rx3.mem = []) := by
  obtain ⟨o, s', e, hinv⟩ := h.tick i
  have hD : dataDepth = 512 := rfl
  have hE : evrfStages = 8 := rfl
  have hM : mfuStages = 25 := rfl
  have hlt : s.src.mem.length < dataDepth := by have := hf.src; omega
  have g1 : s.rx1.almostFull = false := by rw [h.rx1.almostFull]; exact decide_eq_false (by have := hf.rx1; omega)
  have g2 : s.rx2.almostFull = false := by rw [h.rx2.almostFull]; exact decide_eq_false (by have := hf.rx2; omega)
  have g3 : s.rx3.almostFull = false := by rw [h.rx3.almostFull]; exact decide_eq_false (by have := hf.rx3; omega)
  have p1 : s.rx1.mem ≠ [] → evrfPops s.rx1 = true := by
    intro hne
    cases hm : s.rx1.mem with
    | nil => exact absurd hm hne
    | cons x l =>
      have hx := h.rx1.rdata x l hm
      have := hf.rx1Good x (by rw [hm]; exact List.mem_cons_self ..)
      simp [evrfPops, h.rx1.empty, hm, hx, this]
  have pm : ∀ {L : Nat} {f : Fifo Word}, DSound L f → (∀ w ∈ f.mem, w ≠ [] ∧ w.getD 0 0 % 4 ≠ 0) → f.mem ≠ [] → mfuPops f = true := by
    intro L f hd hg hne
    cases hm : f.mem with
    | nil => exact absurd hm hne
    | cons x l =>
      have hx := hd.rdata x l hm
      obtain ⟨a, b⟩ := hg x (by rw [hm]; exact List.mem_cons_self ..)
      unfold mfuPops
      rw [hd.empty, hm, hx]
      simp only [List.isEmpty_cons, Bool.not_false, Bool.true_and, Bool.and_eq_true, bne_iff_ne, ne_eq]
      exact ⟨a, b⟩
  -- the word at the end of the first FIFO goes
  have hgo : s.src.mem ≠ [] → (wbTakes s.src 1 s.rx1 || wbTakes s.src 2 s.rx2 || wbTakes s.src 3 s.rx3) = true := by
    intro hne
    cases hm : s.src.mem with
    | nil => exact absurd hm hne
    | cons x l =>
      have hx := h.src.rdata x l hm
      obtain ⟨a, b, _⟩ := hf.srcGood x (by rw [hm]; exact List.mem_cons_self ..)
      unfold wbTakes
      rw [h.src.empty, hm, hx, g1, g2, g3]
      have hn : (x != []) = true := bne_iff_ne.2 a
      rcases b with q | q | q <;> rw [q, hn] <;> rfl
  have k1 : wbTakes s.src 1 s.rx1 = true → _ := takes_head h.src
  have k2 : wbTakes s.src 2 s.rx2 = true → _ := takes_head h.src
  have k3 : wbTakes s.src 3 s.rx3 = true → _ := takes_head h.src
  unfold WbCore.tick at e
  simp only at e
  split at e
  · rename_i src' rx1' rx2' rx3' a1 a2 a3 a4
    cases e
    rw [if_pos hlt] at a1
    have m0 := rx_flows hf.src hgo a1
    have m1 := rx_flows hf.rx1 p1 a2
    have m2 := rx_flows hf.rx2 (pm h.rx2 hf.rx2Good) a3
    have m3 := rx_flows hf.rx3 (pm h.rx3 hf.rx3Good) a4
    have mem_of : ∀ {x : Word} {l : List Word}, s.src.mem = x :: l → GoodWord x := fun hm => hf.srcGood _ (by rw [hm]; exact List.mem_cons_self ..)
    refine ⟨_, _, by unfold WbCore.tick; simp only; rw [if_pos hlt, a1, a2, a3, a4], ?_, ?_, rfl, m0, ?_⟩
    · rw [if_pos hlt] at hinv
      exact hinv
    · refine ⟨?_, ?_, ?_, ?_, ?_, ?_, ?_, ?_⟩
      · rw [m0]; cases i <;> simp
      · rw [m0]
        intro w hw
        cases i with
        | none => cases hw
        | some x =>
          rw [Option.toList_some, List.mem_singleton] at hw
          rw [hw]
          exact hi x rfl
      · rw [m1]; split <;> simp
      · rw [m1]
        intro w hw
        split at hw
        · rename_i ht
          obtain ⟨l, q, _⟩ := k1 ht
          rw [Option.toList_some, List.mem_singleton] at hw
          rw [hw]
          exact (mem_of q).ne
        · cases hw
      · rw [m2]; split <;> simp
      · rw [m2]
        intro w hw
        split at hw
        · rename_i ht
          obtain ⟨l, q, hb, _⟩ := k2 ht
          rw [Option.toList_some, List.mem_singleton] at hw
          rw [hw]
          have g := mem_of q
          unfold blockIs at hb
          simp only [Bool.and_eq_true, beq_iff_eq] at hb
          exact ⟨g.ne, g.file (by rw [hb.2]; decide)⟩
        · cases hw
      · rw [m3]; split <;> simp
      · rw [m3]
        intro w hw
        split at hw
        · rename_i ht
          obtain ⟨l, q, hb, _⟩ := k3 ht
          rw [Option.toList_some, List.mem_singleton] at hw
          rw [hw]
          have g := mem_of q
          unfold blockIs at hb
          simp only [Bool.and_eq_true, beq_iff_eq] at hb
          exact ⟨g.ne, g.file (by rw [hb.2]; decide)⟩
        · cases hw
    · intro hnil
      have z : ∀ {r : Int} {f : Fifo Word}, wbTakes s.src r f = false := by
        intro r f
        unfold wbTakes
        rw [h.src.empty, hnil]
        rfl
      rw [z] at m1 m2 m3
      exact ⟨m1, m2, m3⟩
  · cases e

theorem Flows.run : ∀ (es : List (Option Word)) {os : List WbOut} {s : WbCore}, WbInv os s → Flows s → (∀ w, some w ∈ es → GoodWord w) →
    ∃ os' s', s.run es = some (os', s') ∧ WbInv (os ++ os') s' ∧ Flows s' ∧ os'.map (·.word) = es
  | [], os, s, h, hf, _ => ⟨[], s, rfl, by rw [List.append_nil]; exact h, hf, rfl⟩
  | i :: es, os, s, h, hf, hi => by
    obtain ⟨o, s1, e1, i1, f1, w1, _⟩ := Flows.tick h hf i (fun w e => hi w (by rw [e]; exact List.mem_cons_self ..))
    obtain ⟨os', s2, e2, i2, f2, w2⟩ := Flows.run es i1 f1 (fun w hw => hi w (List.mem_cons_of_mem _ hw))
    refine ⟨o :: os', s2, ?_, by rw [List.append_assoc] at i2; exact i2, f2, by rw [List.map_cons, w1, w2]⟩
    rw [WbCore.run, e1]
    simp only
    rw [e2]

/-- All words arrive, if each is for one of the three modules and one of its register files: two cycles after the last of them, each module has written all those of its block, in order. -/
theorem C142_arrives_partial (es : List (Option Word)) (hes : ∀ w, some w ∈ es → GoodWord w) :
    ∃ os s', WbCore.reset.run (es ++ [none, none]) = some (os, s') ∧
      os.filterMap (·.w1) = (es.filterMap id).filter (blockIs 1) ∧
      os.filterMap (·.w2) = (es.filterMap id).filter (blockIs 2) ∧
      os.filterMap (·.w3) = (es.filterMap id).filter (blockIs 3) := by
  have hf0 : Flows .reset := ⟨Nat.zero_le _, by (intro w hw; cases hw), Nat.zero_le _, by (intro w hw; cases hw), Nat.zero_le _, by (intro w hw; cases hw), Nat.zero_le _,
    by (intro w hw; cases hw)⟩
  obtain ⟨os, s1, e1, i1, f1, w1⟩ := Flows.run es wb_reset_inv hf0 hes
  obtain ⟨o2, s2, e2, i2, f2, w2, m2, _⟩ := Flows.tick i1 f1 none (by intro w e; cases e)
  obtain ⟨o3, s3, e3, i3, f3, w3, m3, n3⟩ := Flows.tick i2 f2 none (by intro w e; cases e)
  obtain ⟨r1, r2, r3⟩ := n3 m2
  have happ : ∀ (es : List (Option Word)) {s s1 : WbCore} {os : List WbOut} (fs : List (Option Word)) {s2 : WbCore} {os2 : List WbOut},
      s.run es = some (os, s1) → s1.run fs = some (os2, s2) → s.run (es ++ fs) = some (os ++ os2, s2) := by
    intro es
    induction es with
    | nil =>
      intro s s1 os fs s2 os2 h1 h2
      cases h1
      exact h2
    | cons i es ih =>
      intro s s1 os fs s2 os2 h1 h2
      rw [List.cons_append, WbCore.run]
      rw [WbCore.run] at h1
      cases ht : s.tick i with
      | none => rw [ht] at h1; cases h1
      | some r =>
        obtain ⟨o, s'⟩ := r
        rw [ht] at h1
        simp only at h1 ⊢
        cases hr : s'.run es with
        | none => rw [hr] at h1; cases h1
        | some q =>
          obtain ⟨os', s''⟩ := q
          rw [hr] at h1
          cases h1
          rw [ih fs hr h2]
          rfl
  have hw : (os ++ [o2, o3]).filterMap (·.word) = es.filterMap id := by
    rw [List.filterMap_append]
    have : [o2, o3].filterMap (·.word) = [] := by simp [w2, w3]
    rw [this, List.append_nil, ← w1, List.filterMap_map]
    rfl
  have e : (([] ++ os) ++ [o2]) ++ [o3] = os ++ [o2, o3] := by simp
  rw [e] at i3
  have x1 := i3.order1
  have x2 := i3.order2
  have x3 := i3.order3
  rw [r1, m3, hw] at x1
  rw [r2, m3, hw] at x2
  rw [r3, m3, hw] at x3
  refine ⟨os ++ [o2, o3], s3, happ es [none, none] e1 ?_, by simpa using x1, by simpa using x2, by simpa using x3⟩
  rw [WbCore.run, e2]
  simp only
  rw [WbCore.run, e3]
  rfl

/-! ## Words that do not arrive -/

theorem stuck2 {w : Word} (hw : w.getD 0 0 % 4 = 0) : ∀ (es : List (Option Word)) {os : List WbOut} {s : WbCore} {t : List Word}, WbInv os s → s.rx2.mem = w :: t →
    ∃ os' s', s.run es = some (os', s') ∧ os'.filterMap (·.w2) = []
  | [], os, s, t, _, _ => ⟨[], s, rfl, rfl⟩
  | i :: es, os, s, t, h, hm => by
    obtain ⟨o, s1, e1, i1⟩ := h.tick i
    have hp : mfuPops s.rx2 = false := by
      unfold mfuPops
      rw [h.rx2.rdata w t hm, hw]
      simp
    have hs : o.w2 = none ∧ ∃ t', s1.rx2.mem = w :: t' := by
      unfold WbCore.tick at e1
      simp only at e1
      split at e1
      · rename_i src' rx1' rx2' rx3' a1 a2 a3 a4
        cases e1
        refine ⟨by simp [hp], ?_⟩
        have := dataTick_mem a3
        rw [hp, hm] at this
        exact ⟨_, this⟩
      · cases e1
    obtain ⟨t', hm'⟩ := hs.2
    obtain ⟨os', s2, e2, e3⟩ := stuck2 hw es i1 hm'
    refine ⟨o :: os', s2, ?_, ?_⟩
    · rw [WbCore.run, e1]
      simp only
      rw [e2]
    · rw [List.filterMap_cons, hs.1]
      exact e3

/-- A word for register file 0 of a multi-function unit, such as the loader makes of register file 4 of the block before, is never written, and no word after it: the unit never gets another operand and its tag
does not go on, whatever comes. -/
theorem C142_file_zero_violated (es : List (Option Word)) :
    (readCh1 1 (packCh1 1 0 { LdUop.default with block1Id := 1, vrf1Id := 4 } [5])).file = 0 ∧
    ∃ os s', WbCore.reset.run (some (packCh1 1 0 { LdUop.default with block1Id := 1, vrf1Id := 4 } [5]) :: none :: es) = some (os, s') ∧ os.filterMap (·.w2) = [] := by
  refine ⟨by decide, ?_⟩
  have hw : packCh1 1 0 { LdUop.default with block1Id := 1, vrf1Id := 4 } [5] = [8, 0, 0, 0, 5] := by decide
  rw [hw]
  obtain ⟨os, s1, e1, _, i1⟩ := WbInv.run [some [8, 0, 0, 0, 5], none] wb_reset_inv
  have hs : (WbCore.reset.run [some [8, 0, 0, 0, 5], none]).map (fun r => (r.1.filterMap (·.w2), r.2.rx2.mem)) = some ([], [[8, 0, 0, 0, 5]]) := by decide +kernel
  rw [e1] at hs
  simp only [Option.map_some, Option.some.injEq, Prod.mk.injEq] at hs
  obtain ⟨os', s2, e2, e3⟩ := stuck2 (w := [8, 0, 0, 0, 5]) (by decide) es i1 (t := []) hs.2
  refine ⟨os ++ os', s2, ?_, by rw [List.filterMap_append, hs.1, e3]; rfl⟩
  rw [WbCore.run] at e1 ⊢
  cases ht : WbCore.reset.tick (some [8, 0, 0, 0, 5]) with
  | none => rw [ht] at e1; cases e1
  | some r =>
    obtain ⟨o, s'⟩ := r
    rw [ht] at e1
    simp only at e1 ⊢
    rw [WbCore.run] at e1 ⊢
    cases ht' : s'.tick none with
    | none => rw [ht'] at e1; cases e1
    | some r' =>
      obtain ⟨o', s''⟩ := r'
      rw [ht'] at e1
      simp only [WbCore.run] at e1 ⊢
      cases e1
      rw [e2]
      rfl

theorem stuckSrc {w : Word} (hw : w.getD 0 0 / 4 ≠ 1 ∧ w.getD 0 0 / 4 ≠ 2 ∧ w.getD 0 0 / 4 ≠ 3) : ∀ (es : List (Option Word)) {os : List WbOut} {s : WbCore} {t : List Word},
    WbInv os s → s.src.mem = w :: t → s.rx1.mem = [] → s.rx2.mem = [] → s.rx3.mem = [] →
    ∃ os' s', s.run es = some (os', s') ∧ ∀ o ∈ os', o.w1 = none ∧ o.w2 = none ∧ o.w3 = none
  | [], os, s, t, _, _, _, _, _ => ⟨[], s, rfl, by intro o ho; cases ho⟩
  | i :: es, os, s, t, h, hm, h1, h2, h3 => by
    obtain ⟨o, s1, e1, i1⟩ := h.tick i
    have tk : ∀ {r : Int} {f : Fifo Word}, r = 1 ∨ r = 2 ∨ r = 3 → wbTakes s.src r f = false := by
      intro r f hr
      unfold wbTakes
      rw [h.src.rdata w t hm]
      have : (w.getD 0 0 / 4 == r) = false := by
        rw [beq_eq_false_iff_ne]
        rcases hr with rfl | rfl | rfl
        · exact hw.1
        · exact hw.2.1
        · exact hw.2.2
      rw [this, Bool.and_false]
    have p1 : evrfPops s.rx1 = false := by unfold evrfPops; rw [h.rx1.empty, h1]; rfl
    have p2 : mfuPops s.rx2 = false := by unfold mfuPops; rw [h.rx2.empty, h2]; rfl
    have p3 : mfuPops s.rx3 = false := by unfold mfuPops; rw [h.rx3.empty, h3]; rfl
    have hs : (o.w1 = none ∧ o.w2 = none ∧ o.w3 = none) ∧ (∃ t', s1.src.mem = w :: t') ∧ s1.rx1.mem = [] ∧ s1.rx2.mem = [] ∧ s1.rx3.mem = [] := by
      unfold WbCore.tick at e1
      simp only at e1
      split at e1
      · rename_i src' rx1' rx2' rx3' a1 a2 a3 a4
        cases e1
        rw [tk (Or.inl rfl)] at a1 a2
        rw [tk (Or.inr (Or.inl rfl))] at a1 a3
        rw [tk (Or.inr (Or.inr rfl))] at a1 a4
        have m0 := dataTick_mem a1
        have m1 := dataTick_mem a2
        have m2 := dataTick_mem a3
        have m3 := dataTick_mem a4
        rw [hm] at m0
        rw [p1, h1] at m1
        rw [p2, h2] at m2
        rw [p3, h3] at m3
        exact ⟨⟨by simp [p1], by simp [p2], by simp [p3]⟩, ⟨_, m0⟩, m1, m2, m3⟩
      · cases e1
    obtain ⟨q, ⟨t', hm'⟩, h1', h2', h3'⟩ := hs
    obtain ⟨os', s2, e2, e3⟩ := stuckSrc hw es i1 hm' h1' h2' h3'
    refine ⟨o :: os', s2, ?_, ?_⟩
    · rw [WbCore.run, e1]
      simp only
      rw [e2]
    · intro x hx
      rcases List.mem_cons.1 hx with e | e
      · rw [e]; exact q
      · exact e3 x e

/-- A word for a block that is not there, such as the loader makes of register file 4 of the second multi-function unit, is never taken, and no word after it: none of the modules ever gets an operand of
this channel again. -/
theorem C142_block_violated (es : List (Option Word)) :
    (readCh1 1 (packCh1 1 0 { LdUop.default with block1Id := 3, vrf1Id := 4 } [5])).block = 4 ∧
    ∃ os s', WbCore.reset.run (some (packCh1 1 0 { LdUop.default with block1Id := 3, vrf1Id := 4 } [5]) :: es) = some (os, s') ∧
      ∀ o ∈ os, o.w1 = none ∧ o.w2 = none ∧ o.w3 = none := by
  refine ⟨by decide, ?_⟩
  have hw : packCh1 1 0 { LdUop.default with block1Id := 3, vrf1Id := 4 } [5] = [16, 0, 0, 0, 5] := by decide
  rw [hw]
  obtain ⟨o, s1, e1, i1⟩ := wb_reset_inv.tick (some [16, 0, 0, 0, 5])
  have hs : (WbCore.reset.tick (some [16, 0, 0, 0, 5])).map (fun r => ([r.1.w1, r.1.w2, r.1.w3], [r.2.src.mem, r.2.rx1.mem, r.2.rx2.mem, r.2.rx3.mem])) =
      some ([none, none, none], [[[16, 0, 0, 0, 5]], [], [], []]) := by decide +kernel
  rw [e1] at hs
  simp only [Option.map_some, Option.some.injEq, Prod.mk.injEq, List.cons.injEq, and_true] at hs
  obtain ⟨os', s2, e2, e3⟩ := stuckSrc (w := [16, 0, 0, 0, 5]) (by decide) es i1 hs.2.1 hs.2.2.1 hs.2.2.2.1 hs.2.2.2.2
  refine ⟨o :: os', s2, ?_, ?_⟩
  · rw [WbCore.run, e1]
    simp only
    rw [e2]
  · intro x hx
    rcases List.mem_cons.1 hx with e | e
    · rw [e]; exact hs.1
    · exact e3 x e

/-! ## All cores do the same -/

/-- If the words for two cores have the same first three elements in every cycle, the modules write words with the same first three elements for both in every cycle. -/
theorem C142_lockstep {es es' : List (Option Word)} (h : es.map (·.map headOf) = es'.map (·.map headOf)) {os os' : List WbOut} {s s' : WbCore}
    (h1 : WbCore.reset.run es = some (os, s)) (h2 : WbCore.reset.run es' = some (os', s')) : os.map (·.heads) = os'.map (·.heads) := by
  have a := run_heads es .reset
  have b := run_heads es' .reset
  rw [h, b, h1, h2] at a
  simp only [Option.map_some, Option.some.injEq, Prod.mk.injEq] at a
  exact a.1.symm

/-- Then the one address that the external register file has for all cores is in every cycle that of the word of each core. -/
theorem C142_address {oss : List (List WbOut)} {ref : List WbOut} (h : ∀ os ∈ oss, os.map (·.heads) = ref.map (·.heads)) (n : Nat) (old : Int) :
    ∀ os ∈ oss, ∀ o w, os[n]? = some o → o.w1 = some w →
      evrfAddr old (oss.map fun os => (os[n]?).bind (·.w1)) = w.getD 1 0 % 2 ^ 9 := by
  have key : ∀ (l : List (List WbOut)) (a v : Int), (∀ os ∈ l, os.map (·.heads) = ref.map (·.heads)) → (∃ r w, ref[n]? = some r ∧ r.w1 = some w ∧ w.getD 1 0 % 2 ^ 9 = v) →
      (l ≠ [] ∨ a = v) → evrfAddr a (l.map fun os => (os[n]?).bind (·.w1)) = v := by
    intro l
    induction l with
    | nil => intro a v _ _ h; exact h.resolve_left (by simp)
    | cons os l ih =>
      intro a v hl hr _
      obtain ⟨r, w, r1, r2, r3⟩ := hr
      have e := hl os (List.mem_cons_self ..)
      have e' := congrArg (fun (x : List WbOut) => x[n]?) e
      simp only [List.getElem?_map, r1, Option.map_some] at e'
      cases ho : os[n]? with
      | none => rw [ho] at e'; cases e'
      | some o =>
        rw [ho] at e'
        simp only [Option.map_some, Option.some.injEq] at e'
        have e2 : o.w1.map headOf = r.w1.map headOf := congrArg WbOut.w1 e'
        rw [r2] at e2
        cases hw : o.w1 with
        | none => rw [hw] at e2; cases e2
        | some w' =>
          rw [hw] at e2
          simp only [Option.map_some, Option.some.injEq] at e2
          have hv : w'.getD 1 0 % 2 ^ 9 = v := by
            rw [← r3, ← headOf_getD w' (by decide), ← headOf_getD w (by decide), e2]
          unfold evrfAddr
          rw [List.map_cons, List.foldl_cons, ho]
          simp only [Option.bind_some, hw]
          exact ih _ v (fun x hx => hl x (List.mem_cons_of_mem _ hx)) ⟨r, w, r1, r2, r3⟩ (Or.inr hv)
  intro os hos o w ho hw
  have e := h os hos
  have e' := congrArg (fun (x : List WbOut) => x[n]?) e
  simp only [List.getElem?_map, ho, Option.map_some] at e'
  cases hr : ref[n]? with
  | none => rw [hr] at e'; cases e'
  | some r =>
    rw [hr] at e'
    simp only [Option.map_some, Option.some.injEq] at e'
    have e2 : o.w1.map headOf = r.w1.map headOf := congrArg WbOut.w1 e'
    rw [hw] at e2
    cases hw' : r.w1 with
    | none => rw [hw'] at e2; cases e2
    | some w' =>
      rw [hw'] at e2
      simp only [Option.map_some, Option.some.injEq] at e2
      refine key oss old _ h ⟨r, w', hr, hw', ?_⟩ (Or.inl (List.ne_nil_of_mem hos))
      rw [← headOf_getD w' (by decide), ← headOf_getD w (by decide), e2]

theorem nextTag_heads (t : Nat) (w : Option Word) : nextTag t (w.map headOf) = nextTag t w := by
  cases w with
  | none => rfl
  | some w =>
    unfold nextTag
    simp only [Option.map_some]
    rw [headOf_getD w (by decide)]

/-- And the tags, which go on with the words of the first core, would go on in the same cycle with those of any other: when a tag goes on, each core has written as many words as the first. -/
theorem C142_tag {es es' : List (Option Word)} (h : es.map (·.map headOf) = es'.map (·.map headOf)) {os os' : List WbOut} {s s' : WbCore}
    (h1 : WbCore.reset.run es = some (os, s)) (h2 : WbCore.reset.run es' = some (os', s')) (n t : Nat) :
    (nextTag t ((os[n]?).bind (·.w1)) = nextTag t ((os'[n]?).bind (·.w1)) ∧ ((os.take n).filterMap (·.w1)).length = ((os'.take n).filterMap (·.w1)).length) ∧
    (nextTag t ((os[n]?).bind (·.w2)) = nextTag t ((os'[n]?).bind (·.w2)) ∧ ((os.take n).filterMap (·.w2)).length = ((os'.take n).filterMap (·.w2)).length) ∧
    (nextTag t ((os[n]?).bind (·.w3)) = nextTag t ((os'[n]?).bind (·.w3)) ∧ ((os.take n).filterMap (·.w3)).length = ((os'.take n).filterMap (·.w3)).length) := by
  have e := C142_lockstep h h1 h2
  have g : ∀ (f : WbOut → Option Word), (∀ o : WbOut, f o.heads = (f o).map headOf) →
      nextTag t ((os[n]?).bind f) = nextTag t ((os'[n]?).bind f) ∧ ((os.take n).filterMap f).length = ((os'.take n).filterMap f).length := by
    intro f hf
    refine ⟨?_, ?_⟩
    · have e' := congrArg (fun (x : List WbOut) => (x[n]?).bind f) e
      simp only [List.getElem?_map] at e'
      rw [← nextTag_heads, ← nextTag_heads t ((os'[n]?).bind f)]
      congr 1
      cases ha : os[n]? <;> cases hb : os'[n]? <;> rw [ha, hb] at e' <;> simpa [hf] using e'
    · have e' := congrArg (fun (x : List WbOut) => ((x.take n).filterMap f).length) e
      simp only [← List.map_take, List.filterMap_map] at e'
      have q : ∀ l : List WbOut, (l.filterMap (f ∘ fun o => o.heads)).length = (l.filterMap f).length := by
        intro l
        induction l with
        | nil => rfl
        | cons o l ih =>
          simp only [List.filterMap_cons, Function.comp_apply, hf]
          cases f o with
          | none => simpa using ih
          | some w => simpa using ih
      rw [q, q] at e'
      exact e'
  exact ⟨g _ fun _ => rfl, g _ fun _ => rfl, g _ fun _ => rfl⟩

/-- The loader does its part: what it writes for two cores of a sector has the same first three elements in every cycle. -/
theorem C142_loader {K : LdShape} {s : Loader} (hs : s.Start K) (es : List LoaderIn) {os : List LoaderOut} {s' : Loader} (h : s.run K es = some (os, s'))
    {k c c' : Nat} (hc : c < K.cores) (hc' : c' < K.cores) :
    ∀ o ∈ os, (o.slot.out K (2 * K.cores + k * K.cores + c)).map headOf = (o.slot.out K (2 * K.cores + k * K.cores + c')).map headOf := by
  have hch := run_chained es h
  rw [hs.slots] at hch
  have key : ∀ (os : List LoaderOut) (d : List Word), (d = [] ∨ d.length = K.cores ∧ ∀ x ∈ d, x.length = K.sectors * K.width) → Chained K d os →
      ∀ o ∈ os, (o.slot.data = [] ∨ o.slot.data.length = K.cores ∧ ∀ x ∈ o.slot.data, x.length = K.sectors * K.width) := by
    intro os
    induction os with
    | nil => intro d _ _ o ho; cases ho
    | cons x os ih =>
      intro d hd hcd o ho
      have hx : x.slot.data = [] ∨ x.slot.data.length = K.cores ∧ ∀ y ∈ x.slot.data, y.length = K.sectors * K.width := by
        rw [hcd.1]
        rw [ldVectors_eq]
        split
        · right
          unfold LdShape.gather
          refine ⟨by simp, ?_⟩
          intro y hy
          obtain ⟨q, _, e⟩ := List.mem_map.1 hy
          rw [← e]
          split <;> simp
        · exact hd
      rcases List.mem_cons.1 ho with e | e
      · rw [e]; exact hx
      · exact ih _ hx hcd.2 o e
  intro o ho
  have hd := key os _ (Or.inl rfl) hch o ho
  have hpack : ∀ {d d' : Word}, (d = [] ↔ d' = []) → headOf (packCh1 K.width k o.slot.uop d) = headOf (packCh1 K.width k o.slot.uop d') := by
    intro d d' hdd
    unfold packCh1
    by_cases q : d = []
    · rw [if_pos q, if_pos (hdd.1 q)]
    · rw [if_neg q, if_neg (fun e => q (hdd.2 e))]
      rfl
  have hsame : (o.slot.data.getD c [] = [] ↔ o.slot.data.getD c' [] = []) := by
    rcases hd with q | ⟨q1, q2⟩
    · rw [q]; exact Iff.rfl
    · have l1 : (o.slot.data.getD c []).length = K.sectors * K.width := by
        rw [List.getD_eq_getElem?_getD, List.getElem?_eq_getElem (by omega)]
        exact q2 _ (List.getElem_mem _)
      have l2 : (o.slot.data.getD c' []).length = K.sectors * K.width := by
        rw [List.getD_eq_getElem?_getD, List.getElem?_eq_getElem (by omega)]
        exact q2 _ (List.getElem_mem _)
      rw [← List.length_eq_zero_iff, ← List.length_eq_zero_iff, l1, l2]
  unfold LdSlot.out LdShape.sel LdShape.val
  have e : ∀ {c : Nat}, c < K.cores → (k * K.cores + c) / K.cores = k ∧ (k * K.cores + c) % K.cores = c := by
    intro c hc
    refine ⟨?_, ?_⟩
    · rw [Nat.mul_comm, Nat.mul_add_div (by omega), Nat.div_eq_of_lt hc, Nat.add_zero]
    · rw [Nat.mul_comm, Nat.mul_add_mod, Nat.mod_eq_of_lt hc]
  simp only [if_neg (show ¬ 2 * K.cores + k * K.cores + c < K.cores by omega), if_neg (show ¬ 2 * K.cores + k * K.cores + c < 2 * K.cores by omega),
    show 2 * K.cores + k * K.cores + c - 2 * K.cores = k * K.cores + c by omega, (e hc).1, (e hc).2,
    if_neg (show ¬ 2 * K.cores + k * K.cores + c' < K.cores by omega), if_neg (show ¬ 2 * K.cores + k * K.cores + c' < 2 * K.cores by omega),
    show 2 * K.cores + k * K.cores + c' - 2 * K.cores = k * K.cores + c' by omega, (e hc').1, (e hc').2]
  split
  · simp only [Option.map_some]
    rw [hpack hsame]
  · rfl

/-- So with the loader before them the modules write words with the same first three elements for all cores in every cycle. -/
theorem C142_cores {K : LdShape} {s : Loader} (hs : s.Start K) (es : List LoaderIn) {ls : List LoaderOut} {s' : Loader} (h : s.run K es = some (ls, s'))
    {k c c' : Nat} (hc : c < K.cores) (hc' : c' < K.cores) :
    ∃ os t os' t', WbCore.reset.run (ls.map fun o => o.slot.out K (2 * K.cores + k * K.cores + c)) = some (os, t) ∧
      WbCore.reset.run (ls.map fun o => o.slot.out K (2 * K.cores + k * K.cores + c')) = some (os', t') ∧ os.map (·.heads) = os'.map (·.heads) := by
  obtain ⟨os, t, h1, _⟩ := C142_order (ls.map fun o => o.slot.out K (2 * K.cores + k * K.cores + c))
  obtain ⟨os', t', h2, _⟩ := C142_order (ls.map fun o => o.slot.out K (2 * K.cores + k * K.cores + c'))
  refine ⟨os, t, os', t', h1, h2, C142_lockstep ?_ h1 h2⟩
  rw [List.map_map, List.map_map]
  exact List.map_congr_left fun o ho => C142_loader hs es h hc hc' o ho

/-! ## Examples -/

/-- Words for the external register file, the adder of the first multi-function unit, and the tag of the external register file. -/
def wbEx : List (Option Word) := [some [5, 7, 0, 0, 30], some [9, 3, 0, 0, 40], none, some [5, 511, 1, 0, 40]]

/-- The same for another core. -/
def wbEx' : List (Option Word) := [some [5, 7, 0, 0, 31], some [9, 3, 0, 0, 41], none, some [5, 511, 1, 0, 41]]

example : ∀ w, some w ∈ wbEx → GoodWord w := by
  intro w hw
  unfold wbEx at hw
  simp only [List.mem_cons, Option.some.injEq, reduceCtorEq, List.not_mem_nil, or_false, false_or] at hw
  rcases hw with rfl | rfl | rfl <;> exact ⟨by decide, by decide, by decide⟩

example : wbEx.map (·.map headOf) = wbEx'.map (·.map headOf) := by decide

example : (WbCore.reset.run (wbEx ++ [none, none])).map (fun r => (r.1.filterMap (·.w1), r.1.filterMap (·.w2), r.1.filterMap (·.w3))) =
    some ([[5, 7, 0, 0, 30], [5, 511, 1, 0, 40]], [[9, 3, 0, 0, 40]], []) := by decide +kernel

/-- A loader for two cores and two sectors of one element. -/
abbrev wbShape : LdShape := ⟨2, 2, 1⟩

/-- After the reset. -/
def wbLd0 : Loader := ⟨⟨[], true, false, .default⟩, List.replicate 6 ⟨[], true, false, []⟩, List.replicate 8 .idle, List.replicate 8 ⟨[], true, false, []⟩⟩

theorem wbLd0_start : wbLd0.Start wbShape where
  uf := ⟨rfl, by decide, by (intro m t h; cases h), by decide⟩
  ufMem := rfl
  nIn := rfl
  nOut := rfl
  ins := by
    intro f hf
    obtain ⟨_, rfl⟩ := List.mem_replicate.1 hf
    exact ⟨⟨rfl, by decide, by intro m t h; cases h⟩, rfl⟩
  outs := by
    intro f hf
    obtain ⟨_, rfl⟩ := List.mem_replicate.1 hf
    exact ⟨⟨rfl, by decide, by intro m t h; cases h⟩, rfl⟩
  slots := rfl

/-- A vector for each core for the external register file, and the update of its tag. -/
def wbLdIn : List LoaderIn :=
  [⟨some { LdUop.default with block1Id := 1, vrf1Id := 1, vrf1Addr := 7 }, fun k => if k = 0 then some [300, -5] else if k = 1 then some [20, 6] else none, fun _ => true⟩,
    ⟨some (tagUpdate 1 false), fun _ => none, fun _ => true⟩] ++ List.replicate 12 ⟨none, fun _ => none, fun _ => true⟩

/-- What the two cores get of the second sector. -/
example : (wbLd0.run wbShape wbLdIn).map (fun r => [6, 7].map fun j => r.1.filterMap fun o => o.slot.out wbShape j) =
    some [[[5, 7, 0, 0, -5], [5, 511, 1, 0, -5]], [[5, 7, 0, 0, 6], [5, 511, 1, 0, 6]]] := by decide +kernel

/-- And what is written to the register files. -/
example : (wbLd0.run wbShape wbLdIn).bind (fun r => (WbCore.reset.run (r.1.map fun o => o.slot.out wbShape 7)).map fun q => q.1.filterMap (·.w1)) =
    some [[5, 7, 0, 0, 6], [5, 511, 1, 0, 6]] := by decide +kernel

/-- Without the lockstep the word of the first core would be written to the address of that of the second. -/
example : evrfAddr 0 [some [5, 7, 0, 0, 30], some [5, 9, 0, 0, 31]] = 9 := by decide

end RadSim.Npu
