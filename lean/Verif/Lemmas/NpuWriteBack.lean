import Verif.Model.NpuWriteBack
import Verif.Lemmas.NpuLoader

/-!
# The second write-back channel of the `npu`: lemmas -/

namespace RadSim.Npu

/-- The block of a word. -/
def blockIs (r : Int) (w : Word) : Bool := w != [] && w.getD 0 0 / 4 == r

theorem takes_head {src : Fifo Word} {n : Nat} (h : DSound n src) {r : Int} {f : Fifo Word} (ht : wbTakes src r f = true) :
    ∃ t, src.mem = src.rdata :: t ∧ blockIs r src.rdata = true ∧ f.almostFull = false := by
  unfold wbTakes at ht
  simp only [Bool.and_eq_true, Bool.not_eq_true'] at ht
  obtain ⟨⟨⟨a, b⟩, c⟩, d⟩ := ht
  rw [h.empty] at a
  cases hm : src.mem with
  | nil => rw [hm] at a; cases a
  | cons x t =>
    have := h.rdata x t hm
    refine ⟨t, by rw [this], ?_, b⟩
    unfold blockIs
    rw [c, d]
    rfl

structure WbInv (os : List WbOut) (s : WbCore) : Prop where
  src : DSound (dataDepth - ldStages) s.src
  rx1 : DSound (dataDepth - evrfStages) s.rx1
  rx2 : DSound (dataDepth - mfuStages) s.rx2
  rx3 : DSound (dataDepth - mfuStages) s.rx3
  room1 : s.rx1.mem.length ≤ dataDepth - evrfStages
  room2 : s.rx2.mem.length ≤ dataDepth - mfuStages
  room3 : s.rx3.mem.length ≤ dataDepth - mfuStages
  order1 : os.filterMap (·.w1) ++ s.rx1.mem ++ s.src.mem.filter (blockIs 1) = (os.filterMap (·.word)).filter (blockIs 1)
  order2 : os.filterMap (·.w2) ++ s.rx2.mem ++ s.src.mem.filter (blockIs 2) = (os.filterMap (·.word)).filter (blockIs 2)
  order3 : os.filterMap (·.w3) ++ s.rx3.mem ++ s.src.mem.filter (blockIs 3) = (os.filterMap (·.word)).filter (blockIs 3)

/-- A receiver: what it is like after a cycle. -/
theorem rx_tick {L : Nat} (hL : L < dataDepth) {f : Fifo Word} (hf : DSound L f) (hr : f.mem.length ≤ L) {p t : Bool} {w : Word}
    (hp : p = true → f.mem ≠ []) (ht : t = true → f.almostFull = false) :
    ∃ f', f.dataTick L [] p (if t then some w else none) = some f' ∧ DSound L f' ∧ f'.mem.length ≤ L ∧
      (if p then some f.rdata else none).toList ++ f'.mem = f.mem ++ (if t then some w else none).toList := by
  obtain ⟨f', e1, e2, e3⟩ := dsound_tick (limit := L) [] f p hp (if t then some w else none) (by intro _; omega)
  refine ⟨f', e1, e2, ?_, ?_⟩
  · rw [e3, List.length_append]
    have h1 : (if p then f.mem.tail else f.mem).length ≤ f.mem.length := by
      split
      · simp
      · exact Nat.le_refl _
    generalize (if p then f.mem.tail else f.mem) = m1 at h1 ⊢
    cases t with
    | false => simp; omega
    | true =>
      have := ht rfl
      rw [hf.almostFull] at this
      have := of_decide_eq_false this
      simp
      omega
  · rw [e3]
    cases p with
    | false => rfl
    | true =>
      cases hm : f.mem with
      | nil => exact absurd hm (hp rfl)
      | cons x l =>
        have := hf.rdata x l hm
        simp [this]

theorem evrfPops_ne {L : Nat} {f : Fifo Word} (hf : DSound L f) (h : evrfPops f = true) : f.mem ≠ [] := by
  unfold evrfPops at h
  rw [hf.empty] at h
  intro e
  rw [e] at h
  simp at h

theorem mfuPops_ne {L : Nat} {f : Fifo Word} (hf : DSound L f) (h : mfuPops f = true) : f.mem ≠ [] := by
  unfold mfuPops at h
  rw [hf.empty] at h
  intro e
  rw [e] at h
  simp at h

/-- One block: what it gets is what leaves the first FIFO. -/
theorem order_step {r : Int} {src src' : Fifo Word} {f f' : Fifo Word} {P W : List Word} {pop word : Option Word} {t any : Bool}
    (h0 : P ++ f.mem ++ src.mem.filter (blockIs r) = W.filter (blockIs r))
    (h1 : pop.toList ++ f'.mem = f.mem ++ (if t then some src.rdata else none).toList)
    (h2 : src'.mem = (if any then src.mem.tail else src.mem) ++ word.toList)
    (h3 : any = true → ∃ l, src.mem = src.rdata :: l ∧ blockIs r src.rdata = t) (h4 : t = true → any = true) :
    (P ++ pop.toList) ++ f'.mem ++ src'.mem.filter (blockIs r) = (W ++ word.toList).filter (blockIs r) := by
  rw [List.filter_append, ← h0, h2, List.filter_append, List.append_assoc P, h1]
  have key : (if t then some src.rdata else none).toList ++ (if any then src.mem.tail else src.mem).filter (blockIs r) = src.mem.filter (blockIs r) := by
    cases ha : any with
    | false =>
      have : t = false := by
        cases t
        · rfl
        · have := h4 rfl; rw [ha] at this; cases this
      rw [this]
      rfl
    | true =>
      obtain ⟨l, e1, e2⟩ := h3 ha
      rw [e1]
      simp only [if_true, List.tail_cons, List.filter_cons, e2]
      cases t <;> rfl
  conv => rhs; rw [← key]
  simp only [List.append_assoc]

theorem WbInv.tick {os : List WbOut} {s : WbCore} (h : WbInv os s) (i : Option Word) :
    ∃ o s', s.tick i = some (o, s') ∧ WbInv (os ++ [o]) s' := by
  have hD : dataDepth = 512 := rfl
  have hS : ldStages = 8 := rfl
  have hE : evrfStages = 8 := rfl
  have hM : mfuStages = 25 := rfl
  have k1 : wbTakes s.src 1 s.rx1 = true → _ := takes_head h.src
  have k2 : wbTakes s.src 2 s.rx2 = true → _ := takes_head h.src
  have k3 : wbTakes s.src 3 s.rx3 = true → _ := takes_head h.src
  have hany : (wbTakes s.src 1 s.rx1 || wbTakes s.src 2 s.rx2 || wbTakes s.src 3 s.rx3) = true → s.src.mem ≠ [] := by
    intro e
    simp only [Bool.or_eq_true] at e
    rcases e with (e | e) | e
    · obtain ⟨t, q, _⟩ := k1 e; rw [q]; exact List.cons_ne_nil _ _
    · obtain ⟨t, q, _⟩ := k2 e; rw [q]; exact List.cons_ne_nil _ _
    · obtain ⟨t, q, _⟩ := k3 e; rw [q]; exact List.cons_ne_nil _ _
  obtain ⟨src', a1, a2, a3⟩ := dsound_tick (limit := dataDepth - ldStages) [] s.src (wbTakes s.src 1 s.rx1 || wbTakes s.src 2 s.rx2 || wbTakes s.src 3 s.rx3) hany
    (if s.src.mem.length < dataDepth then i else none) (by
      intro e
      by_cases q : s.src.mem.length < dataDepth
      · exact q
      · rw [if_neg q] at e; cases e)
  obtain ⟨rx1', b1, b2, b3, b4⟩ := rx_tick (L := dataDepth - evrfStages) (by omega) h.rx1 h.room1 (p := evrfPops s.rx1) (t := wbTakes s.src 1 s.rx1) (w := s.src.rdata)
    (evrfPops_ne h.rx1) (fun e => by obtain ⟨_, _, _, q⟩ := k1 e; exact q)
  obtain ⟨rx2', c1, c2, c3, c4⟩ := rx_tick (L := dataDepth - mfuStages) (by omega) h.rx2 h.room2 (p := mfuPops s.rx2) (t := wbTakes s.src 2 s.rx2) (w := s.src.rdata)
    (mfuPops_ne h.rx2) (fun e => by obtain ⟨_, _, _, q⟩ := k2 e; exact q)
  obtain ⟨rx3', d1, d2, d3, d4⟩ := rx_tick (L := dataDepth - mfuStages) (by omega) h.rx3 h.room3 (p := mfuPops s.rx3) (t := wbTakes s.src 3 s.rx3) (w := s.src.rdata)
    (mfuPops_ne h.rx3) (fun e => by obtain ⟨_, _, _, q⟩ := k3 e; exact q)
  refine ⟨⟨if s.src.mem.length < dataDepth then i else none, if evrfPops s.rx1 then some s.rx1.rdata else none, if mfuPops s.rx2 then some s.rx2.rdata else none,
    if mfuPops s.rx3 then some s.rx3.rdata else none⟩, ⟨src', rx1', rx2', rx3'⟩, ?_, ?_⟩
  · unfold WbCore.tick
    simp only
    rw [a1, b1, c1, d1]
  · -- which block the word that leaves has
    have hb : (wbTakes s.src 1 s.rx1 || wbTakes s.src 2 s.rx2 || wbTakes s.src 3 s.rx3) = true →
        ∃ l, s.src.mem = s.src.rdata :: l ∧ blockIs 1 s.src.rdata = wbTakes s.src 1 s.rx1 ∧ blockIs 2 s.src.rdata = wbTakes s.src 2 s.rx2 ∧
          blockIs 3 s.src.rdata = wbTakes s.src 3 s.rx3 := by
      have g : ∀ {r : Int} {f : Fifo Word}, blockIs r s.src.rdata = false → wbTakes s.src r f = false := by
        intro r f e
        unfold blockIs at e
        unfold wbTakes
        rw [Bool.and_assoc, e, Bool.and_false]
      have o : ∀ {r q : Int}, r ≠ q → blockIs r s.src.rdata = true → blockIs q s.src.rdata = false := by
        intro r q hne e
        unfold blockIs at e ⊢
        simp only [Bool.and_eq_true, beq_iff_eq] at e
        rw [e.1, e.2, Bool.true_and]
        exact beq_false_of_ne hne
      intro e
      simp only [Bool.or_eq_true] at e
      rcases e with (e | e) | e
      · obtain ⟨l, q1, q2, _⟩ := k1 e
        have x2 := o (q := 2) (by decide) q2
        have x3 := o (q := 3) (by decide) q2
        exact ⟨l, q1, by rw [q2, e], by rw [x2, g x2], by rw [x3, g x3]⟩
      · obtain ⟨l, q1, q2, _⟩ := k2 e
        have x2 := o (q := 1) (by decide) q2
        have x3 := o (q := 3) (by decide) q2
        exact ⟨l, q1, by rw [x2, g x2], by rw [q2, e], by rw [x3, g x3]⟩
      · obtain ⟨l, q1, q2, _⟩ := k3 e
        have x2 := o (q := 1) (by decide) q2
        have x3 := o (q := 2) (by decide) q2
        exact ⟨l, q1, by rw [x2, g x2], by rw [x3, g x3], by rw [q2, e]⟩
    have fm : ∀ (g : WbOut → Option Word) (o : WbOut), (os ++ [o]).filterMap g = os.filterMap g ++ (g o).toList := by
      intro g o
      rw [List.filterMap_append, filterMap_single]
    refine ⟨a2, b2, c2, d2, b3, c3, d3, ?_, ?_, ?_⟩
    · rw [fm, fm]
      exact order_step h.order1 b4 a3 (fun e => by obtain ⟨l, q1, q2, _, _⟩ := hb e; exact ⟨l, q1, q2⟩) (fun e => by rw [e]; rfl)
    · rw [fm, fm]
      exact order_step h.order2 c4 a3 (fun e => by obtain ⟨l, q1, _, q2, _⟩ := hb e; exact ⟨l, q1, q2⟩) (fun e => by rw [e]; simp)
    · rw [fm, fm]
      exact order_step h.order3 d4 a3 (fun e => by obtain ⟨l, q1, _, _, q2⟩ := hb e; exact ⟨l, q1, q2⟩) (fun e => by rw [e]; simp)

theorem WbInv.run : ∀ (es : List (Option Word)) {os : List WbOut} {s : WbCore}, WbInv os s →
    ∃ os' s', s.run es = some (os', s') ∧ os'.length = es.length ∧ WbInv (os ++ os') s'
  | [], os, s, h => ⟨[], s, rfl, rfl, by rw [List.append_nil]; exact h⟩
  | i :: es, os, s, h => by
    obtain ⟨o, s1, e1, i1⟩ := h.tick i
    obtain ⟨os', s2, e2, l2, i2⟩ := WbInv.run es i1
    refine ⟨o :: os', s2, ?_, by simp [l2], by rw [List.append_assoc] at i2; exact i2⟩
    rw [WbCore.run, e1]
    simp only
    rw [e2]

theorem wb_reset_inv : WbInv [] .reset :=
  ⟨⟨rfl, rfl, by (intro m t h; cases h)⟩, ⟨rfl, rfl, by (intro m t h; cases h)⟩, ⟨rfl, rfl, by (intro m t h; cases h)⟩, ⟨rfl, rfl, by (intro m t h; cases h)⟩,
    Nat.zero_le _, Nat.zero_le _, Nat.zero_le _, rfl, rfl, rfl⟩

/-! ## Lockstep -/

/-- The first three elements of a word: what is not data. -/
def headOf (w : Word) : Word := w.take 3

def Fifo.heads (f : Fifo Word) : Fifo Word := ⟨f.mem.map headOf, f.empty, f.almostFull, headOf f.rdata⟩

def WbCore.heads (s : WbCore) : WbCore := ⟨s.src.heads, s.rx1.heads, s.rx2.heads, s.rx3.heads⟩

def WbOut.heads (o : WbOut) : WbOut := ⟨o.word.map headOf, o.w1.map headOf, o.w2.map headOf, o.w3.map headOf⟩

theorem headOf_getD (w : Word) {k : Nat} (hk : k < 3) : (headOf w).getD k 0 = w.getD k 0 := by
  unfold headOf
  rw [List.getD_eq_getElem?_getD, List.getD_eq_getElem?_getD, List.getElem?_take_of_lt hk]

theorem headOf_nil (w : Word) : (headOf w != []) = (w != []) := by
  cases w with
  | nil => rfl
  | cons x t => rfl

theorem headD_heads (l : List Word) : (l.map headOf).headD [] = headOf (l.headD []) := by
  cases l with
  | nil => rfl
  | cons x t => rfl

theorem dataTick_heads (L : Nat) (f : Fifo Word) (p : Bool) (w : Option Word) :
    f.heads.dataTick L [] p (w.map headOf) = (f.dataTick L [] p w).map (·.heads) := by
  unfold Fifo.dataTick Fifo.heads
  simp only [List.map_eq_nil_iff]
  split
  · rfl
  · have e : (if p = true then (f.mem.map headOf).tail else f.mem.map headOf) = (if p = true then f.mem.tail else f.mem).map headOf := by
      cases p
      · rfl
      · simp
    rw [e]
    generalize (if p = true then f.mem.tail else f.mem) = m
    cases w with
    | none =>
      simp only [Option.map_none, Option.map_some, headD_heads, List.length_map, List.isEmpty_map]
    | some x =>
      simp only [Option.map_some, List.length_map]
      split
      · rfl
      · have q : m.map headOf ++ [headOf x] = (m ++ [x]).map headOf := by simp
        rw [q]
        simp only [Option.map_some, headD_heads, List.length_map, List.isEmpty_map]

theorem takes_heads (src : Fifo Word) (r : Int) (f : Fifo Word) : wbTakes src.heads r f.heads = wbTakes src r f := by
  show (!src.empty && !f.almostFull && headOf src.rdata != [] && (headOf src.rdata).getD 0 0 / 4 == r) = _
  rw [headOf_nil, headOf_getD _ (by decide)]
  rfl

theorem evrfPops_heads (f : Fifo Word) : evrfPops f.heads = evrfPops f := by
  show (!f.empty && headOf f.rdata != []) = _
  rw [headOf_nil]
  rfl

theorem mfuPops_heads (f : Fifo Word) : mfuPops f.heads = mfuPops f := by
  show (!f.empty && headOf f.rdata != [] && (headOf f.rdata).getD 0 0 % 4 != 0) = _
  rw [headOf_nil, headOf_getD _ (by decide)]
  rfl

theorem ite_map (b : Bool) (w : Word) : (if b then some (headOf w) else none) = (if b then some w else none).map headOf := by cases b <;> rfl

theorem tick_heads (s : WbCore) (i : Option Word) : s.heads.tick (i.map headOf) = (s.tick i).map fun r => (r.1.heads, r.2.heads) := by
  unfold WbCore.tick
  have w : (if s.heads.src.mem.length < dataDepth then i.map headOf else none) = (if s.src.mem.length < dataDepth then i else none).map headOf := by
    show (if (s.src.mem.map headOf).length < dataDepth then i.map headOf else none) = _
    rw [List.length_map]
    split <;> rfl
  have t1 : wbTakes s.heads.src 1 s.heads.rx1 = wbTakes s.src 1 s.rx1 := takes_heads _ _ _
  have t2 : wbTakes s.heads.src 2 s.heads.rx2 = wbTakes s.src 2 s.rx2 := takes_heads _ _ _
  have t3 : wbTakes s.heads.src 3 s.heads.rx3 = wbTakes s.src 3 s.rx3 := takes_heads _ _ _
  have p1 : evrfPops s.heads.rx1 = evrfPops s.rx1 := evrfPops_heads _
  have p2 : mfuPops s.heads.rx2 = mfuPops s.rx2 := mfuPops_heads _
  have p3 : mfuPops s.heads.rx3 = mfuPops s.rx3 := mfuPops_heads _
  have r0 : s.heads.src.rdata = headOf s.src.rdata := rfl
  have r1 : s.heads.rx1.rdata = headOf s.rx1.rdata := rfl
  have r2 : s.heads.rx2.rdata = headOf s.rx2.rdata := rfl
  have r3 : s.heads.rx3.rdata = headOf s.rx3.rdata := rfl
  have f0 : s.heads.src = s.src.heads := rfl
  have f1 : s.heads.rx1 = s.rx1.heads := rfl
  have f2 : s.heads.rx2 = s.rx2.heads := rfl
  have f3 : s.heads.rx3 = s.rx3.heads := rfl
  simp only [w, t1, t2, t3, p1, p2, p3, r0, r1, r2, r3, ite_map]
  rw [f0, f1, f2, f3, dataTick_heads, dataTick_heads, dataTick_heads, dataTick_heads]
  generalize s.src.dataTick _ _ _ _ = a
  generalize s.rx1.dataTick _ _ _ _ = b
  generalize s.rx2.dataTick _ _ _ _ = c
  generalize s.rx3.dataTick _ _ _ _ = d
  cases a <;> cases b <;> cases c <;> cases d <;> rfl

theorem run_heads : ∀ (es : List (Option Word)) (s : WbCore), s.heads.run (es.map (·.map headOf)) = (s.run es).map fun r => (r.1.map (·.heads), r.2.heads)
  | [], s => rfl
  | i :: es, s => by
    rw [List.map_cons, WbCore.run, WbCore.run, tick_heads]
    cases s.tick i with
    | none => rfl
    | some r =>
      obtain ⟨o, s'⟩ := r
      simp only [Option.map_some]
      rw [run_heads es s']
      cases s'.run es with
      | none => rfl
      | some q => rfl

end RadSim.Npu
