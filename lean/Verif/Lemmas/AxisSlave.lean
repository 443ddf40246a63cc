import Verif.Model.AxisSlave
import Verif.Lemmas.BufferState
import Verif.Lemmas.AxisPacket

namespace RadSim

/-! ## arbitration -/

theorem readyLoop_snd (injFull : Bool) (valid : Nat → Bool) (k : Nat) (q : List Nat)
    (h : k ≤ q.length) :
    (readyLoop injFull valid k q).2 = if injFull then none else (q.take k).find? valid := by
  induction k generalizing q with
  | zero => simp [readyLoop]
  | succ k ih =>
    cases q with
    | nil => simp at h
    | cons x q =>
      simp only [List.length_cons] at h
      simp only [readyLoop]
      split
      · rename_i hc
        simp only [Bool.and_eq_true, Bool.not_eq_true'] at hc
        simp [hc.1, hc.2]
      · rename_i hc
        rw [ih _ (by simp; omega)]
        cases injFull
        · simp only [Bool.not_false, Bool.true_and, Bool.not_eq_true] at hc
          simp only [Bool.false_eq_true, if_false, List.take_succ_cons]
          rw [List.take_append_of_le_length (by omega), List.find?_cons, hc]
        · simp

theorem readyLoop_fst (injFull : Bool) (valid : Nat → Bool) (k : Nat) (q : List Nat)
    (h : k ≤ q.length) :
    ∃ m, m ≤ k ∧ (readyLoop injFull valid k q).1 = q.drop m ++ q.take m := by
  induction k generalizing q with
  | zero => exact ⟨0, by omega, by simp [readyLoop]⟩
  | succ k ih =>
    cases q with
    | nil => simp at h
    | cons x q =>
      simp only [List.length_cons] at h
      simp only [readyLoop]
      split
      · exact ⟨0, by omega, by simp⟩
      · obtain ⟨m, hm, he⟩ := ih (q ++ [x]) (by simp; omega)
        refine ⟨m + 1, by omega, ?_⟩
        rw [he]
        simp only [List.drop_succ_cons, List.take_succ_cons]
        rw [List.take_append_of_le_length (by omega), List.drop_append_of_le_length (by omega)]
        simp

theorem rotateToZero_append (a b : List Nat) (k : Nat) (ha : 0 ∉ a) (hk : a.length ≤ k) :
    rotateToZero k (a ++ 0 :: b) = some (0 :: b ++ a) := by
  induction a generalizing b k with
  | nil => cases k <;> simp [rotateToZero]
  | cons x a ih =>
    simp only [List.mem_cons, not_or] at ha
    obtain ⟨k, rfl⟩ : ∃ k', k = k' + 1 := ⟨k - 1, by simp at hk; omega⟩
    have hx : x ≠ 0 := fun h => ha.1 h.symm
    simp only [List.cons_append]
    rw [rotateToZero.eq_def]
    split
    · rename_i h; simp at h
    · rename_i h; simp at h; exact absurd h.1 hx
    · omega
    · rename_i h1 h2 heq1 heq2
      cases heq1
      cases heq2
      have := ih (b ++ [x]) k ha.2 (by simp at hk; omega)
      simpa using this

theorem rotateToZero_range (n m : Nat) (hn : 0 < n) (hm : m ≤ n) :
    rotateToZero n ((List.range n).drop m ++ (List.range n).take m) = some (List.range n) := by
  obtain ⟨n', rfl⟩ : ∃ n', n = n' + 1 := ⟨n - 1, by omega⟩
  cases m with
  | zero =>
    have := rotateToZero_append [] (List.map Nat.succ (List.range n')) (n' + 1) (by simp) (by simp)
    simpa [List.range_succ_eq_map] using this
  | succ m =>
    have h1 : (List.range (n' + 1)).take (m + 1) =
        0 :: ((List.range n').map Nat.succ).take m := by
      simp [List.range_succ_eq_map]
    have h2 : (List.range (n' + 1)).drop (m + 1) = ((List.range n').map Nat.succ).drop m := by
      simp [List.range_succ_eq_map]
    rw [h1, h2, rotateToZero_append _ _ _ (by
      intro h
      have := List.mem_of_mem_drop h
      simp at this) (by simp; omega)]
    simp [List.range_succ_eq_map]

/-- `InputReady` always ends with the priority queue back in its initial order, and selects the
lowest valid interface unless the injection FIFO is full. -/
theorem inputReady_range (n : Nat) (hn : 0 < n) (inFull injFull : Bool) (valid : Nat → Bool) :
    inputReady n inFull injFull valid (List.range n) =
      some (List.range n, fun i => !inFull &&
        (if injFull then none else (List.range n).find? valid) == some i) := by
  have h1 := readyLoop_snd injFull valid n (List.range n) (by simp)
  obtain ⟨m, hm, h2⟩ := readyLoop_fst injFull valid n (List.range n) (by simp)
  simp only [inputReady]
  rw [h2, rotateToZero_range n m hn hm, h1]
  have : (List.range n).take n = List.range n := by
    apply List.take_of_length_le; simp
  rw [this]

/-! ## acceptance -/

theorem find?_range_le {p : Nat → Bool} {n i : Nat} (h : (List.range n).find? p = some i) :
    i < n ∧ p i = true ∧ ∀ j, j < i → p j = false := by
  rw [List.find?_range_eq_some] at h
  refine ⟨by simpa using h.2.1, h.1, fun j hj => ?_⟩
  have := h.2.2 j hj
  simpa using this

theorem firstAccepted_some (ready : Nat → Bool) (beats : Nat → Option AxisTxn) (i : Nat)
    (b : AxisTxn) (hr : ∀ j, ready j = true ↔ j = i) (hb : beats i = some b) (k a : Nat)
    (ha : a ≤ i) (hk : i < a + k) : firstAccepted ready beats k a = some (i, b) := by
  induction k generalizing a with
  | zero => omega
  | succ k ih =>
    simp only [firstAccepted]
    by_cases h : a = i
    · subst h
      have : ready a = true := (hr a).mpr rfl
      rw [this, hb]
    · have : ready a = false := by
        cases hra : ready a with
        | false => rfl
        | true => exact absurd ((hr a).mp hra) h
      rw [this]
      exact ih (a + 1) (by omega) (by omega)

theorem firstAccepted_none (ready : Nat → Bool) (beats : Nat → Option AxisTxn)
    (hr : ∀ j, ready j = false) (k a : Nat) : firstAccepted ready beats k a = none := by
  induction k generalizing a with
  | zero => rfl
  | succ k ih => simp only [firstAccepted, hr a, ih]

theorem filterMap_range_single {α : Type} (n i : Nat) (g : Nat → Option α) (x : α)
    (hi : i < n) (hx : g i = some x) (hne : ∀ j, j ≠ i → g j = none) :
    (List.range n).filterMap g = [x] := by
  have : List.range n = List.range i ++ i :: (List.range (n - i - 1)).map (· + (i + 1)) := by
    apply List.ext_getElem
    · simp; omega
    · intro k h1 h2
      simp only [List.getElem_range, List.getElem_append, List.length_range, List.getElem_cons,
        List.getElem_map]
      split
      · rfl
      · split <;> omega
  rw [this, List.filterMap_append, List.filterMap_cons, hx]
  have h1 : (List.range i).filterMap g = [] := by
    rw [List.filterMap_eq_nil_iff]
    intro a ha
    exact hne a (by simp at ha; omega)
  have h2 : ((List.range (n - i - 1)).map (· + (i + 1))).filterMap g = [] := by
    rw [List.filterMap_eq_nil_iff]
    intro a ha
    simp only [List.mem_map] at ha
    obtain ⟨k, _, rfl⟩ := ha
    exact hne _ (by omega)
  rw [h1, h2]
  rfl

/-- What a node-clock edge does, in terms of the handshakes an observer sees. -/
theorem nodeStep_eq (c : SlaveCfg) (hn : 0 < c.n) (s : SlaveState)
    (hp : s.prio = List.range c.n) (beats : Nat → Option AxisTxn) (seen : Bool) :
    nodeStep c s beats seen =
      (if (s.inFifo ++ handshakes c s (.node beats seen)).length ≤ inFifoDepth then
        .ok { s with inFifo := s.inFifo ++ handshakes c s (.node beats seen),
                     inFull := decide (inFifoDepth ≤
                       (s.inFifo ++ handshakes c s (.node beats seen)).length) }
      else .error .fifoAssert) ∧
    (handshakes c s (.node beats seen)).length ≤ 1 ∧
    (s.inFull = true → handshakes c s (.node beats seen) = []) := by
  simp only [nodeStep, handshakes, hp, inputReady_range c.n hn]
  generalize hsel : (if seen then none else
    (List.range c.n).find? (fun i => (beats i).isSome)) = sel
  cases hf : s.inFull with
  | true =>
    have e1 : firstAccepted (fun i => !true && sel == some i) beats c.n 0 = none :=
      firstAccepted_none _ _ (by simp) _ _
    have e2 : (List.range c.n).filterMap (fun i =>
        if (!true && sel == some i) = true then (beats i).map (registerTxn c i) else none) = [] := by
      simp
    rw [e1, e2]
    simp [← hp]
  | false =>
    cases sel with
    | none =>
      have e1 : firstAccepted (fun i => !false && (none : Option Nat) == some i) beats c.n 0 =
          none := firstAccepted_none _ _ (by simp) _ _
      have e2 : (List.range c.n).filterMap (fun i =>
          if (!false && (none : Option Nat) == some i) = true then
            (beats i).map (registerTxn c i) else none) = [] := by
        simp
      rw [e1, e2]
      simp [← hp]
    | some i =>
      have hseen : seen = false := by
        cases seen
        · rfl
        · simp at hsel
      simp only [hseen, Bool.false_eq_true, if_false] at hsel
      obtain ⟨hi, hv, _⟩ := find?_range_le hsel
      obtain ⟨b, hb⟩ := Option.isSome_iff_exists.mp hv
      have e1 : firstAccepted (fun j => !false && some i == some j) beats c.n 0 = some (i, b) :=
        firstAccepted_some _ _ i b (by intro j; simp; omega) hb _ _ (by omega) (by omega)
      have e2 : (List.range c.n).filterMap (fun j =>
          if (!false && some i == some j) = true then
            (beats j).map (registerTxn c j) else none) = [registerTxn c i b] := by
        apply filterMap_range_single _ i _ _ hi
        · simp [hb]
        · intro j hj
          have : ¬ i = j := by omega
          simp [this]
      rw [e1, e2]
      simp [← hp]

/-! ## the stream invariant -/

/-- The flits of one accepted beat. -/
def beatFlits (c : SlaveCfg) (t : AxisTxn) : List ScFlit := packetFlits c.vc (c.flits t.iface) t

/-- Everything accepted but not yet handed to the NoC, as flits. -/
def pending (c : SlaveCfg) (s : SlaveState) : List ScFlit :=
  s.toInj.toList ++ s.injFifo ++ (s.inFifo.flatMap (beatFlits c)).drop s.cycle

def SlaveEvent.isReset : SlaveEvent → Bool
  | .rstNode | .rstAdapter | .rstNoc => true
  | _ => false

structure SlaveInv (c : SlaveCfg) (s : SlaveState) : Prop where
  prio : s.prio = List.range c.n
  inLen : s.inFifo.length ≤ inFifoDepth
  inFull : s.inFull = false → s.inFifo.length < inFifoDepth
  cycNil : s.inFifo = [] → s.cycle = 0
  cycCons : ∀ t r, s.inFifo = t :: r → s.cycle < c.flits t.iface
  injLen : s.injFifo.length ≤ c.depth

theorem SlaveInv.init (c : SlaveCfg) : SlaveInv c (SlaveState.init c) where
  prio := rfl
  inLen := by simp [SlaveState.init]
  inFull := by simp [SlaveState.init, inFifoDepth]
  cycNil := by simp [SlaveState.init]
  cycCons := by simp [SlaveState.init]
  injLen := by simp [SlaveState.init]

theorem beatFlits_length (c : SlaveCfg) (t : AxisTxn) :
    (beatFlits c t).length = c.flits t.iface := by simp [beatFlits, packetFlits]

theorem flits_pos (c : SlaveCfg) (i : Nat) : 0 < c.flits i := numFlits_pos _

theorem nodeStep_inv {c : SlaveCfg} (hn : 0 < c.n) {s : SlaveState} (hi : SlaveInv c s)
    (beats : Nat → Option AxisTxn) (seen : Bool) :
    ∃ s', nodeStep c s beats seen = .ok s' ∧ SlaveInv c s' ∧
      pending c s' = pending c s ++ (handshakes c s (.node beats seen)).flatMap (beatFlits c) ∧
      s'.buf = s.buf := by
  obtain ⟨h1, h2, h3⟩ := nodeStep_eq c hn s hi.prio beats seen
  generalize handshakes c s (.node beats seen) = hs at h1 h2 h3
  have hlen : (s.inFifo ++ hs).length ≤ inFifoDepth := by
    simp only [List.length_append]
    cases hf : s.inFull with
    | true => rw [h3 hf]; simpa using hi.inLen
    | false => have := hi.inFull hf; omega
  rw [if_pos hlen] at h1
  refine ⟨_, h1, ⟨hi.prio, hlen, ?_, ?_, ?_, hi.injLen⟩, ?_, rfl⟩
  · simp only [decide_eq_false_iff_not]; omega
  · intro h
    simp only [List.append_eq_nil_iff] at h
    exact hi.cycNil h.1
  · intro t r h
    simp only at h
    cases hf : s.inFifo with
    | nil =>
      have := hi.cycNil hf
      simp only
      rw [this]; exact flits_pos c _
    | cons t' r' =>
      rw [hf] at h
      simp only [List.cons_append, List.cons.injEq] at h
      rw [← h.1]
      exact hi.cycCons t' r' hf
  · simp only [pending, List.flatMap_append]
    rw [List.drop_append_of_le_length]
    · simp [List.append_assoc]
    · cases hf : s.inFifo with
      | nil => rw [hi.cycNil hf]; simp
      | cons t' r' =>
        have := hi.cycCons t' r' hf
        simp only [List.flatMap_cons, List.length_append, beatFlits_length]
        omega

theorem drop_packet_succ (c : SlaveCfg) (t : AxisTxn) (k : Nat) (hk : k < c.flits t.iface)
    (rest : List ScFlit) :
    (beatFlits c t ++ rest).drop k =
      flitOf c.vc (c.flits t.iface) t k :: (beatFlits c t ++ rest).drop (k + 1) := by
  have hlen : k < (beatFlits c t ++ rest).length := by
    simp only [List.length_append, beatFlits_length]; omega
  rw [List.drop_eq_getElem_cons hlen]
  congr 1
  have hk' : k < (beatFlits c t).length := by rw [beatFlits_length]; exact hk
  rw [List.getElem_append_left hk']
  simp [beatFlits, packetFlits]

theorem adapterStep_inv {c : SlaveCfg} {s : SlaveState} (hi : SlaveInv c s) :
    SlaveInv c (adapterStep c s) ∧ pending c (adapterStep c s) = pending c s ∧
      (adapterStep c s).buf = s.buf := by
  unfold adapterStep
  cases hf : s.inFifo with
  | nil =>
    refine ⟨⟨hi.prio, by simp, ?_, fun _ => hi.cycNil hf, by simp, hi.injLen⟩, ?_, rfl⟩
    · simp [inFifoDepth]
    · simp [pending, hf]
  | cons t r =>
    have hcyc := hi.cycCons t r hf
    have hil := hi.inLen
    have hifl := hi.inFull
    simp only [hf, List.length_cons] at hil hifl
    simp only
    by_cases hroom : s.injFifo.length < c.depth
    · rw [if_pos hroom]
      by_cases hlast : s.cycle = c.flits t.iface - 1
      · have : (s.cycle == c.flits t.iface - 1) = true := by simp [hlast]
        rw [if_pos this]
        refine ⟨⟨hi.prio, by simp only; omega, ?_, ?_, ?_, ?_⟩, ?_, rfl⟩
        · intro h; have := hifl h; simp only; omega
        · intro _; rfl
        · intro t' r' _; exact flits_pos c _
        · simp; omega
        · simp only [pending, hf, List.flatMap_cons]
          rw [drop_packet_succ c t s.cycle hcyc]
          have h2 : (beatFlits c t ++ List.flatMap (beatFlits c) r).drop (s.cycle + 1) =
              List.flatMap (beatFlits c) r := by
            have hl : s.cycle + 1 = (beatFlits c t).length := by rw [beatFlits_length]; omega
            rw [hl, List.drop_append_length]
          rw [h2]
          simp [List.append_assoc]
      · have : ¬ (s.cycle == c.flits t.iface - 1) = true := by simp [hlast]
        rw [if_neg this]
        refine ⟨⟨hi.prio, by simp only [hf]; simpa using hil, ?_, ?_, ?_, ?_⟩, ?_, rfl⟩
        · intro h; simp only [hf]; simpa using hifl h
        · intro h; simp [hf] at h
        · intro t' r' h
          simp only [hf, List.cons.injEq] at h
          obtain ⟨rfl, rfl⟩ := h
          simp only; omega
        · simp; omega
        · simp only [pending, hf, List.flatMap_cons]
          rw [drop_packet_succ c t s.cycle hcyc]
          simp [List.append_assoc]
    · rw [if_neg hroom]
      refine ⟨⟨hi.prio, by simp only [hf]; simpa using hil, ?_, ?_, ?_, hi.injLen⟩, ?_, rfl⟩
      · intro h; simp only [hf]; simpa using hifl h
      · intro h; simp [hf] at h
      · intro t' r' h; exact hi.cycCons t' r' (hf.trans h)
      · simp [pending, hf]

theorem injectPhase_cases {c : SlaveCfg} {s s' : SlaveState} {out : List BsFlit}
    (h : injectPhase c s = .ok (s', out)) (hi : SlaveInv c s) :
    SlaveInv c s' ∧
    ((out = [] ∧ pending c s' = pending c s ∧ s'.buf = s.buf) ∨
     (∃ f, out = [injectFlit c.radId c.portalId f] ∧ pending c s = f :: pending c s' ∧
        s.buf.isFullFor c.buf f.vc.toNat = false ∧
        ∃ b, (if f.head then s.buf.takeBuffer c.buf f.vc.toNat 0 else .ok s.buf) = .ok b ∧
          b.sendingFlit c.buf f.vc.toNat f.tail = .ok s'.buf)) := by
  unfold injectPhase at h
  cases hto : s.toInj with
  | none =>
    cases hq : s.injFifo with
    | nil =>
      simp only [hto, hq, Except.ok.injEq, Prod.mk.injEq] at h
      obtain ⟨rfl, rfl⟩ := h
      refine ⟨⟨hi.prio, hi.inLen, hi.inFull, hi.cycNil, hi.cycCons, by simp⟩,
        Or.inl ⟨rfl, ?_, rfl⟩⟩
      simp [pending, hto, hq]
    | cons f q =>
      have hlen : q.length ≤ c.depth := by
        have := hi.injLen; rw [hq] at this; simp at this; omega
      simp only [hto, hq] at h
      split at h
      · rename_i hc
        simp only [Bool.and_eq_true, Bool.not_eq_true'] at hc
        split at h
        · simp at h
        · rename_i b hb
          split at h
          · simp at h
          · rename_i b' hb'
            simp only [Except.ok.injEq, Prod.mk.injEq] at h
            obtain ⟨rfl, rfl⟩ := h
            refine ⟨⟨hi.prio, hi.inLen, hi.inFull, hi.cycNil, hi.cycCons, hlen⟩, Or.inr
              ⟨f, rfl, ?_, hc.1, b, hb, hb'⟩⟩
            simp [pending, hto, hq]
      · simp only [Except.ok.injEq, Prod.mk.injEq] at h
        obtain ⟨rfl, rfl⟩ := h
        refine ⟨⟨hi.prio, hi.inLen, hi.inFull, hi.cycNil, hi.cycCons, hlen⟩,
          Or.inl ⟨rfl, ?_, rfl⟩⟩
        simp [pending, hto, hq]
  | some f =>
    simp only [hto] at h
    split at h
    · rename_i hc
      simp only [Bool.and_eq_true, Bool.not_eq_true'] at hc
      split at h
      · simp at h
      · rename_i b hb
        split at h
        · simp at h
        · rename_i b' hb'
          simp only [Except.ok.injEq, Prod.mk.injEq] at h
          obtain ⟨rfl, rfl⟩ := h
          refine ⟨⟨hi.prio, hi.inLen, hi.inFull, hi.cycNil, hi.cycCons, hi.injLen⟩, Or.inr
            ⟨f, rfl, ?_, hc.1, b, hb, hb'⟩⟩
          simp [pending, hto]
    · simp only [Except.ok.injEq, Prod.mk.injEq] at h
      obtain ⟨rfl, rfl⟩ := h
      refine ⟨⟨hi.prio, hi.inLen, hi.inFull, hi.cycNil, hi.cycCons, hi.injLen⟩,
        Or.inl ⟨rfl, ?_, rfl⟩⟩
      simp [pending, hto]

theorem nocStep_inv {c : SlaveCfg} {s s' : SlaveState} {out : List BsFlit} {cr : List Nat}
    (h : nocStep c s cr = .ok (s', out)) (hi : SlaveInv c s) :
    SlaveInv c s' ∧
      ∃ fs, out = fs.map (injectFlit c.radId c.portalId) ∧ pending c s = fs ++ pending c s' := by
  unfold nocStep at h
  split at h
  · simp at h
  · rename_i s1 o1 h1
    split at h
    · simp at h
    · rename_i b hb
      simp only [Except.ok.injEq, Prod.mk.injEq] at h
      obtain ⟨rfl, rfl⟩ := h
      obtain ⟨hi1, hcase⟩ := injectPhase_cases h1 hi
      refine ⟨⟨hi1.prio, hi1.inLen, hi1.inFull, hi1.cycNil, hi1.cycCons, hi1.injLen⟩, ?_⟩
      rcases hcase with ⟨rfl, hp, _⟩ | ⟨f, rfl, hp, _⟩
      · exact ⟨[], rfl, hp.symm⟩
      · exact ⟨[f], rfl, hp⟩

/-- One step of a run without resets: the invariant is kept and the flits handed over are exactly
the flits that left `pending`. -/
theorem slaveStep_inv {c : SlaveCfg} (hn : 0 < c.n) {s s' : SlaveState} {out : List BsFlit}
    {e : SlaveEvent} (he : e.isReset = false) (h : slaveStep c s e = .ok (s', out))
    (hi : SlaveInv c s) :
    SlaveInv c s' ∧ ∃ fs, out = fs.map (injectFlit c.radId c.portalId) ∧
      pending c s ++ (handshakes c s e).flatMap (beatFlits c) = fs ++ pending c s' := by
  cases e with
  | node beats seen =>
    obtain ⟨s1, h1, hi1, hp, _⟩ := nodeStep_inv hn hi beats seen
    simp only [slaveStep, h1, Except.ok.injEq, Prod.mk.injEq] at h
    obtain ⟨rfl, rfl⟩ := h
    exact ⟨hi1, [], rfl, by simp [hp]⟩
  | adapter =>
    simp only [slaveStep, Except.ok.injEq, Prod.mk.injEq] at h
    obtain ⟨rfl, rfl⟩ := h
    obtain ⟨hi1, hp, _⟩ := adapterStep_inv hi
    exact ⟨hi1, [], rfl, by simp [hp, handshakes]⟩
  | noc cr =>
    obtain ⟨hi1, fs, h1, h2⟩ := nocStep_inv h hi
    exact ⟨hi1, fs, h1, by simp [h2, handshakes]⟩
  | rstNode => simp [SlaveEvent.isReset] at he
  | rstAdapter => simp [SlaveEvent.isReset] at he
  | rstNoc => simp [SlaveEvent.isReset] at he

theorem slaveStep_no_fifo_error {c : SlaveCfg} (hn : 0 < c.n) {s : SlaveState} {e : SlaveEvent}
    {err : SlaveErr} (hi : SlaveInv c s) (h : slaveStep c s e = .error err) :
    ∃ b, err = .buf b := by
  cases e with
  | node beats seen =>
    obtain ⟨s1, h1, _⟩ := nodeStep_inv hn hi beats seen
    simp [slaveStep, h1] at h
  | noc cr =>
    simp only [slaveStep, nocStep] at h
    split at h
    · rename_i e1 h1
      cases h
      unfold injectPhase at h1
      simp only at h1
      repeat' split at h1
      all_goals first | (simp at h1; done) | (cases h1; exact ⟨_, rfl⟩)
    · split at h
      · cases h; exact ⟨_, rfl⟩
      · simp at h
  | _ => simp [slaveStep] at h

end RadSim
