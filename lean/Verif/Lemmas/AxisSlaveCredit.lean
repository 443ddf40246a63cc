import Verif.Lemmas.AxisSlave

namespace RadSim

/-! ## framing of the pending stream and the buffer state -/

/-- The flit stream is a sequence of packets; `m` is the channel of the packet in progress. -/
def Framed (vcs : Nat) : Option Nat → List ScFlit → Prop
  | none, [] => True
  | some _, [] => False
  | none, f :: r => f.head = true ∧ f.vc.toNat < vcs ∧
      Framed vcs (if f.tail then none else some f.vc.toNat) r
  | some v, f :: r => f.head = false ∧ f.vc.toNat = v ∧ v < vcs ∧
      Framed vcs (if f.tail then none else some v) r

theorem Framed.append {vcs : Nat} {m : Option Nat} {a b : List ScFlit} (ha : Framed vcs m a)
    (hb : Framed vcs none b) : Framed vcs m (a ++ b) := by
  induction a generalizing m with
  | nil =>
    cases m with
    | none => exact hb
    | some v => exact ha.elim
  | cons f r ih =>
    cases m with
    | none => exact ⟨ha.1, ha.2.1, ih ha.2.2⟩
    | some v => exact ⟨ha.1, ha.2.1, ha.2.2.1, ih ha.2.2.2⟩

/-- Virtual channel numbers fit the three-bit field of a flit and exist in the router. -/
def SlaveCfg.VcOk (c : SlaveCfg) : Prop :=
  ∀ t, vcidFromType c.vc t < 8 ∧ vcidFromType c.vc t < c.buf.vcs

theorem framed_tail {c : SlaveCfg} (hv : c.VcOk) (t : AxisTxn) (n : Nat) :
    ∀ k i, i + k = n → 0 < i → 0 < k →
      Framed c.buf.vcs (some (vcidFromType c.vc t.type))
        ((List.range' i k).map (flitOf c.vc n t)) := by
  intro k
  induction k with
  | zero => intro i _ _ h; omega
  | succ k ih =>
    intro i hn hi _
    have hvc := hv t.type
    have e : (flitOf c.vc n t i).vc.toNat = vcidFromType c.vc t.type := by
      simp [flitOf]; omega
    refine ⟨by simp [flitOf]; omega, e, hvc.2, ?_⟩
    by_cases hk : k = 0
    · subst hk
      have : (flitOf c.vc n t i).tail = true := by simp [flitOf]; omega
      rw [this]
      simp [Framed]
    · have : (flitOf c.vc n t i).tail = false := by simp [flitOf]; omega
      rw [this]
      exact ih (i + 1) (by omega) (by omega) (by omega)

theorem framed_packet {c : SlaveCfg} (hv : c.VcOk) (t : AxisTxn) :
    Framed c.buf.vcs none (beatFlits c t) := by
  have hpos := flits_pos c t.iface
  have hvc := hv t.type
  have e : (flitOf c.vc (c.flits t.iface) t 0).vc.toNat = vcidFromType c.vc t.type := by
    simp [flitOf]; omega
  unfold beatFlits packetFlits
  rw [List.range_eq_range']
  obtain ⟨k, hk⟩ : ∃ k, c.flits t.iface = k + 1 := ⟨c.flits t.iface - 1, by omega⟩
  rw [hk] at e ⊢
  rw [List.range'_succ, List.map_cons]
  refine ⟨rfl, by rw [e]; exact hvc.2, ?_⟩
  by_cases h0 : k = 0
  · subst h0
    simp [flitOf, Framed]
  · have : (flitOf c.vc (k + 1) t 0).tail = false := by simp [flitOf]; omega
    rw [this, e]
    exact framed_tail hv t (k + 1) k 1 (by omega) (by omega) (by omega)

theorem framed_packets {c : SlaveCfg} (hv : c.VcOk) (ts : List AxisTxn) :
    Framed c.buf.vcs none (ts.flatMap (beatFlits c)) := by
  induction ts with
  | nil => exact trivial
  | cons t ts ih => exact (framed_packet hv t).append ih

/-- The buffer state agrees with the channel of the packet in progress. -/
structure BufMode (c : BufCfg) (m : Option Nat) (b : BufState) : Prop where
  idle : c.waitTail = false → ∀ v, m ≠ some v → b.inUse v < 0
  busy : ∀ v, m = some v → 0 ≤ b.inUse v ∧ b.tailSent v = false

theorem BufMode.credit {c : BufCfg} {m : Option Nat} (l : List Nat) {b b' : BufState}
    (h : BufMode c m b) (hb : b.processCredit c l = .ok b') : BufMode c m b' := by
  induction l generalizing b with
  | nil => simp [BufState.processCredit] at hb; subst hb; exact h
  | cons v vs ih =>
    simp only [BufState.processCredit] at hb
    split at hb
    · rename_i b1 h1
      refine ih ?_ hb
      unfold BufState.creditVc at h1
      repeat' split at h1
      all_goals first | (simp at h1; done) | skip
      · cases h1
        rename_i hc _
        simp only [Bool.and_eq_true] at hc
        constructor
        · intro hw; simp [hw] at hc
        · intro w hw
          have := h.busy w hw
          have hne : w ≠ v := by
            intro e; subst e; rw [this.2] at hc; simp at hc
          simp only [upd_ne _ _ hne]
          exact this
      · cases h1
        exact ⟨h.idle, h.busy⟩
    · simp at hb

/-- Sending one framed flit is legal for the buffer state and keeps the agreement. -/
theorem send_framed {c : BufCfg} (hc : c.Ok) {b : BufState} (hi : BufInv c b) {m : Option Nat}
    (hm : BufMode c m b) {f : ScFlit} {r : List ScFlit} (hf : Framed c.vcs m (f :: r))
    (hfull : b.isFullFor c f.vc.toNat = false)
    (hav : f.head = true → c.waitTail = true → b.isAvailableFor f.vc.toNat = true) :
    ∃ b1 b2, (if f.head then b.takeBuffer c f.vc.toNat 0 else .ok b) = .ok b1 ∧
      b1.sendingFlit c f.vc.toNat f.tail = .ok b2 ∧ BufInv c b2 ∧
      b2.vcOcc = upd b.vcOcc f.vc.toNat (b.vcOcc f.vc.toNat + 1) ∧
      ∃ m', Framed c.vcs m' r ∧ BufMode c m' b2 := by
  cases m with
  | none =>
    obtain ⟨hh, hv, hr⟩ := hf
    have hfree : b.inUse f.vc.toNat < 0 := by
      cases hw : c.waitTail with
      | true => have := hav hh hw; simpa [BufState.isAvailableFor] using this
      | false => exact hm.idle hw _ (by simp)
    have htake : b.takeBuffer c f.vc.toNat 0 =
        .ok { b with inUse := upd b.inUse f.vc.toNat 0,
                     tailSent := upd b.tailSent f.vc.toNat false } := by
      unfold BufState.takeBuffer
      rw [if_neg (by omega), if_neg (by omega)]
    obtain ⟨s1, h1, hi1⟩ := buf_step_ok hc hi (op := .take f.vc.toNat 0)
      ⟨hv, by simp [BufState.isAvailableFor, hfree], by omega⟩
    simp only [BufState.step, htake, Except.ok.injEq] at h1
    rw [hh]
    simp only [if_true]
    refine ⟨s1, ?_⟩
    obtain ⟨s2, h2, hi2⟩ := buf_step_ok hc hi1 (op := .send f.vc.toNat f.tail)
      ⟨hv, by rw [← h1]; exact hfull, by rw [← h1]; simp [BufState.isAvailableFor]⟩
    simp only [BufState.step] at h2
    refine ⟨s2, by rw [htake, h1], h2, hi2, ?_, _, hr, ?_⟩
    · unfold BufState.sendingFlit at h2
      repeat' split at h2
      all_goals first
        | (simp at h2; done)
        | (cases h2; rw [← h1])
    · unfold BufState.sendingFlit at h2
      rw [← h1] at h2
      cases ht : f.tail with
      | false =>
        rw [ht] at h2
        repeat' split at h2
        all_goals first | (simp at h2; done) | (simp at *; done) | skip
        cases h2
        simp only [Bool.false_eq_true, if_false]
        constructor
        · intro hw v hv'
          have : v ≠ f.vc.toNat := fun e => hv' (by rw [e])
          simp only [upd_ne _ _ this]
          exact hm.idle hw v (by simp)
        · intro v hv'
          cases hv'
          simp
      | true =>
        rw [ht] at h2
        repeat' split at h2
        all_goals first | (simp at h2; done) | (simp at *; done) | skip
        · rename_i hw
          cases h2
          simp only [if_true]
          exact ⟨fun h => by simp [hw] at h, by simp⟩
        · cases h2
          simp only [if_true]
          constructor
          · intro hw v _
            simp only [upd_apply]
            split
            · omega
            · exact hm.idle hw v (by simp)
          · simp
  | some v =>
    obtain ⟨hh, hvv, hv, hr⟩ := hf
    rw [hh]
    simp only [Bool.false_eq_true, if_false]
    refine ⟨b, ?_⟩
    have hbusy := hm.busy v rfl
    obtain ⟨s2, h2, hi2⟩ := buf_step_ok hc hi (op := .send f.vc.toNat f.tail)
      ⟨by omega, hfull, by rw [hvv]; simp [BufState.isAvailableFor]; omega⟩
    simp only [BufState.step] at h2
    refine ⟨s2, rfl, h2, hi2, ?_, _, hr, ?_⟩
    · unfold BufState.sendingFlit at h2
      repeat' split at h2
      all_goals first
        | (simp at h2; done)
        | (cases h2; rfl)
    · unfold BufState.sendingFlit at h2
      rw [hvv] at h2
      cases ht : f.tail with
      | false =>
        rw [ht] at h2
        repeat' split at h2
        all_goals first | (simp at h2; done) | (simp at *; done) | skip
        cases h2
        simp only [Bool.false_eq_true, if_false]
        exact ⟨hm.idle, hm.busy⟩
      | true =>
        rw [ht] at h2
        repeat' split at h2
        all_goals first | (simp at h2; done) | (simp at *; done) | skip
        · rename_i hw
          cases h2
          simp only [if_true]
          exact ⟨fun h => by simp [hw] at h, by simp⟩
        · cases h2
          simp only [if_true]
          constructor
          · intro hw w _
            simp only [upd_apply]
            split
            · omega
            · rename_i hne
              exact hm.idle hw w (by simp; omega)
          · simp

/-- With a framed pending stream the injection phase never stops the program. -/
theorem injectPhase_ok {c : SlaveCfg} (hc : c.buf.Ok) {s : SlaveState} (hi : BufInv c.buf s.buf)
    {m : Option Nat} (hm : BufMode c.buf m s.buf) (hf : Framed c.buf.vcs m (pending c s)) :
    ∃ s' out, injectPhase c s = .ok (s', out) ∧ BufInv c.buf s'.buf ∧
      (∀ v, s'.buf.vcOcc v = s.buf.vcOcc v + (out.countP (fun b => b.vc == v) : Nat)) ∧
      ∃ m', Framed c.buf.vcs m' (pending c s') ∧ BufMode c.buf m' s'.buf := by
  have key : ∀ (f : ScFlit) (q : List ScFlit),
      (s.toInj.toList ++ s.injFifo = f :: q) →
      (s.buf.isFullFor c.buf f.vc.toNat = false) →
      (f.head = true → c.buf.waitTail = true → s.buf.isAvailableFor f.vc.toNat = true) →
      ∃ b1 b2, (if f.head then s.buf.takeBuffer c.buf f.vc.toNat 0 else .ok s.buf) = .ok b1 ∧
        b1.sendingFlit c.buf f.vc.toNat f.tail = .ok b2 ∧ BufInv c.buf b2 ∧
        (∀ v, b2.vcOcc v = s.buf.vcOcc v +
          (([injectFlit c.radId c.portalId f].countP (fun b => b.vc == v) : Nat) : Int)) ∧
        ∃ m', Framed c.buf.vcs m'
          (q ++ (s.inFifo.flatMap (beatFlits c)).drop s.cycle) ∧ BufMode c.buf m' b2 := by
    intro f q hq hfull hav
    rw [pending, hq] at hf
    obtain ⟨b1, b2, h1, h2, h3, h4, h5⟩ := send_framed hc hi hm hf hfull hav
    refine ⟨b1, b2, h1, h2, h3, fun v => ?_, h5⟩
    rw [h4, upd_apply]
    by_cases hv : v = f.vc.toNat
    · subst hv; simp [injectFlit]
    · have : ¬ f.vc.toNat = v := fun e => hv e.symm
      simp [injectFlit, hv, this]
  unfold injectPhase
  cases hto : s.toInj with
  | none =>
    cases hq : s.injFifo with
    | nil =>
      refine ⟨_, _, rfl, hi, by simp, m, ?_, hm⟩
      rw [pending, hto, hq] at hf
      simpa [pending] using hf
    | cons f q =>
      simp only
      split
      · rename_i hcond
        simp only [Bool.and_eq_true, Bool.not_eq_true', Bool.or_eq_true] at hcond
        obtain ⟨b1, b2, h1, h2, h3, h4, m', h5, h6⟩ := key f q (by simp [hto, hq]) hcond.1 (by
          intro a b; rcases hcond.2 with h | h
          · rcases h with h | h
            · simp [a] at h
            · simp [b] at h
          · exact h)
        rw [h1]
        simp only [h2]
        exact ⟨_, _, rfl, h3, h4, m', by simpa [pending] using h5, h6⟩
      · refine ⟨_, _, rfl, hi, by simp, m, ?_, hm⟩
        rw [pending, hto, hq] at hf
        simpa [pending] using hf
  | some f =>
    simp only
    split
    · rename_i hcond
      simp only [Bool.and_eq_true, Bool.not_eq_true', Bool.or_eq_true] at hcond
      obtain ⟨b1, b2, h1, h2, h3, h4, m', h5, h6⟩ := key f s.injFifo (by simp [hto]) hcond.1 (by
        intro a b; rcases hcond.2 with h | h
        · rcases h with h | h
          · simp [a] at h
          · simp [b] at h
        · exact h)
      rw [h1]
      simp only [h2]
      exact ⟨_, _, rfl, h3, h4, m', by simpa [pending] using h5, h6⟩
    · refine ⟨_, _, rfl, hi, by simp, m, ?_, hm⟩
      rw [pending, hto] at hf
      simpa [pending] using hf

theorem processCredit_vcOcc {c : BufCfg} (l : List Nat) {b b' : BufState}
    (h : b.processCredit c l = .ok b') (v : Nat) :
    b'.vcOcc v = b.vcOcc v - (l.count v : Nat) := by
  induction l generalizing b with
  | nil => simp [BufState.processCredit] at h; subst h; simp
  | cons w ws ih =>
    simp only [BufState.processCredit] at h
    split at h
    · rename_i b1 h1
      have e : b1.vcOcc = upd b.vcOcc w (b.vcOcc w - 1) := by
        unfold BufState.creditVc at h1
        repeat' split at h1
        all_goals first | (simp at h1; done) | (cases h1; rfl)
      rw [ih h, e, upd_apply, List.count_cons]
      by_cases hv : v = w
      · subst hv; simp; omega
      · have : ¬ w = v := fun e => hv e.symm
        simp [hv, this]
    · simp at h

end RadSim
