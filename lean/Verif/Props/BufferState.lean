import Verif.Lemmas.BufferState

/-!
# C41: router buffer credit accounting
-/

namespace RadSim

/-- Specification: flits handed over on channel `v` in a history of calls. -/
def flitsSent (v : Nat) (ops : List BufOp) : Nat :=
  ops.countP (fun | .send w _ => w == v | _ => false)

/-- Specification: credits received for channel `v` in a history of calls. -/
def creditsReceived (v : Nat) (ops : List BufOp) : Nat :=
  (ops.map (fun | .credit l => l.count v | _ => 0)).sum

/-- Specification of a history in which the sender asks before it acts (`BufLegal`). -/
def LegalRun (c : BufCfg) (s : BufState) : List BufOp → Prop
  | [] => True
  | op :: ops => BufLegal c s op ∧ ∀ s', s.step c op = .ok s' → LegalRun c s' ops

theorem creditVc_occ {c : BufCfg} {s s' : BufState} {v : Nat} (h : s.creditVc c v = .ok s') :
    s'.occ = s.occ - 1 ∧ s'.vcOcc = upd s.vcOcc v (s.vcOcc v - 1) ∧ v < c.vcs := by
  unfold BufState.creditVc at h
  split at h
  · simp at h
  · rename_i hv
    repeat' split at h
    all_goals first | (simp at h; done) | (cases h; exact ⟨rfl, rfl, by omega⟩)

theorem processCredit_occ {c : BufCfg} (vcs : List Nat) {s s' : BufState}
    (h : s.processCredit c vcs = .ok s') :
    (∀ v, s'.vcOcc v = s.vcOcc v - (vcs.count v : Nat)) ∧
      s'.occ - sumTo c.vcs s'.vcOcc = s.occ - sumTo c.vcs s.vcOcc := by
  induction vcs generalizing s with
  | nil => simp [BufState.processCredit] at h; subst h; simp
  | cons w ws ih =>
    simp only [BufState.processCredit] at h
    split at h
    · rename_i s1 h1
      obtain ⟨e1, e2, e3⟩ := creditVc_occ h1
      obtain ⟨i1, i2⟩ := ih h
      constructor
      · intro v
        rw [i1 v, e2, upd_apply, List.count_cons]
        by_cases hv : v = w
        · subst hv; simp; omega
        · have : ¬ (w == v) = true := by simp; omega
          simp [hv, this]
      · rw [i2, e1, e2, sumTo_upd _ _ _ e3]
        omega
    · simp at h

theorem buf_step_occ {c : BufCfg} {s s' : BufState} {op : BufOp} (h : s.step c op = .ok s') :
    (∀ v, s'.vcOcc v = s.vcOcc v + (flitsSent v [op] : Nat) - (creditsReceived v [op] : Nat)) ∧
      s'.occ - sumTo c.vcs s'.vcOcc = s.occ - sumTo c.vcs s.vcOcc := by
  cases op with
  | take vc tag =>
    simp only [BufState.step, BufState.takeBuffer] at h
    repeat' split at h
    all_goals first | (simp at h; done) | (cases h; simp [flitsSent, creditsReceived])
  | send vc tail =>
    have key : s'.vcOcc = upd s.vcOcc vc (s.vcOcc vc + 1) ∧ s'.occ = s.occ + 1 ∧ vc < c.vcs := by
      simp only [BufState.step, BufState.sendingFlit] at h
      split at h
      · simp at h
      · rename_i hv
        repeat' split at h
        all_goals first | (simp at h; done) | (cases h; exact ⟨rfl, rfl, by omega⟩)
    obtain ⟨e1, e2, e3⟩ := key
    constructor
    · intro v
      rw [e1, upd_apply]
      by_cases hv : v = vc
      · subst hv; simp [flitsSent, creditsReceived]
      · have : ¬ vc = v := fun h => hv h.symm
        simp [flitsSent, creditsReceived, hv, this]
    · rw [e1, e2, sumTo_upd _ _ _ e3]
      omega
  | credit vcs =>
    obtain ⟨h1, h2⟩ := processCredit_occ vcs h
    refine ⟨fun v => ?_, h2⟩
    rw [h1 v]
    simp [flitsSent, creditsReceived]

/-- **C41**, accounting: in every history that does not stop the program, the occupancy of each
virtual channel is flits sent minus credits received, and the total is the sum over the
channels. -/
theorem C41_occupancy_is_sent_minus_credited (c : BufCfg) (ops : List BufOp) (s : BufState)
    (h : BufState.init.run c ops = .ok s) :
    (∀ v, s.vcOcc v = (flitsSent v ops : Int) - creditsReceived v ops) ∧
      s.occ = sumTo c.vcs (fun v => (flitsSent v ops : Int) - creditsReceived v ops) := by
  have gen : ∀ (ops : List BufOp) (s0 s : BufState), s0.run c ops = .ok s →
      (∀ v, s.vcOcc v = s0.vcOcc v + (flitsSent v ops : Nat) - (creditsReceived v ops : Nat)) ∧
      s.occ - sumTo c.vcs s.vcOcc = s0.occ - sumTo c.vcs s0.vcOcc := by
    intro ops
    induction ops with
    | nil => intro s0 s h; simp [BufState.run] at h; subst h; simp [flitsSent, creditsReceived]
    | cons op ops ih =>
      intro s0 s h
      simp only [BufState.run] at h
      split at h
      · rename_i s1 h1
        obtain ⟨a1, a2⟩ := buf_step_occ h1
        obtain ⟨b1, b2⟩ := ih s1 s h
        constructor
        · intro v
          rw [b1 v, a1 v]
          have e1 : flitsSent v (op :: ops) = flitsSent v [op] + flitsSent v ops := by
            simp only [flitsSent, List.countP_cons, List.countP_nil]; omega
          have e2 : creditsReceived v (op :: ops) =
              creditsReceived v [op] + creditsReceived v ops := by
            simp [creditsReceived]
          rw [e1, e2]
          push_cast
          omega
        · rw [b2, a2]
      · simp at h
  obtain ⟨h1, h2⟩ := gen ops _ _ h
  have h3 : ∀ v, s.vcOcc v = (flitsSent v ops : Int) - creditsReceived v ops := by
    intro v; rw [h1 v]; simp [BufState.init]
  refine ⟨h3, ?_⟩
  have h4 : BufState.init.occ - sumTo c.vcs BufState.init.vcOcc = 0 := by
    have : ∀ n, sumTo n (fun _ => 0) = 0 := by
      intro n; induction n with
      | zero => rfl
      | succ n ih => simp [sumTo, ih]
    simp [BufState.init, this]
  rw [← sumTo_congr (fun i _ => h3 i)]
  omega

/-- **C41**, safety: a sender that takes only free channels, sends only on a channel it holds and
that is not full, and receives credits only for occupied slots never triggers an error, and every
channel keeps `0 ≤ occupied`, `occupied + free = capacity`. -/
theorem C41_legal_sender_never_errs (c : BufCfg) (hc : c.Ok) (ops : List BufOp)
    (hl : LegalRun c BufState.init ops) :
    ∃ s, BufState.init.run c ops = .ok s ∧
      ∀ v, v < c.vcs → 0 ≤ s.vcOcc v ∧ 0 ≤ s.availableFor c v ∧
        s.vcOcc v + s.availableFor c v = c.perVc ∧
        (s.isFullFor c v = true ↔ s.availableFor c v = 0) := by
  have gen : ∀ (ops : List BufOp) (s0 : BufState), BufInv c s0 → LegalRun c s0 ops →
      ∃ s, s0.run c ops = .ok s ∧ BufInv c s := by
    intro ops
    induction ops with
    | nil => intro s0 hi _; exact ⟨s0, rfl, hi⟩
    | cons op ops ih =>
      intro s0 hi hl
      obtain ⟨s1, h1, hi1⟩ := buf_step_ok hc hi hl.1
      simp only [BufState.run, h1]
      exact ih s1 hi1 (hl.2 s1 h1)
  obtain ⟨s, hs, hi⟩ := gen ops _ (BufInv.init c hc) hl
  refine ⟨s, hs, fun v hv => ?_⟩
  have := hi.bound v hv
  simp only [BufState.availableFor, BufState.isFullFor, decide_eq_true_eq]
  omega

/-- A configuration and a history that meet the hypotheses: two channels of two slots, a
three-flit packet whose first credit comes back in between. -/
def sampleBuf : BufCfg := ⟨2, -1, 2, true⟩

example : sampleBuf.Ok := ⟨by decide, by decide, by decide⟩

example : LegalRun sampleBuf BufState.init
    [.take 1 0, .send 1 false, .send 1 false, .credit [1], .send 1 true, .credit [1], .credit [1],
      .take 1 0] := by
  simp only [LegalRun, BufLegal, BufState.step, BufState.takeBuffer, BufState.sendingFlit,
    BufState.processCredit, BufState.creditVc, BufState.init, sampleBuf, BufCfg.size,
    BufCfg.perVc, BufState.isFullFor, BufState.isAvailableFor, upd]
  simp

theorem creditVc_bounds {c : BufCfg} {s s' : BufState} {v : Nat} (h : s.creditVc c v = .ok s')
    (hb : (∀ v, 0 ≤ s.vcOcc v ∧ s.vcOcc v ≤ c.perVc) ∧ 0 ≤ s.occ ∧ s.occ ≤ c.size) :
    (∀ v, 0 ≤ s'.vcOcc v ∧ s'.vcOcc v ≤ c.perVc) ∧ 0 ≤ s'.occ ∧ s'.occ ≤ c.size := by
  obtain ⟨h1, h2, h3⟩ := hb
  have key : ∀ w, 0 ≤ s.vcOcc v - 1 → 0 ≤ upd s.vcOcc v (s.vcOcc v - 1) w ∧
      upd s.vcOcc v (s.vcOcc v - 1) w ≤ c.perVc := by
    intro w hw
    have := h1 w
    have := h1 v
    unfold upd
    split <;> omega
  unfold BufState.creditVc at h
  split at h
  · cases h
  · split at h
    · cases h
    · split at h
      · cases h
      · split at h
        · cases h
        · split at h
          · split at h
            · cases h
            · cases h
              exact ⟨fun w => key w (by omega), by simp only; omega, by simp only; omega⟩
          · cases h
            exact ⟨fun w => key w (by omega), by simp only; omega, by simp only; omega⟩

/-- **C41**, detection: whatever the callers do, a history that is not stopped by an error keeps
every channel between zero and its capacity and the total between zero and the total size. A flit
too many or a credit too many is always caught. -/
theorem C41_misuse_is_caught (c : BufCfg) (hp : 0 ≤ c.perVc) (hs : 0 ≤ c.size) (ops : List BufOp)
    (s : BufState) (h : BufState.init.run c ops = .ok s) :
    (∀ v, 0 ≤ s.vcOcc v ∧ s.vcOcc v ≤ c.perVc) ∧ 0 ≤ s.occ ∧ s.occ ≤ c.size := by
  have gen : ∀ (ops : List BufOp) (s0 s : BufState), s0.run c ops = .ok s →
      ((∀ v, 0 ≤ s0.vcOcc v ∧ s0.vcOcc v ≤ c.perVc) ∧ 0 ≤ s0.occ ∧ s0.occ ≤ c.size) →
      ((∀ v, 0 ≤ s.vcOcc v ∧ s.vcOcc v ≤ c.perVc) ∧ 0 ≤ s.occ ∧ s.occ ≤ c.size) := by
    intro ops
    induction ops with
    | nil => intro s0 s h hb; simp only [BufState.run, Except.ok.injEq] at h; subst h; exact hb
    | cons op ops ih =>
      intro s0 s h hb
      simp only [BufState.run] at h
      split at h
      · rename_i s1 h1
        refine ih s1 s h ?_
        cases op with
        | take vc tag =>
          simp only [BufState.step, BufState.takeBuffer] at h1
          split at h1
          · cases h1
          · split at h1
            · cases h1
            · cases h1; exact hb
        | send vc tail =>
          simp only [BufState.step, BufState.sendingFlit] at h1
          obtain ⟨b1, b2, b3⟩ := hb
          split at h1
          · cases h1
          · split at h1
            · cases h1
            · split at h1
              · cases h1
              · have key : ∀ w, 0 ≤ upd s0.vcOcc vc (s0.vcOcc vc + 1) w ∧
                    upd s0.vcOcc vc (s0.vcOcc vc + 1) w ≤ c.perVc := by
                  intro w
                  have := b1 w
                  have := b1 vc
                  unfold upd
                  split <;> omega
                split at h1
                · split at h1
                  · cases h1; exact ⟨key, by simp only; omega, by simp only; omega⟩
                  · split at h1
                    · cases h1
                    · cases h1; exact ⟨key, by simp only; omega, by simp only; omega⟩
                · cases h1; exact ⟨key, by simp only; omega, by simp only; omega⟩
        | credit vcs =>
          simp only [BufState.step] at h1
          clear h ih
          induction vcs generalizing s0 with
          | nil => simp only [BufState.processCredit, Except.ok.injEq] at h1; subst h1; exact hb
          | cons v vs ihv =>
            simp only [BufState.processCredit] at h1
            split at h1
            · rename_i s2 h2
              exact ihv s2 (creditVc_bounds h2 hb) h1
            · cases h1
      · cases h
  exact gen ops _ s h ⟨fun v => ⟨Int.le_refl _, hp⟩, Int.le_refl _, hs⟩

/-- A third flit into a two-slot channel and a credit for an empty channel are both caught. -/
example : BufState.init.run ⟨2, -1, 2, false⟩
      [.take 0 0, .send 0 false, .send 0 false, .send 0 false] = .error .vcOverflow ∧
    BufState.init.run ⟨2, -1, 2, false⟩ [.take 0 0, .send 0 false, .credit [1]] =
      .error .vcUnderflow := ⟨rfl, rfl⟩

/-- The hypothesis `buf_size ≠ 0` is needed: with `buf_size = 0` the private policy falls back to
`vc_buf_size` per channel while the total size is zero, and the very first legal flit stops the
program. -/
theorem C41_zero_buf_size_violated :
    ∃ c : BufCfg, 0 < c.perVc ∧ 0 < c.vcs ∧
      LegalRun c BufState.init [.take 0 0] ∧
      (∃ s, BufState.init.run c [.take 0 0] = .ok s ∧ BufLegal c s (.send 0 true)) ∧
      BufState.init.run c [.take 0 0, .send 0 true] = .error .overflow := by
  refine ⟨⟨1, 0, 4, false⟩, by decide, by decide, ?_, ⟨_, rfl, ?_⟩, rfl⟩
  · simp [LegalRun, BufLegal, BufState.init, BufState.isAvailableFor]
  · simp [BufLegal, BufState.init, BufState.isFullFor, BufState.isAvailableFor, BufCfg.perVc, upd]

end RadSim
