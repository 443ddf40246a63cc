import Verif.Lemmas.Util

namespace RadSim

/-- What the sender promises: it asks before it acts. -/
def BufLegal (c : BufCfg) (s : BufState) : BufOp → Prop
  | .take vc tag => vc < c.vcs ∧ s.isAvailableFor vc = true ∧ 0 ≤ tag
  | .send vc _ => vc < c.vcs ∧ s.isFullFor c vc = false ∧ s.isAvailableFor vc = false
  | .credit vcs => vcs.Nodup ∧ ∀ v ∈ vcs, v < c.vcs ∧ 0 < s.vcOcc v

/-- A configuration the constructor accepts, with `buf_size` not zero. -/
structure BufCfg.Ok (c : BufCfg) : Prop where
  vcs_pos : 0 < c.vcs
  perVc_pos : 0 < c.perVc
  bufSize_ne : c.bufSize ≠ 0

structure BufInv (c : BufCfg) (s : BufState) : Prop where
  bound : ∀ v, v < c.vcs → 0 ≤ s.vcOcc v ∧ s.vcOcc v ≤ c.perVc
  total : s.occ = sumTo c.vcs s.vcOcc
  busy : c.waitTail = true → ∀ v, v < c.vcs → 0 < s.vcOcc v → 0 ≤ s.inUse v

theorem BufInv.init (c : BufCfg) (h : c.Ok) : BufInv c BufState.init where
  bound := by
    intro v _
    have := h.perVc_pos
    simp [BufState.init]
    omega
  total := by
    have : ∀ n, sumTo n (fun _ => 0) = 0 := by
      intro n; induction n with
      | zero => rfl
      | succ n ih => simp [sumTo, ih]
    simp [BufState.init, this]
  busy := by intro _ v _ h; simp [BufState.init] at h

theorem perVc_mul_le_size (c : BufCfg) (h : c.Ok) : (c.vcs : Int) * c.perVc ≤ c.size := by
  unfold BufCfg.perVc BufCfg.size
  have h1 := h.bufSize_ne
  by_cases hn : c.bufSize < 0
  · have : c.bufSize ≤ 0 := by omega
    simp [hn, this]
  · have : ¬ c.bufSize ≤ 0 := by omega
    simp only [hn, this, if_false]
    exact Int.mul_ediv_self_le (by have := h.vcs_pos; omega)

theorem creditVc_ok {c : BufCfg} {s : BufState} (hi : BufInv c s) {v : Nat} (hv : v < c.vcs)
    (hocc : 0 < s.vcOcc v) :
    ∃ s', s.creditVc c v = .ok s' ∧ BufInv c s' ∧ s'.vcOcc = upd s.vcOcc v (s.vcOcc v - 1) := by
  have hle := le_sumTo (fun i hi' => (hi.bound i hi').1) hv
  have ht := hi.total
  have hbusy : c.waitTail = true → 0 ≤ s.inUse v := fun hw => hi.busy hw v hv hocc
  have hb : ∀ w, w < c.vcs → 0 ≤ upd s.vcOcc v (s.vcOcc v - 1) w ∧
      upd s.vcOcc v (s.vcOcc v - 1) w ≤ c.perVc := by
    intro w hw
    have h1 := hi.bound w hw
    simp only [upd_apply]
    split
    · subst w; omega
    · exact h1
  have htot : s.occ - 1 = sumTo c.vcs (upd s.vcOcc v (s.vcOcc v - 1)) := by
    rw [sumTo_upd _ _ _ hv]; omega
  have hbz : c.waitTail = true → ∀ w, w < c.vcs → 0 < upd s.vcOcc v (s.vcOcc v - 1) w →
      0 ≤ s.inUse w := by
    intro hw w hwv hpos
    apply hi.busy hw w hwv
    simp only [upd_apply] at hpos
    split at hpos
    · subst w; omega
    · exact hpos
  unfold BufState.creditVc
  rw [if_neg (by omega), if_neg (by
    simp only [Bool.and_eq_true, decide_eq_true_eq, not_and]; intro hw; have := hbusy hw; omega),
    if_neg (by omega), if_neg (by omega)]
  split
  · rename_i hcond
    simp only [Bool.and_eq_true, decide_eq_true_eq] at hcond
    rw [if_neg (by have := hbusy hcond.1.1; omega)]
    refine ⟨_, rfl, ⟨hb, htot, ?_⟩, rfl⟩
    intro hw w hwv hpos
    have hne : w ≠ v := by
      intro hwv'
      subst hwv'
      simp only [upd_same] at hpos
      omega
    simp only [upd_ne _ _ hne]
    exact hbz hw w hwv hpos
  · exact ⟨_, rfl, ⟨hb, htot, hbz⟩, rfl⟩

theorem processCredit_ok {c : BufCfg} (vcs : List Nat) {s : BufState} (hi : BufInv c s)
    (hnd : vcs.Nodup) (hv : ∀ v ∈ vcs, v < c.vcs ∧ 0 < s.vcOcc v) :
    ∃ s', s.processCredit c vcs = .ok s' ∧ BufInv c s' := by
  induction vcs generalizing s with
  | nil => exact ⟨s, rfl, hi⟩
  | cons v vs ih =>
    obtain ⟨s1, h1, hi1, hocc⟩ := creditVc_ok hi (hv v (by simp)).1 (hv v (by simp)).2
    simp only [BufState.processCredit, h1]
    have hnd' := List.nodup_cons.mp hnd
    apply ih hi1 hnd'.2
    intro w hw
    have hne : w ≠ v := fun h => hnd'.1 (h ▸ hw)
    have := hv w (List.mem_cons_of_mem _ hw)
    rw [hocc, upd_ne _ _ hne]
    exact this

theorem buf_step_ok {c : BufCfg} (hc : c.Ok) {s : BufState} (hi : BufInv c s) {op : BufOp}
    (hl : BufLegal c s op) : ∃ s', s.step c op = .ok s' ∧ BufInv c s' := by
  cases op with
  | take vc tag =>
    obtain ⟨hv, ha, ht⟩ := hl
    simp only [BufState.isAvailableFor, decide_eq_true_eq] at ha
    simp only [BufState.step, BufState.takeBuffer]
    rw [if_neg (by omega), if_neg (by omega)]
    refine ⟨_, rfl, ⟨hi.bound, hi.total, ?_⟩⟩
    intro hw v hv hpos
    simp only [upd_apply]
    split
    · exact ht
    · exact hi.busy hw v hv hpos
  | send vc tail =>
    obtain ⟨hv, hf, ha⟩ := hl
    simp only [BufState.isFullFor, decide_eq_false_iff_not] at hf
    simp only [BufState.isAvailableFor, decide_eq_false_iff_not] at ha
    have hb : ∀ w, w < c.vcs → 0 ≤ upd s.vcOcc vc (s.vcOcc vc + 1) w ∧
        upd s.vcOcc vc (s.vcOcc vc + 1) w ≤ c.perVc := by
      intro w hw
      have h1 := hi.bound w hw
      simp only [upd_apply]
      split
      · subst w; omega
      · exact h1
    have htot : s.occ + 1 = sumTo c.vcs (upd s.vcOcc vc (s.vcOcc vc + 1)) := by
      rw [sumTo_upd _ _ _ hv]; have := hi.total; omega
    have hsz := perVc_mul_le_size c hc
    have hle := sumTo_le (fun i hi' => (hb i hi').2)
    simp only [BufState.step, BufState.sendingFlit]
    rw [if_neg (by omega), if_neg (by omega), if_neg (by omega)]
    have hbusy : c.waitTail = true → ∀ w, w < c.vcs → 0 < upd s.vcOcc vc (s.vcOcc vc + 1) w →
        0 ≤ s.inUse w := by
      intro hw w hwv hpos
      simp only [upd_apply] at hpos
      split at hpos
      · subst w; omega
      · exact hi.busy hw w hwv hpos
    split
    · split
      · exact ⟨_, rfl, ⟨hb, htot, hbusy⟩⟩
      · rename_i hnw
        refine ⟨_, rfl, ⟨hb, htot, ?_⟩⟩
        intro hw
        exact absurd hw hnw
    · exact ⟨_, rfl, ⟨hb, htot, hbusy⟩⟩
  | credit vcs =>
    obtain ⟨hnd, hv⟩ := hl
    exact processCredit_ok vcs hi hnd hv

end RadSim
