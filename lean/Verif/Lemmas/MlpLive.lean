import Verif.Lemmas.MlpSys

/-! # All modules of the example design `mlp` finish -/

namespace RadSim.Mlp

variable {D : Design} {q : Consts}

/-! ## one module -/

theorem run_one {c : Mvm} {t : Nat → Cycle} {n : Nat} {s s' : Sig} {h h' : Seen} (h1 : run c t n = .ok (s, h))
    (h2 : run c t (n + 1) = .ok (s', h')) : h' = h.add s (t n) := by
  simp only [run, h1] at h2
  cases hc : cycle c s (t n) with
  | error e => simp [hc] at h2
  | ok a =>
    rw [hc] at h2
    simp only [Except.ok.injEq, Prod.mk.injEq] at h2
    exact h2.2.symm

theorem run_before {c : Mvm} {t : Nat → Cycle} {n : Nat} {s' : Sig} {h' : Seen} (h : run c t (n + 1) = .ok (s', h')) :
    ∃ s h, run c t n = .ok (s, h) := by
  simp only [run] at h
  cases hr : run c t n with
  | error e => simp [hr] at h
  | ok y => exact ⟨y.1, y.2, rfl⟩

/-- What was taken and sent stays so. -/
theorem run_mono {c : Mvm} {t : Nat → Cycle} {n k : Nat} {s s' : Sig} {h h' : Seen} (h1 : run c t n = .ok (s, h))
    (h2 : run c t (n + k) = .ok (s', h')) : h.ins <+: h'.ins ∧ h.reds <+: h'.reds ∧ h.sent <+: h'.sent := by
  induction k generalizing s' h' with
  | zero =>
    rw [Nat.add_zero, h1] at h2
    cases h2
    exact ⟨List.prefix_refl _, List.prefix_refl _, List.prefix_refl _⟩
  | succ k ih =>
    obtain ⟨s1, h1', hr⟩ := run_before h2
    obtain ⟨ha, hb, hc⟩ := ih hr
    rw [run_one hr h2]
    exact ⟨ha.trans (List.prefix_append _ _), hb.trans (List.prefix_append _ _), hc.trans (List.prefix_append _ _)⟩

theorem Reach.uses {c : Mvm} {r r' : Ref} (h : Ref.Reach c r r') : r'.ins.length ≤ r.ins.length ∧ r'.reds.length ≤ r.reds.length := by
  induction h with
  | refl => exact ⟨Nat.le_refl _, Nat.le_refl _⟩
  | tail _ hn ih =>
    rcases Ref.next_cases hn with ⟨-, -, rfl⟩ | ⟨-, -, -, a, as, b, bs, h1, h2, rfl⟩ | ⟨-, -, -, a, as, h1, rfl⟩
    · exact ih
    all_goals
      refine ⟨?_, ?_⟩
      · refine Nat.le_trans ?_ ih.1
        simp only [Ref.put]
        split <;> simp
      · refine Nat.le_trans ?_ ih.2
        simp_all [Ref.put]

/-- A module whose FIFOs are not too full takes what is offered. -/
theorem At.takes {c : Mvm} {t : Nat → Cycle} {n : Nat} {s : Sig} {h : Seen} {r : Ref} {d p f : List Out} (A : At c t n s h r d p f)
    (hi : h.ins.length + 4 < c.fifoSize) (hr : h.reds.length + 4 < c.fifoSize) (ho : offered s (t n)) :
    (h.add s (t n)).ins.length + (h.add s (t n)).reds.length = h.ins.length + h.reds.length + 1 := by
  have hu := Reach.uses A.follows.reach
  simp only [Ref.start] at hu
  have h1 := congrArg List.length A.follows.ins
  have h2 := congrArg List.length A.follows.reds
  simp only [List.length_append] at h1 h2
  obtain ⟨z, hz⟩ := A.follows.ififo
  obtain ⟨z', hz'⟩ := A.follows.rfifo
  obtain ⟨room, hcalm⟩ := A.follows.calm
  have e1 : s.reg.ififo.almostFull = false := by
    rw [hz.almostFull, decide_eq_false_iff_not]
    simp only [Mvm.inCfg]
    omega
  have e2 : s.reg.rfifo.almostFull = false := by
    rw [hz'.almostFull, decide_eq_false_iff_not]
    simp only [Mvm.inCfg]
    omega
  have hready : s.wire.rxReady = true := by
    rw [← hcalm.wire]
    simp only [assign, tag, e1, e2]
    obtain ⟨-, h | h⟩ := ho <;> change s.rxUser / 8192 % 8 = _ at h <;> simp [h]
  obtain ⟨hv, h | h⟩ := ho <;> change s.rxUser / 8192 % 8 = _ at h <;> simp [Seen.add, hv, hready, h] <;> omega

/-! ## all modules -/

section

variable (h : D.Ok q) {t : Nat → Nat → Nat → Cycle} (hw : Wired D q t)
  (hz : ∀ line ∈ D.goldenFile, parse line ≠ List.replicate D.dim 0) (hsm : Small D q)

include h hw hz in
theorem system_run {l m : Nat} (hl : l < D.layers) (hm : m < D.mvms l) (n : Nat) : ∃ s h, run (D.mvm q l m) (t l m) n = .ok (s, h) := by
  obtain ⟨s, h, r, d, p, f, A, -⟩ := system_all h hw hz n l hl m hm
  exact ⟨s, h, A.run⟩

include h hw hz hsm in
/-- A beat that is offered is taken. -/
theorem system_takes {l m : Nat} (hl : l < D.layers) (hm : m < D.mvms l) {n : Nat} {s : Sig} {h1 : Seen}
    (hr : run (D.mvm q l m) (t l m) n = .ok (s, h1)) (ho : offered s (t l m n)) :
    ∃ s' h', run (D.mvm q l m) (t l m) (n + 1) = .ok (s', h') ∧ h'.ins.length + h'.reds.length = h1.ins.length + h1.reds.length + 1 := by
  obtain ⟨s0, h0, r, d, p, f, A, R⟩ := system_all h hw hz n l hl m hm
  have := A.run
  rw [hr] at this
  cases this
  obtain ⟨s', h', hr'⟩ := system_run h hw hz hl hm (n + 1)
  refine ⟨s', h', hr', ?_⟩
  rw [run_one hr hr']
  have hf := h.fifo
  obtain ⟨hs1, hs2⟩ := hsm l hl
  have hq : (D.mvm q l m).fifoSize = q.fifoSize := rfl
  refine A.takes ?_ ?_ ho
  · have := R.few
    omega
  · by_cases hm0 : m = 0
    · rw [R.noReds hm0]
      simp only [List.length_nil]
      omega
    · have := R.fewReds
      have := hs2 (by omega)
      omega

include h hw hz hsm in
/-- If beats come until `goal` is reached, it is. -/
theorem system_until {l m : Nat} (hl : l < D.layers) (hm : m < D.mvms l) (goal : Seen → Prop) (n0 : Nat)
    (hp : ∀ n ≥ n0, ∀ s h, run (D.mvm q l m) (t l m) n = .ok (s, h) → ¬ goal h →
      ∃ n' s' h', n ≤ n' ∧ run (D.mvm q l m) (t l m) n' = .ok (s', h') ∧ offered s' (t l m n')) :
    ∃ n s h, n0 ≤ n ∧ run (D.mvm q l m) (t l m) n = .ok (s, h) ∧ goal h := by
  suffices H : ∀ K n, n0 ≤ n → ∀ s h, run (D.mvm q l m) (t l m) n = .ok (s, h) →
      D.tests * D.limx l + D.tests * D.limy l ≤ h.ins.length + h.reds.length + K →
      ∃ n s h, n0 ≤ n ∧ run (D.mvm q l m) (t l m) n = .ok (s, h) ∧ goal h by
    obtain ⟨s, h1, hr⟩ := system_run h hw hz hl hm n0
    exact H _ n0 (Nat.le_refl _) s h1 hr (Nat.le_add_left _ _)
  intro K
  induction K with
  | zero =>
    intro n hn s h1 hr hK
    by_cases hg : goal h1
    · exact ⟨n, s, h1, hn, hr, hg⟩
    · exfalso
      obtain ⟨n', s', h', hn', hr', ho⟩ := hp n hn s h1 hr hg
      obtain ⟨s2, h2, hr2, hlen⟩ := system_takes h hw hz hsm hl hm hr' ho
      obtain ⟨k, rfl⟩ := Nat.exists_eq_add_of_le hn'
      obtain ⟨e1, e2, -⟩ := run_mono hr hr'
      obtain ⟨s0, h0, r, d, p, f, A, R⟩ := system_all h hw hz (n + k + 1) l hl m hm
      have := A.run
      rw [hr2] at this
      cases this
      have := R.few
      have := R.fewReds
      have := e1.length_le
      have := e2.length_le
      omega
  | succ K ih =>
    intro n hn s h1 hr hK
    by_cases hg : goal h1
    · exact ⟨n, s, h1, hn, hr, hg⟩
    · obtain ⟨n', s', h', hn', hr', ho⟩ := hp n hn s h1 hr hg
      obtain ⟨s2, h2, hr2, hlen⟩ := system_takes h hw hz hsm hl hm hr' ho
      obtain ⟨k, rfl⟩ := Nat.exists_eq_add_of_le hn'
      obtain ⟨e1, e2, -⟩ := run_mono hr hr'
      have := e1.length_le
      have := e2.length_le
      exact ih _ (by omega) s2 h2 hr2 (by omega)

theorem toward_mono {a b : List (Out × Nat)} (hab : a <+: b) (l m k : Nat) : (toward l m k a).length ≤ (toward l m k b).length :=
  (List.IsPrefix.filterMap _ hab).length_le

variable (hd : Delivers D q t) (ho : ∀ l < D.layers, ∀ m < D.mvms l, Drains (t l m))

include h hw hz ho in
/-- A module that gets all its vectors sends all its results. -/
theorem system_sends {l m : Nat} (hl : l < D.layers) (hm : m < D.mvms l) {n : Nat} {s : Sig} {h1 : Seen}
    (hr : run (D.mvm q l m) (t l m) n = .ok (s, h1)) (hi : D.tests * D.limx l ≤ h1.ins.length)
    (hrd : m ≠ 0 → D.tests * D.limy l ≤ h1.reds.length) :
    ∃ n s h, run (D.mvm q l m) (t l m) n = .ok (s, h) ∧ h.sent.length = D.tests * D.limy l := by
  obtain ⟨r, hreach, hlen⟩ := (h.job (m := m) hl).reaches hi (fun hm0 => hrd (by simpa using hm0))
  obtain ⟨n', s', h', -, hr', hp⟩ := run_sends (h.fits hl hm) (t := t l m) (fun n s h1 _ => (h.job hl).sound _ _)
    (fun n s h1 hr r hreach => ((system_all h hw hz n).right h hw hl hm hr).shows h hz hl hm hreach) (ho l hl m hm) hr hreach
  refine ⟨n', s', h', hr', Nat.le_antisymm ?_ ?_⟩
  · obtain ⟨s0, h0, r0, d, p, f, A, R⟩ := system_all h hw hz n' l hl m hm
    have := A.run
    rw [hr'] at this
    cases this
    have h2 := A.sent.length_le
    rw [List.length_map] at h2
    exact h2.trans (R.out h hl hm A.follows.reach).2
  · have := hp.length_le
    rw [List.length_map] at this
    omega

include h hw hz hsm hd ho in
/-- If the inputs come, all modules of a layer send all results. -/
theorem layer_sends {l : Nat} (hl : l < D.layers)
    (hin : ∀ m < D.mvms l, ∃ n s h, run (D.mvm q l m) (t l m) n = .ok (s, h) ∧ D.tests * D.limx l ≤ h.ins.length) (m : Nat) :
    m < D.mvms l → ∃ n s h, run (D.mvm q l m) (t l m) n = .ok (s, h) ∧ h.sent.length = D.tests * D.limy l := by
  induction m with
  | zero =>
    intro hm
    obtain ⟨n, s, h1, hr, hi⟩ := hin 0 hm
    exact system_sends h hw hz ho hl hm hr hi (fun h0 => absurd rfl h0)
  | succ m ih =>
    intro hm
    obtain ⟨n1, s1, h1, hr1, hs1⟩ := ih (by omega)
    obtain ⟨n2, s2, h2, hr2, hi⟩ := hin (m + 1) hm
    obtain ⟨n3, s3, h3, hn3, hr3, hg⟩ := system_until h hw hz hsm hl hm (fun h => D.tests * D.limy l ≤ h.reds.length) (max n1 n2) (by
      intro n hn s h' hr' hg
      obtain ⟨s0, h0, r, d, p, f, A, R⟩ := system_all h hw hz n l hl m (by omega)
      obtain ⟨k, rfl⟩ := Nat.exists_eq_add_of_le (show n1 ≤ n by omega)
      have hmono := (run_mono hr1 A.run).2.2.length_le
      have := (toward_beside h hl hm A.sent (R.out h hl (by omega) A.follows.reach).1).2
      exact hd.add l hl m hm _ s h' s0 h0 hr' A.run (by omega))
    obtain ⟨k, rfl⟩ := Nat.exists_eq_add_of_le (show n2 ≤ n3 by omega)
    have hmono := (run_mono hr2 hr3).1.length_le
    exact system_sends h hw hz ho hl hm hr3 (by omega) (fun _ => hg)

include h hw hz hsm hd ho in
/-- The inputs of all layers come. -/
theorem layer_gets (l : Nat) : l < D.layers → ∀ m < D.mvms l,
    ∃ n s h, run (D.mvm q l m) (t l m) n = .ok (s, h) ∧ D.tests * D.limx l ≤ h.ins.length := by
  induction l with
  | zero =>
    intro hl m hm
    obtain ⟨n, s, h1, -, hr, hg⟩ := system_until h hw hz hsm hl hm (fun h => D.tests * D.limx 0 ≤ h.ins.length) 0 (by
      intro n _ s h' hr' hg
      have := (inputFile_right h hm).2
      rw [List.length_map] at this
      exact hd.first m hm n s h' hr' (by omega))
    exact ⟨n, s, h1, hr, hg⟩
  | succ l ih =>
    intro hl m hm
    have hM := h.mvms l (by omega)
    obtain ⟨n1, s1, h1, hr1, hs1⟩ := layer_sends h hw hz hsm hd ho (by omega) (ih (by omega)) (D.mvms l - 1) (by omega)
    obtain ⟨n, s, h1, -, hr, hg⟩ := system_until h hw hz hsm hl hm (fun h => D.tests * D.limx (l + 1) ≤ h.ins.length) n1 (by
      intro n hn s h' hr' hg
      obtain ⟨s0, h0, r, d, p, f, A, R⟩ := system_all h hw hz n l (by omega) (D.mvms l - 1) (by omega)
      obtain ⟨k, rfl⟩ := Nat.exists_eq_add_of_le hn
      have hmono := toward_mono (run_mono hr1 A.run).2.2 (l + 2) m 3
      obtain ⟨s2, h2, r2, d2, p2, f2, A2, R2⟩ := system_all h hw hz n1 l (by omega) (D.mvms l - 1) (by omega)
      have := A2.run
      rw [hr1] at this
      cases this
      obtain ⟨ho1, hlen⟩ := R2.out h (by omega) (by omega) A2.follows.reach
      have := (toward_next h hl hm A2.sent ho1 hlen).2.2 hs1
      exact hd.input l hl m hm _ s h' s0 h0 hr' A.run (by omega))
    exact ⟨n, s, h1, hr, hg⟩

include h hw hz in
/-- What the last module sends. -/
theorem golden_prefix {n : Nat} {s : Sig} {h1 : Seen}
    (hr : run (D.mvm q (D.layers - 1) (D.mvms (D.layers - 1) - 1)) (t (D.layers - 1) (D.mvms (D.layers - 1) - 1)) n = .ok (s, h1)) :
    h1.sent <+: D.goldenFile.map fun line => (⟨parse line, 0, 0⟩, 3 * 2 ^ 13) := by
  have hl : D.layers - 1 < D.layers := by
    have := h.layers
    omega
  have hM := h.mvms _ hl
  obtain ⟨s0, h0, r, d, p, f, A, R⟩ := system_all h hw hz n _ hl (D.mvms (D.layers - 1) - 1) (by omega)
  have := A.run
  rw [hr] at this
  cases this
  obtain ⟨ho1, hlen⟩ := R.out h hl (by omega) A.follows.reach
  have hout : r.out <+: (List.range (D.tests * D.limy (D.layers - 1))).map (idealOut D (D.layers - 1) (D.mvms (D.layers - 1) - 1)) := by
    rw [List.prefix_iff_eq_take]
    apply List.ext_getElem?
    intro i
    rw [List.getElem?_take]
    by_cases hi : i < r.out.length
    · rw [if_pos hi, List.getElem?_map, List.getElem?_range (by omega), List.getElem?_eq_getElem hi]
      exact congrArg some (ho1 i _ (List.getElem?_eq_getElem hi))
    · rw [if_neg hi, List.getElem?_eq_none (by omega)]
  refine A.sent.trans ?_
  have he : (D.goldenFile.map fun line => ((⟨parse line, 0, 0⟩, 3 * 2 ^ 13) : Out × Nat)) =
      ((List.range (D.tests * D.limy (D.layers - 1))).map (idealOut D (D.layers - 1) (D.mvms (D.layers - 1) - 1))).map
        (D.mvm q (D.layers - 1) (D.mvms (D.layers - 1) - 1)).wire := by
    rw [goldenFile_eq h, List.map_map, List.map_map]
    apply List.map_congr_left
    intro i _
    simp only [Function.comp_apply, Mvm.wire, idealOut, partSum_last h hl, Design.dest, and_self, if_true]
    have hly : (D.mvm q (D.layers - 1) (D.mvms (D.layers - 1) - 1)).layer = D.layers - 1 := rfl
    rw [hly]
    have hne : ¬ (BitVec.ofNat 5 0).toInt = ((D.layers - 1 : Nat) : Int) + 1 := by
      rw [toInt_small (by omega)]
      omega
    rw [if_neg hne, Nat.sub_add_cancel h.layers]
    unfold parse blockOf
    rw [List.map_map]
    rfl
  rw [he]
  exact hout.map _

end

end RadSim.Mlp
