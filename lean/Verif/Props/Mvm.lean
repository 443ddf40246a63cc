import Verif.Lemmas.MvmLive

/-! # The matrix vector multiplier of the example design `mlp`

C100: it does what its program says, and no FIFO over- or underflows; C101: it does so in the end. -/

namespace RadSim.Mlp

/-- The module does what its program says: whatever the timing of its inputs and of the adapter, no FIFO over- or underflows,
no memory is addressed beyond its end, and the beats handed over are a beginning of the results of the program on the vectors
taken. Partial: only if no result is all 0 and goes to the collector; see `C100_mvm_violated`. -/
theorem C100_mvm_partial {c : Mvm} (hc : c.Fits) {t : Nat → Cycle} (hr : c.Runs t) (hs : c.Shows t) (n : Nat) :
    ∃ s h r, run c t n = .ok (s, h) ∧ Ref.Reach c (Ref.start h.ins h.reds) r ∧ h.sent <+: r.out.map c.wire := by
  obtain ⟨s, h, r, d, q, f, A⟩ := at_all hc hr hs n
  refine ⟨s, h, r, A.run, A.follows.reach, ?_⟩
  rw [A.follows.sent]
  exact A.prefix.map _

/-- With an adapter that has room again and again, all results of the program on the vectors taken are handed over.
Partial as `C100_mvm_partial`. -/
theorem C101_mvm_sends_partial {c : Mvm} (hc : c.Fits) {t : Nat → Cycle} (hr : c.Runs t) (hs : c.Shows t) (hf : Drains t) {n : Nat}
    {s : Sig} {h : Seen} (hrun : run c t n = .ok (s, h)) {r : Ref} (hreach : Ref.Reach c (Ref.start h.ins h.reds) r) :
    ∃ m s' h', n ≤ m ∧ run c t m = .ok (s', h') ∧ r.out.map c.wire <+: h'.sent :=
  run_sends hc hr hs hf hrun hreach

/-- Each result is one of an instruction that is to be released. -/
theorem Reach.released {c : Mvm} {r r' : Ref} (h : Ref.Reach c r r') (h0 : r.out = []) :
    ∀ o ∈ r'.out, ∃ a, (c.prog a).en = true ∧ (c.prog a).release = true ∧ o.layer = (c.prog a).destLayer ∧
      o.mvm = (c.prog a).destMvm := by
  induction h with
  | refl => simp [h0]
  | tail _ hn ih =>
    intro o ho
    rcases Ref.next_cases hn with ⟨-, -, rfl⟩ | ⟨he, -, -, a, as, b, bs, -, -, rfl⟩ | ⟨he, -, -, a, as, -, rfl⟩
    · exact ih o ho
    all_goals
      simp only [Ref.put, List.mem_append] at ho
      rcases ho with ho | ho
      · exact ih o ho
      · split at ho
        · rename_i hl
          rw [List.mem_singleton] at ho
          subst ho
          exact ⟨_, he, hl, rfl, rfl⟩
        · simp at ho

theorem Mvm.shows_of {c : Mvm} (hd : ∀ a, (c.prog a).en = true → (c.prog a).release = true →
    (c.prog a).destLayer ≠ 0 ∨ (c.prog a).destMvm ≠ 0) (t : Nat → Cycle) : c.Shows t := by
  intro n s h _ r hr hnull
  obtain ⟨a, he, hl, h1, h2⟩ := Reach.released hr rfl _ hnull
  rcases hd a he hl with h | h
  · exact h h1.symm
  · exact h h2.symm

/-- A program that sends nothing to the first collector needs no condition on the values: the module does what it says. -/
theorem C100_mvm_inner {c : Mvm} (hc : c.Fits) {t : Nat → Cycle} (hr : c.Runs t)
    (hd : ∀ a, (c.prog a).en = true → (c.prog a).release = true → (c.prog a).destLayer ≠ 0 ∨ (c.prog a).destMvm ≠ 0) (n : Nat) :
    ∃ s h r, run c t n = .ok (s, h) ∧ Ref.Reach c (Ref.start h.ins h.reds) r ∧ h.sent <+: r.out.map c.wire :=
  C100_mvm_partial hc hr (Mvm.shows_of hd t) n

/-- And all results are handed over. -/
theorem C101_mvm_inner_sends {c : Mvm} (hc : c.Fits) {t : Nat → Cycle} (hr : c.Runs t)
    (hd : ∀ a, (c.prog a).en = true → (c.prog a).release = true → (c.prog a).destLayer ≠ 0 ∨ (c.prog a).destMvm ≠ 0)
    (hf : Drains t) {n : Nat} {s : Sig} {h : Seen} (hrun : run c t n = .ok (s, h)) {r : Ref}
    (hreach : Ref.Reach c (Ref.start h.ins h.reds) r) :
    ∃ m s' h', n ≤ m ∧ run c t m = .ok (s', h') ∧ r.out.map c.wire <+: h'.sent :=
  C101_mvm_sends_partial hc hr (Mvm.shows_of hd t) hf hrun hreach

/-! ## a module with the constants of the source -/

/-- One instruction that multiplies and releases for each input, and a jump back to it. -/
def loop (layer mvm : BitVec 5) (a : Nat) : Inst :=
  if a = 0 then ⟨true, false, false, 0, false, true, 0, true, layer, mvm⟩
  else if a = 1 then ⟨true, true, false, 0, false, false, 0, false, 0, 0⟩ else .default

/-- The constants of `rad-sim/example-designs/mlp/modules/mvm.hpp:21-41` and
`rad-sim/example-designs/mlp/modules/register_file.hpp:7`. -/
def actual (prog : Nat → Inst) (weights : Nat → Nat → Vec) : Mvm := ⟨16, 1024, 23, 2, 2048, 0, prog, weights⟩

theorem actual_fits (prog : Nat → Inst) {weights : Nat → Nat → Vec} (hw : ∀ d a, (weights d a).length = 16) :
    (actual prog weights).Fits :=
  ⟨Nat.le_of_ble_eq_true rfl, hw, Nat.le_of_ble_eq_true rfl, Nat.le_of_ble_eq_true rfl, Nat.le_of_ble_eq_true rfl⟩

theorem loop_sound (layer mvm : BitVec 5) (weights : Nat → Nat → Vec) (ins reds : List Vec) :
    Sound (actual (loop layer mvm) weights) ins reds := by
  intro r hr
  have hpc : r.pc ≤ 1 := by
    induction hr with
    | refl => exact Nat.zero_le _
    | tail _ hn ih =>
      rename_i r1 r2 _
      have h1 : r1.pc = 0 ∨ r1.pc = 1 := by omega
      rcases Ref.next_cases hn with ⟨-, hj, rfl⟩ | ⟨-, hj, hd, -⟩ | ⟨-, hj, hd, a, as, -, rfl⟩ <;> rcases h1 with h1 | h1 <;>
        simp_all [actual, loop, Ref.put]
  have h1 : r.pc = 0 ∨ r.pc = 1 := by omega
  unfold Ref.Fault
  rcases h1 with h1 | h1 <;> rw [h1] <;> simp [actual, loop]

/-- One input vector of ones; the adapter always has room. -/
def oneInput (n : Nat) : Cycle := ⟨⟨n == 2, List.replicate 16 1⟩, if n == 1 then 3 * 2 ^ 13 else 0, true, []⟩

/-- `C100_mvm_inner` and `C101_mvm_inner_sends` on a module that sends to layer 1. -/
example : Drains oneInput ∧ (actual (loop 1 0) fun d _ => List.replicate 16 (BitVec.ofNat 32 d)).Fits ∧
    (actual (loop 1 0) fun d _ => List.replicate 16 (BitVec.ofNat 32 d)).Runs oneInput ∧
    ∀ a, (loop 1 0 a).en = true → (loop 1 0 a).release = true → (loop 1 0 a).destLayer ≠ 0 ∨ (loop 1 0 a).destMvm ≠ 0 := by
  refine ⟨fun n => ⟨n, Nat.le_refl _, rfl⟩, actual_fits _ (by simp), fun _ _ _ _ => loop_sound _ _ _ _ _, ?_⟩
  intro a h1 h2
  left
  unfold loop at h2 ⊢
  split
  · decide
  · split
    · rename_i h0 h1'
      simp [h1'] at h2
    · decide

/-- The error of a run, and what is seen of it. -/
def outcome (y : Except Err (Sig × Seen)) : Option Err × Option (Nat × List (Out × Nat)) :=
  match y with
  | .error e => (some e, none)
  | .ok (_, h) => (none, some (h.ins.length, h.sent))

/-- Element `d` of the only beat is 16 · d; its tag says that it is a vector to be added, as its destination has layer 1. -/
example : outcome (run (actual (loop 1 0) fun d _ => List.replicate 16 (BitVec.ofNat 32 d)) oneInput 40) =
    (none, some (1, [(⟨(List.range 16).map fun d => BitVec.ofNat 32 (16 * d), 1, 0⟩, 2 * 2 ^ 13)])) := by
  decide +kernel

/-- A result of zeros for the collector: the process that drives the output is not sensitive to the FIFO becoming empty, and
the output of the empty FIFO is the same as that result. So `tvalid` stays up after the only beat was handed over, and at the next edge
the read of the empty FIFO ends the simulation with an error. -/
theorem C100_mvm_violated : ∃ c : Mvm, c.Fits ∧ ∃ t, c.Runs t ∧ Drains t ∧
    outcome (run c t 31) = (none, some (1, [(c.null, 3 * 2 ^ 13)])) ∧
    outcome (run c t 32) = (some (.fifo .underflow), none) :=
  ⟨actual (loop 0 0) fun _ _ => List.replicate 16 0, actual_fits _ (by simp), oneInput, fun _ _ _ _ => loop_sound _ _ _ _ _,
    fun n => ⟨n, Nat.le_refl _, rfl⟩, by decide +kernel, by decide +kernel⟩

end RadSim.Mlp
