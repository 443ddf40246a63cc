import Verif.Spec.Mvm

/-! # The delta cycles of a matrix vector multiplier come to an end -/

namespace RadSim.Mlp

open AddDesign (Fifo FifoCfg FifoErr)

/-- `Assign` only reads these signals of those it writes itself, up to the outputs it keeps. -/
theorem assign_eq {c : Mvm} {s s' : Sig} (hr : s'.reg = s.reg) (hu : s'.rxUser = s.rxUser)
    (hi : s'.wire.inst = s.wire.inst) (hv : s'.wire.txValid = s.wire.txValid) (ht : s'.txReady = s.txReady)
    (hk : s'.wire = assign c s ∨ s'.wire = s.wire) : assign c s' = assign c s := by
  have hd : ∀ b : Bool, (b = ((decide (s.reg.ofifo.rdata.length > 0)) && !s.reg.ofifo.empty)) → b = false →
      s'.wire.txData = s.wire.txData ∧ s'.wire.txUser = s.wire.txUser ∧ s'.wire.txDest = s.wire.txDest := by
    intro b hb hb'
    rcases hk with hk | hk
    · rw [hk]
      simp only [assign]
      rw [← hb, hb']
      simp
    · rw [hk]
      exact ⟨rfl, rfl, rfl⟩
  unfold assign
  rw [hr, hu, hi, hv, ht]
  by_cases hb : ((decide (s.reg.ofifo.rdata.length > 0)) && !s.reg.ofifo.empty) = true
  · simp only [hb, if_true]
  · obtain ⟨h1, h2, h3⟩ := hd _ rfl (by simpa using hb)
    simp only [h1, h2, h3]

/-- Once `Assign` has seen the new registers, a delta cycle is a run of `Assign` on the signals before it, whether it runs or
not. -/
theorem delta_run {c : Mvm} {room : Bool} {p s : Sig} (hr : s.reg = p.reg) (hu : s.rxUser = p.rxUser)
    (hw : s.wire = assign c p) :
    delta c room (p, s) = (s, ⟨s.reg, assign c s, s.rxUser, s.wire.txValid && room⟩) := by
  unfold delta
  by_cases hs : senses p s = true
  · simp only [hs, if_true]
  · have hs' : senses p s = false := by simpa using hs
    have : assign c s = s.wire := by
      rw [hw]
      simp only [senses, Bool.or_eq_false_iff, decide_eq_false_iff_not, not_not] at hs'
      obtain ⟨⟨⟨⟨⟨⟨⟨⟨⟨⟨⟨⟨⟨⟨⟨⟨-, -⟩, h1⟩, h2⟩, -⟩, -⟩, -⟩, -⟩, -⟩, -⟩, -⟩, h3⟩, -⟩, -⟩, -⟩, -⟩, -⟩ := hs'
      exact assign_eq hr hu h3.symm h1.symm h2.symm (.inl hw)
    simp [hs', this]

/-- The signals after a delta cycle in which `Assign` runs. -/
def after (c : Mvm) (room : Bool) (s : Sig) : Sig := ⟨s.reg, assign c s, s.rxUser, s.wire.txValid && room⟩

theorem delta_after {c : Mvm} {room : Bool} (s : Sig) :
    delta c room (s, after c room s) = (after c room s, after c room (after c room s)) :=
  delta_run rfl rfl rfl

/-- The state that the delta cycles lead to: nothing changes any more. -/
structure Calm (c : Mvm) (room : Bool) (s : Sig) : Prop where
  wire : assign c s = s.wire
  ready : s.txReady = (s.wire.txValid && room)

/-- The first delta cycle is a run of `Assign`, if `Assign` notices what it has to. -/
theorem settle_of {c : Mvm} {room : Bool} {p s : Sig} (h : senses p s = false → assign c s = s.wire) :
    Calm c room (settle c room p s) ∧ (settle c room p s).reg = s.reg ∧ (settle c room p s).rxUser = s.rxUser := by
  have h1 : delta c room (p, s) = (s, after c room s) := by
    unfold delta after
    by_cases hs : senses p s = true
    · simp only [hs, if_true]
    · have hs' : senses p s = false := by simpa using hs
      simp [hs', h hs']
  unfold settle
  rw [h1, delta_after, delta_after, delta_after]
  exact ⟨⟨assign_eq rfl rfl rfl rfl rfl (.inl rfl), rfl⟩, rfl, rfl⟩

theorem settle_same {c : Mvm} {room room' : Bool} {s : Sig} (h : Calm c room s) :
    Calm c room' (settle c room' s s) ∧ (settle c room' s s).reg = s.reg ∧ (settle c room' s s).rxUser = s.rxUser :=
  settle_of fun _ => h.wire

/-- A fifth delta cycle changes nothing. -/
theorem Calm.stable {c : Mvm} {room : Bool} {s : Sig} (h : Calm c room s) : delta c room (s, s) = (s, s) := by
  have : senses s s = false := by simp [senses]
  unfold delta
  simp only [this, Bool.false_eq_true, if_false, ← h.ready]

end RadSim.Mlp
