import Verif.Model.Bits

namespace RadSim

theorem getLsbD_getRange {n : Nat} (v : BitVec n) (lo len i : Nat) :
    (getRange v lo len).getLsbD i = (decide (i < len) && v.getLsbD (lo + i)) := by
  simp [getRange, BitVec.getLsbD_extractLsb']

theorem getLsbD_setRange {n m : Nat} (v : BitVec n) (lo len : Nat) (x : BitVec m) (i : Nat) :
    (setRange v lo len x).getLsbD i =
      (decide (i < n) &&
        (if lo ≤ i ∧ i < lo + len then x.getLsbD (i - lo) else v.getLsbD i)) := by
  unfold setRange
  simp only [BitVec.getLsbD_or, BitVec.getLsbD_and, BitVec.getLsbD_not, BitVec.getLsbD_shiftLeft,
    BitVec.getLsbD_setWidth, BitVec.getLsbD_allOnes]
  by_cases h1 : i < n <;> by_cases h2 : lo ≤ i <;> by_cases h3 : i < lo + len <;>
    simp_all <;> grind

/-- Reading back the slice that was written. -/
theorem getRange_setRange_same {n : Nat} (v : BitVec n) (lo len : Nat) (x : BitVec len)
    (h : lo + len ≤ n) : getRange (setRange v lo len x) lo len = x := by
  apply BitVec.eq_of_getLsbD_eq
  intro i hi
  rw [getLsbD_getRange, getLsbD_setRange]
  simp [hi]
  omega

/-- Reading a slice disjoint from the one that was written. -/
theorem getRange_setRange_disjoint {n m : Nat} (v : BitVec n) (lo len lo' len' : Nat) (x : BitVec m)
    (h : lo' + len' ≤ lo ∨ lo + len ≤ lo') (hn : lo' + len' ≤ n) :
    getRange (setRange v lo len x) lo' len' = getRange v lo' len' := by
  apply BitVec.eq_of_getLsbD_eq
  intro i hi
  rw [getLsbD_getRange, getLsbD_setRange, getLsbD_getRange]
  have : ¬ (lo ≤ lo' + i ∧ lo' + i < lo + len) := by omega
  simp [hi, this]
  omega

end RadSim
