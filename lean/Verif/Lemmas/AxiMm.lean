import Verif.Model.AxiMm
import Verif.Lemmas.AxisPacket

namespace RadSim

/-! ## reassembly -/

theorem getLsbD_mmReassembleFrom (fs : List ScFlit) (bv : BitVec mmPayloadW) (i b : Nat)
    (hb : b < mmPayloadW) :
    (mmReassembleFrom bv i fs).getLsbD b =
      if i ≤ b / flitW then
        match fs[b / flitW - i]? with
        | some f => f.payload.getLsbD (b % flitW)
        | none => bv.getLsbD b
      else bv.getLsbD b := by
  induction fs generalizing bv i with
  | nil => simp [mmReassembleFrom]
  | cons f fs ih =>
    rw [mmReassembleFrom, ih, getLsbD_setRange]
    simp only [flitW, mmPayloadW] at *
    by_cases h1 : i + 1 ≤ b / 82
    · have h2 : i ≤ b / 82 := by omega
      have h3 : b / 82 - i = (b / 82 - (i + 1)) + 1 := by omega
      have h4 : ¬ (i * 82 ≤ b ∧ b < i * 82 + (min 579 ((i + 1) * 82) - i * 82)) := by omega
      simp only [h1, h2, if_true, h3, List.getElem?_cons_succ, h4, if_false, hb, decide_true,
        Bool.true_and]
    · by_cases h2 : i ≤ b / 82
      · have h3 : b / 82 = i := by omega
        have h4 : (i * 82 ≤ b ∧ b < i * 82 + (min 579 ((i + 1) * 82) - i * 82)) := by omega
        have h5 : b - i * 82 = b % 82 := by omega
        have h6 : b / 82 - i = 0 := by omega
        rw [if_neg h1, if_pos h2, if_pos h4, h5, h6]
        simp [hb]
      · have h4 : ¬ (i * 82 ≤ b ∧ b < i * 82 + (min 579 ((i + 1) * 82) - i * 82)) := by omega
        simp [h1, h2, h4, hb]

theorem mmPacket_getElem? (c : VcConfig) (dataw : Nat) (t : MmTxn) (i : Nat) (f : ScFlit)
    (h : (mmPacket c dataw t)[i]? = some f) : f = mmFlitOf c (mmFlits dataw t.type) t i := by
  simp only [mmPacket, List.getElem?_map, Option.map_eq_some_iff] at h
  obtain ⟨j, hj, rfl⟩ := h
  rw [List.getElem?_range (by
    have := (List.getElem?_eq_some_iff.mp hj).1; simpa using this)] at hj
  cases hj
  rfl

theorem length_mmPacket (c : VcConfig) (dataw : Nat) (t : MmTxn) :
    (mmPacket c dataw t).length = mmFlits dataw t.type := by simp [mmPacket]

/-- The vector rebuilt from the flits of a transaction has the bits that fit in the flits. -/
theorem getLsbD_mmReassemble (c : VcConfig) (dataw : Nat) (t : MmTxn) (g : ScFlit → ScFlit)
    (hg : ∀ f, (g f).payload = f.payload) (b : Nat) (hb : b < mmPayloadW) :
    (mmReassembleFrom 0 0 ((mmPacket c dataw t).map g)).getLsbD b =
      (decide (b < mmFlits dataw t.type * flitW) && (mmPacketBv t).getLsbD b) := by
  rw [getLsbD_mmReassembleFrom _ _ _ _ hb]
  simp only [Nat.zero_le, if_true, Nat.sub_zero, List.getElem?_map]
  cases hf : (mmPacket c dataw t)[b / flitW]? with
  | none =>
    have := List.getElem?_eq_none_iff.mp hf
    rw [length_mmPacket] at this
    have h2 : ¬ b < mmFlits dataw t.type * flitW := by simp only [flitW] at *; omega
    simp only [h2, decide_false, Bool.false_and, Option.map_none]
    exact BitVec.getLsbD_zero ..
  | some f =>
    have h1 := (List.getElem?_eq_some_iff.mp hf).1
    rw [length_mmPacket] at h1
    have h2 : b < mmFlits dataw t.type * flitW := by simp only [flitW] at *; omega
    have h3 : b / flitW * flitW + b % flitW = b := Nat.div_add_mod' b flitW
    have h4 : b % flitW < flitW := Nat.mod_lt _ (by simp [flitW])
    have h5 := mmPacket_getElem? c dataw t _ f hf
    simp only [Option.map_some, hg, h5, mmFlitOf, getLsbD_flitSlice, h2, h3, h4, decide_true,
      Bool.true_and]

theorem mmFlits_pos (dataw : Nat) (t : MmType) : 0 < mmFlits dataw t := by
  cases t <;> simp only [mmFlits, flitW] <;> omega

theorem mmPacket_head (c : VcConfig) (dataw : Nat) (t : MmTxn) :
    ∃ fs, mmPacket c dataw t = mmFlitOf c (mmFlits dataw t.type) t 0 :: fs := by
  obtain ⟨m, hm⟩ : ∃ m, mmFlits dataw t.type = m + 1 :=
    ⟨mmFlits dataw t.type - 1, by have := mmFlits_pos dataw t.type; omega⟩
  simp [mmPacket, hm, List.range_succ_eq_map]

theorem mmEject_mmInject_payload (f : ScFlit) : (mmEject (mmInject f)).payload = f.payload := rfl

theorem mmEject_mmInject (f : ScFlit) : mmEject (mmInject f) = f := by
  cases f
  simp [mmEject, mmInject]

/-! ## the fields of a packet -/

/-- A field of the rebuilt vector equals the same field of the packet when it fits in the flits. -/
theorem getRange_mmReassemble (c : VcConfig) (dataw : Nat) (t : MmTxn) (lo len : Nat)
    (h1 : lo + len ≤ mmPayloadW) (h2 : lo + len ≤ mmFlits dataw t.type * flitW) :
    getRange (mmReassembleFrom 0 0 ((mmPacket c dataw t).map (fun f => mmEject (mmInject f)))) lo len
      = getRange (mmPacketBv t) lo len := by
  apply BitVec.eq_of_getLsbD_eq
  intro i hi
  rw [getLsbD_getRange, getLsbD_getRange,
    getLsbD_mmReassemble _ _ _ _ mmEject_mmInject_payload _ (by omega)]
  have : lo + i < mmFlits dataw t.type * flitW := by omega
  simp [this]

theorem getLsbD_high {n : Nat} (x : BitVec n) (w i : Nat) (h : x.toNat < 2 ^ w) (hi : w ≤ i) :
    x.getLsbD i = false := by
  rw [← BitVec.testBit_toNat]
  exact Nat.testBit_lt_two_pow (Nat.lt_of_lt_of_le h (Nat.pow_le_pow_right (by omega) hi))

theorem getRange_zero {n : Nat} (lo len : Nat) : getRange (0 : BitVec n) lo len = 0 := by
  apply BitVec.eq_of_getLsbD_eq
  intro i hi
  rw [getLsbD_getRange]
  simp

/-- The data field of the rebuilt vector, when the data fits the interface width. -/
theorem data_mmReassemble (c : VcConfig) (dataw : Nat) (t : MmTxn) (ht : t.type = .w ∨ t.type = .r)
    (hd : t.payload.toNat < 2 ^ dataw) :
    getRange (mmReassembleFrom 0 0 ((mmPacket c dataw t).map (fun f => mmEject (mmInject f)))) 67 512
      = t.payload := by
  have hcov : 67 + dataw ≤ mmFlits dataw t.type * flitW := by
    rcases ht with h | h <;> rw [h] <;> simp only [mmFlits, flitW] <;> omega
  have hbv : getRange (mmPacketBv t) 67 512 = t.payload := by
    rcases ht with h | h <;> simp only [mmPacketBv, h] <;>
      exact getRange_setRange_same _ 67 512 _ (by simp [mmPayloadW])
  apply BitVec.eq_of_getLsbD_eq
  intro i hi
  rw [getLsbD_getRange, getLsbD_mmReassemble _ _ _ _ mmEject_mmInject_payload _
    (by simp only [mmPayloadW]; omega)]
  have hb : (mmPacketBv t).getLsbD (67 + i) = t.payload.getLsbD i := by
    rw [← hbv, getLsbD_getRange]
    have : i < 512 := hi
    simp [this]
  rw [hb]
  by_cases hlt : i < dataw
  · have h1 : 67 + i < mmFlits dataw t.type * flitW := by omega
    have h2 : i < 512 := hi
    rw [decide_eq_true h1, decide_eq_true h2]
    rfl
  · simp [getLsbD_high _ _ _ hd (Nat.le_of_not_lt hlt)]

theorem getRange_ofBool (b : Bool) : (BitVec.ofBool b == 1) = b := by cases b <;> rfl

end RadSim
