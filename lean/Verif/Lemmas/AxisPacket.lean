import Verif.Model.AxisPacket
import Verif.Lemmas.Bits

namespace RadSim

theorem getLsbD_flitSlice {w : Nat} (bv : BitVec w) (i j : Nat) :
    (flitSlice bv i).getLsbD j =
      (decide (j < flitW) && bv.getLsbD (i * flitW + j)) := by
  unfold flitSlice
  simp only [BitVec.getLsbD_setWidth, getLsbD_getRange]
  by_cases hj : j < flitW
  · by_cases hw : i * flitW + j < w
    · have : j < min ((i + 1) * flitW) w - i * flitW := by
        simp only [flitW] at *
        omega
      simp [hj, this]
    · simp [hj, BitVec.getLsbD_of_ge bv (i * flitW + j) (by omega)]
  · simp [hj]

/-- Every bit of a reassembled vector comes from the flit that covers it. -/
theorem getLsbD_reassembleFrom (fs : List ScFlit) (bv : BitVec axisPayloadW) (i b : Nat)
    (hb : b < axisPayloadW) :
    (reassembleFrom bv i fs).getLsbD b =
      if i ≤ b / flitW then
        match fs[b / flitW - i]? with
        | some f => f.payload.getLsbD (b % flitW)
        | none => bv.getLsbD b
      else bv.getLsbD b := by
  induction fs generalizing bv i with
  | nil => simp [reassembleFrom]
  | cons f fs ih =>
    rw [reassembleFrom, ih, getLsbD_setRange]
    simp only [flitW, axisPayloadW] at *
    by_cases h1 : i + 1 ≤ b / 82
    · have h2 : i ≤ b / 82 := by omega
      have h3 : b / 82 - i = (b / 82 - (i + 1)) + 1 := by omega
      have h4 : ¬ (i * 82 ≤ b ∧ b < i * 82 + (min 588 ((i + 1) * 82) - i * 82)) := by omega
      simp only [h1, h2, if_true, h3, List.getElem?_cons_succ, h4, if_false, hb, decide_true,
        Bool.true_and]
    · by_cases h2 : i ≤ b / 82
      · have h3 : b / 82 = i := by omega
        have h4 : (i * 82 ≤ b ∧ b < i * 82 + (min 588 ((i + 1) * 82) - i * 82)) := by omega
        have h5 : b - i * 82 = b % 82 := by omega
        have h6 : b / 82 - i = 0 := by omega
        rw [if_neg h1, if_pos h2, if_pos h4, h5, h6]
        simp [hb]
      · have h4 : ¬ (i * 82 ≤ b ∧ b < i * 82 + (min 588 ((i + 1) * 82) - i * 82)) := by omega
        simp [h1, h2, h4, hb]

theorem getLsbD_packetBv (t : AxisTxn) (b : Nat) :
    (packetBv t).getLsbD b =
      if b = 0 then t.tlast
      else if b < axisUserW + 1 then t.tuser.getLsbD (b - 1)
      else t.tdata.getLsbD (b - (axisUserW + 1)) := by
  unfold packetBv
  simp only [getLsbD_setRange, axisUserW, axisDataW, axisPayloadW]
  by_cases h0 : b = 0
  · subst h0; simp
  · by_cases h1 : b < 76
    · have h2 : ¬ (75 + 1 ≤ b ∧ b < 75 + 1 + 512) := by omega
      have h3 : 1 ≤ b ∧ b < 1 + 75 := by omega
      have h4 : b < 588 := by omega
      rw [if_neg h2, if_pos h3, if_neg h0, if_pos h1]
      simp [h4]
    · by_cases h2 : b < 588
      · have h3 : (75 + 1 ≤ b ∧ b < 75 + 1 + 512) := by omega
        rw [if_pos h3, if_neg h0, if_neg h1]
        simp [h2]
      · have := BitVec.getLsbD_of_ge t.tdata (b - 76) (by show 512 ≤ b - 76; omega)
        rw [if_neg h0, if_neg h1, this]
        simp [h2]

/-- A flit list that carries the packet's slices, whatever else happened to its headers. -/
def CarriesSlices (t : AxisTxn) (fs : List ScFlit) : Prop :=
  ∀ i f, fs[i]? = some f → f.payload = flitSlice (packetBv t) i

theorem getLsbD_reassemble_of_carries {t : AxisTxn} {fs : List ScFlit} (h : CarriesSlices t fs)
    (b : Nat) (hb : b < axisPayloadW) :
    (reassembleFrom 0 0 fs).getLsbD b =
      (decide (b < fs.length * flitW) && (packetBv t).getLsbD b) := by
  rw [getLsbD_reassembleFrom _ _ _ _ hb]
  simp only [Nat.zero_le, if_true, Nat.sub_zero]
  cases hf : fs[b / flitW]? with
  | none =>
    have := List.getElem?_eq_none_iff.mp hf
    have h2 : ¬ b < fs.length * flitW := by simp only [flitW] at *; omega
    simp only [h2, decide_false, Bool.false_and]
    exact BitVec.getLsbD_zero ..
  | some f =>
    have h1 := (List.getElem?_eq_some_iff.mp hf).1
    have h2 : b < fs.length * flitW := by simp only [flitW] at *; omega
    have h3 : b / flitW * flitW + b % flitW = b := Nat.div_add_mod' b flitW
    have h4 : b % flitW < flitW := Nat.mod_lt _ (by simp [flitW])
    simp only [h (b / flitW) f hf, getLsbD_flitSlice, h2, h3, h4, decide_true, Bool.true_and]

theorem carries_packetFlits (c : VcConfig) (n : Nat) (t : AxisTxn) :
    CarriesSlices t (packetFlits c n t) := by
  intro i f h
  simp only [packetFlits, List.getElem?_map, Option.map_eq_some_iff] at h
  obtain ⟨j, hj, rfl⟩ := h
  rw [List.getElem?_range (by
    have := (List.getElem?_eq_some_iff.mp hj).1; simpa using this)] at hj
  cases hj
  rfl

theorem carries_map {t : AxisTxn} {fs : List ScFlit} (g : ScFlit → ScFlit)
    (hg : ∀ f, (g f).payload = f.payload) (h : CarriesSlices t fs) :
    CarriesSlices t (fs.map g) := by
  intro i f hf
  simp only [List.getElem?_map, Option.map_eq_some_iff] at hf
  obtain ⟨f', hf', rfl⟩ := hf
  rw [hg, h i f' hf']

theorem numFlits_pos (dataw : Nat) : 0 < numFlits dataw := by
  simp only [numFlits, flitW, axisPayloadW, axisDataW]; omega

theorem numFlits_covers (dataw : Nat) : 76 + dataw ≤ numFlits dataw * flitW := by
  simp only [numFlits, flitW, axisPayloadW, axisDataW]; omega

theorem numFlits_tight (dataw : Nat) : (numFlits dataw - 1) * flitW < 76 + dataw := by
  simp only [numFlits, flitW, axisPayloadW, axisDataW]; omega

theorem numFlits_le (dataw : Nat) (h : dataw ≤ axisDataW) : numFlits dataw ≤ 8 := by
  simp only [numFlits, flitW, axisPayloadW, axisDataW] at *; omega

end RadSim
