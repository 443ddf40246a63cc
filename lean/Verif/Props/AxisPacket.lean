import Verif.Lemmas.AxisPacket

/-!
# C01, C02, C03, C04, C10: what a beat looks like on the other side

`transport` below is the path of one flit through source injection and sink ejection; the NoC in
between forwards the BookSim flit unchanged.
-/

namespace RadSim

/-- One flit from the source's injection queue to the sink's ejection queue: `InputInjection`
(`rad-sim/sim/noc/axis_slave_adapter.cpp:220-263`) followed by `OutputEjection`
(`rad-sim/sim/noc/axis_master_adapter.cpp:83-98`). -/
def transport (radId portalId : Nat) (f : ScFlit) : ScFlit :=
  ejectFlit (injectFlit radId portalId f)

/-- The beat that leaves the sink port for a beat accepted at a source port of width `dataw`:
packetisation, transport of each flit, reassembly
(`rad-sim/sim/noc/axis_slave_adapter.cpp:152-282`, `rad-sim/sim/noc/axis_master_adapter.cpp:65-249`). -/
def delivered (c : VcConfig) (radId portalId dataw : Nat) (t : AxisTxn) : Option AxisOut :=
  axisOutput ((packetFlits c (numFlits dataw) t).map (transport radId portalId))

/-! ## helper lemmas -/

theorem transport_payload (r p : Nat) (f : ScFlit) : (transport r p f).payload = f.payload := rfl

theorem transport_destIf (r p : Nat) (f : ScFlit) : (transport r p f).destIf = f.destIf := by
  simp [transport, ejectFlit, injectFlit]

theorem packetFlits_cons (c : VcConfig) (n : Nat) (t : AxisTxn) (h : 0 < n) :
    ∃ fs, packetFlits c n t = flitOf c n t 0 :: fs := by
  obtain ⟨m, rfl⟩ : ∃ m, n = m + 1 := ⟨n - 1, by omega⟩
  simp [packetFlits, List.range_succ_eq_map]

theorem delivered_eq (c : VcConfig) (r p dataw : Nat) (t : AxisTxn) :
    ∃ o, delivered c r p dataw t = some o ∧
      o.tdest = (transport r p (flitOf c (numFlits dataw) t 0)).dest ∧
      o.tid = BitVec.ofNat 32 (flitOf c (numFlits dataw) t 0).destIf.toNat ∧
      o.tdata = getRange (reassembleFrom 0 0
        ((packetFlits c (numFlits dataw) t).map (transport r p))) 76 512 ∧
      o.tuser = getRange (reassembleFrom 0 0
        ((packetFlits c (numFlits dataw) t).map (transport r p))) 1 75 ∧
      o.tlast = (getRange (reassembleFrom 0 0
        ((packetFlits c (numFlits dataw) t).map (transport r p))) 0 1 == 1) := by
  obtain ⟨fs, hfs⟩ := packetFlits_cons c (numFlits dataw) t (numFlits_pos dataw)
  simp [delivered, hfs, axisOutput, transport_destIf]

theorem getLsbD_delivered_bv (c : VcConfig) (r p n : Nat) (t : AxisTxn) (b : Nat)
    (hb : b < axisPayloadW) :
    (reassembleFrom 0 0 ((packetFlits c n t).map (transport r p))).getLsbD b =
      (decide (b < n * flitW) && (packetBv t).getLsbD b) := by
  have h := getLsbD_reassemble_of_carries
    (carries_map (transport r p) (transport_payload r p) (carries_packetFlits c n t)) b hb
  simpa [packetFlits] using h

theorem ofInt_toInt_low (x : BitVec 7) (i : Nat) (h : i < 7) :
    (BitVec.ofInt 32 x.toInt).getLsbD i = x.getLsbD i := by
  have : BitVec.ofInt 32 x.toInt = x.signExtend 32 := by
    simp [BitVec.signExtend]
  rw [this, BitVec.getLsbD_signExtend]
  simp [h]; omega

theorem getLsbD_transport_dest (r p : Nat) (f : ScFlit) (i : Nat) (hi : i < 21) :
    (transport r p f).dest.getLsbD i =
      if i < 7 ∧ destRad f.dest ≠ BitVec.ofNat 7 r then p.testBit i else f.dest.getLsbD i := by
  simp only [transport, ejectFlit, getLsbD_setRange]
  have hi32 : i < 32 := by omega
  by_cases h0 : i < 7
  · have h1 : ¬ (14 ≤ i ∧ i < 14 + 7) := by omega
    have h2 : ¬ (7 ≤ i ∧ i < 7 + 7) := by omega
    have h3 : (0 ≤ i ∧ i < 0 + 7) := by omega
    rw [if_neg h1, if_neg h2, if_pos h3]
    simp only [injectFlit]
    by_cases hr : destRad f.dest = BitVec.ofNat 7 r
    · simp only [hr, if_true, BitVec.getLsbD_ofNat, BitVec.testBit_toNat, BitVec.getLsbD_setWidth,
        destLocal, getLsbD_getRange, Nat.sub_zero]
      simp [hi, h0, hi32]
    · have h7 : i < 7 ∧ destRad f.dest ≠ BitVec.ofNat 7 r := ⟨h0, hr⟩
      simp only [if_pos h7, hr, if_false, BitVec.getLsbD_ofNat, BitVec.testBit_toNat, Nat.sub_zero]
      simp [hi, h0, hi32]
  · have h5 : ¬ (i < 7 ∧ destRad f.dest ≠ BitVec.ofNat 7 r) := by omega
    rw [if_neg h5]
    by_cases h1 : 14 ≤ i ∧ i < 14 + 7
    · rw [if_pos h1]
      simp only [injectFlit]
      rw [ofInt_toInt_low _ _ (by omega), destRad, getLsbD_getRange]
      have : 14 + (i - 14) = i := by omega
      have h6 : i - 14 < 7 := by omega
      simp [hi, this, h6]
    · have h2 : (7 ≤ i ∧ i < 7 + 7) := by omega
      rw [if_neg h1, if_pos h2]
      simp only [injectFlit]
      rw [ofInt_toInt_low _ _ (by omega), destRemote, getLsbD_getRange]
      have : 7 + (i - 7) = i := by omega
      have h6 : i - 7 < 7 := by omega
      simp [hi, this, h6]

/-! ## C01 -/

/-- **C01.** A beat accepted at a port of width `dataw` arrives, at a node of the same RAD, with
the same data (on the `dataw` wires the port has), the same user bits, last flag and
destination, for every width, virtual channel layout, RAD and portal number. -/
theorem C01_axis_beat_round_trip (c : VcConfig) (radId portalId dataw : Nat) (t : AxisTxn)
    (hw : dataw ≤ 512) (hdata : t.tdata.toNat < 2 ^ dataw) :
    ∃ o, delivered c radId portalId dataw t = some o ∧
      o.tdata = t.tdata ∧ o.tuser = t.tuser ∧ o.tlast = t.tlast ∧
      (t.tdest.toNat / 2 ^ 14 = radId % 128 → o.tdest = t.tdest) := by
  obtain ⟨o, ho, hdest, _, hd, hu, hl⟩ := delivered_eq c radId portalId dataw t
  have hcov := numFlits_covers dataw
  refine ⟨o, ho, ?_, ?_, ?_, ?_⟩
  · rw [hd]
    apply BitVec.eq_of_getLsbD_eq
    intro i hi
    have hi' : i < 512 := hi
    rw [getLsbD_getRange, getLsbD_delivered_bv _ _ _ _ _ _ (by show 76 + i < 588; omega),
      getLsbD_packetBv]
    have h1 : ¬ (76 + i = 0) := by omega
    have h2 : ¬ (76 + i < 75 + 1) := by omega
    have h3 : 76 + i - (75 + 1) = i := by omega
    rw [if_neg h1, if_neg h2, h3]
    by_cases hlt : i < dataw
    · have : 76 + i < numFlits dataw * flitW := by omega
      simp [this, hi']
    · have : t.tdata.getLsbD i = false := by
        rw [← BitVec.testBit_toNat]
        exact Nat.testBit_lt_two_pow
          (Nat.lt_of_lt_of_le hdata (Nat.pow_le_pow_right (by omega) (by omega)))
      simp [this]
  · rw [hu]
    apply BitVec.eq_of_getLsbD_eq
    intro i hi
    have hi' : i < 75 := hi
    rw [getLsbD_getRange, getLsbD_delivered_bv _ _ _ _ _ _ (by show 1 + i < 588; omega),
      getLsbD_packetBv]
    have h1 : ¬ (1 + i = 0) := by omega
    have h2 : 1 + i < 75 + 1 := by omega
    have h3 : 1 + i - 1 = i := by omega
    have h4 : 1 + i < numFlits dataw * flitW := by omega
    rw [if_neg h1, if_pos h2, h3]
    simp [hi', h4]
  · rw [hl]
    have h0 := getLsbD_delivered_bv c radId portalId (numFlits dataw) t 0 (by show 0 < 588; omega)
    rw [getLsbD_packetBv] at h0
    have h4 : 0 < numFlits dataw * flitW := by omega
    simp only [h4, decide_true, Bool.true_and, if_true] at h0
    generalize hbv : reassembleFrom 0 0
      ((packetFlits c (numFlits dataw) t).map (transport radId portalId)) = bv at h0 ⊢
    have h5 : getRange bv 0 1 = BitVec.ofBool t.tlast := by
      apply BitVec.eq_of_getLsbD_eq
      intro i hi
      have : i = 0 := by omega
      subst this
      rw [getLsbD_getRange, ← h0]
      simp
    rw [h5]
    cases t.tlast <;> decide
  · intro hrad
    rw [hdest]
    apply BitVec.eq_of_getLsbD_eq
    intro i hi
    rw [getLsbD_transport_dest _ _ _ _ hi]
    have : destRad t.tdest = BitVec.ofNat 7 radId := by
      apply BitVec.eq_of_toNat_eq
      simp only [destRad, getRange, BitVec.extractLsb'_toNat, BitVec.toNat_ofNat,
        Nat.shiftRight_eq_div_pow, hrad]
      omega
    simp [flitOf, this]

/-- C01 without assuming that the unused upper data wires are zero: the wires the port has are
preserved bit for bit. -/
theorem C01_axis_low_bits (c : VcConfig) (radId portalId dataw : Nat) (t : AxisTxn)
    (hw : dataw ≤ 512) :
    ∃ o, delivered c radId portalId dataw t = some o ∧
      ∀ i, i < dataw → o.tdata.getLsbD i = t.tdata.getLsbD i := by
  obtain ⟨o, ho, _, _, hd, _, _⟩ := delivered_eq c radId portalId dataw t
  have hcov := numFlits_covers dataw
  refine ⟨o, ho, ?_⟩
  intro i hi
  rw [hd, getLsbD_getRange, getLsbD_delivered_bv _ _ _ _ _ _ (by show 76 + i < 588; omega),
      getLsbD_packetBv]
  have h1 : ¬ (76 + i = 0) := by omega
  have h2 : ¬ (76 + i < 75 + 1) := by omega
  have h3 : 76 + i - (75 + 1) = i := by omega
  have h4 : 76 + i < numFlits dataw * flitW := by omega
  have h5 : i < 512 := by omega
  rw [if_neg h1, if_neg h2, h3]
  simp [h4, h5]

set_option exponentiation.threshold 1024

/-- A beat that meets the hypotheses of C01: 200-bit port, data with its top bit set. -/
def sampleTxn : AxisTxn where
  tdata := BitVec.ofNat 512 (2 ^ 199 + 12345)
  tdest := BitVec.ofNat 21 (2 * 2 ^ 14 + 3 * 2 ^ 7 + 5)
  tid := 7
  tkeep := 0
  tlast := true
  tstrb := 0
  tuser := BitVec.ofNat 75 (2 ^ 74 + 1)
  id := 42
  type := .readRequest
  iface := 0

/-- A virtual channel layout used by the examples: five types on five channels. -/
def sampleVc : VcConfig := ⟨0, 1, 2, 3, 4⟩

example : sampleTxn.tdata.toNat < 2 ^ 200 ∧ sampleTxn.tdest.toNat / 2 ^ 14 = 2 % 128 ∧
    200 ≤ 512 := by decide
example : ∃ o, delivered sampleVc 2 9 200 sampleTxn = some o ∧ o.tdata = sampleTxn.tdata ∧
    o.tdest = sampleTxn.tdest := by
  obtain ⟨o, h, h1, _, _, h4⟩ :=
    C01_axis_beat_round_trip sampleVc 2 9 200 sampleTxn (by decide) (by decide)
  exact ⟨o, h, h1, h4 (by decide)⟩

/-! ## C02 -/

/-- C02, general form: the interface index arrives modulo 32. -/
theorem C02_tid_mod (c : VcConfig) (radId portalId dataw : Nat) (t : AxisTxn) :
    ∃ o, delivered c radId portalId dataw t = some o ∧ o.tid.toNat = t.tid.toNat % 32 := by
  obtain ⟨o, ho, _, ht, _⟩ := delivered_eq c radId portalId dataw t
  refine ⟨o, ho, ?_⟩
  rw [ht]
  simp only [flitOf, BitVec.toNat_ofNat, BitVec.toNat_setWidth]
  omega

/-- **C02** (partial): the interface index is preserved when it fits the five-bit field of a
flit. Missing: indices of 32 and above, for which the claim is false
(`C02_tid_violated`). -/
theorem C02_tid_preserved_partial (c : VcConfig) (radId portalId dataw : Nat) (t : AxisTxn)
    (h : t.tid.toNat < 32) :
    ∃ o, delivered c radId portalId dataw t = some o ∧ o.tid = t.tid := by
  obtain ⟨o, ho, ht⟩ := C02_tid_mod c radId portalId dataw t
  refine ⟨o, ho, BitVec.eq_of_toNat_eq ?_⟩
  rw [ht, Nat.mod_eq_of_lt h]

example : sampleTxn.tid.toNat < 32 := by decide

/-- C02 is false as stated: no beat with an index of 32 or more keeps its index. -/
theorem C02_tid_violated (c : VcConfig) (radId portalId dataw : Nat) (t : AxisTxn)
    (h : 32 ≤ t.tid.toNat) :
    ∃ o, delivered c radId portalId dataw t = some o ∧ o.tid ≠ t.tid := by
  obtain ⟨o, ho, ht⟩ := C02_tid_mod c radId portalId dataw t
  refine ⟨o, ho, fun hc => ?_⟩
  rw [hc] at ht
  omega

example : 32 ≤ ({ sampleTxn with tid := 33 } : AxisTxn).tid.toNat := by decide

/-! ## C03 -/

/-- Specification of a well framed packet: one head, at the front; one tail, at the back; common
header fields. -/
structure WellFramed (fs : List ScFlit) : Prop where
  nonempty : fs ≠ []
  head_iff : ∀ i f, fs[i]? = some f → (f.head = true ↔ i = 0)
  tail_iff : ∀ i f, fs[i]? = some f → (f.tail = true ↔ i + 1 = fs.length)
  common : ∀ f ∈ fs, ∀ g ∈ fs, f.packetId = g.packetId ∧ f.vc = g.vc ∧ f.type = g.type ∧
    f.dest = g.dest ∧ f.destIf = g.destIf ∧ f.simId = g.simId

/-- **C03.** The packet of a beat is well framed and has the least number of flits whose payloads
hold the beat (76 side-band bits and `dataw` data bits, 82 bits per flit). -/
theorem C03_packets_well_framed (c : VcConfig) (dataw : Nat) (t : AxisTxn) :
    WellFramed (packetFlits c (numFlits dataw) t) ∧
    (∀ n, n = (packetFlits c (numFlits dataw) t).length →
      76 + dataw ≤ 82 * n ∧ 82 * (n - 1) < 76 + dataw) := by
  have hpos := numFlits_pos dataw
  have hlen : (packetFlits c (numFlits dataw) t).length = numFlits dataw := by simp [packetFlits]
  have hget : ∀ i f, (packetFlits c (numFlits dataw) t)[i]? = some f →
      i < numFlits dataw ∧ f = flitOf c (numFlits dataw) t i := by
    intro i f h
    have hi := (List.getElem?_eq_some_iff.mp h).1
    rw [hlen] at hi
    refine ⟨hi, ?_⟩
    simp only [packetFlits, List.getElem?_map, List.getElem?_range hi, Option.map_some,
      Option.some.injEq] at h
    exact h.symm
  constructor
  · constructor
    · intro h
      rw [h] at hlen
      simp at hlen
      omega
    · intro i f h
      obtain ⟨_, rfl⟩ := hget i f h
      simp [flitOf]
    · intro i f h
      obtain ⟨h1, rfl⟩ := hget i f h
      rw [hlen]
      simp [flitOf]
      omega
    · intro f hf g hg
      simp only [packetFlits, List.mem_map] at hf hg
      obtain ⟨i, _, rfl⟩ := hf
      obtain ⟨j, _, rfl⟩ := hg
      simp [flitOf]
  · intro n hn
    rw [hlen] at hn
    subst hn
    have h1 := numFlits_covers dataw
    have h2 := numFlits_tight dataw
    simp only [flitW] at h1 h2
    omega

example : (packetFlits sampleVc (numFlits 200) sampleTxn).length = 4 := by decide

/-! ## C04 -/

/-- The composition used by the designs, e.g. `rad-sim/example-designs/mlp/modules/mvm.cpp:499-502`:
the three fields are written one after the other into a 21-bit vector. -/
def mkDest (rad remote loc : BitVec 7) : BitVec 21 :=
  let d : BitVec 21 := 0
  let d := setRange d 7 7 remote
  let d := setRange d 0 7 loc
  setRange d 14 7 rad

/-- **C04.** The three destination fields of a composed destination are recovered independently,
and they are the base-128 digits of the word. -/
theorem C04_dest_fields_recovered (rad remote loc : BitVec 7) :
    destRad (mkDest rad remote loc) = rad ∧ destRemote (mkDest rad remote loc) = remote ∧
    destLocal (mkDest rad remote loc) = loc ∧
    (mkDest rad remote loc).toNat = rad.toNat * 16384 + remote.toNat * 128 + loc.toNat := by
  have h1 : destRad (mkDest rad remote loc) = rad := by
    simp only [destRad, mkDest]
    rw [getRange_setRange_same _ _ _ _ (by omega)]
  have h2 : destRemote (mkDest rad remote loc) = remote := by
    simp only [destRemote, mkDest]
    rw [getRange_setRange_disjoint _ _ _ _ _ _ (by omega) (by omega),
      getRange_setRange_disjoint _ _ _ _ _ _ (by omega) (by omega),
      getRange_setRange_same _ _ _ _ (by omega)]
  have h3 : destLocal (mkDest rad remote loc) = loc := by
    simp only [destLocal, mkDest]
    rw [getRange_setRange_disjoint _ _ _ _ _ _ (by omega) (by omega),
      getRange_setRange_same _ _ _ _ (by omega)]
  refine ⟨h1, h2, h3, ?_⟩
  have e1 := congrArg BitVec.toNat h1
  have e2 := congrArg BitVec.toNat h2
  have e3 := congrArg BitVec.toNat h3
  simp only [destRad, destRemote, destLocal, getRange, BitVec.extractLsb'_toNat,
    Nat.shiftRight_eq_div_pow] at e1 e2 e3
  have := (mkDest rad remote loc).isLt
  omega

/-- **C04**, bridge part: crossing RADs moves the remote-node field to the local-node field,
clears the remote-node field and leaves the RAD field alone. -/
theorem C04_bridge_rewrites_dest (d : BitVec 21) :
    destRad (bridgeDest d) = destRad d ∧ destLocal (bridgeDest d) = destRemote d ∧
    destRemote (bridgeDest d) = 0 := by
  refine ⟨?_, ?_, ?_⟩
  · simp only [destRad, bridgeDest]
    rw [getRange_setRange_disjoint _ _ _ _ _ _ (by omega) (by omega),
      getRange_setRange_disjoint _ _ _ _ _ _ (by omega) (by omega)]
  · simp only [destLocal, bridgeDest]
    rw [getRange_setRange_disjoint _ _ _ _ _ _ (by omega) (by omega),
      getRange_setRange_same _ _ _ _ (by omega)]
  · simp only [destRemote, bridgeDest]
    rw [getRange_setRange_same _ _ _ _ (by omega)]

/-- **C04**, transport part: at the sink the RAD and remote-node fields are the source's; the
local-node field is the source's, or the portal's number if the beat leaves the RAD. -/
theorem C04_transport_dest_fields (r p : Nat) (f : ScFlit) :
    destRad (transport r p f).dest = destRad f.dest ∧
    destRemote (transport r p f).dest = destRemote f.dest ∧
    destLocal (transport r p f).dest =
      (if destRad f.dest = BitVec.ofNat 7 r then destLocal f.dest else BitVec.ofNat 7 p) := by
  refine ⟨?_, ?_, ?_⟩ <;> apply BitVec.eq_of_getLsbD_eq <;> intro i hi
  · simp only [destRad, getLsbD_getRange]
    rw [getLsbD_transport_dest _ _ _ _ (by omega)]
    have : ¬ (14 + i < 7) := by omega
    simp [this]
  · simp only [destRemote, getLsbD_getRange]
    rw [getLsbD_transport_dest _ _ _ _ (by omega)]
    have : ¬ (7 + i < 7) := by omega
    simp [this]
  · simp only [destLocal, getLsbD_getRange]
    rw [getLsbD_transport_dest _ _ _ _ (by omega)]
    by_cases h : destRad f.dest = BitVec.ofNat 7 r
    · simp [h, getLsbD_getRange]
    · rw [if_neg h, BitVec.getLsbD_ofNat]
      simp [h, hi]

example : (mkDest 2 3 5).toNat = sampleTxn.tdest.toNat ∧
    (bridgeDest sampleTxn.tdest).toNat = 2 * 2 ^ 14 + 3 := by decide

/-! ## C10 -/

/-- **C10.** For RAD numbers below 128 and portal nodes below 2^21, the flit handed to the NoC is
addressed to the node in the low seven bits of `tdest` if the top seven bits name this RAD, and to
the portal node otherwise; in both cases its RAD and remote fields are, modulo 128, the digits of
`tdest`. -/
theorem C10_injected_destination (c : VcConfig) (radId portalId n i : Nat) (t : AxisTxn)
    (hr : radId < 128) (hp : portalId < 2 ^ 21) :
    ((injectFlit radId portalId (flitOf c n t i)).dest =
      if t.tdest.toNat / 16384 = radId then t.tdest.toNat % 128 else portalId) ∧
    (injectFlit radId portalId (flitOf c n t i)).destRad % 128 = (t.tdest.toNat / 16384 : Nat) ∧
    (injectFlit radId portalId (flitOf c n t i)).destRemote % 128 =
      (t.tdest.toNat / 128 % 128 : Nat) := by
  have hlt := t.tdest.isLt
  have hrad : (destRad t.tdest).toNat = t.tdest.toNat / 16384 := by
    simp only [destRad, getRange, BitVec.extractLsb'_toNat, Nat.shiftRight_eq_div_pow]
    omega
  have hrem : (destRemote t.tdest).toNat = t.tdest.toNat / 128 % 128 := by
    simp only [destRemote, getRange, BitVec.extractLsb'_toNat, Nat.shiftRight_eq_div_pow]
  have hloc : (destLocal t.tdest).toNat = t.tdest.toNat % 128 := by
    simp [destLocal, getRange, BitVec.extractLsb'_toNat]
  have toInt_mod : ∀ x : BitVec 7, x.toInt % 128 = (x.toNat : Int) := by
    intro x
    have := x.isLt
    simp only [BitVec.toInt]
    split <;> omega
  refine ⟨?_, ?_, ?_⟩
  · change (if destRad t.tdest = BitVec.ofNat 7 radId then ((destLocal t.tdest).setWidth 21).toNat
      else (BitVec.ofNat 21 portalId).toNat) = _
    have hiff : destRad t.tdest = BitVec.ofNat 7 radId ↔ t.tdest.toNat / 16384 = radId := by
      constructor
      · intro h
        rw [← hrad, h, BitVec.toNat_ofNat]
        omega
      · intro h
        apply BitVec.eq_of_toNat_eq
        rw [hrad, h, BitVec.toNat_ofNat]
        omega
    by_cases h : t.tdest.toNat / 16384 = radId
    · rw [if_pos (hiff.mpr h), if_pos h, BitVec.toNat_setWidth, hloc]
      omega
    · rw [if_neg (fun hc => h (hiff.mp hc)), if_neg h, BitVec.toNat_ofNat]
      omega
  · simp only [injectFlit, flitOf]
    rw [toInt_mod, hrad]
  · simp only [injectFlit, flitOf]
    rw [toInt_mod, hrem]

example : (injectFlit 2 9 (flitOf sampleVc 5 sampleTxn 0)).dest = 5 ∧
    (injectFlit 1 9 (flitOf sampleVc 5 sampleTxn 0)).dest = 9 := by decide

/-- The hypothesis `radId < 128` of C10 is needed: RAD numbers are compared on seven bits, so RAD
128 takes beats meant for RAD 0 as local. -/
theorem C10_rad_number_aliases : ∃ t : AxisTxn, t.tdest.toNat / 16384 ≠ 128 ∧
    (injectFlit 128 9 (flitOf sampleVc 1 t 0)).dest = t.tdest.toNat % 128 ∧
    t.tdest.toNat % 128 ≠ 9 :=
  ⟨{ sampleTxn with tdest := 5 }, by decide⟩

end RadSim
