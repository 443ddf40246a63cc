import Verif.Lemmas.MemAddr

/-! # Properties of DRAM addresses (C33, C47) -/

namespace RadSim.Dram

/-- How many values a field takes. -/
def Geometry.count (g : Geometry) : Field → Nat
  | .ch => g.channels
  | .ra => g.ranks
  | .bg => g.bankgroups
  | .ba => g.banksPerGroup
  | .ro => g.rows
  | .co => g.columns / g.burstLength

/-- Bytes moved by one request. -/
def Geometry.requestBytes (g : Geometry) : Nat := g.busWidth / 8 * g.burstLength

/-- Requests that fit in the whole memory. -/
def Geometry.words (g : Geometry) : Nat :=
  g.count .ch * g.count .ra * g.count .bg * g.count .ba * g.count .ro * g.count .co

/-- Bytes behind one channel. -/
def Geometry.channelBytes (g : Geometry) : Nat :=
  g.count .ra * g.count .bg * g.count .ba * g.count .ro * g.count .co * g.requestBytes

/-- Ordinary memories: all numbers are powers of two that fit an `int`, and every field occurs once. -/
structure Regular (g : Geometry) : Prop where
  perm : g.order.Perm [.ch, .ra, .bg, .ba, .ro, .co]
  ch : ∃ k ≤ 30, g.channels = 2 ^ k
  ra : ∃ k ≤ 30, g.ranks = 2 ^ k
  bg : ∃ k ≤ 30, g.bankgroups = 2 ^ k
  ba : ∃ k ≤ 30, g.banksPerGroup = 2 ^ k
  ro : ∃ k ≤ 30, g.rows = 2 ^ k
  co : ∃ k ≤ 30, g.columns = 2 ^ k
  bl : ∃ k ≤ 30, g.burstLength = 2 ^ k ∧ g.burstLength ≤ g.columns
  req : ∃ k ≤ 30, g.requestBytes = 2 ^ k

theorem log_two_pow (k : Nat) : Nat.log 2 (2 ^ k) = k := Nat.log_pow (Nat.lt_succ_self 1) k

theorem Regular.count_eq {g : Geometry} (h : Regular g) (f : Field) :
    g.count f = 2 ^ g.ctrlWidth f ∧ g.ctrlWidth f ≤ 30 := by
  cases f with
  | ch => obtain ⟨k, hk, e⟩ := h.ch; simp [Geometry.count, Geometry.ctrlWidth, e, log_two_pow, hk]
  | ra => obtain ⟨k, hk, e⟩ := h.ra; simp [Geometry.count, Geometry.ctrlWidth, e, log_two_pow, hk]
  | bg => obtain ⟨k, hk, e⟩ := h.bg; simp [Geometry.count, Geometry.ctrlWidth, e, log_two_pow, hk]
  | ba => obtain ⟨k, hk, e⟩ := h.ba; simp [Geometry.count, Geometry.ctrlWidth, e, log_two_pow, hk]
  | ro => obtain ⟨k, hk, e⟩ := h.ro; simp [Geometry.count, Geometry.ctrlWidth, e, log_two_pow, hk]
  | co =>
    obtain ⟨k, hk, e⟩ := h.co
    obtain ⟨j, hj, e', hle⟩ := h.bl
    have hjk : j ≤ k := by
      rw [e, e'] at hle
      exact (Nat.pow_le_pow_iff_right (by omega)).mp hle
    simp only [Geometry.count, Geometry.ctrlWidth, e, e', log_two_pow]
    exact ⟨Nat.pow_div hjk (by omega), by omega⟩

theorem Regular.shift {g : Geometry} (h : Regular g) : g.requestBytes = 2 ^ g.dramShift ∧ g.dramShift ≤ 30 := by
  obtain ⟨k, hk, e⟩ := h.req
  unfold Geometry.dramShift
  unfold Geometry.requestBytes at e ⊢
  rw [e, logBase2_eq, log_two_pow]
  exact ⟨rfl, hk⟩

theorem Regular.nodup {g : Geometry} (h : Regular g) : g.order.Nodup := h.perm.nodup_iff.mpr (by decide)

theorem Regular.mem {g : Geometry} (h : Regular g) (f : Field) : f ∈ g.order :=
  h.perm.mem_iff.mpr (by cases f <;> decide)

theorem Regular.length {g : Geometry} (h : Regular g) : g.order.length = 6 := h.perm.length_eq

theorem Regular.words_eq {g : Geometry} (h : Regular g) :
    g.words = 2 ^ total g.ctrlWidth g.order.reverse := by
  rw [total_perm _ _ _ (g.order.reverse_perm.trans h.perm)]
  unfold Geometry.words
  simp only [fun f => (h.count_eq f).1, ← Nat.pow_add]
  congr 1
  simp [total]
  omega

theorem dramField_eq {g : Geometry} (h : Regular g) (addr : Nat) (f : Field) :
    g.dramField addr f = some (addr / g.requestBytes / 2 ^ below g.ctrlWidth f g.order.reverse % 2 ^ g.ctrlWidth f) := by
  unfold Geometry.dramField
  rw [if_pos h.length, dramWidth_eq, positions_eq _ _ h.nodup f (h.mem f)]
  simp only
  rw [low_eq _ _ (h.count_eq f).2, h.shift.1]

/-! ## C47 -/

/-- **C47.** Every field of every address is in range (powers of two). -/
theorem C47_fields_in_range_partial (g : Geometry) (h : Regular g) (addr : Nat) (f : Field) :
    ∃ v, g.dramField addr f = some v ∧ v < g.count f :=
  ⟨_, dramField_eq h addr f, by rw [(h.count_eq f).1]; exact Nat.mod_lt _ (Nat.two_pow_pos _)⟩

/-- **C47.** Two addresses have the same six fields exactly when they lie in the same request-sized
word, counted modulo the capacity of the memory (powers of two). -/
theorem C47_fields_determine_address_partial (g : Geometry) (h : Regular g) (a a' : Nat) :
    (∀ f, g.dramField a f = g.dramField a' f) ↔
      a / g.requestBytes % g.words = a' / g.requestBytes % g.words := by
  rw [h.words_eq, ← digits_eq_iff g.ctrlWidth g.order.reverse (List.nodup_reverse.mpr h.nodup)]
  constructor
  · intro hh f _
    have := hh f
    rw [dramField_eq h, dramField_eq h, Option.some.injEq] at this
    exact this
  · intro hh f
    rw [dramField_eq h, dramField_eq h, Option.some.injEq]
    exact hh f (List.mem_reverse.mpr (h.mem f))

/-- **C47.** Every location is reached by an address below the capacity (powers of two). -/
theorem C47_every_location_partial (g : Geometry) (h : Regular g) (v : Field → Nat)
    (hv : ∀ f, v f < g.count f) :
    ∃ a < g.words * g.requestBytes, ∀ f, g.dramField a f = some (v f) := by
  have hv' : ∀ f ∈ g.order.reverse, v f < 2 ^ g.ctrlWidth f := fun f _ => (h.count_eq f).1 ▸ hv f
  have hpos : 0 < g.requestBytes := by rw [h.shift.1]; exact Nat.two_pow_pos _
  refine ⟨enc g.ctrlWidth v g.order.reverse * g.requestBytes, ?_, ?_⟩
  · rw [h.words_eq]
    exact Nat.mul_lt_mul_of_pos_right (enc_lt _ _ _ hv') hpos
  · intro f
    rw [dramField_eq h, Nat.mul_div_cancel _ hpos]
    rw [enc_digit g.ctrlWidth v _ hv' f (List.mem_reverse.mpr (h.mem f))]

/-- DDR4, 8 Gb x8, as in `rad-sim/sim/dram/DRAMsim3/configs/DDR4_8Gb_x8_2400.ini`, with two channels. -/
def ddr4 : Geometry :=
  { channels := 2, ranks := 2, bankgroups := 4, banksPerGroup := 4, rows := 65536, columns := 1024,
    burstLength := 8, busWidth := 64, order := [.ro, .ch, .ra, .ba, .bg, .co] }

theorem ddr4_regular : Regular ddr4 := by
  refine ⟨by decide, ⟨1, ?_⟩, ⟨1, ?_⟩, ⟨2, ?_⟩, ⟨2, ?_⟩, ⟨16, ?_⟩, ⟨10, ?_⟩, ⟨3, ?_⟩, ⟨6, ?_⟩⟩ <;> decide

example : ∃ a < ddr4.words * ddr4.requestBytes, ∀ f, ddr4.dramField a f =
    some (match f with | .ch => 1 | .ra => 0 | .bg => 3 | .ba => 2 | .ro => 65535 | .co => 77) :=
  C47_every_location_partial ddr4 ddr4_regular _ (by intro f; cases f <;> decide)

example : ddr4.dramField 0x123456789 .ro = some 9320 := by
  unfold Geometry.dramField
  rw [dramWidth_eq, dramShift_eq _ ⟨8, rfl⟩]
  decide

/-- **C47**, three ranks: no address reaches the third rank. -/
theorem C47_three_ranks_violated (addr : Nat) : { ddr4 with ranks := 3 }.dramField addr .ra ≠ some 2 := by
  unfold Geometry.dramField
  have hp : (positions ({ ddr4 with ranks := 3 } : Geometry).dramWidth
      ({ ddr4 with ranks := 3 } : Geometry).order).1 .ra = some 11 := by
    rw [positions_eq _ _ (by decide) _ (by decide)]
    simp [below, Geometry.dramWidth, ddr4, logBase2]
  rw [if_pos (by decide), hp]
  simp only
  have hw : ({ ddr4 with ranks := 3 } : Geometry).dramWidth .ra = 1 := by
    simp [Geometry.dramWidth, logBase2]
  rw [hw, low_eq _ _ (by decide)]
  intro h
  have := Nat.mod_lt (addr / 2 ^ ({ ddr4 with ranks := 3 } : Geometry).dramShift / 2 ^ 11) (show 0 < 2 ^ 1 by decide)
  simp only [Option.some.injEq] at h
  omega

/-! ## C33 -/

/-- The fields inside a channel, as the controller splits them. -/
def inner : List Field := [.co, .ba, .ro, .bg, .ra]

theorem Regular.channelBytes_eq {g : Geometry} (h : Regular g) :
    g.channelBytes = 2 ^ g.dramShift * 2 ^ total g.ctrlWidth inner := by
  unfold Geometry.channelBytes
  rw [h.shift.1]
  simp only [fun f => (h.count_eq f).1, ← Nat.pow_add]
  congr 1
  simp [total, inner]
  omega

theorem below_inner (w : Field → Nat) (f : Field) (hf : f ≠ .ch) : below w f splitOrder = below w f inner := by
  cases f <;> first | (exact absurd rfl hf) | simp [below, splitOrder, inner]

theorem mem_inner (f : Field) (hf : f ≠ .ch) : f ∈ inner := by
  cases f <;> first | (exact absurd rfl hf) | decide

/-- Common facts about the translated address. -/
theorem mapping_eq {g : Geometry} (h : Regular g) (h8 : 8 ∣ g.busWidth)
    (hfit : g.words * g.requestBytes ≤ 2 ^ 64) (addr ch : Nat) (hch : ch < g.channels) :
    (∀ f ∈ g.order.reverse, g.given addr ch f < 2 ^ g.ctrlWidth f) ∧
    enc g.ctrlWidth (g.given addr ch) g.order.reverse < g.words ∧
    g.addressMapping addr ch =
      some (enc g.ctrlWidth (g.given addr ch) g.order.reverse * g.requestBytes + addr % g.requestBytes) := by
  have hs := dramShift_eq g h8
  have hgiven : ∀ f ∈ g.order.reverse, g.given addr ch f < 2 ^ g.ctrlWidth f := by
    intro f _
    unfold Geometry.given
    split
    next e => subst e; rw [← (h.count_eq .ch).1]; exact hch
    · exact Nat.mod_lt _ (Nat.two_pow_pos _)
  have hX : enc g.ctrlWidth (g.given addr ch) g.order.reverse < g.words := by
    rw [h.words_eq]; exact enc_lt _ _ _ hgiven
  have hpos : 0 < g.requestBytes := by rw [h.shift.1]; exact Nat.two_pow_pos _
  have hT : enc g.ctrlWidth (g.given addr ch) g.order.reverse * g.requestBytes + addr % g.requestBytes <
      2 ^ 64 := by
    have := Nat.mod_lt addr hpos
    calc _ < enc g.ctrlWidth (g.given addr ch) g.order.reverse * g.requestBytes + g.requestBytes := by omega
      _ = (enc g.ctrlWidth (g.given addr ch) g.order.reverse + 1) * g.requestBytes := by
        rw [Nat.add_mul, Nat.one_mul]
      _ ≤ g.words * g.requestBytes := Nat.mul_le_mul_right _ hX
      _ ≤ 2 ^ 64 := hfit
  refine ⟨hgiven, hX, ?_⟩
  unfold Geometry.addressMapping
  rw [low_eq _ _ (hs ▸ h.shift.2)]
  simp only
  rw [arrange_eq g addr ch (fun f => (h.count_eq f).2) g.order 0 (by
    rw [Nat.zero_mul, Nat.zero_add]
    refine Nat.lt_of_lt_of_le hX (Nat.le_trans ?_ hfit)
    exact Nat.le_mul_of_pos_right _ hpos)]
  simp only [Nat.zero_mul, Nat.zero_add]
  rw [← hs, ← h.shift.1, Nat.mod_eq_of_lt hT]

theorem given_ch (g : Geometry) (addr ch : Nat) : g.given addr ch .ch = ch := by
  unfold Geometry.given; rw [if_pos rfl]

theorem mapping_div {g : Geometry} (h : Regular g) (X r : Nat) :
    (X * g.requestBytes + r % g.requestBytes) / g.requestBytes = X := by
  have hpos : 0 < g.requestBytes := by rw [h.shift.1]; exact Nat.two_pow_pos _
  rw [Nat.add_comm, Nat.add_mul_div_right _ _ hpos, Nat.div_eq_of_lt (Nat.mod_lt _ hpos), Nat.zero_add]

/-- **C33.** The address formed for a channel lies in the memory and both the DRAM model and the
controller's callbacks attribute it to this channel (powers of two). -/
theorem C33_channel_faithful_partial (g : Geometry) (h : Regular g) (h8 : 8 ∣ g.busWidth)
    (hfit : g.words * g.requestBytes ≤ 2 ^ 64) (addr ch : Nat) (hch : ch < g.channels) :
    ∃ t < g.words * g.requestBytes, g.addressMapping addr ch = some t ∧
      g.dramField t .ch = some ch ∧ g.channelFromAddr t = some ch := by
  obtain ⟨hgiven, hX, hm⟩ := mapping_eq h h8 hfit addr ch hch
  have hpos : 0 < g.requestBytes := by rw [h.shift.1]; exact Nat.two_pow_pos _
  have hd := enc_digit g.ctrlWidth (g.given addr ch) g.order.reverse hgiven .ch
    (List.mem_reverse.mpr (h.mem .ch))
  refine ⟨_, ?_, hm, ?_, ?_⟩
  · have := Nat.mod_lt addr hpos
    calc _ < enc g.ctrlWidth (g.given addr ch) g.order.reverse * g.requestBytes + g.requestBytes := by omega
      _ = (enc g.ctrlWidth (g.given addr ch) g.order.reverse + 1) * g.requestBytes := by
        rw [Nat.add_mul, Nat.one_mul]
      _ ≤ g.words * g.requestBytes := Nat.mul_le_mul_right _ hX
  · rw [dramField_eq h, mapping_div h, hd, given_ch]
  · unfold Geometry.channelFromAddr
    rw [low_eq _ _ (h.count_eq .ch).2, skipBits_eq _ _ (List.mem_reverse.mpr (h.mem .ch)), ← dramShift_eq g h8,
      Nat.pow_add, ← Nat.div_div_eq_div_mul, ← h.shift.1, mapping_div h, hd, given_ch]

/-- **C33.** Two requests get the same translated address exactly when they are for the same channel and
the same address modulo the size of a channel (powers of two). -/
theorem C33_translation_injective_partial (g : Geometry) (h : Regular g) (h8 : 8 ∣ g.busWidth)
    (hfit : g.words * g.requestBytes ≤ 2 ^ 64) (a a' c c' : Nat) (hc : c < g.channels) (hc' : c' < g.channels) :
    g.addressMapping a c = g.addressMapping a' c' ↔ c = c' ∧ a % g.channelBytes = a' % g.channelBytes := by
  obtain ⟨hg, hX, hm⟩ := mapping_eq h h8 hfit a c hc
  obtain ⟨hg', hX', hm'⟩ := mapping_eq h h8 hfit a' c' hc'
  have hpos : 0 < g.requestBytes := by rw [h.shift.1]; exact Nat.two_pow_pos _
  have hs : g.requestBytes = 2 ^ g.ctrlShift := by rw [h.shift.1, dramShift_eq g h8]
  rw [hm, hm', Option.some.injEq, h.channelBytes_eq, ← h.shift.1, Nat.mod_mul, Nat.mod_mul]
  have split : ∀ X Y r s : Nat, X * g.requestBytes + r % g.requestBytes = Y * g.requestBytes + s % g.requestBytes ↔
      X = Y ∧ r % g.requestBytes = s % g.requestBytes := by
    intro X Y r s
    constructor
    · intro e
      have e1 : X = Y := by rw [← mapping_div h X r, ← mapping_div h Y s, e]
      subst e1
      exact ⟨rfl, by omega⟩
    · rintro ⟨rfl, e⟩; rw [e]
  have split' : ∀ X Y r s : Nat, r % g.requestBytes + g.requestBytes * X = s % g.requestBytes + g.requestBytes * Y ↔
      X = Y ∧ r % g.requestBytes = s % g.requestBytes := by
    intro X Y r s
    rw [Nat.add_comm, Nat.mul_comm, Nat.add_comm (s % g.requestBytes), Nat.mul_comm g.requestBytes Y]
    exact split X Y r s
  rw [split, split', ← digits_eq_iff g.ctrlWidth inner (by decide)]
  have hgiv : ∀ x k f, f ≠ .ch → g.given x k f =
      x / g.requestBytes / 2 ^ below g.ctrlWidth f inner % 2 ^ g.ctrlWidth f := by
    intro x k f hf
    unfold Geometry.given
    rw [if_neg hf, below_inner _ _ hf, hs]
  constructor
  · rintro ⟨e1, e2⟩
    have hall : ∀ f, g.given a c f = g.given a' c' f := by
      intro f
      rw [← enc_digit _ _ _ hg f (List.mem_reverse.mpr (h.mem f)),
        ← enc_digit _ _ _ hg' f (List.mem_reverse.mpr (h.mem f)), e1]
    refine ⟨?_, ?_, e2⟩
    · have := hall .ch
      rwa [given_ch, given_ch] at this
    · intro f hf
      have hne : f ≠ .ch := by rintro rfl; exact absurd hf (by decide)
      rw [← hgiv a c f hne, ← hgiv a' c' f hne]
      exact hall f
  · rintro ⟨rfl, e1, e2⟩
    refine ⟨?_, e2⟩
    apply enc_congr
    intro f _
    by_cases hne : f = .ch
    · subst hne; rw [given_ch, given_ch]
    · rw [hgiv a c f hne, hgiv a' c f hne]
      exact e1 f (mem_inner f hne)

theorem ddr4_words : ddr4.words * ddr4.requestBytes = 2 ^ 35 := by decide

example : ∃ t, ddr4.addressMapping 0x12345678 1 = some t ∧ ddr4.dramField t .ch = some 1 ∧
    ∀ a c, a < ddr4.channelBytes → c < 2 → ddr4.addressMapping a c = some t → a = 0x12345678 ∧ c = 1 := by
  obtain ⟨t, -, h1, h2, -⟩ := C33_channel_faithful_partial ddr4 ddr4_regular ⟨8, rfl⟩
    (by rw [ddr4_words]; decide) 0x12345678 1 (by decide)
  refine ⟨t, h1, h2, ?_⟩
  intro a c ha hc e
  obtain ⟨e1, e2⟩ := (C33_translation_injective_partial ddr4 ddr4_regular ⟨8, rfl⟩
    (by rw [ddr4_words]; decide) a 0x12345678 c 1 hc (by decide)).mp (e.trans h1.symm)
  rw [Nat.mod_eq_of_lt ha, Nat.mod_eq_of_lt (by decide)] at e2
  exact ⟨e2, e1⟩

/-- **C33**, three channels: a request of the third channel is carried out by channel 0, at the address of
another row. -/
theorem C33_three_channels_violated :
    ∃ t, { ddr4 with channels := 3 }.addressMapping 0 2 = some t ∧
      { ddr4 with channels := 3 }.dramField t .ch = some 0 ∧
      { ddr4 with channels := 3 }.channelFromAddr t = some 0 ∧
      { ddr4 with channels := 3 }.dramField t .ro = some 1 := by
  refine ⟨2 ^ 19, by decide, ?_, by decide, ?_⟩ <;>
    (unfold Geometry.dramField; rw [dramWidth_eq, dramShift_eq _ ⟨8, rfl⟩]; decide)

end RadSim.Dram
