import Verif.Model.NpuInst
import Verif.Spec.NpuDecode

/-!
# Writing and reading the ranges of a bit vector -/

namespace RadSim.Npu

/-- The fields as one number, without positions. -/
def enc : List (Nat × Nat) → Nat
  | [] => 0
  | (w, v) :: fs => v % 2 ^ w + 2 ^ w * enc fs

/-- The fields of a number, without positions. -/
def dec : List Nat → Nat → List Nat
  | [], _ => []
  | w :: ws, x => x % 2 ^ w :: dec ws (x / 2 ^ w)

theorem setRange_fresh {bv lo : Nat} (w v : Nat) (h : bv < 2 ^ lo) : setRange bv lo w v = bv + 2 ^ lo * (v % 2 ^ w) := by
  unfold setRange
  have h1 : bv < 2 ^ (lo + w) := Nat.lt_of_lt_of_le h (Nat.pow_le_pow_right (by decide) (by omega))
  rw [Nat.mod_eq_of_lt h, Nat.div_eq_of_lt h1, Nat.zero_mul, Nat.mul_comm, Nat.add_zero]

theorem pack_eq (fs : List (Nat × Nat)) (idx bv : Nat) (h : bv < 2 ^ idx) : pack fs idx bv = bv + 2 ^ idx * enc fs := by
  induction fs generalizing idx bv with
  | nil => simp [pack, enc]
  | cons f fs ih =>
    obtain ⟨w, v⟩ := f
    have h1 := setRange_fresh w v h
    have h2 : v % 2 ^ w < 2 ^ w := Nat.mod_lt _ (Nat.two_pow_pos w)
    have h3 : setRange bv idx w v < 2 ^ (idx + w) := by
      rw [h1, Nat.pow_add]
      have := Nat.mul_le_mul_left (2 ^ idx) (show v % 2 ^ w + 1 ≤ 2 ^ w by omega)
      rw [Nat.mul_add, Nat.mul_one] at this
      omega
    show pack fs (idx + w) (setRange bv idx w v) = _
    rw [ih _ _ h3, h1, enc, Nat.mul_add, ← Nat.mul_assoc, ← Nat.pow_add, Nat.add_assoc]

theorem unpack_eq (ws : List Nat) (idx bv : Nat) : unpack ws idx bv = dec ws (bv / 2 ^ idx) := by
  induction ws generalizing idx with
  | nil => rfl
  | cons w ws ih =>
    show getRange bv idx w :: unpack ws (idx + w) bv = _
    rw [ih, dec, getRange, Nat.div_div_eq_div_mul, ← Nat.pow_add]

theorem dec_enc (fs : List (Nat × Nat)) : dec (fs.map Prod.fst) (enc fs) = fs.map fun f => f.2 % 2 ^ f.1 := by
  induction fs with
  | nil => rfl
  | cons f fs ih =>
    obtain ⟨w, v⟩ := f
    have h2 : v % 2 ^ w < 2 ^ w := Nat.mod_lt _ (Nat.two_pow_pos w)
    show (v % 2 ^ w + 2 ^ w * enc fs) % 2 ^ w :: dec (fs.map Prod.fst) ((v % 2 ^ w + 2 ^ w * enc fs) / 2 ^ w) = _
    rw [Nat.add_mul_mod_self_left, Nat.mod_mod, Nat.add_mul_div_left _ _ (Nat.two_pow_pos w), Nat.div_eq_of_lt h2, Nat.zero_add, ih]
    rfl

theorem enc_lt (fs : List (Nat × Nat)) : enc fs < 2 ^ (fs.map Prod.fst).sum := by
  induction fs with
  | nil => exact Nat.one_pos
  | cons f fs ih =>
    obtain ⟨w, v⟩ := f
    have h2 : v % 2 ^ w < 2 ^ w := Nat.mod_lt _ (Nat.two_pow_pos w)
    show v % 2 ^ w + 2 ^ w * enc fs < 2 ^ (w + (fs.map Prod.fst).sum)
    rw [Nat.pow_add]
    have := Nat.mul_le_mul_left (2 ^ w) (show enc fs + 1 ≤ 2 ^ (fs.map Prod.fst).sum by omega)
    rw [Nat.mul_add, Nat.mul_one] at this
    omega

theorem enc_dec (ws : List Nat) (x : Nat) (h : x < 2 ^ ws.sum) : enc (ws.zip (dec ws x)) = x := by
  induction ws generalizing x with
  | nil =>
    have : x < 1 := h
    show 0 = x
    omega
  | cons w ws ih =>
    have h' : x < 2 ^ (w + ws.sum) := h
    rw [Nat.pow_add] at h'
    show x % 2 ^ w % 2 ^ w + 2 ^ w * enc (ws.zip (dec ws (x / 2 ^ w))) = x
    rw [ih _ (Nat.div_lt_of_lt_mul h'), Nat.mod_mod, Nat.mod_add_div]

theorem pack_zero (fs : List (Nat × Nat)) : pack fs 0 0 = enc fs := by
  rw [pack_eq _ _ _ (by decide)]
  simp

theorem unpack_pack (fs : List (Nat × Nat)) (ws : List Nat) (h : fs.map Prod.fst = ws) (hv : ∀ f ∈ fs, f.2 < 2 ^ f.1) :
    unpack ws 0 (pack fs 0 0) = fs.map Prod.snd := by
  subst h
  rw [unpack_eq, pack_zero, Nat.pow_zero, Nat.div_one, dec_enc]
  refine List.map_congr_left fun f hf => Nat.mod_eq_of_lt (hv f hf)

theorem pack_unpack (ws : List Nat) (x : Nat) (h : x < 2 ^ ws.sum) : pack (ws.zip (unpack ws 0 x)) 0 0 = x := by
  rw [pack_zero, unpack_eq, Nat.pow_zero, Nat.div_one, enc_dec _ _ h]

theorem three {l : List Nat} (h : l.length = 3) : ∃ a b c, l = [a, b, c] := by
  match l, h with
  | [a, b, c], _ => exact ⟨a, b, c, rfl⟩

theorem bit_lt (b : Bool) : b.toNat < 2 ^ 1 := by cases b <;> decide

theorem bit_ne (b : Bool) : (b.toNat != 0) = b := by cases b <;> rfl

theorem bit_toNat {x : Nat} (h : x < 2) : (x != 0).toNat = x := by
  match x, h with
  | 0, _ => rfl
  | 1, _ => rfl

end RadSim.Npu
