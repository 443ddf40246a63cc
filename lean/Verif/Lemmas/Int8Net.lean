import Verif.Lemmas.Int8Job
import Verif.Spec.Int8Net

/-! # The files of `mlp_int8` and the beats of the loaders -/

namespace RadSim.Int8

open Mlp (Along div_step along_range getD_map_range flatMap_mod flatMap_range filter_map_flat sum_range_mul list_sum)

/-! ## encodings -/

theorem fromBv_toBv (i : Inst) : Inst.fromBv i.toBv = i := by
  obtain ⟨a, ⟨d⟩, ⟨f⟩, ⟨g⟩, l, r, e, u⟩ := i
  have hd := d.isLt
  have hf := f.isLt
  have hg := g.isLt
  have h1 : ∀ b : Bool, b.toNat < 2 := by intro b; cases b <;> decide
  have ha := h1 a
  have hl := h1 l
  have hr := h1 r
  have he := h1 e
  have hu := h1 u
  have h2 : ∀ b : Bool, b.toNat = 1 ↔ b = true := by intro b; cases b <;> simp
  unfold Inst.fromBv Inst.toBv
  simp only [Nat.testBit_eq_decide_div_mod_eq, Nat.shiftLeft_eq, Nat.shiftRight_eq_div_pow, Inst.mk.injEq, BitVec.toNat_ofFin]
  refine ⟨?_, ?_, ?_, ?_, ?_, ?_, ?_, ?_⟩
  all_goals first
    | (rw [Bool.eq_iff_iff, decide_eq_true_iff, ← h2]; omega)
    | (apply BitVec.eq_of_toNat_eq; rw [BitVec.toNat_ofNat, BitVec.toNat_ofFin]; omega)

theorem loadInst_kind (i : Inst) : (loadInst i).kind = 0 := by
  unfold Beat.kind loadInst
  simp only
  decide

theorem loadInst_inst (i : Inst) : (loadInst i).inst = i := by
  rw [← fromBv_inst]
  exact fromBv_toBv i

theorem pack_vec {c : Mvm} {v : Vec} (hv : v.length = c.lanes) (u : Nat) : (Beat.mk (pack v) u).vec c = v := by
  unfold Beat.vec
  apply List.ext_getElem?
  intro j
  rw [List.getElem?_map]
  by_cases hj : j < c.lanes
  · rw [List.getElem?_range hj, Option.map_some]
    show some (BitVec.ofNat 8 (pack v / 2 ^ (8 * j) % 2 ^ 8)) = _
    rw [pack_lane, BitVec.ofNat_toNat, BitVec.setWidth_eq, List.getD_eq_getElem?_getD, List.getElem?_eq_getElem (by omega)]
    rfl
  · rw [List.getElem?_eq_none (by simpa using hj), List.getElem?_eq_none (by omega)]
    rfl

theorem user_weight (d addr : Nat) : addr % 2 ^ 9 + 3 <<< 9 + 1 <<< (11 + d) = addr % 512 + 512 * (3 + 4 * 2 ^ d) := by
  rw [Nat.shiftLeft_eq, Nat.shiftLeft_eq, pow_add]
  omega

theorem loadWeight_kind (d addr : Nat) (v : Vec) : (loadWeight d addr v).kind = 3 := by
  unfold Beat.kind loadWeight
  simp only [user_weight]
  omega

theorem loadWeight_loads (d d' addr a : Nat) (v : Vec) (ha : addr < 512) (hb : a < 512) :
    (loadWeight d addr v).loads d' (BitVec.ofNat 9 a) = decide (d = d' ∧ addr = a) := by
  unfold Beat.loads
  rw [loadWeight_kind]
  unfold loadWeight
  simp only [user_weight, true_and]
  have h1 : (addr % 512 + 512 * (3 + 4 * 2 ^ d)) / 2 ^ (11 + d') = 2 ^ d / 2 ^ d' := by
    rw [pow_add, ← Nat.div_div_eq_div_mul]
    congr 1
    omega
  have h2 : (addr % 512 + 512 * (3 + 4 * 2 ^ d)) % 2 ^ 9 = addr := by omega
  have h3 : 2 ^ d / 2 ^ d' % 2 = 1 ↔ d = d' := by
    have := Nat.testBit_two_pow (n := d) (m := d')
    rw [testBit_div] at this
    constructor
    · intro he
      rw [decide_eq_true he] at this
      exact of_decide_eq_true this.symm
    · intro he
      rw [decide_eq_true he] at this
      exact of_decide_eq_true this
  rw [h1, h2, BitVec.toNat_ofNat, Nat.mod_eq_of_lt (show a < 2 ^ 9 from hb)]
  exact decide_eq_decide.2 (and_congr_left' h3)

theorem loadInput_kind (v : Vec) : (loadInput v).kind = 2 := by
  unfold Beat.kind loadInput
  simp only
  decide

/-! ## lists of blocks -/

theorem mvmIdx_eq {M : Nat} (hM : 0 < M) (i : Nat) : Design.mvmIdx M i = i % M := by
  induction i with
  | zero => simp [Design.mvmIdx]
  | succ i ih =>
    rw [Design.mvmIdx, ih]
    rcases div_step (p := i) hM with ⟨h1, -, h3⟩ | ⟨h1, -, h3⟩
    · rw [h3, if_pos (by omega)]
    · rw [h3, if_neg (by omega)]

theorem padTo_eq {n dim M : Nat} (hn : 0 < n) (hd : 0 < dim) (hM : 0 < M) :
    ∃ Q, 0 < Q ∧ padTo n dim M = Q * M * dim ∧ n ≤ padTo n dim M := Mlp.pad_eq hn hd hM

variable {D : Design} {c : Mvm}

theorem inDim_width (l : Nat) : D.inDim l = D.width l := by
  cases l with
  | zero => rfl
  | succ l =>
    unfold Design.inDim
    rw [if_neg (by omega), Nat.add_sub_cancel]
    rfl

theorem Design.Ok.dim_pos (h : D.Ok c) : 0 < D.dim := h.dim ▸ h.fits.lanes

theorem Design.Ok.inDim_pos (h : D.Ok c) {l : Nat} (hl : l < D.layers) : 0 < D.inDim l := by
  unfold Design.inDim
  split
  · exact h.input
  · exact h.hidden _ (by omega)

theorem Design.Ok.outMvms_pos (h : D.Ok c) {l : Nat} (hl : l < D.layers) : 0 < D.outMvms l := by
  unfold Design.outMvms
  split
  · exact Nat.one_pos
  · exact h.mvms _ (by omega)

theorem Design.Ok.x (h : D.Ok c) {l : Nat} (hl : l < D.layers) : 0 < D.limx l ∧ D.padX l = D.limx l * D.mvms l * D.dim ∧
    D.inDim l ≤ D.padX l := by
  obtain ⟨Q, hQ, he, hle⟩ := padTo_eq (h.inDim_pos hl) h.dim_pos (h.mvms l hl)
  have : D.limx l = Q := by
    unfold Design.limx Design.padX
    rw [he, Nat.mul_div_cancel _ h.dim_pos, Nat.mul_div_cancel _ (h.mvms l hl)]
  rw [this]
  exact ⟨hQ, he, hle⟩

theorem Design.Ok.y (h : D.Ok c) {l : Nat} (hl : l < D.layers) : 0 < D.limy l ∧ D.padY l = D.limy l * D.dim ∧
    D.hidden l ≤ D.padY l := by
  obtain ⟨Q, hQ, he, hle⟩ := padTo_eq (h.hidden l hl) h.dim_pos (h.outMvms_pos hl)
  have : D.limy l = Q * D.outMvms l := by
    unfold Design.limy Design.padY
    rw [he, Nat.mul_div_cancel _ h.dim_pos]
  rw [this]
  exact ⟨Nat.mul_pos hQ (h.outMvms_pos hl), he, hle⟩

/-- The shapes of consecutive matrices match. -/
theorem Design.Ok.shape (h : D.Ok c) {l : Nat} (hl : l + 1 < D.layers) : D.padX (l + 1) = D.padY l ∧
    D.limy l = D.limx (l + 1) * D.mvms (l + 1) := by
  have h1 : D.padX (l + 1) = D.padY l := by
    unfold Design.padX Design.padY Design.inDim Design.outMvms
    rw [if_neg (by omega), if_neg (by omega), Nat.add_sub_cancel]
  refine ⟨h1, ?_⟩
  have h2 := (h.x hl).2.1
  have h3 := (h.y (l := l) (by omega)).2.1
  rw [h1, h3] at h2
  exact Nat.eq_of_mul_eq_mul_right h.dim_pos h2

/-! ## files -/

theorem weightFile_eq (h : D.Ok c) {l m : Nat} (hl : l < D.layers) (hm : m < D.mvms l) (d : Nat) :
    D.weightFile l m d = (List.range (D.limx l * D.limy l)).map fun p =>
      (List.range D.dim).map fun e => D.matrix l (p % D.limy l * D.dim + d) ((p / D.limy l * D.mvms l + m) * D.dim + e) := by
  unfold Design.weightFile
  rw [(h.x hl).2.1, Nat.mul_div_cancel _ h.dim_pos]
  simp only [mvmIdx_eq (h.mvms l hl)]
  rw [flatMap_mod hm]
  exact flatMap_range (h.y hl).1 _

theorem inputFile_eq (h : D.Ok c) {m : Nat} (hm : m < D.mvms 0) :
    D.inputFile m = (List.range (D.tests * D.limx 0)).map fun i =>
      (List.range D.dim).map fun e => D.testInput (i / D.limx 0) ((i % D.limx 0 * D.mvms 0 + m) * D.dim + e) := by
  unfold Design.inputFile
  rw [(h.x h.layers).2.1, Nat.mul_div_cancel _ h.dim_pos, ← flatMap_range (h.x h.layers).1 fun k i =>
    (List.range D.dim).map fun e => D.testInput k ((i * D.mvms 0 + m) * D.dim + e)]
  congr 1
  funext k
  rw [filter_map_flat]
  simp only [decide_eq_true_eq]
  rw [flatMap_mod hm, List.map_eq_flatMap]

theorem goldenFile_eq (h : D.Ok c) : D.goldenFile = (List.range (D.tests * D.limy (D.layers - 1))).map fun i =>
      (List.range D.dim).map fun e => D.testOutput D.layers (i / D.limy (D.layers - 1)) (i % D.limy (D.layers - 1) * D.dim + e) := by
  have hl : D.layers - 1 < D.layers := by
    have := h.layers
    omega
  unfold Design.goldenFile
  exact flatMap_range (h.y hl).1 _

theorem instFile_eq (h : D.Ok c) {l : Nat} (hl : l < D.layers) (m : Nat) : D.instFile l m =
    (List.range (D.limx l * D.limy l)).map fun p => D.inst l m (p / D.limy l) (p % D.limy l) := by
  unfold Design.instFile
  exact flatMap_range (h.y hl).1 _

/-- The instruction files hold programs of the form of `Job`. -/
theorem Design.Ok.job (h : D.Ok c) {l m : Nat} (hl : l < D.layers) :
    Job (D.instFile l m) (D.limx l) (D.limy l) (decide (m ≠ 0)) (fun j => BitVec.ofNat 9 (D.dest l m j))
      (decide (m = D.mvms l - 1)) := by
  have hX := (h.x hl).1
  have hY := (h.y hl).1
  refine ⟨hX, hY, by rw [instFile_eq h hl]; simp, h.words l hl, fun p hp => ?_⟩
  have hi : p / D.limy l < D.limx l := by
    rw [Nat.div_lt_iff_lt_mul hY]
    exact hp
  have hj := Nat.mod_lt p hY
  have hpe : D.limy l * (p / D.limy l) + p % D.limy l = p := Nat.div_add_mod _ _
  rw [instFile_eq h hl, List.getElem?_map, List.getElem?_range hp, Option.map_some, Option.some.injEq, Design.inst, Inst.mk.injEq]
  refine ⟨rfl, rfl, ?_, rfl, ?_, ?_, ?_, ?_⟩
  · rw [Nat.mul_comm, hpe]
  · rw [Bool.eq_iff_iff]; simp; omega
  · rw [Bool.eq_iff_iff]; simp; omega
  · rw [Bool.eq_iff_iff]; simp [Nat.pos_iff_ne_zero]
  · rw [Bool.eq_iff_iff]; simp; omega

/-! ## beats -/

theorem program_of {bs : List Beat} {l m : Nat} (h : only 0 bs = D.instBeats l m) : programOf bs = D.instFile l m := by
  unfold programOf
  unfold only at h
  rw [h, Design.instBeats, List.map_map]
  have : Beat.inst ∘ loadInst = id := funext loadInst_inst
  rw [this, List.map_id]

theorem weights_only (c : Mvm) (bs : List Beat) : weights c bs = weights c (only 3 bs) := by
  funext d a
  unfold weights only
  rw [← List.filter_reverse, List.find?_filter]
  congr 1
  congr 1
  funext b
  unfold Beat.loads
  simp

theorem weights_eq {c : Mvm} {bs : List Beat} {d : Nat} {a : BitVec 9} {v : Vec} (hb : ∃ b ∈ bs, b.loads d a = true)
    (hv : ∀ b ∈ bs, b.loads d a = true → b.vec c = v) : weights c bs d a = v := by
  unfold weights
  cases hf : bs.reverse.find? fun b => b.loads d a with
  | none =>
    obtain ⟨b, h1, h2⟩ := hb
    have := List.find?_eq_none.1 hf b (List.mem_reverse.2 h1)
    exact absurd h2 this
  | some b =>
    have h1 := List.mem_of_find?_eq_some hf
    have h2 := List.find?_some hf
    exact hv b (List.mem_reverse.1 h1) h2

theorem mem_weightBeats {l m : Nat} {b : Beat} : b ∈ D.weightBeats l m ↔
    ∃ d < D.dim, ∃ addr line, (D.weightFile l m d)[addr]? = some line ∧ b = loadWeight d addr (parse line) := by
  unfold Design.weightBeats
  simp only [List.mem_flatMap, List.mem_range, List.mem_mapIdx]
  constructor
  · rintro ⟨d, hd, i, hi, rfl⟩
    exact ⟨d, hd, i, _, List.getElem?_eq_getElem hi, rfl⟩
  · rintro ⟨d, hd, i, line, hi, rfl⟩
    obtain ⟨hlt, rfl⟩ := List.getElem?_eq_some_iff.1 hi
    exact ⟨d, hd, i, hlt, rfl⟩

theorem weights_of (h : D.Ok c) {bs : List Beat} {l m : Nat} (hl : l < D.layers) (hm : m < D.mvms l)
    (hb : only 3 bs = D.weightBeats l m) {d a : Nat} (hd : d < D.dim) (ha : a < D.limx l * D.limy l) :
    weights c bs d (BitVec.ofNat 9 a) = (List.range D.dim).map fun e =>
      BitVec.ofInt 8 (D.matrix l (a % D.limy l * D.dim + d) ((a / D.limy l * D.mvms l + m) * D.dim + e)) := by
  have hw := h.words l hl
  have hget : ∀ d a line, (D.weightFile l m d)[a]? = some line → a < D.limx l * D.limy l ∧
      line = (List.range D.dim).map fun e => D.matrix l (a % D.limy l * D.dim + d) ((a / D.limy l * D.mvms l + m) * D.dim + e) := by
    intro d a line hg
    rw [weightFile_eq h hl hm] at hg
    rw [List.getElem?_map, Option.map_eq_some_iff] at hg
    obtain ⟨p, hp, rfl⟩ := hg
    obtain ⟨h1, h2⟩ := List.getElem?_eq_some_iff.1 hp
    rw [List.getElem_range] at h2
    rw [List.length_range] at h1
    subst h2
    exact ⟨h1, rfl⟩
  rw [weights_only, hb]
  apply weights_eq
  · refine ⟨loadWeight d a (parse ((List.range D.dim).map fun e =>
      D.matrix l (a % D.limy l * D.dim + d) ((a / D.limy l * D.mvms l + m) * D.dim + e))), mem_weightBeats.2 ⟨d, hd, a, _, ?_, rfl⟩, ?_⟩
    · rw [weightFile_eq h hl hm, List.getElem?_map, List.getElem?_range ha]; rfl
    · rw [loadWeight_loads _ _ _ _ _ (by omega) (by omega)]; simp
  · intro b hbm hlo
    obtain ⟨d', hd', a', line, hg, rfl⟩ := mem_weightBeats.1 hbm
    obtain ⟨ha', rfl⟩ := hget _ _ _ hg
    rw [loadWeight_loads _ _ _ _ _ (by omega) (by omega), decide_eq_true_iff] at hlo
    obtain ⟨rfl, rfl⟩ := hlo
    unfold loadWeight
    rw [pack_vec (by simp [parse, h.dim]), parse, List.map_map]
    rfl

theorem product_of (h : D.Ok c) {bs : List Beat} {l m : Nat} (hl : l < D.layers) (hm : m < D.mvms l)
    (hb : only 3 bs = D.weightBeats l m) {a j d : Nat} (hd : d < D.dim) (ha : a < D.limx l) (hj : j < D.limy l) (x : Vec) :
    product c (weights c bs) (a * D.limy l + j) x d = ∑ e ∈ Finset.range D.dim, x.getD e 0 *
      BitVec.ofInt 8 (D.matrix l (j * D.dim + d) ((a * D.mvms l + m) * D.dim + e)) := by
  have hY := (h.y hl).1
  have hlt : a * D.limy l + j < D.limx l * D.limy l := by
    have : (a + 1) * D.limy l ≤ D.limx l * D.limy l := Nat.mul_le_mul_right _ ha
    rw [Nat.add_mul, Nat.one_mul] at this
    omega
  have h1 : (a * D.limy l + j) % D.limy l = j := by
    rw [Nat.mul_comm, Nat.mul_add_mod, Nat.mod_eq_of_lt hj]
  have h2 : (a * D.limy l + j) / D.limy l = a := by
    rw [Nat.mul_comm, Nat.mul_add_div hY, Nat.div_eq_of_lt hj, Nat.add_zero]
  unfold product
  rw [weights_of h hl hm hb hd hlt, h1, h2, ← h.dim]
  apply Finset.sum_congr rfl
  intro e he
  rw [getD_map_range (Finset.mem_range.1 he)]

theorem dest_lt (h : D.Ok c) {l m : Nat} (hl : l < D.layers) (hm : m < D.mvms l) (j : Nat) : D.dest l m j < 16 := by
  unfold Design.dest
  split
  · exact h.collector
  · split
    · have h1 : l + 1 < D.layers := by omega
      exact h.place _ h1 _ (Nat.mod_lt _ (h.mvms _ h1))
    · exact h.place _ hl _ (by omega)

/-- The `t`th result of a module. -/
def result (D : Design) (l m : Nat) (xs rs : Nat → Vec) (t : Nat) : Out where
  vec := (List.range D.dim).map fun d =>
    ∑ a ∈ Finset.range (D.limx l), ∑ e ∈ Finset.range D.dim, (xs (t / D.limy l * D.limx l + a)).getD e 0 *
      BitVec.ofInt 8 (D.matrix l (t % D.limy l * D.dim + d) ((a * D.mvms l + m) * D.dim + e)) +
    if m ≠ 0 then (rs t).getD d 0 else 0
  dest := D.dest l m (t % D.limy l)
  input := decide (m = D.mvms l - 1)

theorem blockOut_eq (h : D.Ok c) {bs : List Beat} {l m : Nat} (hl : l < D.layers) (hm : m < D.mvms l)
    (hb : only 3 bs = D.weightBeats l m) (xs rs : Nat → Vec) (t : Nat) :
    blockOut c (weights c bs) (D.limx l) (D.limy l) (decide (m ≠ 0)) (fun j => BitVec.ofNat 9 (D.dest l m j))
      (decide (m = D.mvms l - 1)) xs rs t = result D l m xs rs t := by
  unfold blockOut result
  rw [Out.mk.injEq]
  refine ⟨?_, ?_, rfl⟩
  · rw [← h.dim]
    apply List.map_congr_left
    intro d hd
    rw [List.mem_range] at hd
    unfold part
    congr 1
    · apply Finset.sum_congr rfl
      intro a ha
      exact product_of h hl hm hb hd (Finset.mem_range.1 ha) (Nat.mod_lt _ (h.y hl).1) _
    · simp
  · have := dest_lt h hl hm (t % D.limy l)
    rw [BitVec.toNat_ofNat, Nat.mod_eq_of_lt (by omega)]

/-- The results of a module that has got its instructions and weights. -/
theorem results (h : D.Ok c) {bs : List Beat} {l m : Nat} (hl : l < D.layers) (hm : m < D.mvms l)
    (hp : only 0 bs = D.instBeats l m) (hb : only 3 bs = D.weightBeats l m) {xs rs : Nat → Vec} (hI : Along xs (inputsOf c bs))
    (hR : m ≠ 0 → Along rs (addsOf c bs)) {r : Ref} (hr : Ref.After c bs r) :
    r.out = (List.range r.out.length).map (result D l m xs rs) ∧
      ∀ K, (inputsOf c bs).length ≤ K * D.limx l → r.out.length ≤ K * D.limy l := by
  unfold Ref.After at hr
  rw [program_of hp] at hr
  obtain ⟨h1, h2⟩ := (h.job hl).out hI (fun hm0 => hR (by simpa using hm0)) hr
  refine ⟨?_, h2⟩
  conv_lhs => rw [h1]
  apply List.map_congr_left
  intro t _
  exact blockOut_eq h hl hm hb xs rs t

/-! ## arithmetic on 8 bits -/

theorem wrap8_eq (v : Int) : wrap8 v = (BitVec.ofInt 8 v).toInt := by
  rw [BitVec.toInt_ofInt, Int.bmod_def]
  unfold wrap8
  split <;> omega

theorem ofInt_wrap8 (v : Int) : BitVec.ofInt 8 (wrap8 v) = BitVec.ofInt 8 v := by
  rw [wrap8_eq, BitVec.ofInt_toInt]

theorem ofInt_sum (n : Nat) (f : Nat → Int) : BitVec.ofInt 8 (∑ x ∈ Finset.range n, f x) = ∑ x ∈ Finset.range n, BitVec.ofInt 8 (f x) := by
  induction n with
  | zero => rfl
  | succ n ih => rw [Finset.sum_range_succ, Finset.sum_range_succ, BitVec.ofInt_add, ih]

/-- The golden outputs are those of the network on 8 bits, with zeros as padding. -/
theorem testOutput_eq (h : D.Ok c) (l k y : Nat) (hl : l ≤ D.layers) :
    BitVec.ofInt 8 (D.testOutput l k y) = BitVec.ofInt 8 (if y < D.inDim l then D.net l k y else 0) := by
  induction l generalizing y with
  | zero => rfl
  | succ l ih =>
    rw [Design.testOutput, list_sum, ofInt_wrap8, ofInt_sum]
    have hsum : ∀ x ∈ Finset.range (D.padX l), BitVec.ofInt 8 (D.matrix l y x * D.testOutput l k x) =
        BitVec.ofInt 8 (if y < D.hidden l ∧ x < D.inDim l then D.weights l y x * D.net l k x else 0) := by
      intro x _
      rw [BitVec.ofInt_mul, ih x (by omega), ← BitVec.ofInt_mul, Design.matrix]
      by_cases h1 : y < D.hidden l <;> by_cases h2 : x < D.inDim l <;> simp [h1, h2]
    rw [Finset.sum_congr rfl hsum, ← ofInt_sum]
    congr 1
    have hin : D.inDim (l + 1) = D.hidden l := by
      unfold Design.inDim
      rw [if_neg (by omega), Nat.add_sub_cancel]
    rw [hin]
    by_cases h1 : y < D.hidden l
    · simp only [h1, true_and, if_true]
      rw [Design.net, ← inDim_width]
      symm
      rw [← Finset.sum_subset (Finset.range_subset_range.2 (h.x (l := l) (by omega)).2.2)]
      · apply Finset.sum_congr rfl
        intro x hx
        rw [if_pos (Finset.mem_range.1 hx)]
      · intro x _ hx
        rw [if_neg (by simpa using hx)]
    · simp [h1]

end RadSim.Int8
