import Verif.Lemmas.Int8Net
import Verif.Lemmas.MlpSys

/-! # The modules of `mlp_int8` together -/

namespace RadSim.Int8

open Mlp (Along along_range getD_map_range sum_range_mul list_sum)

variable {D : Design} {c : Mvm} {t : Nat → Nat → Nat → Cycle}

/-! ## what the modules are to get and to give -/

/-- Block `b` of what layer `l` gets for test input `k`. -/
def blockOf (D : Design) (l k b : Nat) : Vec := (List.range D.dim).map fun e => BitVec.ofInt 8 (D.testOutput l k (b * D.dim + e))

/-- The inputs of a module. -/
def fed (D : Design) (l m i : Nat) : Vec := blockOf D l (i / D.limx l) (i % D.limx l * D.mvms l + m)

/-- One product. -/
def term (D : Design) (l k y x : Nat) : BitVec 8 := BitVec.ofInt 8 (D.testOutput l k x) * BitVec.ofInt 8 (D.matrix l y x)

/-- The results of a module: the part of a block that belongs to the modules up to it. -/
def partSum (D : Design) (l m t : Nat) : Vec :=
  (List.range D.dim).map fun d => ∑ m' ∈ Finset.range (m + 1), ∑ a ∈ Finset.range (D.limx l), ∑ e ∈ Finset.range D.dim,
    term D l (t / D.limy l) (t % D.limy l * D.dim + d) ((a * D.mvms l + m') * D.dim + e)

/-- The results of a module with their destinations. -/
def ideal (D : Design) (l m t : Nat) : Out := ⟨partSum D l m t, D.dest l m (t % D.limy l), decide (m = D.mvms l - 1)⟩

theorem result_ideal (h : D.Ok c) {l m : Nat} (hl : l < D.layers) (t : Nat) :
    result D l m (fed D l m) (partSum D l (m - 1)) t = ideal D l m t := by
  have hX := (h.x hl).1
  unfold result ideal
  rw [Out.mk.injEq]
  refine ⟨?_, rfl, rfl⟩
  unfold partSum
  apply List.map_congr_left
  intro d hd
  have hdd : d < D.dim := List.mem_range.1 hd
  rw [Finset.sum_range_succ (n := m)]
  have h1 : ∑ a ∈ Finset.range (D.limx l), ∑ e ∈ Finset.range D.dim, (fed D l m (t / D.limy l * D.limx l + a)).getD e 0 *
        BitVec.ofInt 8 (D.matrix l (t % D.limy l * D.dim + d) ((a * D.mvms l + m) * D.dim + e)) =
      ∑ a ∈ Finset.range (D.limx l), ∑ e ∈ Finset.range D.dim,
        term D l (t / D.limy l) (t % D.limy l * D.dim + d) ((a * D.mvms l + m) * D.dim + e) := by
    apply Finset.sum_congr rfl
    intro a ha
    rw [Finset.mem_range] at ha
    have e1 : (t / D.limy l * D.limx l + a) / D.limx l = t / D.limy l := by
      rw [Nat.mul_comm, Nat.mul_add_div hX, Nat.div_eq_of_lt ha, Nat.add_zero]
    have e2 : (t / D.limy l * D.limx l + a) % D.limx l = a := by
      rw [Nat.mul_comm, Nat.mul_add_mod, Nat.mod_eq_of_lt ha]
    unfold fed
    rw [e1, e2]
    apply Finset.sum_congr rfl
    intro e he
    unfold blockOf
    rw [getD_map_range (Finset.mem_range.1 he)]
    rfl
  rw [h1]
  cases m with
  | zero => simp
  | succ m =>
    simp only [Nat.succ_ne_zero, ne_eq, not_false_eq_true, if_true, Nat.add_sub_cancel]
    rw [getD_map_range hdd, add_comm]

/-- The results of the last module of a layer. -/
theorem partSum_last (h : D.Ok c) {l : Nat} (hl : l < D.layers) (t : Nat) :
    partSum D l (D.mvms l - 1) t = blockOf D (l + 1) (t / D.limy l) (t % D.limy l) := by
  have hM := h.mvms l hl
  unfold partSum blockOf
  apply List.map_congr_left
  intro d _
  rw [Design.testOutput, list_sum, ofInt_wrap8, ofInt_sum, (h.x hl).2.1, sum_range_mul, sum_range_mul, Nat.sub_add_cancel hM,
    Finset.sum_comm]
  simp only [BitVec.ofInt_mul, term]
  apply Finset.sum_congr rfl
  intro a _
  apply Finset.sum_congr rfl
  intro m _
  apply Finset.sum_congr rfl
  intro e _
  rw [BitVec.mul_comm]

/-! ## beats on the NoC -/

/-- What there is to see in a beat. -/
def view (c : Mvm) (b : TxBeat) : Vec × Nat × Int := (Beat.vec c ⟨b.data, b.user⟩, b.user / 2 ^ 9 % 2 ^ 2, b.dest)

/-- What is to be seen for a result. -/
def viewOut (o : Out) : Vec × Nat × Int := (o.vec, if o.input then 2 else 1, o.dest)

theorem Carries.view {b : TxBeat} {o : Out} (h : Carries c b o) (hw : o.vec.length = c.lanes) (hd : o.dest < 128) :
    view c b = viewOut o := by
  unfold Int8.view viewOut
  rw [h.kind, h.dest hd]
  congr 1
  unfold Beat.vec
  apply List.ext_getElem?
  intro j
  rw [List.getElem?_map]
  by_cases hj : j < c.lanes
  · rw [List.getElem?_range hj, Option.map_some, h.vec j hj, BitVec.ofNat_toNat, BitVec.setWidth_eq, List.getD_eq_getElem?_getD,
      List.getElem?_eq_getElem (by omega)]
    rfl
  · rw [List.getElem?_eq_none (by simpa using hj), List.getElem?_eq_none (by omega)]
    rfl

theorem toward_vec (c : Mvm) (node kind : Nat) (sent : List TxBeat) : (toward node kind sent).map (Beat.vec c) =
    (sent.map (view c)).filterMap fun v => if v.2.2 = (node : Int) ∧ v.2.1 = kind then some v.1 else none := by
  unfold toward
  rw [List.map_filterMap, List.filterMap_map]
  apply List.filterMap_congr
  intro b _
  show Option.map (Beat.vec c) (if b.dest = (node : Int) ∧ b.user / 2 ^ 9 % 2 ^ 2 = kind then some ⟨b.data, b.user⟩ else none) =
    if b.dest = (node : Int) ∧ b.user / 2 ^ 9 % 2 ^ 2 = kind then some (Beat.vec c ⟨b.data, b.user⟩) else none
  split <;> rfl

theorem forall_view (h : D.Ok c) {l m : Nat} (hl : l < D.layers) (hm : m < D.mvms l) {sent : List TxBeat} {out : List Out}
    (hs : List.Forall₂ (Carries c) sent (out.take sent.length)) (ho : out = (List.range out.length).map (ideal D l m)) :
    Along (fun i => viewOut (ideal D l m i)) (sent.map (view c)) ∧ sent.length ≤ out.length := by
  have hlen := hs.length_eq
  rw [List.length_take] at hlen
  refine ⟨?_, by omega⟩
  intro i a hi
  rw [List.getElem?_map, Option.map_eq_some_iff] at hi
  obtain ⟨b, hb, rfl⟩ := hi
  obtain ⟨hlt, rfl⟩ := List.getElem?_eq_some_iff.1 hb
  have h1 := (List.forall₂_iff_get.1 hs).2 i hlt (by rw [List.length_take]; omega)
  have h2 : out[i]'(by omega) = ideal D l m i := by
    have : out[i]? = ((List.range out.length).map (ideal D l m))[i]? := congrArg (·[i]?) ho
    rw [List.getElem?_eq_getElem (by omega), List.getElem?_map, List.getElem?_range (by omega), Option.map_some,
      Option.some.injEq] at this
    exact this
  simp only [List.get_eq_getElem, List.getElem_take, h2] at h1
  refine h1.view ?_ ?_
  · simp [ideal, partSum, h.dim]
  · have := dest_lt h hl hm (i % D.limy l)
    show D.dest l m (i % D.limy l) < 128
    omega

/-- What the last module of a layer sends to a module of the next one. -/
theorem toward_next (h : D.Ok c) {l m : Nat} (hl : l + 1 < D.layers) (hm : m < D.mvms (l + 1)) {sent : List TxBeat}
    (hA : Along (fun i => viewOut (ideal D l (D.mvms l - 1) i)) (sent.map (view c))) (hlen : sent.length ≤ D.tests * D.limy l) :
    Along (fed D (l + 1) m) ((toward (D.place (l + 1) m) 2 sent).map (Beat.vec c)) ∧
    (toward (D.place (l + 1) m) 2 sent).length ≤ D.tests * D.limx (l + 1) ∧
    (sent.length = D.tests * D.limy l → (toward (D.place (l + 1) m) 2 sent).length = D.tests * D.limx (l + 1)) := by
  have hM := h.mvms l (by omega)
  have hM' := h.mvms (l + 1) hl
  have hX := (h.x hl).1
  have hY := (h.y (l := l) (by omega)).1
  have hsh := (h.shape hl).2
  obtain ⟨h1, h2, h3⟩ := hA.turn hm
    (fun v => if v.2.2 = ((D.place (l + 1) m : Nat) : Int) ∧ v.2.1 = 2 then some v.1 else none)
    (fed D (l + 1) m) (by
      intro i
      have hd : D.dest l (D.mvms l - 1) (i % D.limy l) = D.place (l + 1) (i % D.mvms (l + 1)) := by
        unfold Design.dest
        rw [if_neg (by omega), if_pos rfl, hsh, Nat.mod_mul_left_mod]
      have hmod := Nat.mod_lt i hM'
      unfold ideal viewOut
      simp only [hd, decide_true, if_true, and_true, Int.natCast_inj]
      by_cases he : i % D.mvms (l + 1) = m
      · rw [if_pos (by rw [he]), if_pos he, partSum_last h (by omega)]
        unfold fed
        congr 2
        · rw [hsh, Nat.mul_comm, Nat.div_div_eq_div_mul]
        · rw [hsh, Nat.mul_comm (D.limx (l + 1)), Nat.mod_mul, he, Nat.mul_comm, Nat.add_comm]
      · rw [if_neg (fun hp => he (h.distinct _ hl _ hmod _ hm hp)), if_neg he])
  rw [← toward_vec, List.length_map] at h2 h3
  rw [← toward_vec] at h1
  rw [List.length_map] at h2 h3
  have hle : (toward (D.place (l + 1) m) 2 sent).length ≤ D.tests * D.limx (l + 1) := by
    by_contra hlt
    have := h2 (D.tests * D.limx (l + 1)) (by omega)
    rw [hsh, ← Nat.mul_assoc] at hlen
    omega
  refine ⟨h1, hle, fun hall => Nat.le_antisymm hle ?_⟩
  rw [hall, hsh, ← Nat.mul_assoc] at h3
  by_contra hlt
  have : ((toward (D.place (l + 1) m) 2 sent).length + 1) * D.mvms (l + 1) ≤ D.tests * D.limx (l + 1) * D.mvms (l + 1) :=
    Nat.mul_le_mul_right _ (by omega)
  rw [Nat.add_mul, Nat.one_mul] at this
  omega

/-- What a module sends to the next one of its layer. -/
theorem toward_beside {l m : Nat} (hm : m + 1 < D.mvms l) {sent : List TxBeat}
    (hA : Along (fun i => viewOut (ideal D l m i)) (sent.map (view c))) :
    Along (partSum D l m) ((toward (D.place l (m + 1)) 1 sent).map (Beat.vec c)) ∧
    (toward (D.place l (m + 1)) 1 sent).length = sent.length := by
  have H := hA.turn (M := 1) (m := 0) (by omega)
    (fun v => if v.2.2 = ((D.place l (m + 1) : Nat) : Int) ∧ v.2.1 = 1 then some v.1 else none) (partSum D l m) ?_
  · rw [← toward_vec, List.length_map, List.length_map, Nat.mul_one, Nat.add_zero] at H
    exact ⟨H.1, Nat.le_antisymm (List.length_filterMap_le _ _) H.2.2⟩
  intro i
  have hd : D.dest l m (i % D.limy l) = D.place l (m + 1) := by
    unfold Design.dest
    rw [if_neg (by omega), if_neg (by omega)]
  unfold ideal viewOut
  have hne : decide (m = D.mvms l - 1) = false := by rw [decide_eq_false_iff_not]; omega
  simp [hd, hne, Nat.mod_one]

/-! ## a module -/

/-- The beats shown are right. -/
structure Right (D : Design) (c : Mvm) (l m : Nat) (bs : List Beat) : Prop where
  ins : Along (fed D l m) (inputsOf c bs)
  adds : m ≠ 0 → Along (partSum D l (m - 1)) (addsOf c bs)
  insLen : (inputsOf c bs).length ≤ D.tests * D.limx l
  addsLen : (addsOf c bs).length ≤ D.tests * D.limy l
  none : m = 0 → addsOf c bs = []

theorem only_append (k : Nat) (a b : List Beat) : only k (a ++ b) = only k a ++ only k b := by simp [only]

theorem inputs_only (c : Mvm) (bs : List Beat) : inputsOf c bs = (only 2 bs).map (Beat.vec c) := rfl

theorem adds_only (c : Mvm) (bs : List Beat) : addsOf c bs = (only 1 bs).map (Beat.vec c) := rfl

theorem Right.of_prefix {l m : Nat} {a b : List Beat} (h : Right D c l m b) (hp : a <+: b) : Right D c l m a := by
  have h1 : inputsOf c a <+: inputsOf c b := (hp.filter _).map _
  have h2 : addsOf c a <+: addsOf c b := (hp.filter _).map _
  refine ⟨h.ins.of_prefix h1, fun h0 => (h.adds h0).of_prefix h2, h1.length_le.trans h.insLen, h2.length_le.trans h.addsLen, ?_⟩
  intro h0
  rw [h.none h0] at h2
  exact List.prefix_nil.1 h2

/-- Loaded before the first input. -/
structure Loads (I W bs : List Beat) : Prop where
  insts : only 0 bs <+: I
  weights : only 3 bs <+: W
  loaded : ∀ p b q, bs = p ++ b :: q → b.kind = 2 → only 0 p = I ∧ only 3 p = W

theorem Loads.of_prefix {I W a b : List Beat} (h : Loads I W b) (hp : a <+: b) : Loads I W a := by
  obtain ⟨e, rfl⟩ := hp
  have h1 := h.insts
  have h2 := h.weights
  rw [only_append] at h1 h2
  refine ⟨(List.prefix_append _ _).trans h1, (List.prefix_append _ _).trans h2, ?_⟩
  rintro p x q rfl hx
  exact h.loaded p x (q ++ e) (by simp) hx

/-- With an input among the beats, all is loaded, and no more comes. -/
theorem Loads.full {I W p q : List Beat} {b : Beat} (h : Loads I W (p ++ b :: q)) (hb : b.kind = 2) :
    only 0 (p ++ b :: q) = I ∧ only 3 (p ++ b :: q) = W ∧ ∀ x ∈ b :: q, x.kind = 1 ∨ x.kind = 2 := by
  obtain ⟨h1, h2⟩ := h.loaded p b q rfl hb
  have h3 := h.insts
  have h4 := h.weights
  rw [only_append, h1] at h3
  rw [only_append, h2] at h4
  have h5 : only 0 (b :: q) = [] := by
    have := h3.length_le
    rw [List.length_append] at this
    exact List.length_eq_zero_iff.1 (by omega)
  have h6 : only 3 (b :: q) = [] := by
    have := h4.length_le
    rw [List.length_append] at this
    exact List.length_eq_zero_iff.1 (by omega)
  refine ⟨by rw [only_append, h1, h5, List.append_nil], by rw [only_append, h2, h6, List.append_nil], ?_⟩
  intro x hx
  have h7 := beat_kind x
  have h8 : x.kind ≠ 0 := by
    intro h0
    have : x ∈ only 0 (b :: q) := List.mem_filter.2 ⟨hx, by simpa using h0⟩
    rw [h5] at this
    simp at this
  have h9 : x.kind ≠ 3 := by
    intro h0
    have : x ∈ only 3 (b :: q) := List.mem_filter.2 ⟨hx, by simpa using h0⟩
    rw [h6] at this
    simp at this
  omega

theorem first_input (bs : List Beat) : (∀ b ∈ bs, b.kind ≠ 2) ∨
    ∃ p b q, bs = p ++ b :: q ∧ b.kind = 2 ∧ ∀ x ∈ p, x.kind ≠ 2 := by
  induction bs with
  | nil => left; simp
  | cons a bs ih =>
    by_cases ha : a.kind = 2
    · exact .inr ⟨[], a, bs, rfl, ha, by simp⟩
    · rcases ih with h | ⟨p, b, q, rfl, hb, hp⟩
      · left
        intro b hb
        rcases List.mem_cons.1 hb with rfl | hb
        · exact ha
        · exact h b hb
      · refine .inr ⟨a :: p, b, q, rfl, hb, ?_⟩
        intro x hx
        rcases List.mem_cons.1 hx with rfl | hx
        · exact ha
        · exact hp x hx

theorem Loads.ordered {I W bs : List Beat} (h : Loads I W bs) : Ordered bs := by
  rcases first_input bs with h1 | ⟨p, b, q, rfl, hb, hp⟩
  · exact ⟨bs, [], by simp, h1, by simp⟩
  · exact ⟨p, b :: q, rfl, hp, (h.full hb).2.2⟩

/-- The results on right beats. -/
theorem Right.out (h : D.Ok c) {l m : Nat} (hl : l < D.layers) (hm : m < D.mvms l) {bs : List Beat}
    (L : Loads (D.instBeats l m) (D.weightBeats l m) bs) (R : Right D c l m bs) {r : Ref} (hr : Ref.After c bs r) :
    r.out = (List.range r.out.length).map (ideal D l m) ∧ r.out.length ≤ D.tests * D.limy l := by
  rcases first_input bs with h1 | ⟨p, b, q, rfl, hb, -⟩
  · have h2 : inputsOf c bs = [] := by
      rw [inputs_only, List.map_eq_nil_iff, only, List.filter_eq_nil_iff]
      intro b hb
      simpa using h1 b hb
    unfold Ref.After at hr
    rw [h2] at hr
    rw [hr.still]
    simp [Ref.start]
  · obtain ⟨h1, h2, -⟩ := L.full hb
    obtain ⟨h3, h4⟩ := results h hl hm h1 h2 R.ins R.adds hr
    refine ⟨?_, h4 _ R.insLen⟩
    conv_lhs => rw [h3]
    apply List.map_congr_left
    intro t _
    exact result_ideal h hl t

/-! ## all modules -/

theorem shown_prefix (c : Mvm) (t : Nat → Cycle) (n : Nat) : (sigAt c t n).2.taken <+: (sigAt c t n).2.shown (t n) :=
  List.prefix_append _ _

theorem wired_loads (h : D.Ok c) (hw : Wired D c t) {l m : Nat} (hl : l < D.layers) (hm : m < D.mvms l) (n : Nat) :
    Loads (D.instBeats l m) (D.weightBeats l m) ((sigAt c (t l m) n).2.shown (t l m n)) :=
  ⟨hw.insts l hl m hm n _ _ (run_at h.fits _ n), hw.weights l hl m hm n _ _ (run_at h.fits _ n),
    hw.loaded l hl m hm n _ _ (run_at h.fits _ n)⟩

theorem wired_ordered (h : D.Ok c) (hw : Wired D c t) {l m : Nat} (hl : l < D.layers) (hm : m < D.mvms l) (n : Nat) :
    Ordered (sigAt c (t l m) n).2.taken :=
  ((wired_loads h hw hl hm n).of_prefix (shown_prefix _ _ _)).ordered

/-- What a module sends when it is shown what is right. -/
theorem sent_right (h : D.Ok c) (hw : Wired D c t) {l m : Nat} (hl : l < D.layers) (hm : m < D.mvms l) {n : Nat}
    (R : Right D c l m ((sigAt c (t l m) n).2.shown (t l m n))) :
    Along (fun i => viewOut (ideal D l m i)) ((sigAt c (t l m) n).2.sent.map (view c)) ∧
      (sigAt c (t l m) n).2.sent.length ≤ D.tests * D.limy l := by
  have hp := shown_prefix c (t l m) n
  obtain ⟨r, h1, h2⟩ := computes h.fits (run_at h.fits (t l m) n) (wired_ordered h hw hl hm n)
  obtain ⟨h3, h4⟩ := (R.of_prefix hp).out h hl hm ((wired_loads h hw hl hm n).of_prefix hp) h1
  obtain ⟨h5, h6⟩ := forall_view h hl hm h2 h3
  exact ⟨h5, by omega⟩

theorem inputBeats_right (h : D.Ok c) {m : Nat} (hm : m < D.mvms 0) :
    Along (fed D 0 m) ((D.inputBeats m).map (Beat.vec c)) ∧ (D.inputBeats m).length = D.tests * D.limx 0 := by
  unfold Design.inputBeats
  rw [inputFile_eq h hm]
  constructor
  · rw [List.map_map, List.map_map]
    intro i a hi
    rw [along_range _ _ i a hi]
    simp only [Function.comp_apply, loadInput]
    rw [pack_vec (by simp [parse, h.dim])]
    unfold fed blockOf parse
    rw [List.map_map]
    rfl
  · simp

theorem right_all (h : D.Ok c) (hw : Wired D c t) (l : Nat) : l < D.layers → ∀ m < D.mvms l, ∀ n,
    Right D c l m ((sigAt c (t l m) n).2.shown (t l m n)) := by
  induction l with
  | zero =>
    intro hl m
    induction m with
    | zero =>
      intro hm n
      obtain ⟨a1, a2⟩ := inputBeats_right h hm
      have hp := hw.first 0 hm n _ _ (run_at h.fits _ n)
      have hz := hw.none 0 hl n _ _ (run_at h.fits _ n)
      refine ⟨a1.of_prefix (hp.map _), fun h0 => absurd rfl h0, ?_, ?_, fun _ => ?_⟩
      · rw [inputs_only, List.length_map]
        exact hp.length_le.trans a2.le
      · rw [adds_only, hz]; simp
      · rw [adds_only, hz]; simp
    | succ m ih =>
      intro hm n
      obtain ⟨a1, a2⟩ := inputBeats_right h hm
      have hp := hw.first _ hm n _ _ (run_at h.fits _ n)
      obtain ⟨s1, s2⟩ := sent_right h hw hl (by omega) (ih (by omega) n)
      obtain ⟨b1, b2⟩ := toward_beside hm s1
      have hq := hw.add 0 hl m hm n _ _ _ _ (run_at h.fits _ n) (run_at h.fits _ n)
      refine ⟨a1.of_prefix (hp.map _), fun _ => b1.of_prefix (hq.map _), ?_, ?_, fun h0 => absurd h0 (by omega)⟩
      · rw [inputs_only, List.length_map]
        exact hp.length_le.trans a2.le
      · rw [adds_only, List.length_map]
        have := hq.length_le
        omega
  | succ l ihl =>
    intro hl m
    have hM := h.mvms l (by omega)
    have hprev := fun n => sent_right h hw (l := l) (by omega) (m := D.mvms l - 1) (by omega)
      (ihl (by omega) (D.mvms l - 1) (by omega) n)
    induction m with
    | zero =>
      intro hm n
      obtain ⟨a1, a2, -⟩ := toward_next h hl hm (hprev n).1 (hprev n).2
      have hp := hw.input l hl 0 hm n _ _ _ _ (run_at h.fits _ n) (run_at h.fits _ n)
      have hz := hw.none (l + 1) hl n _ _ (run_at h.fits _ n)
      refine ⟨a1.of_prefix (hp.map _), fun h0 => absurd rfl h0, ?_, ?_, fun _ => ?_⟩
      · rw [inputs_only, List.length_map]
        exact hp.length_le.trans a2
      · rw [adds_only, hz]; simp
      · rw [adds_only, hz]; simp
    | succ m ih =>
      intro hm n
      obtain ⟨a1, a2, -⟩ := toward_next h hl hm (hprev n).1 (hprev n).2
      have hp := hw.input l hl _ hm n _ _ _ _ (run_at h.fits _ n) (run_at h.fits _ n)
      obtain ⟨s1, s2⟩ := sent_right h hw hl (by omega) (ih (by omega) n)
      obtain ⟨b1, b2⟩ := toward_beside hm s1
      have hq := hw.add (l + 1) hl m hm n _ _ _ _ (run_at h.fits _ n) (run_at h.fits _ n)
      refine ⟨a1.of_prefix (hp.map _), fun _ => b1.of_prefix (hq.map _), ?_, ?_, fun h0 => absurd h0 (by omega)⟩
      · rw [inputs_only, List.length_map]
        exact hp.length_le.trans a2
      · rw [adds_only, List.length_map]
        have := hq.length_le
        omega

/-- What the last module of the last layer sends. -/
theorem last_sends (h : D.Ok c) (hw : Wired D c t) (n : Nat) :
    Along (fun i => viewOut (ideal D (D.layers - 1) (D.mvms (D.layers - 1) - 1) i))
      ((sigAt c (t (D.layers - 1) (D.mvms (D.layers - 1) - 1)) n).2.sent.map (view c)) ∧
      (sigAt c (t (D.layers - 1) (D.mvms (D.layers - 1) - 1)) n).2.sent.length ≤ D.tests * D.limy (D.layers - 1) := by
  have hl : D.layers - 1 < D.layers := by have := h.layers; omega
  have hm : D.mvms (D.layers - 1) - 1 < D.mvms (D.layers - 1) := by have := h.mvms _ hl; omega
  exact sent_right h hw hl hm (right_all h hw _ hl _ hm n)

/-- The golden outputs are the results of the last module. -/
theorem golden_ideal (h : D.Ok c) : D.goldenFile.map parse = (List.range (D.tests * D.limy (D.layers - 1))).map fun i =>
    (ideal D (D.layers - 1) (D.mvms (D.layers - 1) - 1) i).vec := by
  have hl : D.layers - 1 < D.layers := by have := h.layers; omega
  rw [goldenFile_eq h, List.map_map]
  apply List.map_congr_left
  intro i _
  unfold ideal
  simp only [Function.comp_apply]
  rw [partSum_last h hl, show D.layers - 1 + 1 = D.layers by omega]
  unfold blockOf parse
  rw [List.map_map]
  rfl

end RadSim.Int8
