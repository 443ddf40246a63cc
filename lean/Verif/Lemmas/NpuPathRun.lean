import Verif.Lemmas.NpuPath
import Verif.Spec.NpuPath

/-!
# From the micro-ops issued to the products of matrices and vectors -/

namespace RadSim.Npu

/-! ## Sums -/

theorem isum_succ (n : Nat) (f : Nat → Int) : isum (n + 1) f = isum n f + f n := by
  simp [isum, List.range_succ]

theorem isum_congr {n : Nat} {f g : Nat → Int} (h : ∀ i, i < n → f i = g i) : isum n f = isum n g := by
  unfold isum
  rw [List.map_congr_left fun i hi => h i (List.mem_range.1 hi)]

theorem dotOf_eq (a b : Nat → Int) : dotOf a b = BitVec.ofInt 32 (isum 40 fun l => a l * b l) := by
  unfold dotOf
  generalize 40 = n
  induction n with
  | zero => rfl
  | succ n ih =>
    rw [List.range_succ, List.foldl_append, ih, isum_succ, BitVec.ofInt_add]
    rfl

theorem dots_add (f g : Nat → Int) : (Dots.of fun d => BitVec.ofInt 32 (f d)) + (Dots.of fun d => BitVec.ofInt 32 (g d)) =
    Dots.of fun d => BitVec.ofInt 32 (f d + g d) := by
  show Dots.mk _ _ _ = Dots.mk _ _ _
  simp only [Dots.of, BitVec.ofInt_add]

theorem total_dots (f : Nat → Nat → Int) (n : Nat) :
    total (fun v => Dots.of fun d => BitVec.ofInt 32 (f v d)) n = Dots.of fun d => BitVec.ofInt 32 (isum (n + 1) fun v => f v d) := by
  induction n with
  | zero => simp [total, isum]
  | succ n ih =>
    rw [total, ih, dots_add]
    congr 1
    funext d
    rw [isum_succ (n + 1), Int.add_comm]

/-! ## The banks -/

/-- The banks after a sequence of cycles, the oldest first. -/
def bankC (t : Nat) (b : Bank) (c : List SectorIn) : Bank := bankOf t b c.reverse

theorem bankOf_append (t : Nat) (b : Bank) (l1 l2 : List SectorIn) : bankOf t b (l1 ++ l2) = bankOf t (bankOf t b l2) l1 := by
  induction l1 with
  | nil => rfl
  | cons x l ih =>
    rw [List.cons_append]
    show (if loads x then _ else _) = if loads x then _ else _
    rw [ih]

theorem bankC_append (t : Nat) (b : Bank) (c1 c2 : List SectorIn) : bankC t b (c1 ++ c2) = bankC t (bankC t b c1) c2 := by
  unfold bankC
  rw [List.reverse_append, bankOf_append]

theorem bankC_cons (t : Nat) (b : Bank) (x : SectorIn) (c : List SectorIn) :
    bankC t b (x :: c) = bankC t (if loads x then b.load x.uop.regSel (part t x) else b) c := by
  rw [show x :: c = [x] ++ c from rfl, bankC_append]
  rfl

/-- Cycles without a load. -/
theorem bankC_none (t : Nat) (b : Bank) (c : List SectorIn) (h : ∀ x ∈ c, loads x = false) : bankC t b c = b := by
  induction c generalizing b with
  | nil => rfl
  | cons x c ih =>
    rw [bankC_cons, h x (by simp)]
    exact ih b fun y hy => h y (by simp [hy])

/-- Loads of the other bank. -/
theorem bankC_other (t : Nat) (b : Bank) (s : Bool) (c : List SectorIn) (h : ∀ x ∈ c, loads x = true → x.uop.regSel ≠ s) :
    (bankC t b c).regs s = b.regs s := by
  induction c generalizing b with
  | nil => rfl
  | cons x c ih =>
    rw [bankC_cons, ih _ fun y hy => h y (by simp [hy])]
    by_cases hl : loads x = true
    · rw [if_pos hl]
      funext d l
      show (if _ then _ else _) = _
      rw [if_neg fun hc => h x (by simp) hl hc.1.symm]
    · rw [if_neg hl]

/-- The loads of a block. -/
theorem bankC_full (t : Nat) (b : Bank) (s : Bool) (xs : List SectorIn) (h0 : b.batch = 0 ∧ b.tb = 0)
    (hx : ∀ p x, p < 12 → xs[p]? = some x → loads x = true ∧ x.uop.regSel = s) (hl : 12 ≤ xs.length) (k : Nat) (hk : k ≤ 12) :
    (bankC t b (xs.take k)).batch = k % 3 ∧ (bankC t b (xs.take k)).tb = k / 3 % 4 ∧
      ∀ d l, d < 3 → l < 40 → (bankC t b (xs.take k)).regs s d l =
        if 3 * (l / 10) + d < k then part t (past xs (3 * (l / 10) + d)) (l % 10) else b.regs s d l := by
  induction k with
  | zero =>
    refine ⟨h0.1, h0.2, ?_⟩
    intro d l _ _
    rw [if_neg (by omega)]
    rfl
  | succ k ih =>
    obtain ⟨h1, h2, h3⟩ := ih (by omega)
    have hg : xs[k]? = some xs[k] := List.getElem?_eq_getElem (by omega)
    obtain ⟨g1, g2⟩ := hx k _ (by omega) hg
    have hp : past xs k = xs[k] := by simp [past, List.getD_eq_getElem?_getD, hg]
    have e : bankC t b (xs.take (k + 1)) = (bankC t b (xs.take k)).load s (part t xs[k]) := by
      rw [List.take_succ_eq_append_getElem (by omega), bankC_append, bankC_cons, if_pos g1, g2]
      rfl
    rw [e]
    refine ⟨?_, ?_, ?_⟩
    · show (if _ = 2 then 0 else _ + 1) = _
      rw [h1]
      split <;> omega
    · show (if _ = 2 then (if _ = 3 then 0 else _ + 1) else _) = _
      rw [h1, h2]
      split
      · split <;> omega
      · omega
    · intro d l hd hl'
      show (if _ then _ else _) = _
      rw [h1, h2, h3 d l hd hl']
      by_cases hc : 3 * (l / 10) + d = k
      · rw [if_pos ⟨rfl, by omega, by omega, by omega⟩, if_pos (by omega), hc, hp]
        congr 1
        omega
      · rw [if_neg (by omega)]
        split
        · rw [if_pos (by omega)]
        · rw [if_neg (by omega)]

/-! ## The blocks -/

/-- The bank a block uses. -/
def Blk.sel (b : Blk) : Bool := (b.m.uop b.reg b.g b.v 0).regSel

/-- Successive blocks use different banks, and have 12 rows at least. -/
def Alternate : List Blk → Prop
  | b :: b' :: bs => b.sel ≠ b'.sel ∧ 12 ≤ b.m.rows b.g ∧ Alternate (b' :: bs)
  | [b] => 12 ≤ b.m.rows b.g
  | [] => True

theorem Alternate.head {b : Blk} {bs : List Blk} (h : Alternate (b :: bs)) : 12 ≤ b.m.rows b.g ∧ Alternate bs := by
  cases bs with
  | nil => exact ⟨h, trivial⟩
  | cons b' bs => exact ⟨h.2.1, h.2.2⟩

/-- The 11 cycles after a block load only what the next block uses. -/
theorem Issued.next {V : Nat → Nat → Nat → Nat → Int} {n : Nat} {bs : List Blk} {c : List SectorIn} (h : Issued V n bs c)
    (ha : Alternate bs) (k : Nat) (hk : k ≤ 12) : ∀ x ∈ c.take k, loads x = true → ∃ b bs', bs = b :: bs' ∧ x.uop.regSel = b.sel := by
  induction h generalizing k with
  | done h =>
    intro x hx hl
    have := h x (List.mem_of_mem_take hx)
    simp [loads, this] at hl
  | @gap bs y c hy hi ih =>
    intro x hx hl
    rcases k with _ | k
    · simp at hx
    · rw [List.take_succ_cons] at hx
      rcases List.mem_cons.1 hx with rfl | hx
      · simp [loads, hy] at hl
      · exact ih ha k (by omega) x hx hl
  | @block b bs xs c hc hi ih =>
    intro x hx hl
    refine ⟨b, bs, rfl, ?_⟩
    rw [List.take_append_of_le_length (by have := ha.head.1; have := hc.1; omega)] at hx
    obtain ⟨p, hp⟩ := List.mem_iff_getElem?.1 (List.mem_of_mem_take hx)
    rw [(hc.2 p x hp).2.1]
    rfl

/-! ## What a micro-op of a block gives -/

/-- A cycle of a list of cycles, for the accumulator. -/
def giveOf (cs0 : List Tile) (L : List SectorIn) (i : Nat) : AccIn Dots :=
  ⟨(past L i).valid, (past L i).uop.accumOp, (past L i).uop.accumSize, sumRes (L.take (12 + i)).reverse 0 cs0 zeroDots⟩

theorem past_reverse_take {L : List SectorIn} {k j : Nat} (hk : k ≤ L.length) (hj : j < k) :
    past (L.take k).reverse j = past L (k - 1 - j) := by
  have h1 : j < (L.take k).reverse.length := by simp; omega
  have h2 : k - 1 - j < L.length := by omega
  have hmin : min k L.length = k := Nat.min_eq_left hk
  simp only [past, List.getD_eq_getElem?_getD, List.getElem?_eq_getElem h1, List.getElem?_eq_getElem h2, List.getElem_reverse,
    List.getElem_take, List.length_take, hmin, Option.getD_some]

theorem apart_at {L : List SectorIn} (h : Apart L) {i : Nat} (hi : i + 1 < L.length) (hv : (past L i).valid = true) :
    (past L i).uop.mrfAddr ≠ (past L (i + 1)).uop.mrfAddr := by
  induction L generalizing i with
  | nil => simp at hi
  | cons x L ih =>
    cases L with
    | nil => simp at hi
    | cons y L =>
      rcases i with _ | i
      · exact h.1 hv
      · exact ih h.2 (by simpa using hi) hv

theorem resOf_give {L : List SectorIn} (t : Nat) (c : Tile) {i : Nat} (hi : i + 12 ≤ L.length) (hv : (past L i).valid = true)
    (ha : Apart L) (hm : (past L i).uop.mrfAddr < c.rf.mem.length) :
    resOf t c (L.take (12 + i)).reverse =
      (bankC t c.bank (L.take (12 + i))).dots (past L i).uop.regSel (c.rf.mem.getD (past L i).uop.mrfAddr []) := by
  have h0 := resOf_step t c (L.take (12 + i)).reverse 0
  simp only [List.drop_zero, Nat.zero_add] at h0
  have e11 : past (L.take (12 + i)).reverse 11 = past L i := by
    rw [past_reverse_take (by omega) (by omega)]
    congr 1
    omega
  have e10 : past (L.take (12 + i)).reverse 10 = past L (i + 1) := by
    rw [past_reverse_take (by omega) (by omega)]
    congr 1
    omega
  rw [h0, e11, if_pos hv, readOf_step, e11, e10, if_pos (apart_at ha (by omega) hv)]
  rw [List.getD_eq_getElem?_getD, List.getD_eq_getElem?_getD, List.getElem?_eq_getElem hm]
  rfl

theorem sumRes_eq (l : List SectorIn) (F : Nat → Nat → Int) : ∀ (t : Nat) (cs : List Tile) (s : Nat → Int),
    (∀ j c, cs[j]? = some c → resOf (t + j) c l = Dots.of fun d => BitVec.ofInt 32 (F (t + j) d)) →
    sumRes l t cs (Dots.of fun d => BitVec.ofInt 32 (s d)) =
      Dots.of fun d => BitVec.ofInt 32 (s d + isum cs.length fun j => F (t + j) d)
  | _, [], s, _ => by simp [sumRes, isum]
  | t, c :: cs, s, h => by
    show sumRes l (t + 1) cs (_ + _) = _
    rw [show resOf t c l = Dots.of fun d => BitVec.ofInt 32 (F t d) from h 0 c rfl, dots_add, sumRes_eq l F (t + 1) cs (fun d => s d + F t d) fun j c' hc => by
      have := h (j + 1) c' hc
      rw [show t + (j + 1) = t + 1 + j by omega] at this
      exact this]
    congr 1
    funext d
    congr 1
    show _ = s d + isum (cs.length + 1) _
    have : ∀ m, isum (m + 1) (fun j => F (t + j) d) = F t d + isum m fun j => F (t + 1 + j) d := by
      intro m
      induction m with
      | zero => simp [isum]
      | succ m ih =>
        rw [isum_succ, ih, isum_succ, Int.add_assoc]
        congr 3
        omega
    rw [this, Int.add_assoc]

/-- The matrices at the start. -/
def matrices (cs0 : List Tile) (t a l : Nat) : Int :=
  match cs0[t]? with
  | some c => (c.rf.mem.getD a []).getD l 0
  | none => 0

/-- The product for a row of a block. -/
def Blk.product (b : Blk) (n : Nat) (M : Nat → Nat → Nat → Int) (V : Nat → Nat → Nat → Nat → Int) (p : Nat) : Dots :=
  .of fun d => BitVec.ofInt 32 <| isum n fun t => isum 40 fun l =>
    M t (b.m.mrfBase + (12 * b.g + p) * b.m.vrfSize + b.v) l * V b.k t (word b.m.vrfBase d b.v) l

/-- What a block gives to the accumulator. -/
def Blk.gives (b : Blk) (n : Nat) (M : Nat → Nat → Nat → Int) (V : Nat → Nat → Nat → Nat → Int) : List (AccIn Dots) :=
  (List.range (b.m.rows b.g)).map fun p =>
    ⟨true, (b.m.uop false b.g b.v p).accumOp, (b.m.uop false b.g b.v p).accumSize, b.product n M V p⟩

theorem block_give {cs0 : List Tile} {V : Nat → Nat → Nat → Nat → Int} {b : Blk} {bs : List Blk} {pre xs c : List SectorIn}
    (hc : Carries V cs0.length b xs) (hi : Issued V cs0.length bs c) (ha : Alternate (b :: bs))
    (h0 : ∀ t c0, cs0[t]? = some c0 → (bankC t c0.bank pre).batch = 0 ∧ (bankC t c0.bank pre).tb = 0)
    (hA : Apart (pre ++ (xs ++ c))) (hlen : pre.length + xs.length + 11 ≤ (pre ++ (xs ++ c)).length)
    (hm : ∀ c0 ∈ cs0, ∀ x ∈ xs, x.uop.mrfAddr < c0.rf.mem.length) {p : Nat} (hp : p < xs.length) :
    giveOf cs0 (pre ++ (xs ++ c)) (pre.length + p) =
      ⟨true, (b.m.uop false b.g b.v p).accumOp, (b.m.uop false b.g b.v p).accumSize,
        b.product cs0.length (matrices cs0) V p⟩ := by
  have hx : xs[p]? = some xs[p] := List.getElem?_eq_getElem hp
  have hpast : past (pre ++ (xs ++ c)) (pre.length + p) = xs[p] := by
    simp only [past, List.getD_eq_getElem?_getD]
    rw [List.getElem?_append_right (by omega), Nat.add_sub_cancel_left, List.getElem?_append_left hp, hx]
    rfl
  obtain ⟨hv, hu, _⟩ := hc.2 p _ hx
  have hr12 := ha.head.1
  have hlx := hc.1
  unfold giveOf
  rw [hpast, hv, hu]
  refine congrArg (AccIn.mk true _ _) ?_
  have hz : zeroDots = Dots.of fun d => BitVec.ofInt 32 ((fun _ => (0 : Int)) d) := rfl
  rw [hz, sumRes_eq _ (fun t d => isum 40 fun l => matrices cs0 t (b.m.mrfBase + (12 * b.g + p) * b.m.vrfSize + b.v) l *
    V b.k t (word b.m.vrfBase d b.v) l)]
  · unfold Blk.product
    congr 1
    funext d
    simp only [Int.zero_add, Nat.zero_add]
  · intro t c0 ht
    rw [Nat.zero_add]
    have htl : t < cs0.length := by
      rcases Nat.lt_or_ge t cs0.length with h | h
      · exact h
      · rw [List.getElem?_eq_none h] at ht
        cases ht
    rw [resOf_give t c0 (by omega) (by rw [hpast]; exact hv) hA (by
      rw [hpast]; exact hm c0 (List.mem_of_getElem? ht) _ (List.getElem_mem hp)), hpast, hu]
    -- the banks
    have hsel : (b.m.uop b.reg b.g b.v p).regSel = b.sel := rfl
    have hloads : ∀ q x, q < 12 → xs[q]? = some x → loads x = true ∧ x.uop.regSel = b.sel := by
      intro q x hq hxq
      obtain ⟨g1, g2, _⟩ := hc.2 q x hxq
      refine ⟨?_, by rw [g2]; rfl⟩
      unfold loads
      rw [g1, g2]
      show decide (q < 12) = true
      simpa using hq
    have e1 : (pre ++ (xs ++ c)).take (12 + (pre.length + p)) =
        pre ++ (xs.take 12 ++ ((xs.drop 12).take p ++ c.take (12 + p - xs.length))) := by
      rw [show 12 + (pre.length + p) = pre.length + (12 + p) by omega, List.take_length_add_append, List.take_append,
        ← List.append_assoc (xs.take 12)]
      congr 2
      rw [Nat.add_comm 12 p, ← List.take_append_drop 12 (xs.take (p + 12)), List.take_take, List.drop_take]
      congr 2
    obtain ⟨f1, f2, f3⟩ := bankC_full t (bankC t c0.bank pre) b.sel xs (h0 t c0 ht) hloads (by omega) 12 (by omega)
    have hnone : ∀ x ∈ (xs.drop 12).take p, loads x = false := by
      intro x hx
      obtain ⟨q, hq⟩ := List.mem_iff_getElem?.1 (List.mem_of_mem_take hx)
      rw [List.getElem?_drop] at hq
      obtain ⟨_, g2, _⟩ := hc.2 _ x hq
      unfold loads
      rw [g2]
      show (x.valid && decide (12 + q < 12)) = false
      simp
    have e2 : (bankC t c0.bank ((pre ++ (xs ++ c)).take (12 + (pre.length + p)))).regs b.sel =
        (bankC t (bankC t c0.bank pre) (xs.take 12)).regs b.sel := by
      rw [e1, bankC_append, bankC_append, bankC_append, bankC_none t _ _ hnone]
      apply bankC_other
      intro x hx hl
      obtain ⟨b', bs', rfl, e⟩ := hi.next ha.head.2 _ (by omega) x hx hl
      rw [e]
      exact fun h => ha.1 h.symm
    show Dots.of (fun d => dotOf _ ((bankC t c0.bank _).regs b.sel d)) = _
    rw [e2]
    have hd : ∀ d, d < 3 → dotOf (fun l => (c0.rf.mem.getD (b.m.uop b.reg b.g b.v p).mrfAddr []).getD l 0)
        ((bankC t (bankC t c0.bank pre) (xs.take 12)).regs b.sel d) =
        BitVec.ofInt 32 (isum 40 fun l => matrices cs0 t (b.m.mrfBase + (12 * b.g + p) * b.m.vrfSize + b.v) l *
          V b.k t (word b.m.vrfBase d b.v) l) := by
      intro d hd
      rw [dotOf_eq]
      congr 1
      apply isum_congr
      intro l hl
      have hM : matrices cs0 t (b.m.mrfBase + (12 * b.g + p) * b.m.vrfSize + b.v) l =
          (c0.rf.mem.getD (b.m.uop b.reg b.g b.v p).mrfAddr []).getD l 0 := by
        unfold matrices
        rw [ht]
        rfl
      rw [hM, f3 d l hd hl, if_pos (by omega)]
      congr 1
      have hq : 3 * (l / 10) + d < 12 := by omega
      have hxq : xs[3 * (l / 10) + d]? = some xs[3 * (l / 10) + d] := List.getElem?_eq_getElem (by omega)
      obtain ⟨_, g2, g3⟩ := hc.2 _ _ hxq
      have hpq : past xs (3 * (l / 10) + d) = xs[3 * (l / 10) + d] := by
        simp only [past, List.getD_eq_getElem?_getD, hxq, Option.getD_some]
      have ha1 : (b.m.uop b.reg b.g b.v (3 * (l / 10) + d)).vrfAddr = word b.m.vrfBase d b.v := by
        show word b.m.vrfBase (if 3 * (l / 10) + d < 12 then (3 * (l / 10) + d) % 3 else 0) b.v = _
        rw [if_pos hq]
        congr 1
        omega
      have ha2 : (b.m.uop b.reg b.g b.v (3 * (l / 10) + d)).vrfRdId = l / 10 := by
        show (if 3 * (l / 10) + d < 12 then (3 * (l / 10) + d) / 3 else 0) = _
        rw [if_pos hq]
        omega
      unfold part
      rw [hpq]
      have := g3 hq t htl (10 * (l / 10) + l % 10) (by omega)
      rw [g2, ha1] at this
      rw [g2, ha1, ha2, this]
      congr 1
      omega
    unfold Dots.of
    simp only
    rw [hd 0 (by omega), hd 1 (by omega), hd 2 (by omega)]

theorem valid_past {L : List SectorIn} {i : Nat} (h : (past L i).valid = true) : i < L.length := by
  rcases Nat.lt_or_ge i L.length with hl | hl
  · exact hl
  · simp only [past, List.getD_eq_getElem?_getD] at h
    rw [List.getElem?_eq_none hl] at h
    cases h

/-- All the cycles. -/
theorem issued_gives {cs0 : List Tile} {V : Nat → Nat → Nat → Nat → Int} {L : List SectorIn} (hA : Apart L)
    (hm : ∀ c0 ∈ cs0, ∀ x ∈ L, x.uop.mrfAddr < c0.rf.mem.length)
    (hlen : ∀ i, (past L i).valid = true → i + 12 ≤ L.length) {bs : List Blk} {c : List SectorIn} (hi : Issued V cs0.length bs c) :
    ∀ pre : List SectorIn, L = pre ++ c → Alternate bs →
      (∀ t c0, cs0[t]? = some c0 → (bankC t c0.bank pre).batch = 0 ∧ (bankC t c0.bank pre).tb = 0) →
      ((List.range c.length).map fun i => giveOf cs0 L (pre.length + i)).filter (·.valid) =
        bs.flatMap fun b => b.gives cs0.length (matrices cs0) V := by
  induction hi with
  | @done c h =>
    intro pre hL _ _
    rw [List.flatMap_nil, List.filter_eq_nil_iff]
    intro y hy
    obtain ⟨i, hi, rfl⟩ := List.mem_map.1 hy
    have hi := List.mem_range.1 hi
    show ¬ (past L (pre.length + i)).valid = true
    rw [hL]
    simp only [past, List.getD_eq_getElem?_getD]
    rw [List.getElem?_append_right (by omega), Nat.add_sub_cancel_left, List.getElem?_eq_getElem hi, Option.getD_some,
      h _ (List.getElem_mem hi)]
    simp
  | @gap bs x c hx hi ih =>
    intro pre hL ha h0
    have := ih (pre ++ [x]) (by rw [hL]; simp) ha (by
      intro t c0 ht
      rw [bankC_append, bankC_none t _ [x] (by intro y hy; simp at hy; subst hy; simp [loads, hx])]
      exact h0 t c0 ht)
    rw [← this, List.length_cons, List.range_succ_eq_map, List.map_cons, List.filter_cons]
    have hp : (giveOf cs0 L (pre.length + 0)).valid = false := by
      show (past L pre.length).valid = false
      rw [hL]
      simp [past, List.getD_eq_getElem?_getD, hx]
    rw [if_neg (by rw [hp]; simp), List.map_map]
    congr 1
    apply List.map_congr_left
    intro i _
    simp only [Function.comp, List.length_append, List.length_cons, List.length_nil]
    congr 1
    omega
  | @block b bs xs c hc hi ih =>
    intro pre hL ha h0
    have hr12 := ha.head.1
    have hlx := hc.1
    have hb0 : ∀ t c0, cs0[t]? = some c0 → (bankC t c0.bank (pre ++ xs)).batch = 0 ∧ (bankC t c0.bank (pre ++ xs)).tb = 0 := by
      intro t c0 ht
      have hloads : ∀ q x, q < 12 → xs[q]? = some x → loads x = true ∧ x.uop.regSel = b.sel := by
        intro q x hq hxq
        obtain ⟨g1, g2, _⟩ := hc.2 q x hxq
        refine ⟨?_, by rw [g2]; rfl⟩
        unfold loads
        rw [g1, g2]
        show decide (q < 12) = true
        simpa using hq
      obtain ⟨f1, f2, _⟩ := bankC_full t (bankC t c0.bank pre) b.sel xs (h0 t c0 ht) hloads (by omega) 12 (by omega)
      have hnone : ∀ x ∈ xs.drop 12, loads x = false := by
        intro x hx
        obtain ⟨q, hq⟩ := List.mem_iff_getElem?.1 hx
        rw [List.getElem?_drop] at hq
        obtain ⟨_, g2, _⟩ := hc.2 _ x hq
        unfold loads
        rw [g2]
        show (x.valid && decide (12 + q < 12)) = false
        simp
      rw [bankC_append, ← List.take_append_drop 12 xs, bankC_append, bankC_none t _ _ hnone]
      exact ⟨f1, f2⟩
    have := ih (pre ++ xs) (by rw [hL]; simp) ha.head.2 hb0
    rw [List.flatMap_cons, ← this, List.length_append, List.range_add, List.map_append, List.filter_append, List.map_map]
    congr 1
    · have hl : pre.length + xs.length + 11 ≤ (pre ++ (xs ++ c)).length := by
        have hx : xs[xs.length - 1]? = some xs[xs.length - 1] := List.getElem?_eq_getElem (by omega)
        have := hlen (pre.length + (xs.length - 1)) (by
          rw [hL]
          simp only [past, List.getD_eq_getElem?_getD]
          rw [List.getElem?_append_right (by omega), Nat.add_sub_cancel_left, List.getElem?_append_left (by omega), hx]
          exact (hc.2 _ _ hx).1)
        rw [hL] at this
        omega
      unfold Blk.gives
      rw [← hlx, List.filter_eq_self.2]
      · apply List.map_congr_left
        intro p hp
        rw [hL]
        exact block_give hc hi ha h0 (by rw [← hL]; exact hA) hl (fun c0 h0 x hx => hm c0 h0 x (by rw [hL]; simp [hx]))
          (List.mem_range.1 hp)
      · intro y hy
        obtain ⟨p, hp, rfl⟩ := List.mem_map.1 hy
        have hp := List.mem_range.1 hp
        rw [hL, block_give hc hi ha h0 (by rw [← hL]; exact hA) hl (fun c0 h0 x hx => hm c0 h0 x (by rw [hL]; simp [hx])) hp]
    · congr 1
      apply List.map_congr_left
      intro i _
      simp only [Function.comp, List.length_append]
      congr 1
      omega

/-! ## What the accumulator is given -/

def feeds (cs0 : List Tile) (h L : List SectorIn) : List (AccIn Dots) :=
  (List.range L.length).map fun j => feedOf cs0 ((L.take j).reverse ++ h)

theorem feedsOf_eq (cs0 : List Tile) : ∀ (es : List (Option SectorIn)) (h : List SectorIn),
    (feedsOf cs0 h es).filterMap id = feeds cs0 h (es.filterMap id)
  | [], _ => rfl
  | none :: es, h => feedsOf_eq cs0 es h
  | some x :: es, h => by
    have ih := feedsOf_eq cs0 es (x :: h)
    show feedOf cs0 h :: (feedsOf cs0 (x :: h) es).filterMap id = feeds cs0 h (x :: es.filterMap id)
    rw [ih]
    unfold feeds
    rw [List.length_cons, List.range_succ_eq_map, List.map_cons, List.map_map]
    congr 1
    apply List.map_congr_left
    intro j _
    simp [Function.comp]

theorem past_none {h : List SectorIn} {i : Nat} (hi : h.length ≤ i) : past h i = idle := by
  simp only [past, List.getD_eq_getElem?_getD]
  rw [List.getElem?_eq_none hi]
  rfl

theorem feed_early {cs0 : List Tile} {L : List SectorIn} {j : Nat} (hj : j < 32) :
    (feedOf cs0 ((L.take j).reverse ++ [])).valid = false := by
  show (past _ 31).valid = false
  rw [past_none (by simp; omega)]
  rfl

theorem feed_late {cs0 : List Tile} {L : List SectorIn} {i : Nat} (hi : 32 + i ≤ L.length) :
    feedOf cs0 ((L.take (32 + i)).reverse ++ []) = giveOf cs0 L i := by
  rw [List.append_nil]
  have h1 : past (L.take (32 + i)).reverse 31 = past L i := by
    rw [past_reverse_take hi (by omega)]
    congr 1
    omega
  have h2 : (L.take (32 + i)).reverse.drop 20 = (L.take (12 + i)).reverse := by
    rw [List.drop_reverse, List.length_take, List.take_take]
    congr 2
    omega
  unfold feedOf giveOf
  rw [h1, h2]

/-- With 35 more cycles in which nothing is issued. -/
theorem feeds_filter {cs0 : List Tile} {T tl : List SectorIn} (hl : tl.length = 35) (ht : ∀ x ∈ tl, x.valid = false) :
    (feeds cs0 [] (T ++ tl)).filter (·.valid) =
      ((List.range (T ++ tl).length).map fun i => giveOf cs0 (T ++ tl) i).filter (·.valid) := by
  have hlen : (T ++ tl).length = 32 + (T.length + 3) := by simp; omega
  have hlen' : (T ++ tl).length = T.length + 3 + 32 := by omega
  have hA : (feeds cs0 [] (T ++ tl)).filter (·.valid) =
      ((List.range (T.length + 3)).map fun i => giveOf cs0 (T ++ tl) i).filter (·.valid) := by
    unfold feeds
    rw [hlen, List.range_add, List.map_append, List.filter_append, List.filter_eq_nil_iff.2, List.nil_append, List.map_map]
    · congr 1
      apply List.map_congr_left
      intro i hi
      have := List.mem_range.1 hi
      exact feed_late (by omega)
    · intro y hy
      obtain ⟨j, hj, rfl⟩ := List.mem_map.1 hy
      rw [feed_early (List.mem_range.1 hj)]
      simp
  have hB : ∀ y ∈ (List.range 32).map ((fun i => giveOf cs0 (T ++ tl) i) ∘ fun x => T.length + 3 + x), ¬ y.valid = true := by
    intro y hy
    obtain ⟨j, hj, rfl⟩ := List.mem_map.1 hy
    have hj := List.mem_range.1 hj
    show ¬ (past (T ++ tl) (T.length + 3 + j)).valid = true
    simp only [past, List.getD_eq_getElem?_getD]
    rw [List.getElem?_append_right (by omega), List.getElem?_eq_getElem (by omega), Option.getD_some, ht _ (List.getElem_mem _)]
    simp
  have hR : List.range (T.length + 3 + 32) = List.range (T.length + 3) ++ (List.range 32).map fun x => T.length + 3 + x :=
    List.range_add
  rw [hA, hlen', hR, List.map_append, List.filter_append, List.map_map, List.filter_eq_nil_iff.2 hB, List.append_nil]

/-! ## The accumulator at the end -/

def Acc.flags {A : Type} (a : Acc A) : List Bool := [a.s0.valid, a.s1.valid, a.s2.valid]

theorem Acc.run_flags {A : Type} [Add A] : ∀ (es : List (Option (AccIn A))) {a a' : Acc A} {o : List A},
    a.run es = some (o, a') → a'.flags = (((es.filterMap id).map (·.valid)).reverse ++ a.flags).take 3
  | [], a, a', o, h => by
    simp only [Acc.run, Option.some.injEq, Prod.mk.injEq] at h
    obtain ⟨_, rfl⟩ := h
    rfl
  | none :: es, a, a', o, h => Acc.run_flags es h
  | some i :: es, a, a', o, h => by
    simp only [Acc.run] at h
    split at h
    · cases h
    · rename_i a1 e1
      split at h
      · cases h
      · rename_i o2 a2 e2
        simp only [Option.some.injEq, Prod.mk.injEq] at h
        obtain ⟨_, rfl⟩ := h
        obtain ⟨g1, g2, g3⟩ := Acc.tick_idle e1
        rw [Acc.run_flags es e2]
        have hf : a1.flags = [i.valid, a.s0.valid, a.s1.valid] := by
          unfold Acc.flags
          rw [g1, g2, g3]
        rw [hf]
        show _ = List.take 3 ((i.valid :: (es.filterMap id).map (·.valid)).reverse ++ a.flags)
        rw [List.reverse_cons, List.append_assoc]
        generalize ((es.filterMap id).map (·.valid)).reverse = l
        unfold Acc.flags
        rw [List.take_append, List.take_append]
        congr 1
        rcases l with _ | ⟨x, _ | ⟨y, _ | ⟨z, l⟩⟩⟩ <;> simp

/-! ## The blocks of macro-ops -/

theorem range_mul (G V : Nat) {B : Type} (f : Nat → Nat → B) :
    ((List.range G).flatMap fun g => (List.range V).map fun v => f g v) = (List.range (G * V)).map fun q => f (q / V) (q % V) := by
  induction G with
  | zero => simp
  | succ G ih =>
    rw [List.range_succ, List.flatMap_append, List.flatMap_singleton, ih, Nat.succ_mul, List.range_add, List.map_append, List.map_map]
    congr 1
    apply List.map_congr_left
    intro v hv
    have hv := List.mem_range.1 hv
    simp only [Function.comp]
    rw [Nat.mul_comm, Nat.mul_add_div (by omega), Nat.div_eq_of_lt hv, Nat.mul_add_mod, Nat.mod_eq_of_lt hv, Nat.add_zero]

theorem sel_at (k : Nat) (m : MvuMop) (reg : Bool) (q : Nat) :
    (Blk.mk k m reg (q / m.vrfSize) (q % m.vrfSize)).sel = (reg ^^ q % 2 == 1) := by
  show (reg ^^ (q / m.vrfSize * m.vrfSize + q % m.vrfSize) % 2 == 1) = _
  rw [Nat.mul_comm, Nat.div_add_mod]

theorem parity_ne (reg : Bool) (q : Nat) : (reg ^^ q % 2 == 1) ≠ (reg ^^ (q + 1) % 2 == 1) := by
  rcases Nat.mod_two_eq_zero_or_one q with h | h
  · have h' : (q + 1) % 2 = 1 := by omega
    rw [h, h']
    cases reg <;> decide
  · have h' : (q + 1) % 2 = 0 := by omega
    rw [h, h']
    cases reg <;> decide

theorem rows_twelve (m : MvuMop) (g : Nat) : 12 ≤ m.rows g := by
  unfold MvuMop.rows
  split <;> omega

/-- A run of blocks whose banks alternate, before others. -/
theorem alternate_run (k : Nat) (m : MvuMop) (reg : Bool) (rest : List Blk) (n : Nat) :
    ∀ q, (∀ b bs, rest = b :: bs → b.sel = (reg ^^ (q + n) % 2 == 1)) → Alternate rest →
      Alternate (((List.range' q n).map fun q => Blk.mk k m reg (q / m.vrfSize) (q % m.vrfSize)) ++ rest) := by
  induction n with
  | zero => intro q _ h; simpa using h
  | succ n ih =>
    intro q h1 h2
    have := ih (q + 1) (fun b bs hb => by rw [h1 b bs hb]; congr 3; omega) h2
    rw [List.range'_succ, List.map_cons, List.cons_append]
    rcases n with _ | n
    · cases rest with
      | nil => exact rows_twelve _ _
      | cons b bs =>
        refine ⟨?_, rows_twelve _ _, h2⟩
        rw [sel_at, h1 b bs rfl]
        exact parity_ne reg q
    · rw [List.range'_succ, List.map_cons, List.cons_append] at this ⊢
      refine ⟨?_, rows_twelve _ _, this⟩
      rw [sel_at, sel_at]
      exact parity_ne reg q

theorem blocks_alternate : ∀ (ms : List MvuMop) (k : Nat) (reg : Bool), (∀ m ∈ ms, m.Legal) →
    Alternate (blocksOf k reg ms) ∧ ∀ b bs, blocksOf k reg ms = b :: bs → b.sel = reg
  | [], _, _, _ => ⟨trivial, fun _ _ h => by cases h⟩
  | m :: ms, k, reg, hm => by
    obtain ⟨h1, h2⟩ := blocks_alternate ms (k + 1) (reg ^^ (m.groups * m.vrfSize) % 2 == 1) fun m' h' => hm m' (by simp [h'])
    have hL := hm m (by simp)
    have hpos : 0 < m.groups * m.vrfSize := by
      refine Nat.mul_pos ?_ hL.1
      have := hL.2.1
      unfold MvuMop.groups
      omega
    unfold blocksOf
    rw [range_mul m.groups m.vrfSize fun g v => Blk.mk k m reg g v, List.range_eq_range']
    refine ⟨alternate_run k m reg _ _ 0 (fun b bs hb => by rw [h2 b bs hb, Nat.zero_add]) h1, ?_⟩
    intro b bs hb
    obtain ⟨n, hn⟩ : ∃ n, m.groups * m.vrfSize = n + 1 := ⟨m.groups * m.vrfSize - 1, by omega⟩
    rw [hn, List.range'_succ, List.map_cons, List.cons_append] at hb
    cases hb
    rw [sel_at]
    simp

/-- The product of a word of a row of the macro-op `k` of a list. -/
def productOf (n : Nat) (M : Nat → Nat → Nat → Int) (V : Nat → Nat → Nat → Nat → Int) (f : Nat → MvuMop) (k r v : Nat) : Dots :=
  .of fun d => BitVec.ofInt 32 <| isum n fun t => isum 40 fun l =>
    M t ((f k).mrfBase + r * (f k).vrfSize + v) l * V k t (word (f k).vrfBase d v) l

theorem gives_feed (n : Nat) (M : Nat → Nat → Nat → Int) (V : Nat → Nat → Nat → Nat → Int) (f : Nat → MvuMop) :
    ∀ (ms : List MvuMop) (k : Nat) (reg : Bool), (∀ i m, ms[i]? = some m → f (k + i) = m) →
      ((blocksOf k reg ms).flatMap fun b => b.gives n M V) = sectorFeed (productOf n M V f) k ms
  | [], _, _, _ => rfl
  | m :: ms, k, reg, hf => by
    have ih := gives_feed n M V f ms (k + 1) (reg ^^ (m.groups * m.vrfSize) % 2 == 1) (fun i m' h' => by
      rw [show k + 1 + i = k + (i + 1) by omega]
      exact hf (i + 1) m' h')
    unfold blocksOf sectorFeed
    rw [List.flatMap_append, ih]
    congr 1
    rw [List.flatMap_assoc]
    congr 1
    funext g
    rw [List.flatMap_map]
    congr 1
    funext v
    unfold Blk.gives Blk.product productOf
    rw [show f k = m from hf 0 m rfl]

theorem rows_matVec (n : Nat) (M : Nat → Nat → Nat → Int) (V : Nat → Nat → Nat → Nat → Int) (f : Nat → MvuMop) :
    ∀ (ms : List MvuMop) (k : Nat), (∀ m ∈ ms, m.Legal) → (∀ i m, ms[i]? = some m → f (k + i) = m) →
      sectorRows (productOf n M V f) k ms = matVec n M V k ms
  | [], _, _, _ => rfl
  | m :: ms, k, hm, hf => by
    have ih := rows_matVec n M V f ms (k + 1) (fun m' h' => hm m' (by simp [h'])) (fun i m' h' => by
      rw [show k + 1 + i = k + (i + 1) by omega]
      exact hf (i + 1) m' h')
    have h1 := (hm m (by simp)).1
    unfold sectorRows matVec
    rw [ih]
    congr 1
    apply List.map_congr_left
    intro r _
    unfold productOf
    rw [show f k = m from hf 0 m rfl, total_dots, show m.vrfSize - 1 + 1 = m.vrfSize by omega]

/-- What is issued is what the decoder writes. -/
theorem issued_uops {V : Nat → Nat → Nat → Nat → Int} {n : Nat} {bs : List Blk} {c : List SectorIn} (h : Issued V n bs c) :
    (c.filter (·.valid)).map (·.uop) = bs.flatMap fun b => (List.range (b.m.rows b.g)).map fun p => b.m.uop b.reg b.g b.v p := by
  induction h with
  | done h =>
    rw [List.filter_eq_nil_iff.2 fun x hx => by rw [h x hx]; simp]
    rfl
  | @gap bs x c hx hi ih => rw [List.filter_cons, if_neg (by rw [hx]; simp), ih]
  | @block b bs xs c hc hi ih =>
    rw [List.filter_append, List.map_append, ih, List.flatMap_cons]
    congr 1
    have hv : xs.filter (·.valid) = xs := by
      rw [List.filter_eq_self]
      intro x hx
      obtain ⟨p, hp⟩ := List.mem_iff_getElem?.1 hx
      exact (hc.2 p x hp).1
    rw [hv]
    apply List.ext_getElem?
    intro p
    rw [List.getElem?_map, List.getElem?_map]
    by_cases hp : p < xs.length
    · rw [List.getElem?_eq_getElem hp, List.getElem?_range (by rw [← hc.1]; exact hp)]
      exact congrArg some (hc.2 p _ (List.getElem?_eq_getElem hp)).2.1
    · rw [List.getElem?_eq_none (by omega), List.getElem?_eq_none (by rw [List.length_range, ← hc.1]; omega)]
      rfl

theorem blocks_expand : ∀ (ms : List MvuMop) (k : Nat) (reg : Bool), (∀ m ∈ ms, m.op = true) →
    ((blocksOf k reg ms).flatMap fun b => (List.range (b.m.rows b.g)).map fun p => b.m.uop b.reg b.g b.v p) =
      (expandAll MvuMop.expand reg ms).1
  | [], _, _, _ => rfl
  | m :: ms, k, reg, hm => by
    have ho := hm m (by simp)
    have ih := blocks_expand ms (k + 1) (reg ^^ (m.groups * m.vrfSize) % 2 == 1) fun m' h' => hm m' (by simp [h'])
    have e2 : (m.expand reg).2 = (reg ^^ (m.groups * m.vrfSize) % 2 == 1) := by
      unfold MvuMop.expand
      rw [if_pos ho]
    have e1 : (m.expand reg).1 = (List.range m.groups).flatMap fun g => (List.range m.vrfSize).flatMap fun v =>
        (List.range (m.rows g)).map fun p => m.uop reg g v p := by
      unfold MvuMop.expand
      rw [if_pos ho]
    show _ = (m.expand reg).1 ++ (expandAll MvuMop.expand (m.expand reg).2 ms).1
    rw [e2, ← ih, e1, blocksOf, List.flatMap_append]
    congr 1
    rw [List.flatMap_assoc]
    congr 1
    funext g
    rw [List.flatMap_map]

/-! ## Successive addresses -/

def Blk.firstAddr (b : Blk) : Nat := (b.m.uop b.reg b.g b.v 0).mrfAddr
def Blk.lastAddr (b : Blk) : Nat := (b.m.uop b.reg b.g b.v (b.m.rows b.g - 1)).mrfAddr

/-- No block begins with the address the one before it ends with. -/
def Joined : List Blk → Prop
  | b :: b' :: bs => b.lastAddr ≠ b'.firstAddr ∧ Joined (b' :: bs)
  | _ => True

theorem joined_run (f : Nat → Blk) (rest : List Blk) (n : Nat) :
    ∀ q, (∀ i, q ≤ i → i + 1 < q + n → (f i).lastAddr ≠ (f (i + 1)).firstAddr) →
      (∀ b bs, rest = b :: bs → (f (q + n - 1)).lastAddr ≠ b.firstAddr) → Joined rest →
      Joined ((List.range' q n).map f ++ rest) := by
  induction n with
  | zero => intro q _ _ h; simpa using h
  | succ n ih =>
    intro q h1 h2 h3
    rw [List.range'_succ, List.map_cons, List.cons_append]
    rcases n with _ | n
    · cases rest with
      | nil => exact trivial
      | cons b bs => exact ⟨h2 b bs rfl, h3⟩
    · have := ih (q + 1) (fun i hi hi' => h1 i (by omega) (by omega))
        (fun b bs hb => by rw [show q + 1 + (n + 1) - 1 = q + (n + 1 + 1) - 1 by omega]; exact h2 b bs hb) h3
      rw [List.range'_succ, List.map_cons, List.cons_append] at this ⊢
      exact ⟨h1 q (by omega) (by omega), this⟩

/-- No matrix begins with the last word of the one before it. -/
def BasesApart : List MvuMop → Prop
  | m :: m' :: ms => m'.mrfBase ≠ m.mrfBase + m.mrfSize - 1 ∧ BasesApart (m' :: ms)
  | _ => True

theorem blocks_first (ms : List MvuMop) (k : Nat) (reg : Bool) (hm : ∀ m ∈ ms, m.Legal) {b : Blk} {bs : List Blk}
    (h : blocksOf k reg ms = b :: bs) : ∃ m ms', ms = m :: ms' ∧ b.firstAddr = m.mrfBase := by
  cases ms with
  | nil => cases h
  | cons m ms =>
    refine ⟨m, ms, rfl, ?_⟩
    have hL := hm m (by simp)
    have hpos : 0 < m.groups * m.vrfSize := by
      refine Nat.mul_pos ?_ hL.1
      have := hL.2.1
      unfold MvuMop.groups
      omega
    unfold blocksOf at h
    obtain ⟨n, hn⟩ : ∃ n, m.groups * m.vrfSize = n + 1 := ⟨m.groups * m.vrfSize - 1, by omega⟩
    rw [range_mul m.groups m.vrfSize fun g v => Blk.mk k m reg g v, List.range_eq_range', hn, List.range'_succ, List.map_cons,
      List.cons_append] at h
    cases h
    show m.mrfBase + (12 * (0 / m.vrfSize) + 0) * m.vrfSize + 0 % m.vrfSize = _
    simp

theorem blocks_joined : ∀ (ms : List MvuMop) (k : Nat) (reg : Bool), (∀ m ∈ ms, m.Legal) → BasesApart ms → Joined (blocksOf k reg ms)
  | [], _, _, _, _ => trivial
  | m :: ms, k, reg, hm, hb => by
    have ih := blocks_joined ms (k + 1) (reg ^^ (m.groups * m.vrfSize) % 2 == 1) (fun m' h' => hm m' (by simp [h'])) (by
      cases ms with
      | nil => trivial
      | cons m' ms => exact hb.2)
    have hL := hm m (by simp)
    obtain ⟨hV, hW, hS, _⟩ := hL
    unfold blocksOf
    rw [range_mul m.groups m.vrfSize fun g v => Blk.mk k m reg g v, List.range_eq_range']
    refine joined_run _ _ _ 0 ?_ ?_ ih
    · intro i _ hi
      rw [Nat.zero_add] at hi
      show m.mrfBase + (12 * (i / m.vrfSize) + (m.rows (i / m.vrfSize) - 1)) * m.vrfSize + i % m.vrfSize ≠
        m.mrfBase + (12 * ((i + 1) / m.vrfSize) + 0) * m.vrfSize + (i + 1) % m.vrfSize
      have hr := rows_twelve m (i / m.vrfSize)
      have hv := Nat.mod_lt i hV
      have hdm := Nat.div_add_mod i m.vrfSize
      by_cases hl : i % m.vrfSize + 1 = m.vrfSize
      · have e : i + 1 = m.vrfSize * (i / m.vrfSize + 1) := by rw [Nat.mul_add, Nat.mul_one]; omega
        have hg : i / m.vrfSize + 1 < m.groups := by
          rw [e, Nat.mul_comm] at hi
          exact Nat.lt_of_mul_lt_mul_right hi
        have hr' : m.rows (i / m.vrfSize) = 12 := by
          unfold MvuMop.rows
          rw [if_neg (by omega)]
        rw [hr', e, Nat.mul_mod_right, Nat.mul_div_cancel_left _ hV]
        generalize i / m.vrfSize = g
        generalize i % m.vrfSize = v at *
        have e2 : (12 * (g + 1) + 0) * m.vrfSize = (12 * g + (12 - 1)) * m.vrfSize + m.vrfSize := by
          rw [← Nat.succ_mul]
          congr 1
        omega
      · have e1 : (i + 1) / m.vrfSize = i / m.vrfSize := by
          refine Nat.div_eq_of_lt_le ?_ ?_
          · rw [Nat.mul_comm]
            omega
          · rw [Nat.succ_mul, Nat.mul_comm]
            omega
        have e2 : (i + 1) % m.vrfSize = i % m.vrfSize + 1 := by
          have := Nat.div_add_mod (i + 1) m.vrfSize
          rw [e1] at this
          omega
        rw [e1, e2]
        generalize i / m.vrfSize = g at *
        generalize i % m.vrfSize = v at *
        have h3 : (12 * g + 0) * m.vrfSize + 11 * m.vrfSize ≤ (12 * g + (m.rows g - 1)) * m.vrfSize := by
          rw [← Nat.add_mul]
          exact Nat.mul_le_mul_right _ (by omega)
        omega
    · intro b bs hbs
      obtain ⟨m', ms', rfl, e⟩ := blocks_first ms _ _ (fun m' h' => hm m' (by simp [h'])) hbs
      rw [e, Nat.zero_add]
      have hG : 0 < m.groups := by
        unfold MvuMop.groups
        omega
      obtain ⟨G, hG'⟩ : ∃ G, m.groups = G + 1 := ⟨m.groups - 1, by omega⟩
      have hq : m.groups * m.vrfSize - 1 = m.vrfSize * G + (m.vrfSize - 1) := by
        rw [hG', Nat.succ_mul, Nat.mul_comm]
        omega
      have e1 : (m.groups * m.vrfSize - 1) / m.vrfSize = G := by
        rw [hq, Nat.mul_add_div hV, Nat.div_eq_of_lt (by omega), Nat.add_zero]
      have e2 : (m.groups * m.vrfSize - 1) % m.vrfSize = m.vrfSize - 1 := by
        rw [hq, Nat.mul_add_mod, Nat.mod_eq_of_lt (by omega)]
      show m.mrfBase + (12 * ((m.groups * m.vrfSize - 1) / m.vrfSize) +
        (m.rows ((m.groups * m.vrfSize - 1) / m.vrfSize) - 1)) * m.vrfSize + (m.groups * m.vrfSize - 1) % m.vrfSize ≠ m'.mrfBase
      rw [e1, e2]
      have hr : 12 * G + (m.rows G - 1) + 1 = m.wordsPerRow := by
        unfold MvuMop.rows
        rw [if_pos hG'.symm]
        unfold MvuMop.groups at hG'
        omega
      have h4 : (12 * G + (m.rows G - 1)) * m.vrfSize + m.vrfSize = m.mrfSize := by
        rw [hS, ← hr]
        exact (Nat.succ_mul _ _).symm
      have := hb.1
      omega

theorem issued_apart {V : Nat → Nat → Nat → Nat → Int} {n : Nat} {bs : List Blk} {c : List SectorIn} (h : Issued V n bs c)
    (hj : Joined bs) (hb : ∀ b ∈ bs, 1 ≤ b.m.vrfSize)
    (hg : ∀ i, (past c i).valid = true → i + 1 < c.length → (past c (i + 1)).valid = false →
      (past c i).uop.mrfAddr ≠ (past c (i + 1)).uop.mrfAddr) :
    Apart c ∧ ∀ x c', c = x :: c' → x.valid = true → ∃ b bs', bs = b :: bs' ∧ x.uop.mrfAddr = b.firstAddr := by
  induction h with
  | @done c h =>
    refine ⟨?_, fun x c' e hv => ?_⟩
    · clear hg
      induction c with
      | nil => trivial
      | cons x c ih =>
        cases c with
        | nil => trivial
        | cons y c =>
          refine ⟨fun hv => ?_, ih fun z hz => h z (by simp [hz])⟩
          rw [h x (by simp)] at hv
          cases hv
    · rw [h x (by rw [e]; simp)] at hv
      cases hv
  | @gap bs y c hy hi ih =>
    obtain ⟨h1, h2⟩ := ih hj hb fun i h1 h2 h3 => hg (i + 1) h1 (by simpa using h2) h3
    refine ⟨?_, fun x c' e hv => ?_⟩
    · cases c with
      | nil => trivial
      | cons z c =>
        refine ⟨fun hv => ?_, h1⟩
        rw [hy] at hv
        cases hv
    · cases e
      rw [hy] at hv
      cases hv
  | @block b bs xs c hc hi ih =>
    have hr := rows_twelve b.m b.g
    have hl := hc.1
    have hsplit : ∀ i, past (xs ++ c) (xs.length + i) = past c i := by
      intro i
      simp only [past, List.getD_eq_getElem?_getD]
      rw [List.getElem?_append_right (by omega), Nat.add_sub_cancel_left]
    obtain ⟨h1, h2⟩ := ih (by
        cases bs with
        | nil => trivial
        | cons b' bs => exact hj.2) (fun b' h' => hb b' (by simp [h'])) fun i h1 h2 h3 => by
      have := hg (xs.length + i) (by rw [hsplit]; exact h1) (by simp; omega) (by rw [Nat.add_assoc, hsplit]; exact h3)
      rw [Nat.add_assoc, hsplit, hsplit] at this
      exact this
    have hadr : ∀ p x, xs[p]? = some x → x.uop.mrfAddr = b.m.mrfBase + (12 * b.g + p) * b.m.vrfSize + b.v := by
      intro p x hx
      rw [(hc.2 p x hx).2.1]
      rfl
    have hV := hb b (by simp)
    refine ⟨?_, fun x c' e hv => ⟨b, bs, rfl, ?_⟩⟩
    · -- from the last micro-op back
      have key : ∀ k, k ≤ xs.length → Apart (xs.drop (xs.length - k) ++ c) := by
        intro k
        induction k with
        | zero =>
          intro _
          rw [Nat.sub_zero, List.drop_length, List.nil_append]
          exact h1
        | succ k ihk =>
          intro hk
          have hk' := ihk (by omega)
          rw [List.drop_eq_getElem_cons (by omega), show xs.length - (k + 1) + 1 = xs.length - k by omega, List.cons_append]
          have hx : xs[xs.length - (k + 1)]? = some xs[xs.length - (k + 1)] := List.getElem?_eq_getElem (by omega)
          have a1 := hadr _ _ hx
          rcases k with _ | k
          · rw [Nat.sub_zero, List.drop_length, List.nil_append] at hk' ⊢
            cases c with
            | nil => trivial
            | cons y c =>
              refine ⟨fun hv => ?_, hk'⟩
              by_cases hy : y.valid = true
              · obtain ⟨b', bs', rfl, e⟩ := h2 y c rfl hy
                rw [e]
                have : (xs[xs.length - 1]).uop.mrfAddr = b.lastAddr := by
                  rw [(hc.2 _ _ hx).2.1, hl]
                  rfl
                rw [this]
                exact hj.1
              · have := hg (xs.length - 1)
                have p1 : past (xs ++ y :: c) (xs.length - 1) = xs[xs.length - 1] := by
                  simp only [past, List.getD_eq_getElem?_getD]
                  rw [List.getElem?_append_left (by omega), hx]
                  rfl
                have p2 : past (xs ++ y :: c) (xs.length - 1 + 1) = y := by
                  rw [show xs.length - 1 + 1 = xs.length + 0 by omega, hsplit]
                  rfl
                rw [p1, p2] at this
                exact this hv (by simp; omega) (by simpa using hy)
          · rw [List.drop_eq_getElem_cons (by omega), List.cons_append] at hk' ⊢
            refine ⟨fun _ => ?_, hk'⟩
            have a2 := hadr _ _ (List.getElem?_eq_getElem (l := xs) (i := xs.length - (k + 1)) (by omega))
            have a3 : (12 * b.g + (xs.length - (k + 1))) * b.m.vrfSize =
                (12 * b.g + (xs.length - (k + 1 + 1))) * b.m.vrfSize + b.m.vrfSize := by
              rw [show 12 * b.g + (xs.length - (k + 1)) = 12 * b.g + (xs.length - (k + 1 + 1)) + 1 by omega]
              exact Nat.succ_mul _ _
            rw [a1, a2, a3]
            omega
      have := key xs.length (Nat.le_refl _)
      rw [Nat.sub_self, List.drop_zero] at this
      exact this
    · have hx : xs[0]? = some x := by
        cases xs with
        | nil => simp at hl; omega
        | cons z zs => cases e; rfl
      rw [(hc.2 0 x hx).2.1]
      rfl

end RadSim.Npu
