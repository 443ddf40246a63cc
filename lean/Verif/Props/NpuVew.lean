import Verif.Lemmas.NpuVewRun

/-!
# The external register file and the multi-function units of the example design `npu`

C139. -/

namespace RadSim.Npu

variable {U W : Type} [DecidableEq W]

/-- In no run is there an error: no FIFO is read when it is empty or written when it is full, though the output FIFO is not looked at
when a word comes to it. -/
theorem C139_no_error {K : VKind U W} (hA : 1 ≤ K.A) (hE : 1 ≤ K.E) {s : VUnit U W} (hs : s.Start K) (es : List (VIn U W)) (hr : InRange K s es) :
    ∃ os s', s.run K es = some (os, s') ∧ os.length = es.length := by
  obtain ⟨os, s', h1, h2, _⟩ := VInv.run hA hE es hs.inv hr
  exact ⟨os, s', h1, h2⟩

/-- The micro-ops are issued each once and in the order in which they have been taken in, and the words that they take are those taken in, each once
and in order. -/
theorem C139_order {K : VKind U W} (hA : 1 ≤ K.A) (hE : 1 ≤ K.E) {s : VUnit U W} (hs : s.Start K) (es : List (VIn U W)) (hr : InRange K s es)
    {os : List (VOut U W)} {s' : VUnit U W} (h : s.run K es = some (os, s')) :
    os.filterMap (fun o => o.slot.word.map fun _ => o.slot.uop) ++ s'.uf.mem = os.filterMap (·.uop) ∧
    os.filterMap (fun o => if K.takes o.slot.uop then o.slot.word else none) ++ s'.inf.mem = os.filterMap (·.word) := by
  obtain ⟨os', s'', h1, h2, h3⟩ := VInv.run hA hE es hs.inv hr
  rw [h1] at h
  cases h
  have a := h3.uops
  have b := h3.words
  rw [List.append_nil, List.reverse_reverse, zip_filterMap (·.uop) h2] at a
  rw [List.append_nil, List.reverse_reverse, zip_filterMap (·.word) h2] at b
  rw [zip_filterMap (fun o => o.slot.word.map fun _ => o.slot.uop) h2] at a
  rw [zip_filterMap (fun o => if K.takes o.slot.uop then o.slot.word else none) h2] at b
  exact ⟨a, b⟩

/-- No micro-op is issued before its tag has come, and none of a kind that is not known. -/
theorem C139_tag {K : VKind U W} : ∀ (es : List (VIn U W)) {s : VUnit U W} {os : List (VOut U W)} {s' : VUnit U W}, s.run K es = some (os, s') →
    ∀ (c : Nat) (i : VIn U W) (o : VOut U W), es[c]? = some i → os[c]? = some o → o.slot.word.isSome = true → K.tag o.slot.uop ≤ i.tag ∧ K.runs o.slot.uop = true
  | [], s, os, s', h, c, i, o, hi, _, _ => by simp at hi
  | e :: es, s, os, s', h, c, i, o, hi, ho, hw => by
    rw [VUnit.run] at h
    cases ht : s.tick K e with
    | none => rw [ht] at h; cases h
    | some r =>
      obtain ⟨o1, s1⟩ := r
      rw [ht] at h
      simp only at h
      cases hr : s1.run K es with
      | none => rw [hr] at h; cases h
      | some q =>
        obtain ⟨os1, s2⟩ := q
        rw [hr] at h
        cases h
        cases c with
        | succ c => exact C139_tag es hr c i o hi ho hw
        | zero =>
          cases hi
          cases ho
          have hslot : o.slot = ⟨s.uf.rdata, if s.issue K e then some s.inf.rdata else none⟩ := by
            unfold VUnit.tick at ht
            simp only at ht
            split at ht
            · cases ht; rfl
            · cases ht
          rw [hslot] at hw ⊢
          have hiss : s.issue K e = true := by
            cases e1 : s.issue K e
            · rw [e1] at hw; cases hw
            · rfl
          unfold VUnit.issue at hiss
          simp only [Bool.and_eq_true, decide_eq_true_eq] at hiss
          exact ⟨hiss.1.1.2, hiss.1.2⟩

/-- Nothing is held up without need: the next micro-op is issued when its tag and its word have come and the output FIFO has room for all that is on the
way; what is offered is taken in when there is room; and a word that is there is given when it is read. -/
theorem C139_progress {K : VKind U W} (hA : 1 ≤ K.A) (hE : 1 ≤ K.E) {s : VUnit U W} (hs : s.Start K) (es : List (VIn U W)) (hr : InRange K s es)
    {os : List (VOut U W)} {s' : VUnit U W} (h : s.run K es = some (os, s')) (i : VIn U W) (hi : InRange K s [i]) :
    ∃ o s'', s'.tick K i = some (o, s'') ∧
      (∀ u t, s'.uf.mem = u :: t → K.tag u ≤ i.tag → K.runs u = true → (K.takes u = true → s'.inf.mem ≠ []) →
        s'.of.mem.length + (K.A + 2 + K.V + K.E) < 512 → o.slot.uop = u ∧ o.slot.word.isSome = true) ∧
      (∀ x t, s'.of.mem = x :: t → i.ren = true → o.given = some x) ∧
      (s'.uf.mem.length < 502 → o.uop = i.uop) ∧
      (s'.inf.mem.length + (K.A + 2 + K.V + K.E) < 512 → o.word = i.word) := by
  obtain ⟨os', s1, h1, h2, h3⟩ := VInv.run hA hE es hs.inv hr
  rw [h1] at h
  cases h
  obtain ⟨hi1, hi2, hi3⟩ := hi i (by simp)
  obtain ⟨o, s2, e, _⟩ := h3.tick hA hE i hi1 hi2 hi3
  have ho : o = ⟨if s'.uf.almostFull then none else i.uop, if s'.inf.almostFull then none else i.word,
      ⟨s'.uf.rdata, if s'.issue K i then some s'.inf.rdata else none⟩, if (i.ren && !s'.of.empty) = true then some s'.of.rdata else none⟩ := by
    unfold VUnit.tick at e
    simp only at e
    split at e
    · cases e; rfl
    · cases e
  have hN : K.N = K.A + 2 + K.V + K.E := rfl
  have hD : dataDepth = 512 := rfl
  refine ⟨o, s2, e, ?_, ?_, ?_, ?_⟩
  · intro u t hu ht hk hw hroom
    rw [ho]
    have h0 := h3.uf.rdata u t hu
    refine ⟨h0, ?_⟩
    have hiss : s'.issue K i = true := by
      unfold VUnit.issue
      rw [h0, h3.uf.empty, hu, h3.of.almostFull, hk, h3.inf.empty]
      simp only [List.isEmpty_cons, Bool.not_false, Bool.true_and, Bool.and_true, Bool.and_eq_true, Bool.not_eq_true', decide_eq_false_iff_not,
        decide_eq_true_eq, Bool.or_eq_true]
      refine ⟨⟨by omega, ht⟩, ?_⟩
      cases hT : K.takes u with
      | false => exact Or.inl rfl
      | true =>
        right
        cases hm : s'.inf.mem with
        | nil => exact absurd hm (hw hT)
        | cons x l => rfl
    simp [hiss]
  · intro x t hx hren
    rw [ho]
    have h0 := h3.of.rdata x t hx
    simp [hren, h3.of.empty, hx, h0]
  · intro hl
    rw [ho]
    have : s'.uf.almostFull = false := by
      rw [h3.uf.almostFull]
      exact decide_eq_false (by have : mopLimit = 502 := rfl; omega)
    simp [this]
  · intro hl
    rw [ho]
    have : s'.inf.almostFull = false := by
      rw [h3.inf.almostFull]
      exact decide_eq_false (by omega)
    simp [this]

/-- What is given is, in order, the result of every micro-op issued, from the word it took and from the operands that were in the register files
`A + 1` cycles after its issue. Partial: not if the next thing in the pipeline has the same address of an operand that is used
(`C139_shared_violated`, `C139_bubble_violated`). -/
theorem C139_results_partial {K : VKind U W} (hA : 1 ≤ K.A) (hE : 1 ≤ K.E) (use0 use1 : U → Bool)
    (hu0 : ∀ u w a a' b, use0 u = false → K.fn u w a b = K.fn u w a' b) (hu1 : ∀ u w a b b', use1 u = false → K.fn u w a b = K.fn u w a b')
    {s : VUnit U W} (hs : s.Start K) (es : List (VIn U W)) (hr : InRange K s es) {os : List (VOut U W)} {s' : VUnit U W}
    (h : s.run K es = some (os, s')) (hap : OperandsApart use0 use1 K os) :
    os.filterMap (·.given) ++ s'.of.mem = (List.range (es.length - (K.A + 2 + K.V + K.E))).filterMap (vewResult K s es os) := by
  obtain ⟨os', s'', h1, h2, h3⟩ := VInv.run hA hE es hs.inv hr
  rw [h1] at h
  cases h
  have a := h3.given
  rw [List.append_nil, List.reverse_reverse, zip_filterMap (·.given) h2, pushedOf_eq hE] at a
  have hzl : (os.zip es).reverse.length = os.length := by simp [h2]
  rw [a, hzl, h2]
  apply filterMap_same
  intro c hc
  rw [List.mem_range] at hc
  have hN : K.N = K.A + 2 + K.V + K.E := rfl
  rw [← h2]
  refine vresOf_eq hA hu0 hu1 hs hr h2 (fun x hx => ?_) hap (by omega)
  have := h3.within.2.2.2 x
  rw [List.append_nil, List.mem_reverse] at this
  exact this hx

/-! ## The two modules -/

/-- A micro-op uses the register file of the additions. -/
def mfuAdds (u : MfuUop) : Bool := u.addOp == 1 || u.addOp == 2 || u.addOp == 3 || u.addOp == 4

/-- A micro-op uses the register file of the multiplications. -/
def mfuMults (u : MfuUop) : Bool := u.multOp == 1

/-- A multi-function unit: after 25 cycles every micro-op has given its result. -/
theorem C139_mfu_partial {s : VUnit MfuUop Vec} (hs : s.Start mfuUnit) (es : List (VIn MfuUop Vec)) (hr : InRange mfuUnit s es)
    {os : List (VOut MfuUop Vec)} {s' : VUnit MfuUop Vec} (h : s.run mfuUnit es = some (os, s')) (hap : OperandsApart mfuAdds mfuMults mfuUnit os) :
    os.filterMap (·.given) ++ s'.of.mem = (List.range (es.length - 25)).filterMap (vewResult mfuUnit s es os) := by
  refine C139_results_partial (K := mfuUnit) (by decide) (by decide) mfuAdds mfuMults ?_ ?_ hs es hr h hap
  · intro u w a a' b hu
    show mfuCompute u w a b = mfuCompute u w a' b
    simp only [mfuAdds, Bool.or_eq_false_iff, beq_eq_false_iff_ne] at hu
    obtain ⟨⟨⟨h1, h2⟩, h3⟩, h4⟩ := hu
    have : mfuSum u.addOp w a = mfuSum u.addOp w a' := by
      unfold mfuSum
      split <;> first | contradiction | rfl
    unfold mfuCompute
    rw [this]
  · intro u w a b b' hu
    show mfuCompute u w a b = mfuCompute u w a b'
    simp only [mfuMults, beq_eq_false_iff_ne] at hu
    unfold mfuCompute
    simp only [if_neg hu]

/-- A micro-op gets its word from the register file. -/
def evrfReads (u : EvrfUop) : Bool := u.srcSel == 1

/-- The external register file: after 8 cycles every micro-op that is to give a word has done so. -/
theorem C139_evrf_partial {s : VUnit EvrfUop Vec} (hs : s.Start evrfUnit) (es : List (VIn EvrfUop Vec)) (hr : InRange evrfUnit s es)
    {os : List (VOut EvrfUop Vec)} {s' : VUnit EvrfUop Vec} (h : s.run evrfUnit es = some (os, s'))
    (hap : OperandsApart evrfReads (fun _ => false) evrfUnit os) :
    os.filterMap (·.given) ++ s'.of.mem = (List.range (es.length - 8)).filterMap (vewResult evrfUnit s es os) := by
  refine C139_results_partial (K := evrfUnit) (by decide) (by decide) evrfReads (fun _ => false) ?_ (fun _ _ _ _ _ _ => rfl) hs es hr h hap
  intro u w a a' b hu
  simp only [evrfReads, beq_eq_false_iff_ne] at hu
  show (if u.srcSel = 1 then a else w) = (if u.srcSel = 1 then a' else w)
  rw [if_neg hu, if_neg hu]

/-- What a micro-op of a multi-function unit is to make of an entry of its word and those of its operands. -/
def mfuEntry (u : MfuUop) (x a m : Int) : Int :=
  (if u.addOp = 1 then x + a else if u.addOp = 2 then x - a else if u.addOp = 3 then a - x else if u.addOp = 4 then max x a else x) *
    if u.multOp = 1 then m else 1

/-- Every entry of a result is the sum, difference or greater of two entries, times a third, with the higher bits left out. -/
theorem C139_mfu_entry (u : MfuUop) (x a m : Vec) (i : Nat) (hx : i < x.length) (ha : i < a.length) (hm : i < m.length) :
    ((mfuCompute u x a m)[i]?.map BitVec.toInt) = some ((mfuEntry u x[i].toInt a[i].toInt m[i].toInt).bmod (2 ^ 32)) := by
  have hs : ∀ p : BitVec 32, p.toInt.bmod (2 ^ 32) = p.toInt := fun p => BitVec.toInt_bmod_cancel p
  have key : ∃ y : Vec, ∃ hy : i < y.length, y[i].toInt = (if u.addOp = 1 then x[i].toInt + a[i].toInt else
      if u.addOp = 2 then x[i].toInt - a[i].toInt else if u.addOp = 3 then a[i].toInt - x[i].toInt else
      if u.addOp = 4 then max x[i].toInt a[i].toInt else x[i].toInt).bmod (2 ^ 32) ∧
      mfuCompute u x a m = if u.multOp = 1 then List.zipWith (· * ·) y m else y := by
    unfold mfuCompute
    by_cases h1 : u.addOp = 1
    · rw [h1]
      exact ⟨List.zipWith (· + ·) x a, by simp; omega, by rw [List.getElem_zipWith]; simp [BitVec.toInt_add], rfl⟩
    by_cases h2 : u.addOp = 2
    · rw [h2]
      exact ⟨List.zipWith (· - ·) x a, by simp; omega, by rw [List.getElem_zipWith]; simp [BitVec.toInt_sub], rfl⟩
    by_cases h3 : u.addOp = 3
    · rw [h3]
      exact ⟨List.zipWith (· - ·) a x, by simp; omega, by rw [List.getElem_zipWith]; simp [BitVec.toInt_sub], rfl⟩
    by_cases h4 : u.addOp = 4
    · rw [h4]
      refine ⟨List.zipWith (fun p q => if q.slt p then p else q) x a, by simp; omega, ?_, rfl⟩
      rw [List.getElem_zipWith]
      simp only [BitVec.slt]
      by_cases hc : a[i].toInt < x[i].toInt
      · rw [if_pos (by simpa using hc)]
        simp only [show max x[i].toInt a[i].toInt = x[i].toInt by omega]
        simp [hs]
      · rw [if_neg (by simpa using hc)]
        simp only [show max x[i].toInt a[i].toInt = a[i].toInt by omega]
        simp [hs]
    · refine ⟨x, hx, ?_, ?_⟩
      · rw [if_neg h1, if_neg h2, if_neg h3, if_neg h4, hs]
      · have : mfuSum u.addOp x a = x := by
          unfold mfuSum
          clear hs
          split
          · exact absurd ‹_› h1
          · exact absurd ‹_› h2
          · exact absurd ‹_› h3
          · exact absurd ‹_› h4
          · rfl
        rw [this]
  obtain ⟨y, hy, e1, e2⟩ := key
  rw [e2]
  unfold mfuEntry
  by_cases hu : u.multOp = 1
  · rw [if_pos hu, if_pos hu, List.getElem?_eq_getElem (by simp; omega), List.getElem_zipWith]
    simp only [Option.map_some, BitVec.toInt_mul, e1]
    rw [Int.bmod_mul_bmod]
  · rw [if_neg hu, if_neg hu, List.getElem?_eq_getElem hy]
    simp only [Option.map_some, e1, Int.mul_one]

/-! ## Examples -/

/-- A FIFO with nothing in it. -/
def emptyFifo {M : Type} (x : M) : Fifo M := ⟨[], true, false, x⟩

/-- Register files of eight words: word `i` has the entries `i`, or `10 i`. -/
def vewRf (k : Nat) : RegFile Vec := ⟨(List.range 8).map fun i => List.replicate 4 (BitVec.ofNat 32 (k * i)), 0, 0, 0, [], false, []⟩

def startOf (K : VKind U Vec) : VUnit U Vec :=
  ⟨emptyFifo K.dflt, emptyFifo [], List.replicate (K.A + 2 + K.V) ⟨K.dflt, none⟩, vewRf 1, vewRf 10, List.replicate K.V [], List.replicate K.V [],
    List.replicate K.E none, emptyFifo []⟩

def idlePort : WPort Vec := ⟨0, [], false⟩

/-- An address within the eight words. -/
theorem vewRf_length (k : Nat) : (vewRf k).mem.length = 8 := by simp [vewRf]

theorem startOf_start (K : VKind U Vec) (hN : K.N < 512) (hd : K.addr0 K.dflt < 8 ∧ K.addr1 K.dflt < 8) : (startOf K).Start K where
  uf := ⟨rfl, by rfl, (by intro m t h; cases h), Nat.zero_le _⟩
  inf := ⟨rfl, by simp [startOf, emptyFifo, dataDepth]; omega, by intro m t h; cases h⟩
  of := ⟨rfl, by simp [startOf, emptyFifo, dataDepth]; omega, by intro m t h; cases h⟩
  ufMem := rfl
  infMem := rfl
  ofMem := rfl
  slots := rfl
  outp := rfl
  v0 := by simp [startOf]
  v1 := by simp [startOf]
  rf0 := ⟨rfl, by show 0 < (vewRf 1).mem.length; rw [vewRf_length]; decide⟩
  rf1 := ⟨rfl, by show 0 < (vewRf 10).mem.length; rw [vewRf_length]; decide⟩
  dflt := by
    show K.addr0 K.dflt < (vewRf 1).mem.length ∧ K.addr1 K.dflt < (vewRf 10).mem.length
    rw [vewRf_length, vewRf_length]
    exact hd
  rdata := by
    show K.addr0 K.dflt < (vewRf 1).mem.length ∧ K.addr1 K.dflt < (vewRf 10).mem.length
    rw [vewRf_length, vewRf_length]
    exact hd

/-- Micro-ops and words that come one in a cycle, then `n` cycles in which nothing comes; from the `q`th cycle on the next module reads. -/
def offer (us : List U) (xs : List Vec) (n q : Nat) : List (VIn U Vec) :=
  (List.range n).map fun c => ⟨us[c]?, xs[c]?, idlePort, idlePort, 0, decide (q ≤ c)⟩

theorem offer_inRange (K : VKind U Vec) {us : List U} (h : ∀ u ∈ us, K.addr0 u < 8 ∧ K.addr1 u < 8) (xs : List Vec) (n q : Nat) :
    InRange K (startOf K) (offer us xs n q) := by
  intro i hi
  unfold offer at hi
  rw [List.mem_map] at hi
  obtain ⟨c, _, rfl⟩ := hi
  refine ⟨fun u hu => ?_, ?_, ?_⟩
  · show K.addr0 u < (vewRf 1).mem.length ∧ K.addr1 u < (vewRf 10).mem.length
    rw [vewRf_length, vewRf_length]
    exact h u (List.mem_of_getElem? hu)
  · show 0 < (vewRf 1).mem.length; rw [vewRf_length]; decide
  · show 0 < (vewRf 10).mem.length; rw [vewRf_length]; decide

def mfuUop (a m add mult : Nat) : MfuUop := ⟨a, m, 0, 0, add, mult, true, true⟩

/-- What is given in a run. -/
def givenOf (K : VKind U Vec) (es : List (VIn U Vec)) : Option (List Vec) := ((startOf K).run K es).map fun r => r.1.filterMap (·.given) ++ r.2.of.mem

/-- Whether the operands are apart can be computed. -/
def apartB (use0 use1 : U → Bool) (K : VKind U W) : List (VOut U W) → Bool
  | o :: p :: os => (!o.slot.word.isSome || !K.gives o.slot.uop || ((!use0 o.slot.uop || K.addr0 o.slot.uop != K.addr0 p.slot.uop) &&
      (!use1 o.slot.uop || K.addr1 o.slot.uop != K.addr1 p.slot.uop))) && apartB use0 use1 K (p :: os)
  | _ => true

omit [DecidableEq W] in
theorem apartB_sound (use0 use1 : U → Bool) (K : VKind U W) : ∀ os : List (VOut U W), apartB use0 use1 K os = true → OperandsApart use0 use1 K os
  | [], _ => fun c o p h => by simp at h
  | [x], _ => fun c o p _ h => by simp at h
  | x :: y :: os, h => by
    unfold apartB at h
    rw [Bool.and_eq_true] at h
    intro c o p ho hp hw hg
    cases c with
    | zero =>
      cases ho
      cases hp
      have := h.1
      rw [hw, hg] at this
      simp only [Bool.not_true, Bool.false_or, Bool.and_eq_true, Bool.or_eq_true, Bool.not_eq_true', bne_iff_ne] at this
      refine ⟨fun hu => ?_, fun hu => ?_⟩
      · rcases this.1 with q | q
        · rw [hu] at q; cases q
        · exact q
      · rcases this.2 with q | q
        · rw [hu] at q; cases q
        · exact q
    | succ c => exact apartB_sound use0 use1 K (y :: os) h.2 c o p ho hp hw hg

/-- A sum, a product, a difference times an operand, and a word that is let through. -/
def mfuProg : List MfuUop := [mfuUop 2 0 1 0, mfuUop 0 3 0 1, mfuUop 4 5 2 1, mfuUop 0 0 0 0]
def mfuWords : List Vec := [[7, 8, 9, 10], [1, 2, 3, 4], [4, 5, 6, 7], [9, 9, 9, 9]]

example : (startOf mfuUnit).Start mfuUnit := startOf_start _ (by decide) (by decide)
example : InRange mfuUnit (startOf mfuUnit) (offer mfuProg mfuWords 35 28) := offer_inRange _ (by decide) _ _ _
example : (((startOf mfuUnit).run mfuUnit (offer mfuProg mfuWords 35 28)).map fun r => apartB mfuAdds mfuMults mfuUnit r.1) = some true := by
  decide +kernel
example : givenOf mfuUnit (offer mfuProg mfuWords 35 28) = some [[9, 10, 11, 12], [30, 60, 90, 120], [0, 50, 100, 150], [9, 9, 9, 9]] := by
  decide +kernel

def evrfUop (a src : Nat) : EvrfUop := ⟨a, src, 0, true, true⟩

/-- A word of the register file, a word that is let through, one that is thrown away, and one more of the register file. -/
def evrfProg : List EvrfUop := [evrfUop 3 1, evrfUop 0 0, evrfUop 0 2, evrfUop 5 1]

example : (startOf evrfUnit).Start evrfUnit := startOf_start _ (by decide) (by decide)
example : InRange evrfUnit (startOf evrfUnit) (offer evrfProg mfuWords 18 10) := offer_inRange _ (by decide) _ _ _
example : (((startOf evrfUnit).run evrfUnit (offer evrfProg mfuWords 18 10)).map fun r => apartB evrfReads (fun _ => false) evrfUnit r.1) = some true := by
  decide +kernel
example : givenOf evrfUnit (offer evrfProg mfuWords 18 10) = some [[3, 3, 3, 3], [7, 8, 9, 10], [5, 5, 5, 5]] := by decide +kernel

/-- A word written by the loader before the operand is read is used. -/
example : (((startOf evrfUnit).run evrfUnit ((offer [evrfUop 3 1] [] 18 10).mapIdx fun c i => if c = 5 then { i with port0 := ⟨3, [1, 1, 1, 1], true⟩ } else i)).map
    fun r => r.1.filterMap (·.given)) = some [[1, 1, 1, 1]] := by decide +kernel

/-! ## What goes wrong -/

/-- A run does not give what it is to give. -/
def GivesWrong (K : VKind U Vec) (us : List U) (xs : List Vec) (n q : Nat) (given wanted : List Vec) : Prop :=
  ∃ os s', (startOf K).run K (offer us xs n q) = some (os, s') ∧ os.filterMap (·.given) ++ s'.of.mem = given ∧
    (List.range (n - K.N)).filterMap (vewResult K (startOf K) (offer us xs n q) os) = wanted

theorem givesWrong (K : VKind U Vec) (us : List U) (xs : List Vec) (n q : Nat) (given wanted : List Vec)
    (h : (((startOf K).run K (offer us xs n q)).map fun r => (r.1.filterMap (·.given) ++ r.2.of.mem,
      (List.range (n - K.N)).filterMap (vewResult K (startOf K) (offer us xs n q) r.1))) = some (given, wanted)) :
    GivesWrong K us xs n q given wanted := by
  cases e : (startOf K).run K (offer us xs n q) with
  | none =>
    rw [e] at h
    cases h
  | some r =>
    rw [e] at h
    simp only [Option.map_some, Option.some.injEq, Prod.mk.injEq] at h
    exact ⟨r.1, r.2, e, h.1, h.2⟩

/-- One vector (word 2) is added to two words: the first of them gets another operand, the one read before. -/
theorem C139_shared_violated : InRange mfuUnit (startOf mfuUnit) (offer [mfuUop 1 0 1 0, mfuUop 2 0 1 0, mfuUop 2 0 1 0] (List.replicate 3 [10, 10, 10, 10]) 35 28) ∧
    GivesWrong mfuUnit [mfuUop 1 0 1 0, mfuUop 2 0 1 0, mfuUop 2 0 1 0] (List.replicate 3 [10, 10, 10, 10]) 35 28
      [[11, 11, 11, 11], [11, 11, 11, 11], [12, 12, 12, 12]] [[11, 11, 11, 11], [12, 12, 12, 12], [12, 12, 12, 12]] :=
  ⟨offer_inRange _ (by decide) _ _ _, givesWrong _ _ _ _ _ _ _ (by decide +kernel)⟩

/-- Word 0 of the external register file is read, with no micro-op after it: the dummy that follows has the address 0 too, and the word read before
is given. -/
theorem C139_bubble_violated : InRange evrfUnit (startOf evrfUnit) (offer [evrfUop 3 1, evrfUop 0 1] [] 18 10) ∧
    GivesWrong evrfUnit [evrfUop 3 1, evrfUop 0 1] [] 18 10 [[3, 3, 3, 3], [3, 3, 3, 3]] [[3, 3, 3, 3], [0, 0, 0, 0]] :=
  ⟨offer_inRange _ (by decide) _ _ _, givesWrong _ _ _ _ _ _ _ (by decide +kernel)⟩

/-- Without the limit at which the output FIFO says that it is almost full it would overflow: 25 micro-ops can be on the way. -/
example : mfuUnit.N = 25 ∧ evrfUnit.N = 8 := by decide

end RadSim.Npu
