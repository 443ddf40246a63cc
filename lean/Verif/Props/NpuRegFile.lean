import Verif.Model.NpuRegFile
import Verif.Spec.NpuDecode

/-!
# The register file of the example design `npu`

C135. -/

namespace RadSim.Npu

variable {D : Type} [DecidableEq D]

/-- The memory after the writes of a sequence of cycles. -/
def written (m : List D) : List (Option (RegIn D)) → List D
  | [] => m
  | none :: es => written m es
  | some i :: es => written (if i.wen then m.set i.waddr i.wdata else m) es

/-- After reset no write is on the way. -/
structure RegFile.Fresh (r : RegFile D) : Prop where
  wen : r.wen0 = false
  raddr : r.raddr0 < r.mem.length

/-- What was written last is there, and the read address is inside. -/
structure RegFile.Inv (r : RegFile D) : Prop where
  last : r.wen0 = true → r.mem[r.waddr0]? = some r.wdata0
  raddr : r.raddr0 < r.mem.length

omit [DecidableEq D] in
theorem written_length (m : List D) (es : List (Option (RegIn D))) : (written m es).length = m.length := by
  induction es generalizing m with
  | nil => rfl
  | cons e es ih =>
    cases e with
    | none => exact ih m
    | some i =>
      show (written (if i.wen then m.set i.waddr i.wdata else m) es).length = _
      rw [ih]
      split <;> simp

omit [DecidableEq D] in
theorem written_append (m : List D) (es fs : List (Option (RegIn D))) : written m (es ++ fs) = written (written m es) fs := by
  induction es generalizing m with
  | nil => rfl
  | cons e es ih =>
    cases e with
    | none => exact ih m
    | some i => exact ih _

omit [DecidableEq D] in
theorem set_same {m : List D} {k : Nat} {x : D} (h : m[k]? = some x) : m.set k x = m := by
  apply List.ext_getElem?
  intro q
  rw [List.getElem?_set]
  split
  · rename_i hq
    subst hq
    split
    · exact h.symm
    · rename_i hl
      rw [List.getElem?_eq_none (by omega)] at h
      cases h
  · rfl

theorem RegFile.tick_inv {r : RegFile D} (h : r.Inv) (i : RegIn D) (hr : i.raddr < r.mem.length) (hw : i.waddr < r.mem.length) :
    ∃ r', r.tick i = some r' ∧ r'.Inv ∧ r'.mem = (if i.wen then r.mem.set i.waddr i.wdata else r.mem) ∧ r'.raddr0 = i.raddr ∧
      r'.rdata = if r.wakes i then r.mem.getD r.raddr0 r.rdata else r.rdata := by
  have hm : (if r.wakes i && i.wen then r.mem.set i.waddr i.wdata else r.mem) =
      if i.wen then r.mem.set i.waddr i.wdata else r.mem := by
    by_cases hk : r.wakes i = true
    · simp [hk]
    · simp only [hk, Bool.false_and, Bool.false_eq_true, ↓reduceIte]
      by_cases he : i.wen = true
      · rw [if_pos he]
        simp only [wakes, Bool.or_eq_true, not_or, decide_eq_true_eq, ne_eq, Decidable.not_not, bne_iff_ne] at hk
        obtain ⟨⟨⟨h1, h2⟩, h3⟩, h4⟩ := hk
        rw [← h1, ← h3]
        exact (set_same (h.last (by rw [h2]; exact he))).symm
      · rw [if_neg he]
  refine ⟨_, by unfold tick; rw [if_neg (by omega)], ⟨?_, ?_⟩, hm, rfl, rfl⟩
  · intro he
    show (if r.wakes i && i.wen then r.mem.set i.waddr i.wdata else r.mem)[i.waddr]? = some i.wdata
    rw [hm, if_pos he, List.getElem?_set, if_pos rfl, if_pos hw]
  · show i.raddr < (if r.wakes i && i.wen then r.mem.set i.waddr i.wdata else r.mem).length
    rw [hm]
    split <;> simpa using hr

theorem RegFile.run_inv : ∀ (es : List (Option (RegIn D))) {r : RegFile D}, r.Inv →
    (∀ i, some i ∈ es → i.raddr < r.mem.length ∧ i.waddr < r.mem.length) →
    ∃ r', r.run es = some r' ∧ r'.Inv ∧ r'.mem = written r.mem es
  | [], r, h, _ => ⟨r, rfl, h, rfl⟩
  | none :: es, r, h, hb => run_inv es h (fun i hi => hb i (by simp [hi]))
  | some i :: es, r, h, hb => by
    obtain ⟨r1, h1, h2, h3, _, _⟩ := tick_inv h i (hb i (by simp)).1 (hb i (by simp)).2
    have hl : r1.mem.length = r.mem.length := by
      rw [h3]
      split <;> simp
    obtain ⟨r2, g1, g2, g3⟩ := run_inv es h2 (fun j hj => by rw [hl]; exact hb j (by simp [hj]))
    refine ⟨r2, by simp only [run, h1, g1], g2, ?_⟩
    rw [g3, h3]
    rfl

theorem RegFile.run_append : ∀ (es fs : List (Option (RegIn D))) (r : RegFile D),
    r.run (es ++ fs) = (r.run es).bind fun r' => r'.run fs
  | [], _, _ => rfl
  | none :: es, fs, r => run_append es fs r
  | some i :: es, fs, r => by
    simp only [List.cons_append, run]
    split
    · rfl
    · exact run_append es fs _

omit [DecidableEq D] in
theorem RegFile.Fresh.inv {r : RegFile D} (h : r.Fresh) : r.Inv := ⟨fun hw => (by rw [h.wen] at hw; cases hw), h.raddr⟩

/-- With addresses inside the file, and whatever stalls there are, the simulation is not ended and no write is lost: after any
sequence of cycles the memory holds what was written to each word last. -/
theorem C135_writes {r : RegFile D} (h : r.Fresh) (es : List (Option (RegIn D)))
    (hb : ∀ i, some i ∈ es → i.raddr < r.mem.length ∧ i.waddr < r.mem.length) :
    ∃ r', r.run es = some r' ∧ r'.mem = written r.mem es := by
  obtain ⟨r', h1, _, h3⟩ := RegFile.run_inv es h.inv hb
  exact ⟨r', h1, h3⟩

/-- One cycle later than an address is taken in, the word at the address is at the output, with all writes up to those of the
cycle of the address done. Partial: in the later cycle another address is given, or the write port changes (see
`C135_stale_violated`). -/
theorem C135_reads_partial {r : RegFile D} (h : r.Fresh) (es : List (Option (RegIn D))) (i j : RegIn D)
    (hb : ∀ k, some k ∈ es ++ [some i, some j] → k.raddr < r.mem.length ∧ k.waddr < r.mem.length)
    (hc : i.raddr ≠ j.raddr ∨ i.waddr ≠ j.waddr ∨ i.wdata ≠ j.wdata ∨ i.wen ≠ j.wen) :
    ∃ r', r.run (es ++ [some i, some j]) = some r' ∧ some r'.rdata = (written r.mem (es ++ [some i]))[i.raddr]? := by
  obtain ⟨r0, h1, h2, h3⟩ := RegFile.run_inv es h.inv (fun k hk => hb k (by simp [hk]))
  have hl : r0.mem.length = r.mem.length := by rw [h3, written_length]
  obtain ⟨r1, g1, g2, g3, g4, _⟩ := RegFile.tick_inv h2 i (by rw [hl]; exact (hb i (by simp)).1) (by rw [hl]; exact (hb i (by simp)).2)
  have hl1 : r1.mem.length = r.mem.length := by
    rw [g3]
    split <;> simp [hl]
  obtain ⟨r2, f1, _, _, _, f5⟩ :=
    RegFile.tick_inv g2 j (by rw [hl1]; exact (hb j (by simp)).1) (by rw [hl1]; exact (hb j (by simp)).2)
  refine ⟨r2, by rw [RegFile.run_append, h1]; simp [RegFile.run, g1, f1], ?_⟩
  have hk : r1.wakes j = true := by
    have e : r1.raddr0 = i.raddr ∧ r1.waddr0 = i.waddr ∧ r1.wdata0 = i.wdata ∧ r1.wen0 = i.wen := by
      unfold RegFile.tick at g1
      split at g1
      · cases g1
      · injection g1 with g1
        subst g1
        exact ⟨rfl, rfl, rfl, rfl⟩
    obtain ⟨e1, e2, e3, e4⟩ := e
    simp only [RegFile.wakes, e1, e2, e3, e4, Bool.or_eq_true, decide_eq_true_eq, bne_iff_ne, ne_eq]
    rcases hc with hc | hc | hc | hc
    · exact Or.inr hc
    · exact Or.inl (Or.inr hc)
    · exact Or.inl (Or.inl (Or.inl hc))
    · exact Or.inl (Or.inl (Or.inr hc))
  have hm : r1.mem = written r.mem (es ++ [some i]) := by
    rw [written_append, ← h3, g3]
    rfl
  rw [f5, if_pos hk, g4, ← hm, List.getD_eq_getElem?_getD,
    List.getElem?_eq_getElem (by rw [hl1]; exact (hb i (by simp)).1)]
  rfl

/-- If nothing changes in the later cycle the output is what it was, whatever the address. -/
theorem C135_keeps {r : RegFile D} (h : r.Fresh) (es : List (Option (RegIn D))) (i : RegIn D)
    (hb : ∀ k, some k ∈ es ++ [some i] → k.raddr < r.mem.length ∧ k.waddr < r.mem.length) :
    ∃ r1 r2, r.run (es ++ [some i]) = some r1 ∧ r.run (es ++ [some i, some i]) = some r2 ∧ r2.rdata = r1.rdata := by
  obtain ⟨r1, h1, h2, h3⟩ := RegFile.run_inv (es ++ [some i]) h.inv hb
  have hl : r1.mem.length = r.mem.length := by rw [h3, written_length]
  obtain ⟨r2, g1, _, _, _, g5⟩ := RegFile.tick_inv h2 i (by rw [hl]; exact (hb i (by simp)).1) (by rw [hl]; exact (hb i (by simp)).2)
  refine ⟨r1, r2, h1, ?_, ?_⟩
  · rw [show es ++ [some i, some i] = (es ++ [some i]) ++ [some i] by simp, RegFile.run_append, h1]
    simp [RegFile.run, g1]
  · have hk : r1.wakes i = false := by
      rw [RegFile.run_append] at h1
      obtain ⟨r0, e0, e1⟩ := Option.bind_eq_some_iff.1 h1
      simp only [RegFile.run] at e1
      unfold RegFile.tick at e1
      split at e1
      · cases e1
      · rename_i r' hr'
        split at hr'
        · cases hr'
        · injection hr' with hr'
          injection e1 with e1
          subst e1
          subst hr'
          simp [RegFile.wakes]
    rw [g5, hk]
    rfl

/-- A register file of eight words. -/
def regNode : RegFile Nat := ⟨[100, 101, 102, 103, 104, 105, 106, 107], 0, 0, 0, 0, false, 100⟩

example : regNode.Fresh := ⟨rfl, by decide⟩

/-- A cycle that reads and does not write. -/
def rd (a : Nat) : RegIn Nat := ⟨a, 0, 0, false⟩

/-- What is at the output one cycle after each of a sequence of addresses is taken in. -/
def readAll (r : RegFile Nat) : List Nat → List Nat
  | [] => []
  | [_] => []
  | a :: b :: as =>
    match r.tick (rd a) with
    | none => []
    | some r1 =>
      match r1.tick (rd b) with
      | none => []
      | some r2 => r2.rdata :: readAll r1 (b :: as)

example : readAll regNode [3, 5, 2, 7, 0] = [103, 105, 102, 107] := by decide

example : ((regNode.run [some (rd 3), some ⟨5, 5, 9, true⟩, none, some (rd 2)]).map (·.rdata)) = some 9 := by decide

/-- If the same address is given in two cycles on end the first of them reads a word read before: the process that puts out the
word is woken by the first of the two address registers, but uses the second. -/
theorem C135_stale_violated : readAll regNode [5, 3, 3, 2] = [105, 105, 103] := by decide

/-- So adding one and the same vector (words 2 and 3) to all three entries of a batch adds the wrong words to two of them. -/
theorem C135_shared_operand_violated : ∃ m : MfuMop, m.Legal ∧ m.Wf ∧ (m.expand.map (·.vrf0Addr)) = [2, 2, 2, 3, 3, 3] ∧
    readAll regNode (m.expand.map (·.vrf0Addr) ++ [0]) = [100, 100, 102, 102, 102, 103] := by
  refine ⟨⟨[2, 2, 2], [0, 0, 0], 2, 0, 0b1000010, 3⟩, ?_, ?_, by decide, by decide⟩
  · unfold MfuMop.Legal
    decide
  · unfold MfuMop.Wf
    decide

/-- And a vector of one word at address 0 is not read at all, once another has been, if no instruction follows: an empty FIFO
gives address 0, too. -/
theorem C135_idle_violated : readAll regNode [5, 0, 0, 0, 0] = [105, 105, 105, 105] := by decide

end RadSim.Npu
