import Verif.Lemmas.NpuCover

/-!
# The instruction decoders of the example design `npu`

C132: the decoders of the external register file, of the multi-function units and of the loader write the micro-ops of the
macro-ops they take, and which macro-ops have an end; C133: the decoder of a sector of the matrix-vector unit. -/

namespace RadSim.Npu

/-! ## C132 -/

/-- From reset on, whatever the rest of the design does, the FIFO of the decoder of the external register file neither over- nor
underflows, and the micro-ops written are the first of those the macro-ops taken stand for.
Partial: every macro-op offered has an end (see `C132_evrf_hangs_violated`), and there is no reset on the way (see
`C132_reset_violated`). -/
theorem C132_evrf_decodes_partial (dflt : EvrfMop) {n : Node EvrfMop EvrfCtr EvrfUop} (hn : Fresh n) (es : List (Env EvrfMop))
    (hl : ∀ e ∈ es, ∀ m, e.mop = some m → m.Legal) :
    ∃ ms out n', n.run evrfKind dflt es = some (ms, out, n') ∧ out <+: ms.flatMap EvrfMop.expand := by
  obtain ⟨ms, out, n', h1, h2⟩ := fresh_run evrf_follows dflt hn es hl
  rw [expandAll_unit] at h2
  exact ⟨ms, out, n', h1, h2⟩

/-- Once no more macro-ops come, all micro-ops are written within as many cycles with room for one as there are micro-ops, and two
more for each macro-op. -/
theorem C132_evrf_completes_partial (dflt : EvrfMop) {n : Node EvrfMop EvrfCtr EvrfUop} (hn : Fresh n)
    (es fs : List (Env EvrfMop)) (hl : ∀ e ∈ es, ∀ m, e.mop = some m → m.Legal) {ms : List EvrfMop} {out : List EvrfUop}
    {n1 : Node EvrfMop EvrfCtr EvrfUop} (hr : n.run evrfKind dflt es = some (ms, out, n1)) (hq : ∀ e ∈ fs, e.mop = none)
    (hw : (ms.flatMap EvrfMop.expand).length + 2 * ms.length ≤ (fs.filter (·.uopRdy)).length) :
    ∃ n2, n.run evrfKind dflt (es ++ fs) = some (ms, ms.flatMap EvrfMop.expand, n2) := by
  have := fresh_end evrf_follows dflt hn es fs hl hr hq (by rw [expandAll_unit]; exact hw)
  rw [expandAll_unit] at this
  exact this

/-- The same for the decoder of a multi-function unit. -/
theorem C132_mfu_decodes_partial (dflt : MfuMop) {n : Node MfuMop MfuCtr MfuUop} (hn : Fresh n) (es : List (Env MfuMop))
    (hl : ∀ e ∈ es, ∀ m, e.mop = some m → m.Legal) :
    ∃ ms out n', n.run mfuKind dflt es = some (ms, out, n') ∧ out <+: ms.flatMap MfuMop.expand := by
  obtain ⟨ms, out, n', h1, h2⟩ := fresh_run mfu_follows dflt hn es hl
  rw [expandAll_unit] at h2
  exact ⟨ms, out, n', h1, h2⟩

/-- The same for the decoder of a multi-function unit. -/
theorem C132_mfu_completes_partial (dflt : MfuMop) {n : Node MfuMop MfuCtr MfuUop} (hn : Fresh n)
    (es fs : List (Env MfuMop)) (hl : ∀ e ∈ es, ∀ m, e.mop = some m → m.Legal) {ms : List MfuMop} {out : List MfuUop}
    {n1 : Node MfuMop MfuCtr MfuUop} (hr : n.run mfuKind dflt es = some (ms, out, n1)) (hq : ∀ e ∈ fs, e.mop = none)
    (hw : (ms.flatMap MfuMop.expand).length + 2 * ms.length ≤ (fs.filter (·.uopRdy)).length) :
    ∃ n2, n.run mfuKind dflt (es ++ fs) = some (ms, ms.flatMap MfuMop.expand, n2) := by
  have := fresh_end mfu_follows dflt hn es fs hl hr hq (by rw [expandAll_unit]; exact hw)
  rw [expandAll_unit] at this
  exact this

/-- The loader's decoder after reset, with the empty queue of its adapter. -/
structure LdFresh (n : LdNode) : Prop where
  queue : n.queue = []
  phase : n.dec.phase = .read
  ren : n.dec.ren = false

theorem LdFresh.busy {n : LdNode} (h : LdFresh n) : LdBusy LdMop.Legal (fun _ => ()) n [] () [] 0 := by
  refine ⟨?_, ?_, ?_⟩
  · intro m t hm
    rw [h.queue] at hm
    cases hm
  · rw [h.queue]
    exact .read [] h.phase h.ren
  · intro m hm
    rw [h.queue] at hm
    cases hm

/-- The same for the loader's decoder, which reads the queue of its adapter: there is no FIFO to overflow. -/
theorem C132_ld_decodes_partial {n : LdNode} (hn : LdFresh n) (es : List LdEnv) (hl : ∀ e ∈ es, ∀ m, e.mop = some m → m.Legal) :
    (n.run es).2.1 <+: (n.run es).1.flatMap LdMop.expand := by
  obtain ⟨us', r', p', k', _, h2, _⟩ := ld_run ld_follows es hl hn.busy
  rw [← expandAll_unit]
  exact ⟨_, h2.symm⟩

/-- The same for the loader's decoder. -/
theorem C132_ld_completes_partial {n : LdNode} (hn : LdFresh n) (es fs : List LdEnv)
    (hl : ∀ e ∈ es, ∀ m, e.mop = some m → m.Legal) (hq : ∀ e ∈ fs, e.mop = none)
    (hw : ((n.run es).1.flatMap LdMop.expand).length + 2 * (n.run es).1.length ≤ (fs.filter (·.uopRdy)).length) :
    (n.run es).2.1 ++ ((n.run es).2.2.run fs).2.1 = (n.run es).1.flatMap LdMop.expand ∧ ((n.run es).2.2.run fs).1 = [] := by
  obtain ⟨us', r', p', k', h1, h2, h3, _⟩ := ld_run ld_follows es hl hn.busy
  obtain ⟨us2, r2, p2, k2, g1, g2, _, g4⟩ :=
    ld_run ld_follows fs (fun e he m hm => by rw [hq e he] at hm; cases hm) h1
  obtain ⟨g5, g6⟩ := g4 hq
  refine ⟨?_, g5⟩
  have hx := expandAll_unit LdMop.expand (n.run es).1
  have hz : work (fun (_ : Unit) (m : LdMop) => (m.expand, ())) us2 r2 p2 k2 = 0 := by
    simp only [work, List.nil_append, List.length_nil] at h3
    rw [hx] at h3
    simp only [work] at g6 ⊢
    omega
  have hk := g1.doing.le
  simp only [work] at hz
  have hu : us2 = [] := List.length_eq_zero_iff.1 (by omega)
  have he : (expandAll (fun (_ : Unit) (m : LdMop) => (m.expand, ())) r2 p2).1 = [] := List.length_eq_zero_iff.1 (by omega)
  rw [g5, hu, he] at g2
  simp only [List.append_nil] at g2
  simp only [List.nil_append] at h2
  rw [hx] at h2
  rw [h2, g2]

/-- A macro-op with a size of 0 or of more than 512 words, or one from the register file with an empty batch, has no end: once
decoding begins the decoder writes micro-ops for ever. -/
theorem C132_evrf_hangs_violated {m : EvrfMop} (hm : m.Wf) (hl : ¬ m.Legal) (d : Dec EvrfMop EvrfCtr EvrfUop)
    (hp : d.phase = .core) (hn : d.nxt = m) (hc : d.ctr = ⟨0, 0⟩) (es : List (Bool × EvrfMop × Bool)) :
    (es.foldl (fun d e => d.tick evrfKind e.1 e.2.1 e.2.2) d).phase = .core :=
  never_ends evrfKind m _ (evrf_stuck hm hl) (fun _ h => h) es d hp hn (by rw [hc]; exact ⟨by decide, by decide⟩)

/-- The same for a multi-function unit. -/
theorem C132_mfu_hangs_violated {m : MfuMop} (hm : m.Wf) (hl : ¬ m.Legal) (d : Dec MfuMop MfuCtr MfuUop)
    (hp : d.phase = .core) (hn : d.nxt = m) (hc : d.ctr = ⟨0, 0, m.vrfSize, m.tag, m.op, m.batch⟩)
    (es : List (Bool × MfuMop × Bool)) : (es.foldl (fun d e => d.tick mfuKind e.1 e.2.1 e.2.2) d).phase = .core :=
  never_ends mfuKind m _ (mfu_stuck hm hl) (fun _ h => h) es d hp hn (by rw [hc]; exact ⟨by show 0 < 512; decide, by show 0 < 4; decide, rfl, rfl⟩)

/-- The same for the loader. -/
theorem C132_ld_hangs_violated {m : LdMop} (hm : m.Wf) (hl : ¬ m.Legal) (d : Dec LdMop LdCtr LdUop)
    (hp : d.phase = .core) (hn : d.nxt = m)
    (hc : d.ctr = ⟨false, 0, m.batch, 0, m.vrfSize, m.interrupt, m.output, m.srcSel, 0⟩)
    (es : List (Bool × LdMop × Bool)) : (es.foldl (fun d e => d.tick ldKind e.1 e.2.1 e.2.2) d).phase = .core :=
  never_ends ldKind m _ (ld_stuck hm hl) (fun _ h => h) es d hp hn (by rw [hc]; exact ⟨by show 0 < 512; decide, by show 0 < 4; decide, rfl, rfl, rfl⟩)

/-- The decoder of the external register file after reset. -/
def evrfNode : Node EvrfMop EvrfCtr EvrfUop :=
  ⟨⟨[], true, false, EvrfMop.default⟩, ⟨.read, EvrfMop.default, ⟨0, 0⟩, false, false, false, EvrfUop.default⟩⟩

theorem evrfNode_fresh : Fresh evrfNode := ⟨rfl, rfl, rfl, rfl, rfl⟩

/-- Two words for a batch of two, from the matrix-vector unit. -/
def evrfSample : EvrfMop := ⟨[10, 20, 30], 2, false, 7, true, 2⟩

example : evrfSample.Legal ∧ evrfSample.Wf := by
  unfold EvrfMop.Legal EvrfMop.Wf
  decide

example : ∃ n, evrfNode.run evrfKind EvrfMop.default
      ([⟨some evrfSample, true⟩, ⟨none, true⟩, ⟨none, true⟩, ⟨none, false⟩] ++ List.replicate 6 ⟨none, true⟩) =
    some ([evrfSample], [⟨10, 0, 7, true, false⟩, ⟨20, 0, 7, false, false⟩, ⟨30, 2, 7, false, false⟩, ⟨11, 0, 7, false, false⟩,
      ⟨21, 0, 7, false, false⟩, ⟨31, 2, 7, false, true⟩], n) := ⟨_, rfl⟩

/-- A reset does not always lead to the state of the first reset: the read enable of the FIFO is not reset, and if it is set the
decoder reads from the emptied FIFO, which ends the simulation. -/
theorem C132_reset_violated : ∃ es ms out n, evrfNode.run evrfKind EvrfMop.default es = some (ms, out, n) ∧
    (∀ e ∈ es, ∀ m, e.mop = some m → m.Legal) ∧
    (n.reset ⟨0, 0⟩).run evrfKind EvrfMop.default [⟨none, true⟩] = none := by
  refine ⟨[⟨some evrfSample, true⟩, ⟨none, true⟩], _, _, _, rfl, ?_, rfl⟩
  intro e he m hm
  simp only [List.mem_cons, List.not_mem_nil, or_false] at he
  rcases he with rfl | rfl
  · injection hm with hm
    subst hm
    unfold EvrfMop.Legal
    decide
  · cases hm

/-- A multi-function unit's macro-op: activation 2, adder 1, multiplier 1. -/
def mfuSample : MfuMop := ⟨[1, 2, 3], [4, 5, 6], 2, 9, 0b1100011, 2⟩

example : mfuSample.Legal ∧ mfuSample.expand = [⟨1, 4, 9, 2, 1, 1, true, false⟩, ⟨2, 5, 9, 2, 1, 1, false, false⟩,
    ⟨2, 5, 9, 2, 1, 1, false, false⟩, ⟨3, 6, 9, 2, 1, 1, false, true⟩] := by
  unfold MfuMop.Legal
  decide

example : Fresh (⟨⟨[], true, false, MfuMop.default⟩, ⟨.read, MfuMop.default, ⟨0, 0, 0, 0, 0, 0⟩, false, false, false, MfuUop.default⟩⟩ :
    Node MfuMop MfuCtr MfuUop) := ⟨rfl, rfl, rfl, rfl, rfl⟩

/-- The loader after reset. -/
def ldNode : LdNode :=
  ⟨[], LdMop.default, ⟨.read, LdMop.default, ⟨false, 0, 0, 0, 0, false, false, 0, 0⟩, false, false, false, LdUop.default⟩⟩

/-- One word, written to block 2, with an interrupt at the end. -/
def ldSample : LdMop := ⟨0, 2, 1, [4, 5, 6], [7, 8, 9], 1, 1, true, 1, true, false⟩

example : LdFresh ldNode ∧ ldSample.Legal := ⟨⟨rfl, rfl, rfl⟩, by unfold LdMop.Legal; decide⟩

example : (ldNode.run (⟨some ldSample, true⟩ :: List.replicate 9 ⟨none, true⟩)).2.1 =
    [⟨0, 2, 1, 4, 7, 1, false, false, false, true, false⟩, tagUpdate 0 true, tagUpdate 1 true, tagUpdate 2 true,
      tagUpdate 3 true] := by decide

example : ¬ (EvrfMop.mk [0, 0, 0] 0 false 0 true 1).Legal ∧ (EvrfMop.mk [0, 0, 0] 0 false 0 true 1).Wf := by
  unfold EvrfMop.Legal EvrfMop.Wf
  decide

example : ¬ (MfuMop.mk [0, 0, 0] [0, 0, 0] 5 0 64 0).Legal ∧ (MfuMop.mk [0, 0, 0] [0, 0, 0] 5 0 64 0).Wf := by
  unfold MfuMop.Legal MfuMop.Wf
  decide

example : ¬ (LdMop.mk 0 0 0 [0, 0, 0] [0, 0, 0] 513 0 true 1 false false).Legal ∧
    (LdMop.mk 0 0 0 [0, 0, 0] [0, 0, 0] 513 0 true 1 false false).Wf := by
  unfold LdMop.Legal LdMop.Wf
  decide

/-! ## C133 -/

/-- From reset on, whatever the rest of the design does, the FIFO of a sector's decoder neither over- nor underflows, and the
micro-ops written are the first of those the macro-ops taken stand for. `reg_sel`, the set of registers the next word of the
vectors goes into, is carried on from one macro-op to the next.
Partial: every macro-op offered has at least 12 rows, and as many words as its size says (see `C133_stall_violated`), and there is
no reset on the way. -/
theorem C133_sector_decodes_partial (dflt : MvuMop) {n : Node MvuMop MvuCtr MvuUop} (hn : Fresh n) (es : List (Env MvuMop))
    (hl : ∀ e ∈ es, ∀ m, e.mop = some m → m.Legal) :
    ∃ ms out n', n.run mvuKind dflt es = some (ms, out, n') ∧ out <+: (expandAll MvuMop.expand n.dec.ctr.regSel ms).1 :=
  fresh_run mvu_follows dflt hn es hl

/-- Once no more macro-ops come, all micro-ops are written within as many cycles with room for one as there are micro-ops, and two
more for each macro-op. -/
theorem C133_sector_completes_partial (dflt : MvuMop) {n : Node MvuMop MvuCtr MvuUop} (hn : Fresh n) (es fs : List (Env MvuMop))
    (hl : ∀ e ∈ es, ∀ m, e.mop = some m → m.Legal) {ms : List MvuMop} {out : List MvuUop} {n1 : Node MvuMop MvuCtr MvuUop}
    (hr : n.run mvuKind dflt es = some (ms, out, n1)) (hq : ∀ e ∈ fs, e.mop = none)
    (hw : (expandAll MvuMop.expand n.dec.ctr.regSel ms).1.length + 2 * ms.length ≤ (fs.filter (·.uopRdy)).length) :
    ∃ n2, n.run mvuKind dflt (es ++ fs) = some (ms, (expandAll MvuMop.expand n.dec.ctr.regSel ms).1, n2) :=
  fresh_end mvu_follows dflt hn es fs hl hr hq hw

/-- The micro-ops of a macro-op ask for every word of the matrix exactly once. -/
theorem C133_sector_covers {m : MvuMop} (hm : m.Legal) (ho : m.op = true) (reg : Bool) :
    ((m.expand reg).1.map MvuUop.mrfAddr).Perm (List.range' m.mrfBase m.mrfSize) := Sector.covers hm ho reg

/-- The decoder of a sector after reset. -/
def mvuNode : Node MvuMop MvuCtr MvuUop :=
  ⟨⟨[], true, false, MvuMop.default⟩,
    ⟨.read, MvuMop.default, ⟨0, 0, 0, 0, 0, 0, 0, 0, 0, false, 0, 0⟩, false, false, false, MvuUop.default⟩⟩

theorem mvuNode_fresh : Fresh mvuNode := ⟨rfl, rfl, rfl, rfl, rfl⟩

/-- 25 rows of 2 words. -/
def sectorSample : MvuMop := ⟨[4, 100, 511], 2, 800, 50, 25, 7, true⟩

example : sectorSample.Legal := by
  unfold MvuMop.Legal
  decide

example : ((sectorSample.expand false).1.map MvuUop.mrfAddr).take 26 =
    [800, 802, 804, 806, 808, 810, 812, 814, 816, 818, 820, 822, 801, 803, 805, 807, 809, 811, 813, 815, 817, 819, 821, 823,
      824, 826] := by decide +kernel

example : (sectorSample.expand false).1.getLast? = some ⟨5, 0, true, 849, 7, 2, 13, false, false, true⟩ := by decide +kernel

/-- What two runs of the same macro-op write, the second with a cycle without room for a micro-op. -/
def stallOut (es : List (Env MvuMop)) : Option (List (Nat × Nat)) :=
  (mvuNode.run mvuKind MvuMop.default es).map fun r => r.2.1.map fun u => (u.mrfAddr, u.accumOp)

/-- With fewer rows than the compiler pads a matrix to, what the micro-ops ask for depends on when there is room for them: here a
matrix of one row of two words, of which the second is multiplied as the second, or only after 512 words of other matrices. -/
theorem C133_stall_violated : ∃ m : MvuMop, m.Wf ∧ m.mrfSize = m.wordsPerRow * m.vrfSize ∧
    stallOut ([⟨some m, true⟩, ⟨none, true⟩, ⟨none, true⟩] ++ List.replicate 3 ⟨none, true⟩) ≠
      (stallOut ([⟨some m, true⟩, ⟨none, true⟩, ⟨none, true⟩, ⟨none, false⟩] ++ List.replicate 3 ⟨none, true⟩)) := by
  refine ⟨⟨[0, 0, 0], 2, 0, 2, 1, 0, true⟩, ?_, rfl, ?_⟩
  · unfold MvuMop.Wf
    decide
  · decide +kernel

end RadSim.Npu
