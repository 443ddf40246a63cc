import Verif.Lemmas.NpuLoader

/-!
# The loader of the example design `npu`

C140. -/

namespace RadSim.Npu

/-- In no run is there an error: no FIFO is read when it is empty or written when it is full, though the output FIFOs are not looked at when words come to
them, eight cycles after the micro-op has been issued. -/
theorem C140_no_error {K : LdShape} {s : Loader} (hs : s.Start K) (es : List LoaderIn) :
    ∃ os s', s.run K es = some (os, s') ∧ os.length = es.length := by
  obtain ⟨os, s', h1, h2, _⟩ := LInv.run es hs.inv
  exact ⟨os, s', h1, h2⟩

/-- The micro-ops are issued each once and in the order in which they have been taken in; and of every input FIFO, the words taken by those that load from it
are those that have come, each once and in order. -/
theorem C140_order {K : LdShape} {s : Loader} (hs : s.Start K) (es : List LoaderIn) {os : List LoaderOut} {s' : Loader} (h : s.run K es = some (os, s')) :
    os.filterMap (fun o => if o.slot.valid then some o.slot.uop else none) ++ s'.uf.mem = os.filterMap (·.uop) ∧
    ∀ k f, s'.ins[k]? = some f → os.filterMap (·.took K k) ++ f.mem = os.filterMap (fun o => o.word.getD k none) := by
  obtain ⟨os', s'', h1, _, h3⟩ := LInv.run es hs.inv
  rw [h1] at h
  cases h
  rw [List.append_nil] at h3
  have a := h3.uops
  rw [List.reverse_reverse] at a
  refine ⟨a, ?_⟩
  intro k f hf
  have b := (h3.ins k f hf).2.2
  rw [List.reverse_reverse] at b
  exact b

theorem sent_of {K : LdShape} {s : Loader} (hs : s.Start K) {es : List LoaderIn} {os : List LoaderOut} {s' : Loader} (h : s.run K es = some (os, s')) :
    Chained K [] (os.take (os.length - 8)) ∧ ∀ j f, s'.outs[j]? = some f →
      os.filterMap (fun o => o.given.getD j none) ++ f.mem = (os.take (os.length - 8)).filterMap (fun o => o.slot.out K j) := by
  have hc := run_chained es h
  obtain ⟨os', s'', h1, _, h3⟩ := LInv.run es hs.inv
  rw [h1] at h
  cases h
  rw [List.append_nil] at h3
  refine ⟨?_, ?_⟩
  · have e : (s.slots.getD 0 .idle).data = [] := by
      rw [hs.slots]
      rfl
    rw [e] at hc
    exact hc.take _
  · intro j f hf
    have a := (h3.outs j f hf).2.2
    rw [List.reverse_reverse, List.drop_reverse, List.reverse_reverse] at a
    exact a

/-- The external output of a core is given the vectors of the micro-ops that are to be output, all of them and in order, eight cycles after they have been issued. -/
theorem C140_output {K : LdShape} {s : Loader} (hs : s.Start K) (es : List LoaderIn) {os : List LoaderOut} {s' : Loader} (h : s.run K es = some (os, s'))
    {c : Nat} (hc : c < K.cores) {f : Fifo Word} (hf : s'.outs[c]? = some f) :
    os.filterMap (fun o => o.given.getD c none) ++ f.mem = ((ldIssued K c [] (os.take (os.length - 8))).filter (·.1.output)).map (·.2) := by
  obtain ⟨a, b⟩ := sent_of hs h
  rw [b c f hf, a.ext c hc]

/-- The words of the first channel of a core say to the sectors what the micro-ops for the matrix-vector unit say: the tile, the address, the elements of the vector
cut down to eight bits, and whether the tag is to be advanced. -/
theorem C140_first_channel {K : LdShape} {s : Loader} (hs : s.Start K) (es : List LoaderIn) {os : List LoaderOut} {s' : Loader}
    (h : s.run K es = some (os, s')) {c : Nat} (hc : c < K.cores) {f : Fifo Word} (hf : s'.outs[K.cores + c]? = some f)
    (hu : ∀ x ∈ ldIssued K c [] (os.take (os.length - 8)), x.1.vrf0Id ≠ 0 → x.1.vrf0Id ≤ 128 ∧ x.1.vrf0Addr < 512 ∧ x.2 ≠ []) :
    (os.filterMap (fun o => o.given.getD (K.cores + c) none) ++ f.mem).map (readCh0 (K.sectors * K.width)) =
      ((ldIssued K c [] (os.take (os.length - 8))).filter (·.1.vrf0Id != 0)).map fun x => toSector x.1 x.2 := by
  obtain ⟨a, b⟩ := sent_of hs h
  rw [b _ f hf, a.ch0 c hc, List.map_map]
  apply List.map_congr_left
  intro x hx
  obtain ⟨h1, h2⟩ := List.mem_filter.1 hx
  simp only [bne_iff_ne, ne_eq] at h2
  obtain ⟨u1, u2, u3⟩ := hu x h1 h2
  have hl := (issued_length (by simp) x h1).resolve_left u3
  exact read_ch0 u3 hl (by omega) u1 u2

/-- The words of the second channel of a sector and a core say to the vector units what the micro-ops for them say: the block, the register file, the address, the elements
that belong to the sector, and whether the tag is to be advanced. The number of the register file has to be less than 4. -/
theorem C140_second_channel_partial {K : LdShape} {s : Loader} (hs : s.Start K) (es : List LoaderIn) {os : List LoaderOut} {s' : Loader}
    (h : s.run K es = some (os, s')) {k c : Nat} (hk : k < K.sectors) (hc : c < K.cores) {f : Fifo Word}
    (hf : s'.outs[2 * K.cores + k * K.cores + c]? = some f)
    (hu : ∀ x ∈ ldIssued K c [] (os.take (os.length - 8)), x.1.vrf1Id ≠ 0 →
      x.1.vrf1Id < 4 ∧ 1 ≤ x.1.block1Id ∧ x.1.block1Id ≤ 3 ∧ x.1.vrf1Addr < 512 ∧ x.2 ≠ []) :
    (os.filterMap (fun o => o.given.getD (2 * K.cores + k * K.cores + c) none) ++ f.mem).map (readCh1 K.width) =
      ((ldIssued K c [] (os.take (os.length - 8))).filter (·.1.vrf1Id != 0)).map fun x => toVector K.width k x.1 x.2 := by
  obtain ⟨a, b⟩ := sent_of hs h
  rw [b _ f hf, a.ch1 k c hc, List.map_map]
  apply List.map_congr_left
  intro x hx
  obtain ⟨h1, h2⟩ := List.mem_filter.1 hx
  simp only [bne_iff_ne, ne_eq] at h2
  obtain ⟨u1, u2, u3, u4, u5⟩ := hu x h1 h2
  have hl := (issued_length (by simp) x h1).resolve_left u5
  refine read_ch1 u5 ?_ u1 ⟨u2, u3⟩ u4
  rw [hl]
  exact Nat.mul_le_mul_right _ hk

/-- The numbers of block and register file share an element without being kept apart: a register file 4 in the external register file's block is taken for one in the first
multi-function unit, and one in the second multi-function unit's block for one in a block that no module has. -/
theorem C140_fields_violated :
    (readCh1 1 (packCh1 1 0 { LdUop.default with block1Id := 1, vrf1Id := 4 } [5])).block = 2 ∧
    (readCh1 1 (packCh1 1 0 { LdUop.default with block1Id := 3, vrf1Id := 4 } [5])).block = 4 := by decide

/-- Nothing is held up without need: the next micro-op is issued when the words it loads have come and the output FIFOs have room for all that is on the way; what is offered
is taken in when there is room; and a word that is there is given when it is read. -/
theorem C140_progress {K : LdShape} {s : Loader} (hs : s.Start K) (es : List LoaderIn) {os : List LoaderOut} {s' : Loader} (h : s.run K es = some (os, s'))
    (i : LoaderIn) :
    ∃ o s'', s'.tick K i = some (o, s'') ∧
      (∀ u t, s'.uf.mem = u :: t → u.srcSel ≤ 2 → (∀ (k : Nat) (f : Fifo Word), s'.ins[k]? = some f → (if k < K.cores then 0 else 1) = u.srcSel → f.mem ≠ []) →
        (∀ f ∈ s'.outs, f.mem.length + 8 < 512) → o.slot.uop = u ∧ o.slot.valid = true) ∧
      (∀ (j : Nat) (f : Fifo Word) x t, s'.outs[j]? = some f → f.mem = x :: t → i.ren j = true → o.given.getD j none = some x) ∧
      (s'.uf.mem.length < 502 → o.uop = i.uop) ∧
      (∀ (k : Nat) (f : Fifo Word), s'.ins[k]? = some f → f.mem.length + 8 < 512 → o.word.getD k none = i.word k) := by
  obtain ⟨os', s1, h1, h2, h3⟩ := LInv.run es hs.inv
  rw [h1] at h
  cases h
  obtain ⟨o, s2, e, _⟩ := h3.tick i
  have ho : o = ⟨if s'.uf.almostFull then none else i.uop,
      (List.range s'.ins.length).map fun k => if (s'.ins.getD k ⟨[], true, true, []⟩).almostFull then none else i.word k,
      ⟨s'.uf.rdata, s'.issue K, if s'.issue K && decide (s'.uf.rdata.srcSel < 2) then K.gather s'.uf.rdata.srcSel (s'.ins.map (·.rdata)) else
        (s'.slots.getD 0 .idle).data⟩,
      s'.ins.map (·.rdata), (List.range s'.outs.length).map fun j =>
        if (i.ren j && !(s'.outs.getD j ⟨[], true, false, []⟩).empty) = true then (s'.outs[j]?).map (·.rdata) else none⟩ := by
    unfold Loader.tick at e
    simp only at e
    split at e
    · cases e; rfl
    · cases e
  have hN : ldStages = 8 := rfl
  have hD : dataDepth = 512 := rfl
  have lt_of : ∀ {l : List (Fifo Word)} {k : Nat} {f : Fifo Word}, l[k]? = some f → k < l.length := by
    intro l k f hf
    rcases Nat.lt_or_ge k l.length with q | q
    · exact q
    · rw [List.getElem?_eq_none q] at hf; cases hf
  refine ⟨o, s2, e, ?_, ?_, ?_, ?_⟩
  · intro u t hu hk hw hroom
    rw [ho]
    have h0 := h3.uf.rdata u t hu
    refine ⟨h0, ?_⟩
    show s'.issue K = true
    have hsrc : s'.srcReady K u.srcSel = true := by
      unfold Loader.srcReady
      rw [List.all_eq_true]
      intro k hk
      rw [List.mem_range] at hk
      have hg : s'.ins[k]? = some s'.ins[k] := List.getElem?_eq_getElem hk
      rw [List.getD_eq_getElem?_getD, hg, Option.getD_some, (h3.ins k _ hg).1.empty]
      by_cases hq : K.src k = u.srcSel
      · have := hw k _ hg hq
        cases hm : s'.ins[k].mem with
        | nil => exact absurd hm this
        | cons x l => simp
      · simp [hq]
    unfold Loader.issue
    rw [h0, h3.uf.empty, hu]
    simp only [List.isEmpty_cons, Bool.not_false, Bool.true_and, Bool.and_eq_true, List.all_eq_true, Bool.not_eq_true', Bool.or_eq_true, beq_iff_eq]
    refine ⟨?_, ?_⟩
    · intro f hf
      obtain ⟨j, hj⟩ := List.getElem?_of_mem hf
      rw [(h3.outs j f hj).1.almostFull]
      have := hroom f hf
      exact decide_eq_false (by omega)
    · rcases show u.srcSel = 0 ∨ u.srcSel = 1 ∨ u.srcSel = 2 by omega with q | q | q
      · rw [q] at hsrc
        exact Or.inl (Or.inl ⟨hsrc, q⟩)
      · rw [q] at hsrc
        exact Or.inl (Or.inr ⟨hsrc, q⟩)
      · exact Or.inr q
  · intro j f x t hf hx hren
    rw [ho]
    have h0 := (h3.outs j f hf).1.rdata x t hx
    have hemp := (h3.outs j f hf).1.empty
    show ((List.range s'.outs.length).map _).getD j none = _
    rw [getD_range _ _ _ (lt_of hf), List.getD_eq_getElem?_getD, hf]
    simp [hren, hemp, hx, h0]
  · intro hl
    rw [ho]
    have : s'.uf.almostFull = false := by
      rw [h3.uf.almostFull]
      exact decide_eq_false (by have : mopLimit = 502 := rfl; omega)
    simp [this]
  · intro k f hf hl
    rw [ho]
    show ((List.range s'.ins.length).map _).getD k none = _
    rw [getD_range _ _ _ (lt_of hf), List.getD_eq_getElem?_getD, hf]
    have : f.almostFull = false := by
      rw [(h3.ins k f hf).1.almostFull]
      exact decide_eq_false (by omega)
    simp [this]

/-! ## The tags -/

theorem words_tells (m : LdMop) (b : Nat) : m.words.countP (·.tells b) = 0 := by
  rw [List.countP_eq_zero]
  intro u hu
  have := (List.mem_filter.1 hu).2
  unfold LdUop.tells
  cases e : u.lastFlag
  · simp
  · rw [e] at this; cases this

theorem expand_words (m : LdMop) (h : m.op = true) : m.expand = m.words ++ (List.range 4).map fun k => tagUpdate k m.interrupt := by
  unfold LdMop.words LdMop.expand
  rw [if_pos h, List.filter_append]
  congr 1
  have : ((List.range 4).map fun k => tagUpdate k m.interrupt).filter (fun u => !u.lastFlag) = [] := by
    rw [List.filter_eq_nil_iff]
    intro u hu
    obtain ⟨k, _, e⟩ := List.mem_map.1 hu
    rw [← e]
    simp [tagUpdate]
  rw [this, List.append_nil, List.filter_eq_self.2]
  intro u hu
  obtain ⟨k, _, e⟩ := List.mem_map.1 hu
  rw [← e]
  rfl

theorem updates_tell (i : Bool) {b : Nat} (hb : b < 4) : ((List.range 4).map fun k => tagUpdate k i).countP (·.tells b) = 1 := by
  rcases show b = 0 ∨ b = 1 ∨ b = 2 ∨ b = 3 by omega with e | e | e | e <;> subst e <;> cases i <;> decide

/-- Each of the four blocks with a tag is told once for every macro-op, and it is told only when all the words of the macro-op and all the macro-ops before have been
issued: when it has been told `n + 1` times, those of the first `n` and the words of the next are among the micro-ops issued so far. -/
theorem C140_tags {b : Nat} (hb : b < 4) : ∀ (ms : List LdMop), (∀ m ∈ ms, m.op = true) →
    (ms.flatMap LdMop.expand).countP (·.tells b) = ms.length ∧
    ∀ (us : List LdUop) (n : Nat), us <+: ms.flatMap LdMop.expand → n + 1 ≤ us.countP (·.tells b) →
      ∃ m, ms[n]? = some m ∧ (ms.take n).flatMap LdMop.expand ++ m.words <+: us
  | [], _ => by
    refine ⟨rfl, fun us n hp hn => ?_⟩
    rw [List.flatMap_nil, List.prefix_nil] at hp
    rw [hp] at hn
    simp at hn
  | m :: ms, h => by
    obtain ⟨a, b'⟩ := C140_tags hb ms fun x hx => h x (List.mem_cons_of_mem _ hx)
    have hm := expand_words m (h m (List.mem_cons_self ..))
    have hcnt : m.expand.countP (·.tells b) = 1 := by
      rw [hm, List.countP_append, words_tells, updates_tell _ hb]
    refine ⟨by rw [List.flatMap_cons, List.countP_append, hcnt, a, List.length_cons]; omega, ?_⟩
    intro us n hp hn
    rw [List.flatMap_cons] at hp
    cases n with
    | zero =>
      refine ⟨m, rfl, ?_⟩
      have hw : m.words <+: m.expand ++ ms.flatMap LdMop.expand := by
        rw [hm, List.append_assoc]
        exact List.prefix_append _ _
      rcases List.prefix_or_prefix_of_prefix hw hp with q | q
      · simpa using q
      · have := q.sublist.countP_le (p := fun u => u.tells b)
        rw [words_tells] at this
        omega
    | succ n =>
      rcases List.prefix_or_prefix_of_prefix (List.prefix_append m.expand _) hp with q | q
      · obtain ⟨r, e⟩ := q
        rw [← e] at hp hn
        rw [List.prefix_append_right_inj] at hp
        rw [List.countP_append, hcnt] at hn
        obtain ⟨x, x1, x2⟩ := b' r n hp (by omega)
        refine ⟨x, x1, ?_⟩
        rw [← e, List.take_succ_cons, List.flatMap_cons, List.append_assoc, List.prefix_append_right_inj]
        exact x2
      · have := q.sublist.countP_le (p := fun u => u.tells b)
        rw [hcnt] at this
        omega

/-! ## An example: one core, two sectors of one element; a vector from outside for block 1, register file 1, address 7, then the update of the tag of block 1 -/

/-- The shape. -/
abbrev ldEx : LdShape := ⟨1, 2, 1⟩

/-- After the reset. -/
def ldEx0 : Loader := ⟨⟨[], true, false, .default⟩, List.replicate 3 ⟨[], true, false, []⟩, List.replicate 8 .idle, List.replicate 4 ⟨[], true, false, []⟩⟩

theorem ldEx0_start : ldEx0.Start ldEx where
  uf := ⟨rfl, by decide, by (intro m t h; cases h), by decide⟩
  ufMem := rfl
  nIn := rfl
  nOut := rfl
  ins := by
    intro f hf
    obtain ⟨_, rfl⟩ := List.mem_replicate.1 hf
    exact ⟨⟨rfl, by decide, by intro m t h; cases h⟩, rfl⟩
  outs := by
    intro f hf
    obtain ⟨_, rfl⟩ := List.mem_replicate.1 hf
    exact ⟨⟨rfl, by decide, by intro m t h; cases h⟩, rfl⟩
  slots := rfl

/-- The inputs of the cycles. -/
def ldExIn : List LoaderIn :=
  [⟨some { LdUop.default with block1Id := 1, vrf1Id := 1, vrf1Addr := 7, output := true }, fun k => if k = 0 then some [300, -5] else none, fun _ => true⟩,
    ⟨some (tagUpdate 1 false), fun _ => none, fun _ => true⟩] ++ List.replicate 12 ⟨none, fun _ => none, fun _ => true⟩

example : (ldEx0.run ldEx ldExIn).map (fun r => [0, 1, 2, 3].map fun j => r.1.filterMap fun o => o.given.getD j none) =
    some [[[300, -5]], [], [[5, 7, 0, 0, 300], [5, 511, 1, 0, 300]], [[5, 7, 0, 0, -5], [5, 511, 1, 0, -5]]] := by decide +kernel

example : ∃ os s', ldEx0.run ldEx ldExIn = some (os, s') ∧
    (ldIssued ldEx 0 [] (os.take (os.length - 8))).map (fun x => (x.1.vrf1Id, x.2)) = [(1, [300, -5]), (1, [300, -5])] := by
  refine ⟨_, _, Option.eq_some_of_isSome (o := ldEx0.run ldEx ldExIn) (by decide +kernel), ?_⟩
  decide +kernel

/-- A macro-op of two words. -/
def ldExMop : LdMop := ⟨1, 2, 1, [0, 0, 0], [5, 0, 0], 2, 0, true, 1, false, false⟩

example : ldExMop.op = true ∧ ([ldExMop, ldExMop].flatMap LdMop.expand).countP (·.tells 2) = 2 ∧ ldExMop.words.length = 2 := by decide

end RadSim.Npu
