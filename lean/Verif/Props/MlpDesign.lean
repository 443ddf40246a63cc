import Verif.Lemmas.MlpFifo

/-!
# C105: the driver of the design `mlp` feeds and checks faithfully

The statements speak of the vectors in the driver's files, of the vectors handed to and taken from the NoC, and of the report. -/

namespace RadSim.Mlp

/-- C105, input side: if the driver and a dispatcher have the same edges then, whatever the NoC does, the FIFO of the dispatcher
neither overflows nor underflows, what it hands to the NoC is the start of the file, and it is the whole file once the NoC was
ready at three edges per line. -/
theorem C105_dispatcher {size lanes : Nat} (hs : 2 ≤ size) {lines : List Vec} (hl : ∀ v ∈ lines, 0 < v.length)
    {t : Nat → DispIn} (ht : ∀ n, (t n).drive = (t n).edge) (n : Nat) :
    ∃ d f sent, dispRun size lanes lines t n = .ok (d, f, sent) ∧ sent <+: lines ∧
      (3 * lines.length ≤ (List.range n).countP (fun k => (t k).edge && (t k).tready) → sent = lines) := by
  obtain ⟨d, f, sent, e, h⟩ := feeds_all (lanes := lanes) hs hl ht n
  have hp : sent <+: lines := by
    have : sent <+: lines.take d.written := by
      rw [← h.order, List.append_assoc]
      exact List.prefix_append _ _
    exact this.trans (List.take_prefix _ _)
  refine ⟨d, f, sent, e, hp, fun hc => ?_⟩
  have key : ∀ n d f sent, dispRun size lanes lines t n = .ok (d, f, sent) → sent.length < lines.length →
      toSend lines d f sent + (List.range n).countP (fun k => (t k).edge && (t k).tready) ≤ 3 * lines.length + 2 := by
    intro n
    induction n with
    | zero =>
      intro d f sent e _
      simp only [dispRun, Except.ok.injEq, Prod.mk.injEq] at e
      obtain ⟨rfl, rfl, rfl⟩ := e
      simp [toSend, Feeder.reset, AddDesign.Fifo.reset]
    | succ n ih =>
      intro d' f' sent' e' hlt
      obtain ⟨d, f, sent, e, h⟩ := feeds_all (lanes := lanes) hs hl ht n
      simp only [dispRun, e, ht] at e'
      rw [List.range_succ, List.countP_append, List.countP_singleton]
      cases he : (t n).edge
      · rw [he] at e'
        simp only [Bool.false_eq_true, if_false, Except.ok.injEq, Prod.mk.injEq] at e'
        obtain ⟨rfl, rfl, rfl⟩ := e'
        simpa using ih _ _ _ e hlt
      · rw [he] at e'
        obtain ⟨f'', e'', -, -⟩ := h.tick lanes hl (t n).tready
        have hnear := h.nearer hs lanes hl e''
        simp only [if_true, e'', Except.ok.injEq, Prod.mk.injEq] at e'
        obtain ⟨rfl, rfl, rfl⟩ := e'
        have hlt' : sent.length < lines.length := by simp only [List.length_append] at hlt; omega
        have := ih _ _ _ e hlt'
        simp only [hlt', and_true] at hnear
        simp only [Bool.true_and]
        omega
  by_contra hne
  have hlt : sent.length < lines.length := by
    rcases Nat.lt_or_ge sent.length lines.length with h | h
    · exact h
    · exact absurd (hp.eq_of_length_le h) hne
  have := key n d f sent e hlt
  unfold toSend at this
  omega

/-- A file of two lines through a FIFO with two places: sent after six edges. -/
example : ∃ d f, dispRun 2 2 [[1, 2], [3, 4]] (fun _ => ⟨true, true, true⟩) 6 = .ok (d, f, [[1, 2], [3, 4]]) := by
  obtain ⟨d, f, sent, e, -, h⟩ := C105_dispatcher (size := 2) (lanes := 2) (by decide) (lines := [[1, 2], [3, 4]])
    (by decide) (t := fun _ => ⟨true, true, true⟩) (fun _ => rfl) 6
  exact ⟨d, f, by rw [e, h (by decide)]⟩

/-- C105, output side: if the driver and the collector have the same edges then, whatever the NoC delivers, the FIFO of the
collector neither overflows nor underflows; a report is success iff the first vectors taken are the golden outputs; and there is
a report once that many vectors were taken and `size` more edges have passed. -/
theorem C105_collector {size lanes : Nat} (hs : 2 ≤ size) (h0 : 0 < lanes) {golden : List Vec}
    (hg : ∀ v ∈ golden, v.length = lanes) {t : Nat → CollIn} (hb : ∀ n v, (t n).beat = some v → v.length = lanes)
    (ht : ∀ n, (t n).drive = (t n).edge) (n : Nat) :
    ∃ f k taken, collRun size lanes golden t n = .ok (f, k, taken) ∧
      (∀ r, k.report = some r → r = decide (taken.take golden.length = golden)) ∧
      (golden.length ≤ taken.length → ∀ j, size ≤ (List.range j).countP (fun i => (t (n + i)).edge) →
        ∃ f' k' taken', collRun size lanes golden t (n + j) = .ok (f', k', taken') ∧
          k'.report = some (decide (taken.take golden.length = golden))) := by
  obtain ⟨f, k, taken, e, h, hl⟩ := checks_all hs h0 hg hb ht n
  refine ⟨f, k, taken, e, fun r => h.says, fun hn j hj => ?_⟩
  have key : ∀ j, ∃ f' k' taken', collRun size lanes golden t (n + j) = .ok (f', k', taken') ∧ taken <+: taken' ∧
      toReport golden k' ≤ size - (List.range j).countP (fun i => (t (n + i)).edge) := by
    intro j
    induction j with
    | zero => exact ⟨f, k, taken, e, List.prefix_rfl, by simpa using h.near hs hn⟩
    | succ j ih =>
      obtain ⟨f₁, k₁, t₁, e₁, hp, hd⟩ := ih
      obtain ⟨f₂, k₂, t₂, e₂, hc, hl₂⟩ := checks_all hs h0 hg hb ht (n + j)
      rw [e₁] at e₂
      simp only [Except.ok.injEq, Prod.mk.injEq] at e₂
      obtain ⟨rfl, rfl, rfl⟩ := e₂
      rw [← Nat.add_assoc]
      simp only [collRun, e₁, ht]
      rw [List.range_succ, List.countP_append, List.countP_singleton]
      cases he : (t (n + j)).edge
      · exact ⟨_, _, _, rfl, hp, by simpa using hd⟩
      · obtain ⟨f', e', -⟩ := hc.tick h0 hg hl₂ (t (n + j)).beat
        simp only [if_true, e']
        refine ⟨_, _, _, rfl, hp.trans (List.prefix_append _ _), ?_⟩
        have := hc.nearer h0 hl₂ (Nat.le_trans hn hp.length_le)
        omega
  obtain ⟨f', k', taken', e', hp, hd⟩ := key j
  obtain ⟨f₂, k₂, t₂, e₂, hc, -⟩ := checks_all hs h0 hg hb ht (n + j)
  rw [e'] at e₂
  simp only [Except.ok.injEq, Prod.mk.injEq] at e₂
  obtain ⟨rfl, rfl, rfl⟩ := e₂
  refine ⟨_, _, _, e', ?_⟩
  cases er : k'.report with
  | none => simp only [toReport, er] at hd; simp at hd; omega
  | some r =>
    rw [hc.says er]
    obtain ⟨w, rfl⟩ := hp
    rw [List.take_append_of_le_length hn]

/-- Two vectors arrive, the second one wrong: failure is reported after some edges. -/
example : ∃ f k taken, collRun 2 1 [[1], [2]] (fun n => ⟨true, true, if n = 0 then some [1] else if n = 2 then some [3] else none⟩) 5 =
    .ok (f, k, taken) ∧ k.report = some false := by
  obtain ⟨f, k, taken, e, -, h⟩ := C105_collector (size := 2) (lanes := 1) (by decide) (by decide) (golden := [[1], [2]]) (by decide)
    (t := fun n => ⟨true, true, if n = 0 then some [1] else if n = 2 then some [3] else none⟩) (by
      intro n v hv
      dsimp only at hv
      split at hv
      · cases hv; rfl
      · split at hv
        · cases hv; rfl
        · cases hv) (fun _ => rfl) 3
  have e3 : collRun 2 1 [[1], [2]] (fun n => ⟨true, true, if n = 0 then some [1] else if n = 2 then some [3] else none⟩) 3 =
    .ok (f, k, taken) := e
  have ht : taken = [[1], [3]] := by
    have : (match collRun 2 1 [[1], [2]] (fun n => ⟨true, true, if n = 0 then some [1] else if n = 2 then some [3] else none⟩) 3 with
      | .ok (_, _, t) => t
      | .error _ => []) = [[1], [3]] := by decide +kernel
    rw [e3] at this
    exact this
  subst ht
  obtain ⟨f', k', taken', e', hr⟩ := h (by decide) 2 (by decide)
  exact ⟨f', k', taken', e', by rw [hr]; decide⟩

/-- The two clocks have to be the same (`mlp.clks` and `sim_driver_period` are set apart): with a module clock of twice the
frequency of the driver's, the dispatcher sends a line twice. -/
theorem C105_dispatcher_clock_violated : ∃ n d f, dispRun 4 1 [[7]] (fun n => ⟨true, n % 2 == 0, true⟩) n =
    .ok (d, f, [[7], [7]]) := by
  refine ⟨5, ?_⟩
  have : (match dispRun 4 1 [[7]] (fun n => ⟨true, n % 2 == 0, true⟩) 5 with
    | .ok (_, _, s) => some s
    | .error _ => none) = some [[7], [7]] := by decide +kernel
  split at this
  · rename_i d f s e
    cases this
    exact ⟨d, f, e⟩
  · cases this

/-- ... and the driver misses a vector that the collector took, and reports failure although all were right. -/
theorem C105_collector_clock_violated : ∃ (t : Nat → CollIn) (n : Nat), ∃ f k taken,
    collRun 4 1 [[1], [2]] t n = .ok (f, k, taken) ∧ taken.take 2 = [[1], [2]] ∧ k.report = some false := by
  let t : Nat → CollIn := fun n => ⟨true, n % 2 == 1, if n = 1 then some [1] else if n = 2 then some [2] else if n = 4 then some [3] else if n = 6 then some [4] else none⟩
  refine ⟨t, 12, ?_⟩
  have : (match collRun 4 1 [[1], [2]] t 12 with
    | .ok (_, k, s) => some (k.report, s.take 2)
    | .error _ => none) = some (some false, [[1], [2]]) := by decide +kernel
  split at this
  · rename_i f k s e
    simp only [Option.some.injEq, Prod.mk.injEq] at this
    exact ⟨f, k, s, e, this.2, this.1⟩
  · cases this

end RadSim.Mlp
