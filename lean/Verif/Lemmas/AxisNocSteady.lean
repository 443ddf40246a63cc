import Verif.Lemmas.AxisNocDrain

/-! # An empty source side adapter takes what it is offered -/

namespace RadSim.AxisNoc

open Net

section
variable {c : SlaveCfg} {s s' : SlaveState}

theorem empty_fifos (hi : SlaveInv c s) (hp : pending c s = []) : s.toInj = none ∧ s.injFifo = [] ∧ s.inFifo = [] := by
  unfold pending at hp
  simp only [List.append_eq_nil_iff] at hp
  refine ⟨?_, hp.1.2, ?_⟩
  · cases h : s.toInj with
    | none => rfl
    | some f => rw [h] at hp; cases hp.1.1
  · cases h : s.inFifo with
    | nil => rfl
    | cons t r =>
      have h1 := hi.cycCons t r h
      have h2 := hp.2
      rw [h, List.drop_eq_nil_iff, List.flatMap_cons, List.length_append, beatFlits_length] at h2
      omega

/-- An adapter that is not full accepts some beat when one is offered. -/
theorem node_accepts (hn : 0 < c.n) (hi : SlaveInv c s) (hf : s.inFull = false) {beats : Nat → Option AxisTxn}
    (hh : handshakes c s (.node beats false) = []) {p : Nat} (hp : p < c.n) : beats p = none := by
  by_contra hne
  obtain ⟨b, hb⟩ := Option.ne_none_iff_exists'.1 hne
  have hfind : ((List.range c.n).find? fun i => (beats i).isSome).isSome := by
    rw [List.find?_isSome]
    exact ⟨p, List.mem_range.2 hp, by rw [hb]; rfl⟩
  obtain ⟨j, hj⟩ := Option.isSome_iff_exists.1 hfind
  have hjn := List.mem_range.1 (List.mem_of_find?_eq_some hj)
  have hjb := List.find?_some hj
  obtain ⟨b', hb'⟩ := Option.isSome_iff_exists.1 hjb
  simp only [handshakes, hi.prio, inputReady_range c.n hn, hf] at hh
  rw [List.filterMap_eq_nil_iff] at hh
  have := hh j (List.mem_range.2 hjn)
  simp [hb', hj] at this

/-- The edges of a period at which an empty adapter accepts nothing. -/
theorem edges_empty (hn : 0 < c.n) (hd : 0 < c.depth) : ∀ (es : List SlaveEdge) {s s' : SlaveState} {out : List BsFlit},
    SlaveInv c s → pending c s = [] → slaveRun c s (es.map SlaveEdge.event) = .ok (s', [], out) →
    SlaveInv c s' ∧ pending c s' = [] ∧
      (s.inFull = false → s'.inFull = false) ∧ (s.injFull = false → s'.injFull = false) ∧
      ((∃ b z, .node b z ∈ es) → s'.inFull = false) ∧ (.adapter ∈ es → s'.injFull = false) ∧
      (s.inFull = false → ∀ b, .node b false ∈ es → ∀ p < c.n, b p = none) := by
  intro es
  induction es with
  | nil =>
    intro s s' out hi hp hr
    cases hr
    exact ⟨hi, hp, id, id, by simp, by simp, by simp⟩
  | cons e es ih =>
    intro s s' out hi hp hr
    rw [List.map_cons] at hr
    obtain ⟨s1, o1, a2, o2, h1, h2, h3, rfl⟩ := srun_cons hr
    have h3' : handshakes c s e.event = [] ∧ a2 = [] := by simpa using h3.symm
    obtain ⟨hh, rfl⟩ := h3'
    obtain ⟨i1, fs, f1, f2⟩ := slaveStep_inv hn (event_reset e) h1 hi
    rw [hh, hp] at f2
    have hp1 : pending c s1 = [] := by
      have : fs = [] ∧ pending c s1 = [] := by simpa using f2.symm
      exact this.2
    obtain ⟨j1, j2, j3, j4, j5, j6, j7⟩ := ih i1 hp1 h2
    obtain ⟨e1, e2, e3⟩ := empty_fifos hi hp
    cases e with
    | adapter =>
      cases h1
      have hs : (adapterStep c s).inFull = s.inFull ∧ (adapterStep c s).injFull = false := by
        unfold adapterStep
        rw [e3]
        refine ⟨rfl, ?_⟩
        simp only [e2, List.length_nil, decide_eq_false_iff_not]
        omega
      refine ⟨j1, j2, fun h => j3 (hs.1.trans h), fun _ => j4 hs.2, fun h => j5 ?_, fun _ => j4 hs.2, fun h b hb => ?_⟩
      · simpa using h
      · exact j7 (hs.1.trans h) b (by simpa using hb)
    | node b z =>
      obtain ⟨n1, n2, n3⟩ := nodeStep_eq c hn s hi.prio b z
      have hh' : handshakes c s (.node b z) = [] := hh
      rw [hh', List.append_nil, e3] at n1
      rw [if_pos (by decide)] at n1
      simp only [SlaveEdge.event, slaveStep, n1] at h1
      cases h1
      refine ⟨j1, j2, fun _ => j3 rfl, fun h => j4 h, fun _ => j3 rfl, fun h => j6 (by simpa using h), fun h b' hb' => ?_⟩
      rcases List.mem_cons.1 hb' with hb' | hb'
      · cases hb'
        exact fun p hp => node_accepts hn hi h hh' hp
      · exact j7 rfl b' hb'

/-- A period in which an empty adapter accepts nothing. -/
theorem period_empty (hn : 0 < c.n) (hd : 0 < c.depth) (hi : SlaveInv c s) (hp : pending c s = [])
    {pre post : List SlaveEdge} {l : List Nat} {out : List BsFlit}
    (hr : slaveRun c s (pre.map SlaveEdge.event ++ .noc l :: post.map SlaveEdge.event) = .ok (s', [], out)) :
    (s.inFull = false → s'.inFull = false) ∧ (s.injFull = false → s'.injFull = false) ∧
      ((∃ b z, .node b z ∈ pre ++ post) → s'.inFull = false) ∧ (.adapter ∈ pre ++ post → s'.injFull = false) ∧
      (s.inFull = false → ∀ b, .node b false ∈ pre ++ post → ∀ p < c.n, b p = none) := by
  obtain ⟨s1, a1, o1, a2, o2, h1, hr2, ha, rfl⟩ := srun_append hr
  obtain ⟨s2, o3, a4, o4, h2, h3, rfl, rfl⟩ := srun_cons hr2
  have ha' : a1 = [] ∧ a2 = [] := by simpa using ha.symm
  obtain ⟨rfl, rfl⟩ := ha'
  obtain ⟨i1, p1, k1, k2, k3, k4, k5⟩ := edges_empty hn hd pre hi hp h1
  obtain ⟨i2, fs, f1, f2⟩ := slaveStep_inv hn (e := .noc l) rfl h2 i1
  simp only [handshakes, p1, List.flatMap_nil, List.append_nil] at f2
  have hp2 : pending c s2 = [] := by
    have : fs = [] ∧ pending c s2 = [] := by simpa using f2.symm
    exact this.2
  have hf : s2.inFull = s1.inFull ∧ s2.injFull = s1.injFull := by
    simp only [slaveStep, nocStep, injectPhase] at h2
    split at h2
    · cases h2
    · rename_i h4
      split at h2
      · cases h2
      · cases h2
        split at h4
        · cases h4; exact ⟨rfl, rfl⟩
        · split at h4
          · split at h4
            · cases h4
            · split at h4
              · cases h4
              · cases h4; exact ⟨rfl, rfl⟩
          · cases h4; exact ⟨rfl, rfl⟩
  obtain ⟨-, -, m1, m2, m3, m4, m5⟩ := edges_empty hn hd post i2 hp2 h3
  rw [hf.1] at m1 m5
  rw [hf.2] at m2
  refine ⟨fun h => m1 (k1 h), fun h => m2 (k2 h), ?_, fun h => ?_, fun h b hb => ?_⟩
  · rintro ⟨b, z, h⟩
    rcases List.mem_append.1 h with h | h
    · exact m1 (k3 ⟨b, z, h⟩)
    · exact m3 ⟨b, z, h⟩
  · rcases List.mem_append.1 h with h | h
    · exact m2 (k4 h)
    · exact m4 h
  · rcases List.mem_append.1 hb with hb | hb
    · exact k5 h b hb
    · exact m5 (k1 h) b hb

end

variable {σ τ ρ ρ' : Type} {VA : Alloc.Cls σ ρ} {SA : Alloc.Cls τ ρ'} {c : Cfg} {va : Nat → σ} {sa : Nat → τ} {i : Nat → In ρ ρ'}
  {P : Nat → Nat → AxisTxn → Prop} {rng : Nat → Nat × Nat}

/-- In periods in which an adapter is empty and accepts nothing, nothing is offered, once both its clocks have had an edge. -/
theorem offers_nothing {N J n : Nat} (hinv : ∀ n ≤ N, Inv VA SA c va sa i P n) (hse : Seen VA SA c va sa i N) {u : Nat}
    (hu : u < c.m.nodes) (hn : 0 < (c.sc u).n) (hd : 0 < (c.sc u).depth) {L : Nat} (hL : n + L ≤ N)
    (hq : ∀ m, n ≤ m → m ≤ n + L → (st VA SA c va sa i m).got u = (st VA SA c va sa i n).got u ∧
        pending (c.sc u) ((st VA SA c va sa i m).slave u) = [])
    (had : ∃ k, n ≤ k ∧ k < n + J ∧ .adapter ∈ (i k).sPre u ++ (i k).sPost u)
    (hno : ∃ k, n ≤ k ∧ k < n + J ∧ ∃ b z, .node b z ∈ (i k).sPre u ++ (i k).sPost u) :
    ∀ k, n + J ≤ k → k < n + L → ∀ b z, .node b z ∈ (i k).sPre u ++ (i k).sPost u → ∀ p < (c.sc u).n, b p = none := by
  have per : ∀ k, n ≤ k → k < n + L →
      (((st VA SA c va sa i k).slave u).inFull = false → ((st VA SA c va sa i (k + 1)).slave u).inFull = false) ∧
      (((st VA SA c va sa i k).slave u).injFull = false → ((st VA SA c va sa i (k + 1)).slave u).injFull = false) ∧
      ((∃ b z, .node b z ∈ (i k).sPre u ++ (i k).sPost u) → ((st VA SA c va sa i (k + 1)).slave u).inFull = false) ∧
      (.adapter ∈ (i k).sPre u ++ (i k).sPost u → ((st VA SA c va sa i (k + 1)).slave u).injFull = false) ∧
      (((st VA SA c va sa i k).slave u).inFull = false → ∀ b, .node b false ∈ (i k).sPre u ++ (i k).sPost u →
        ∀ p < (c.sc u).n, b p = none) := by
    intro k h1 h2
    obtain ⟨acc, out, hr, hg, -, -⟩ := (hinv k (by omega)).period (hinv (k + 1) (by omega)) hu
    have hacc : acc = [] := by
      rw [(hq k h1 (by omega)).1, (hq (k + 1) (by omega) (by omega)).1] at hg
      simpa using hg
    subst hacc
    exact period_empty hn hd ((hinv k (by omega)).slave u hu).inv (hq k h1 (by omega)).2 hr
  have clr : ∀ k, n + J ≤ k → k ≤ n + L → ((st VA SA c va sa i k).slave u).inFull = false ∧
      ((st VA SA c va sa i k).slave u).injFull = false := by
    intro k h1 h2
    obtain ⟨a, a1, a2, a3⟩ := had
    obtain ⟨b, b1, b2, b3⟩ := hno
    have c1 : ∀ d, a + 1 + d ≤ n + L → ((st VA SA c va sa i (a + 1 + d)).slave u).injFull = false := by
      intro d
      induction d with
      | zero => exact fun h => (per a a1 (by omega)).2.2.2.1 a3
      | succ d ih => exact fun h => (per (a + 1 + d) (by omega) (by omega)).2.1 (ih (by omega))
    have c2 : ∀ d, b + 1 + d ≤ n + L → ((st VA SA c va sa i (b + 1 + d)).slave u).inFull = false := by
      intro d
      induction d with
      | zero => exact fun h => (per b b1 (by omega)).2.2.1 b3
      | succ d ih => exact fun h => (per (b + 1 + d) (by omega) (by omega)).1 (ih (by omega))
    have d1 := c1 (k - (a + 1)) (by omega)
    have d2 := c2 (k - (b + 1)) (by omega)
    rw [show a + 1 + (k - (a + 1)) = k by omega] at d1
    rw [show b + 1 + (k - (b + 1)) = k by omega] at d2
    exact ⟨d2, d1⟩
  intro k h1 h2 b z hb
  obtain ⟨f1, f2⟩ := clr k h1 (by omega)
  obtain ⟨_, f3⟩ := clr (k + 1) (by omega) (by omega)
  have hz : z = false := by
    cases z with
    | false => rfl
    | true =>
      rcases hse k (by omega) _ _ (hinv k (by omega)).ok (hinv (k + 1) (by omega)).ok u hu b hb with h | h
      · rw [f2] at h; cases h
      · rw [f3] at h; cases h
  subst hz
  exact (per k (by omega) h2).2.2.2.2 f1 b hb

end RadSim.AxisNoc
