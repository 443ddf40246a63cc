import Verif.Lemmas.AddDesign
import Verif.Lemmas.AxisNocSteady

/-! # The example designs come to an end -/

namespace RadSim.AddDesign

open AxisNoc (In SlaveEdge MasterEdge Offered nodeOf portOf deliveredAt)
open Net (mesh Allocs Grants)

variable {σ τ ρ ρ' : Type} {VA : Alloc.Cls σ ρ} {SA : Alloc.Cls τ ρ'} {d : Params} {va : Nat → σ} {sa : Nat → τ}
  {t : Nat → Tick ρ ρ'} {rng : Nat → Nat × Nat} {n N n₀ J K : Nat}

/-- What lasts until an edge, and is false at every edge, was false before. -/
theorem until_edge {E Q : Nat → Prop} {a J : Nat} (hk : ∀ m, a ≤ m → m < a + J → Q m → ¬ E m → Q (m + 1))
    (he : ∀ m, a ≤ m → m < a + J → Q m → ¬ E m) (hex : ∃ m, a ≤ m ∧ m < a + J ∧ E m) : ¬ Q a := by
  intro h0
  obtain ⟨m, h1, h2, h3⟩ := hex
  obtain ⟨e, rfl⟩ := Nat.exists_eq_add_of_le h1
  have : ∀ e, a + e < a + J → Q (a + e) := by
    intro e
    induction e with
    | zero => exact fun _ => h0
    | succ e ih => exact fun h => hk (a + e) (by omega) (by omega) (ih (by omega)) (he _ (by omega) (by omega) (ih (by omega)))
  exact he _ h1 h2 (this e h2) h3

theorem Good.next (h : Good VA SA d va sa t n) (h' : Good VA SA d va sa t (n + 1)) :
    step VA SA d (t n) (xs VA SA d va sa t n) = .ok (xs VA SA d va sa t (n + 1)) := by
  have := h'.ok
  unfold run at this
  rw [h.ok] at this
  exact this

/-- The parts of a step. -/
theorem step_cases {x y : Sys σ τ} {s : Tick ρ ρ'} (h : step VA SA d s x = .ok y) :
    (∃ b, y.adder = if MEdge.node ∈ s.mPre d.adder ++ s.mPost d.adder then x.adder.tick d.op b else x.adder) ∧
    (SEdge.node ∈ s.sPre d.client ++ s.sPost d.client →
      y.src = x.src.tick x.client.ready ∧ y.report = sinkTick d.want x.adder x.report ∧
      x.client.tick d.depth x.src.valid x.src.tdata x.src.tlast
        (decide ((x.noc.got d.client).length < (y.noc.got d.client).length)) = .ok y.client) ∧
    (SEdge.node ∉ s.sPre d.client ++ s.sPost d.client → y.src = x.src ∧ y.report = x.report ∧ y.client = x.client) := by
  unfold step at h
  split at h
  · cases h
  · rename_i noc _
    dsimp only at h
    split at h
    · rename_i hed
      split at h
      · cases h
      · rename_i hk
        cases h
        exact ⟨⟨_, rfl⟩, fun _ => ⟨rfl, rfl, hk⟩, fun hn => absurd hed hn⟩
    · rename_i hed
      cases h
      exact ⟨⟨_, rfl⟩, fun hn => absurd hn hed, fun _ => ⟨rfl, rfl, rfl⟩⟩

theorem fair (hr : Runs d N n₀ J K t) : AxisNoc.Fair d.noc N n₀ J K (ins VA SA d va sa t) where
  one := by
    intro k hk u hu
    refine Nat.le_trans (Nat.le_of_eq ?_) (hr.one k hk u hu)
    unfold ins inOf
    dsimp only
    rw [← List.map_append, List.countP_map]
    congr 1
    funext e
    cases e <;> rfl
  source := by
    intro k h1 h2 u hu
    obtain ⟨k', h3, h4, h5⟩ := hr.source k h1 h2 u hu
    refine ⟨k', h3, h4, ?_⟩
    unfold ins inOf
    dsimp only
    rw [← List.map_append]
    exact List.mem_map.2 ⟨_, h5, rfl⟩
  sink := by
    intro k h1 h2 u hu
    obtain ⟨k', h3, h4, cm, h5⟩ := hr.sink k h1 h2 u hu
    refine ⟨k', h3, h4, cm, ?_⟩
    unfold ins inOf
    dsimp only
    rw [← List.map_append]
    exact List.mem_map.2 ⟨_, h5, rfl⟩
  ready := by
    intro k h1 h2 u hu p hp
    obtain ⟨k', h3, h4, h5⟩ := hr.ready k h1 h2 u hu
    refine ⟨k', h3, h4, fun _ => true, ?_, rfl⟩
    unfold ins inOf
    dsimp only
    rw [← List.map_append]
    exact List.mem_map.2 ⟨_, h5, rfl⟩
  time := hr.time

theorem seen (hg : ∀ n ≤ N, Good VA SA d va sa t n) (hs : Seen VA SA d va sa t N) :
    AxisNoc.Seen VA SA d.noc va sa (ins VA SA d va sa t) N := by
  intro k hk x y hx hy u hu beats hm
  obtain ⟨-, h1, h2⟩ := edges_of hm
  rw [(hg k (by omega)).noc] at hx
  rw [(hg (k + 1) (by omega)).noc] at hy
  cases hx
  cases hy
  exact hs k hk _ _ (hg k (by omega)).ok (hg (k + 1) (by omega)).ok u hu h1.symm h2

theorem edge_of {k : Client} {s : Tick ρ ρ'} {u : Nat} (h : SEdge.node ∈ s.sPre u ++ s.sPost u) :
    SlaveEdge.node (offers d k u) (s.seen u) ∈ (inOf d s k).sPre u ++ (inOf d s k).sPost u := by
  unfold inOf
  dsimp only
  rw [← List.map_append]
  exact List.mem_map.2 ⟨_, h, rfl⟩

/-- The numbers the client holds. -/
theorem clientOf_inj {depth : Nat} {q q' : List (Nat × Bool)} (h : clientOf depth q = clientOf depth q') : q = q' := by
  have h1 : q.map (·.1) = q'.map (·.1) := congrArg (fun k => k.data.mem) h
  have h2 : q.map (·.2) = q'.map (·.2) := congrArg (fun k => k.last.mem) h
  have e : ∀ q : List (Nat × Bool), List.zip (q.map (·.1)) (q.map (·.2)) = q := by
    intro q
    have := List.zip_unzip q
    rwa [List.unzip_eq_map] at this
  rw [← e q, ← e q', h1, h2]

/-- If nothing is accepted and nothing is offered, the client and the driver have nothing left. -/
theorem fed (hw : Works d rng) (hg : ∀ m ≤ N, Good VA SA d va sa t m) (hJ : n + 3 * J ≤ N)
    (hgot : ∀ m, n ≤ m → m ≤ n + 3 * J → (xs VA SA d va sa t m).noc.got d.client = (xs VA SA d va sa t n).noc.got d.client)
    (hno : ∀ m, n ≤ m → m < n + 3 * J → SEdge.node ∈ (t m).sPre d.client ++ (t m).sPost d.client →
      (xs VA SA d va sa t m).client.offer = none)
    (hex : ∀ k, n ≤ k → k + J ≤ N → ∃ k', k ≤ k' ∧ k' < k + J ∧ SEdge.node ∈ (t k').sPre d.client ++ (t k').sPost d.client) :
    ((xs VA SA d va sa t n).noc.got d.client).map pairIn = mark d.numbers := by
  have hcl : ∀ m ≤ N, ∀ q, (xs VA SA d va sa t m).client = clientOf d.depth q → (xs VA SA d va sa t m).client.offer = none → q = [] := by
    intro m _ q hq h
    rw [hq, offer_client] at h
    cases q with
    | nil => rfl
    | cons y q => cases h
  -- at an edge the driver shows nothing
  have hA : ∀ m, n ≤ m → m + 1 + J ≤ n + 3 * J → SEdge.node ∈ (t m).sPre d.client ++ (t m).sPost d.client →
      (xs VA SA d va sa t m).src.valid = false ∧ (xs VA SA d va sa t (m + 1)).client = clientOf d.depth [] := by
    intro m h1 h2 hed
    obtain ⟨q, hq⟩ := (hg m (by omega)).feeds
    have hq0 := hcl m (by omega) q hq.client (hno m h1 (by omega) hed)
    subst hq0
    have hst := ((step_cases ((hg m (by omega)).next (hg (m + 1) (by omega)))).2.1 hed).2.2
    rw [hgot m h1 (by omega), hgot (m + 1) (by omega) (by omega), hq.client, tick_client, ready_client] at hst
    have hst' := (Except.ok.inj hst).symm
    simp only [after, Nat.lt_irrefl, decide_false, Bool.false_eq_true, if_false, List.nil_append] at hst'
    cases hv : (xs VA SA d va sa t m).src.valid with
    | false =>
      refine ⟨rfl, ?_⟩
      rw [hv, Bool.and_false] at hst'
      exact hst'
    | true =>
      exfalso
      rw [hv, Bool.and_true, show (decide (([] : List (Nat × Bool)).length < d.depth - 1)) = true by
        have := hw.depth; simp; omega] at hst'
      have hne : (xs VA SA d va sa t (m + 1)).client.offer ≠ none := by
        rw [hst', offer_client]
        simp
      refine until_edge (Q := fun k => (xs VA SA d va sa t k).client.offer ≠ none)
        (E := fun k => SEdge.node ∈ (t k).sPre d.client ++ (t k).sPost d.client) (a := m + 1) (J := J) ?_ ?_
        (hex (m + 1) (by omega) (by omega)) hne
      · intro k k1 k2 hQ hE
        show (xs VA SA d va sa t (k + 1)).client.offer ≠ none
        rw [((step_cases ((hg k (by omega)).next (hg (k + 1) (by omega)))).2.2 hE).2.2]
        exact hQ
      · intro k k1 k2 hQ hE
        exact hQ (hno k (by omega) (by omega) hE)
  obtain ⟨m, m1, m2, hed⟩ := hex n (Nat.le_refl _) (by omega)
  obtain ⟨h1, h2⟩ := hA m m1 (by omega) hed
  have hqu : (xs VA SA d va sa t (m + 1)).src.queue = [] := by
    by_contra hne
    have hv : (xs VA SA d va sa t (m + 1)).src.valid = true := by
      have hs := ((step_cases ((hg m (by omega)).next (hg (m + 1) (by omega)))).2.1 hed).1
      obtain ⟨q, hq⟩ := (hg m (by omega)).feeds
      have := (tick_source hq.src (xs VA SA d va sa t m).client.ready).2.2
      rw [← hs] at this
      exact this hne
    refine until_edge (Q := fun k => (xs VA SA d va sa t k).src.valid = true)
      (E := fun k => SEdge.node ∈ (t k).sPre d.client ++ (t k).sPost d.client) (a := m + 1) (J := J) ?_ ?_
      (hex (m + 1) (by omega) (by omega)) hv
    · intro k k1 k2 hQ hE
      show (xs VA SA d va sa t (k + 1)).src.valid = true
      rw [((step_cases ((hg k (by omega)).next (hg (k + 1) (by omega)))).2.2 hE).1]
      exact hQ
    · intro k k1 k2 hQ hE
      have := (hA k (by omega) (by omega) hE).1
      rw [hQ] at this
      cases this
  obtain ⟨q, hq⟩ := (hg (m + 1) (by omega)).feeds
  have hq0 : q = [] := clientOf_inj (hq.client.symm.trans h2)
  have := hq.all
  rw [hq0, hqu, hgot (m + 1) (by omega) (by omega)] at this
  simpa [mark] using this

/-- Everything accepted came from the client. -/
theorem flits_le (hw : Works d rng) (ha : Allocs VA SA (mesh d.noc.m) d.noc.b va sa) (ht : ∀ k < N, Paced d (t k)) :
    AxisNoc.flitsOf d.noc (xs VA SA d va sa t N).noc ≤ numFlits ((d.noc.sc d.client).dataw 0) * d.numbers.length := by
  have hg := good_all hw ha N ht
  have hti : ∀ k < N, AxisNoc.InTime (ins VA SA d va sa t k) := fun k hk => (ht k hk).time
  have hinv := AxisNoc.inv_all hw.setup ha (fun u p b h => (sends_ok hw h).1) N hti hg.offered
  have hst : AxisNoc.st VA SA d.noc va sa (ins VA SA d va sa t) N = (xs VA SA d va sa t N).noc := by
    have := hinv.ok
    rw [hg.noc] at this
    exact (Except.ok.inj this).symm
  have hgood := hinv.good
  rw [hst] at hgood
  unfold AxisNoc.flitsOf
  rw [Finset.sum_eq_single_of_mem d.client (Finset.mem_range.2 hw.client)]
  · have e : ((xs VA SA d va sa t N).noc.got d.client).map (fun b => numFlits ((d.noc.sc d.client).dataw b.iface)) =
        List.replicate ((xs VA SA d va sa t N).noc.got d.client).length (numFlits ((d.noc.sc d.client).dataw 0)) := by
      rw [List.eq_replicate_iff]
      refine ⟨List.length_map _, fun b hb => ?_⟩
      obtain ⟨b', hb', rfl⟩ := List.mem_map.1 hb
      obtain ⟨p, -, b'', ⟨-, rfl, -⟩, rfl⟩ := hgood _ hw.client b' hb'
      rfl
    rw [e, List.sum_replicate_nat, Nat.mul_comm]
    refine Nat.mul_le_mul_left _ ?_
    obtain ⟨q, hq⟩ := hg.feeds
    have := congrArg List.length hq.all
    rw [List.length_append, List.length_map, mark_length] at this
    omega
  · intro u hu hne
    have : (xs VA SA d va sa t N).noc.got u = [] := by
      rw [List.eq_nil_iff_forall_not_mem]
      intro b hb
      obtain ⟨p, -, b', ⟨h, -⟩, -⟩ := hgood u (Finset.mem_range.1 hu) b hb
      exact hne h
    rw [this]
    rfl

theorem answers (o : Op) {a : Adder} (h : a.finished = true) (b : Option AxisOut) : (a.tick o b).respValid = true := by
  unfold Adder.tick
  cases b <;> simp [h]

/-- Once the adder has taken everything the driver reports it. -/
theorem reported (hg : ∀ m ≤ N, Good VA SA d va sa t m) (hne : d.numbers ≠ [])
    (hJ : n + 2 * J ≤ N)
    (had : ∃ k, n ≤ k ∧ k < n + J ∧ MEdge.node ∈ (t k).mPre d.adder ++ (t k).mPost d.adder)
    (hcl : ∃ k, n + J ≤ k ∧ k < n + J + J ∧ SEdge.node ∈ (t k).sPre d.client ++ (t k).sPost d.client)
    (hpre : ∀ m ≤ N, n ≤ m → (taken d (xs VA SA d va sa t m).noc).map pairOut = mark d.numbers) :
    (xs VA SA d va sa t N).report = some true := by
  obtain ⟨a, a1, a2, a3⟩ := had
  obtain ⟨b, b1, b2, b3⟩ := hcl
  have hfin : ∀ m ≤ N, n ≤ m → (xs VA SA d va sa t m).adder.finished = true := by
    intro m h1 h2
    rw [(hg m h1).adds.finished, hpre m h1 h2]
    obtain ⟨y, h3, h4⟩ := mark_last hne
    rw [h3]
    exact h4
  have hrv : ∀ e, a + 1 + e ≤ N → (xs VA SA d va sa t (a + 1 + e)).adder.respValid = true := by
    intro e
    induction e with
    | zero =>
      intro h
      obtain ⟨⟨o, h1⟩, -⟩ := step_cases ((hg a (by omega)).next (hg (a + 1) (by omega)))
      rw [Nat.add_zero, h1, if_pos a3]
      exact answers _ (hfin a (by omega) a1) _
    | succ e ih =>
      intro h
      have := ih (by omega)
      obtain ⟨⟨o, h1⟩, -⟩ := step_cases ((hg (a + 1 + e) (by omega)).next (hg (a + 1 + e + 1) (by omega)))
      rw [← Nat.add_assoc, h1]
      split
      · exact answers _ (hfin _ (by omega) (by omega)) _
      · exact this
  have hrep : ∀ e, b + 1 + e ≤ N → (xs VA SA d va sa t (b + 1 + e)).report ≠ none := by
    intro e
    induction e with
    | zero =>
      intro h
      have h1 := ((step_cases ((hg b (by omega)).next (hg (b + 1) (by omega)))).2.1 b3).2.1
      have h2 := hrv (b - (a + 1)) (by omega)
      rw [show a + 1 + (b - (a + 1)) = b by omega] at h2
      rw [Nat.add_zero, h1]
      unfold sinkTick
      split
      · simp
      · rw [h2]; simp
    | succ e ih =>
      intro h
      have := ih (by omega)
      have hs := step_cases ((hg (b + 1 + e) (by omega)).next (hg (b + 1 + e + 1) (by omega)))
      rw [← Nat.add_assoc]
      by_cases hed : SEdge.node ∈ (t (b + 1 + e)).sPre d.client ++ (t (b + 1 + e)).sPost d.client
      · rw [(hs.2.1 hed).2.1]
        obtain ⟨r, hr⟩ := Option.ne_none_iff_exists'.1 this
        rw [hr]
        simp [sinkTick]
      · rw [(hs.2.2 hed).2.1]
        exact this
  have h := hrep (N - (b + 1)) (by omega)
  rw [show b + 1 + (N - (b + 1)) = N by omega] at h
  obtain ⟨r, hr⟩ := Option.ne_none_iff_exists'.1 h
  rw [hr, ((hg N (Nat.le_refl _)).adds.report r hr).2.2]

end RadSim.AddDesign
