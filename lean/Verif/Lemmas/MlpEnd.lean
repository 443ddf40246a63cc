import Verif.Lemmas.MlpQuiet
import Verif.Lemmas.AxisNocSteady

/-! # The design `mlp` comes to an end -/

namespace RadSim.Mlp

open AddDesign (SEdge MEdge)
open AxisNoc (In SlaveEdge MasterEdge Offered nodeOf portOf deliveredAt)
open Net (mesh Allocs Grants)

variable {σ τ ρ ρ' : Type} {VA : Alloc.Cls σ ρ} {SA : Alloc.Cls τ ρ'} {d : Params} {va : Nat → σ} {sa : Nat → τ} {t : Nat → Tick ρ ρ'}
  {rng : Nat → Nat × Nat} {n N n₀ J K L : Nat}

theorem Paced.nodeS {tk : Tick ρ ρ'} (h : Paced d tk) {u : Nat} (hu : u < d.noc.m.nodes) (x : Sys σ τ) :
    tk.edge = true ↔ SlaveEdge.node (offers d x u) (tk.seen u) ∈ (inOf d tk x).sPre u ++ (inOf d tk x).sPost u := by
  have h1 := h.source u hu
  have h2 : SlaveEdge.node (offers d x u) (tk.seen u) ∈ (inOf d tk x).sPre u ++ (inOf d tk x).sPost u ↔
      SEdge.node ∈ tk.sPre u ++ tk.sPost u := by
    unfold inOf
    dsimp only
    rw [← List.map_append, List.mem_map]
    constructor
    · rintro ⟨e, he, hx⟩
      cases e with
      | node => exact he
      | adapter => cases hx
    · intro he
      exact ⟨_, he, rfl⟩
  rw [h2, ← List.count_pos_iff, h1]
  cases tk.edge <;> simp

theorem Paced.nodeM {tk : Tick ρ ρ'} (h : Paced d tk) {u : Nat} (hu : u < d.noc.m.nodes) (x : Sys σ τ) (he : tk.edge = true) :
    MasterEdge.node (readies d x u) ∈ (inOf d tk x).mPre u ++ (inOf d tk x).mPost u := by
  have h1 := h.sink u hu
  rw [he, if_pos rfl] at h1
  unfold inOf
  dsimp only
  rw [← List.map_append]
  exact List.mem_map.2 ⟨.node, List.count_pos_iff.1 (by omega), rfl⟩

/-- The modules take what they are shown. -/
theorem willing (hw : Works d rng) (hsm : Small d.D d.q) (ha : Allocs VA SA (mesh d.noc.m) d.noc.b va sa) (ht : ∀ k < N, Paced d (t k))
    (hr : Runs d N n₀ J K t) : AxisNoc.Willing VA SA d.noc va sa N n₀ J K (nocIns VA SA d va sa t) where
  one := by
    intro k hk u hu
    refine Nat.le_trans (Nat.le_of_eq ?_) (hr.one k hk u hu)
    unfold nocIns inOf
    dsimp only
    rw [← List.map_append, List.countP_map]
    congr 1
    funext e
    cases e <;> rfl
  source := by
    intro k h1 h2 u hu
    obtain ⟨k', h3, h4, h5⟩ := hr.source k h1 h2 u hu
    refine ⟨k', h3, h4, ?_⟩
    unfold nocIns inOf
    dsimp only
    rw [← List.map_append]
    exact List.mem_map.2 ⟨_, h5, rfl⟩
  sink := by
    intro k h1 h2 u hu
    obtain ⟨k', h3, h4, cm, h5⟩ := hr.sink k h1 h2 u hu
    refine ⟨k', h3, h4, cm, ?_⟩
    unfold nocIns inOf
    dsimp only
    rw [← List.map_append]
    exact List.mem_map.2 ⟨_, h5, rfl⟩
  ready := by
    intro k h1 h2 u hu p hp
    obtain ⟨k', h3, h4, h5⟩ := hr.edge k h1 h2
    refine ⟨k', h3, h4, _, (ht k' (by omega)).nodeM hu _ h5, fun x hx ho => ?_⟩
    rw [(good_all hw ha k' fun j hj => ht j (by omega)).noc] at hx
    cases hx
    exact shown_taken hw hsm ha (fun j hj => ht j (by omega)) hu hp ho
  time := hr.time

theorem inputs_seen (hw : Works d rng) (ha : Allocs VA SA (mesh d.noc.m) d.noc.b va sa) (ht : ∀ k < N, Paced d (t k))
    (hs : InputsSeen VA SA d va sa t N) : AxisNoc.Seen VA SA d.noc va sa (nocIns VA SA d va sa t) N := by
  intro k hk x y hx hy u hu beats hm
  have hg := goods (VA := VA) (SA := SA) hw ha ht
  rw [(hg k (by omega)).noc] at hx
  rw [(hg (k + 1) (by omega)).noc] at hy
  cases hx
  cases hy
  have h1 : (t k).seen u = true := by
    unfold nocIns inOf at hm
    simp only [← List.map_append, List.mem_map] at hm
    obtain ⟨e, -, h⟩ := hm
    cases e with
    | adapter => cases h
    | node =>
      injection h
  have h2 : (t k).edge = true := by
    rw [(ht k hk).nodeS hu (xs VA SA d va sa t k), h1]
    rw [← edges_source hm]
    exact hm
  exact hs k hk _ _ (hg k (by omega)).ok (hg (k + 1) (by omega)).ok u hu h1 h2

/-- How much the modules can send. -/
theorem flits_le (hw : Works d rng) (ha : Allocs VA SA (mesh d.noc.m) d.noc.b va sa) (ht : ∀ k < N, Paced d (t k)) {M : Nat}
    (hx : d.D.limx 0 ≤ M) (hy : ∀ l < d.D.layers, d.D.limy l ≤ M) :
    AxisNoc.flitsOf d.noc (xs VA SA d va sa t N).noc ≤ d.noc.m.nodes * (numFlits (32 * d.D.dim) * (d.D.tests * M)) := by
  have hg := good_all (VA := VA) (SA := SA) hw ha N ht
  obtain ⟨hinv, hst⟩ := invs (VA := VA) (SA := SA) hw ha ht N (Nat.le_refl _)
  have hgood := hinv.good
  rw [hst] at hgood
  have hmid := hg.mid hw
  generalize (xs VA SA d va sa t N).noc = y at hgood hmid
  unfold AxisNoc.flitsOf
  refine Nat.le_trans (Finset.sum_le_card_nsmul _ _ (numFlits (32 * d.D.dim) * (d.D.tests * M)) ?_) (Nat.le_of_eq (by simp))
  intro u hu
  rw [Finset.mem_range] at hu
  have e : (y.got u).map (fun b => numFlits ((d.noc.sc u).dataw b.iface)) = List.replicate (y.got u).length (numFlits (32 * d.D.dim)) := by
    rw [List.eq_replicate_iff]
    refine ⟨List.length_map _, fun b hb => ?_⟩
    obtain ⟨b', hb', rfl⟩ := List.mem_map.1 hb
    obtain ⟨p, -, b'', ⟨rfl, src, hs, dest, -, v, -, user, rfl⟩, rfl⟩ := hgood _ hu b' hb'
    obtain ⟨h1, rfl⟩ := (hw.apart _ _).1 hs
    show numFlits ((d.noc.sc (d.node src)).dataw 0) = _
    rw [(hw.wide src h1).1]
  rw [e, List.sum_replicate_nat, Nat.mul_comm]
  refine Nat.mul_le_mul_left _ ?_
  cases hgu : y.got u with
  | nil => exact Nat.zero_le _
  | cons b l =>
    obtain ⟨p, -, b'', ⟨rfl, src, hs, -⟩, -⟩ := hgood _ hu b (by rw [hgu]; simp)
    obtain ⟨h1, rfl⟩ := (hw.apart _ _).1 hs
    rw [← hgu]
    cases src with
    | coll => rw [hmid.coll]; exact Nat.zero_le _
    | disp m =>
      obtain ⟨sent, h2, h3⟩ := hmid.disp m h1
      rw [h3, List.length_map]
      refine h2.length_le.trans ?_
      rw [(lines_length hw h1).1, (inputFile_right hw.ok h1).2]
      exact Nat.mul_le_mul_left _ hx
    | mvm l m =>
      obtain ⟨out, sent, -, h2, h3, h4⟩ := hmid.mvm l h1.1 m h1.2
      rw [h4, List.length_map]
      have := h3.length_le
      rw [List.length_map] at this
      exact (this.trans h2).trans (Nat.mul_le_mul_left _ (hy l h1.1))

/-- What all modules have sent. -/
theorem outbox_count (hw : Works d rng) {y : AxisNoc.Sys σ τ} (hgood : ∀ u < d.noc.m.nodes, ∀ b ∈ y.got u,
      ∃ p < (d.noc.sc u).n, ∃ b', Sends d u p b' ∧ b = registerTxn (d.noc.sc u) p b') {src dst : Block} (hs : d.D.Has src) :
    (outbox d y src dst).length = (y.got (d.node src)).countP (fun t => decide (portOf t = 0) &&
      decide (nodeOf (d.noc.sc (d.node src)) t = d.node dst)) := by
  unfold outbox
  rw [List.length_map, ← List.countP_eq_length_filter]
  apply List.countP_congr
  intro b hb
  obtain ⟨p, -, b', ⟨rfl, _, _, dest, _, v, _, user, rfl⟩, rfl⟩ := hgood _ (hw.placed src hs).1 b hb
  have : portOf (registerTxn (d.noc.sc (d.node src)) 0 (txBeat d dest v user)) = 0 := rfl
  simp [this]

/-- If everything sent has arrived, then what two modules have sent has. -/
theorem two_arrived (hw : Works d rng) {y : AxisNoc.Sys σ τ} (hgood : ∀ u < d.noc.m.nodes, ∀ b ∈ y.got u,
      ∃ p < (d.noc.sc u).n, ∃ b', Sends d u p b' ∧ b = registerTxn (d.noc.sc u) p b')
    (hall : ∀ u < d.noc.m.nodes, ∀ p < (d.noc.mc u).n, ∑ x ∈ Finset.range d.noc.m.nodes, (y.got x).countP
      (fun t => decide (portOf t = p) && decide (nodeOf (d.noc.sc x) t = u)) ≤ (deliveredAt y u p).length)
    {src src' dst : Block} (hs : d.D.Has src) (hs' : d.D.Has src') (hne : src ≠ src') (hd : d.D.Has dst) :
    (outbox d y src dst).length + (outbox d y src' dst).length ≤ (inbox d y dst).length := by
  have hu := (hw.placed dst hd).1
  have h1 := hall _ hu 0 (hw.setup.ports _ hu).2
  unfold inbox
  rw [List.length_map, outbox_count hw hgood hs, outbox_count hw hgood hs']
  refine Nat.le_trans ?_ h1
  have hne' : d.node src ≠ d.node src' := fun h => hne ((hw.same hs hs').1 h)
  rw [← Finset.sum_pair (f := fun x => (y.got x).countP
      (fun t => decide (portOf t = 0) && decide (nodeOf (d.noc.sc x) t = d.node dst))) hne']
  apply Finset.sum_le_sum_of_subset
  intro u hu
  rw [Finset.mem_insert, Finset.mem_singleton] at hu
  rw [Finset.mem_range]
  rcases hu with rfl | rfl
  · exact (hw.placed src hs).1
  · exact (hw.placed src' hs').1

/-- If everything sent has arrived, then what a module has sent has. -/
theorem one_arrived (hw : Works d rng) {y : AxisNoc.Sys σ τ} (hgood : ∀ u < d.noc.m.nodes, ∀ b ∈ y.got u,
      ∃ p < (d.noc.sc u).n, ∃ b', Sends d u p b' ∧ b = registerTxn (d.noc.sc u) p b')
    (hall : ∀ u < d.noc.m.nodes, ∀ p < (d.noc.mc u).n, ∑ x ∈ Finset.range d.noc.m.nodes, (y.got x).countP
      (fun t => decide (portOf t = p) && decide (nodeOf (d.noc.sc x) t = u)) ≤ (deliveredAt y u p).length)
    {src dst : Block} (hs : d.D.Has src) (hd : d.D.Has dst) : (outbox d y src dst).length ≤ (inbox d y dst).length := by
  have hu := (hw.placed dst hd).1
  have h1 := hall _ hu 0 (hw.setup.ports _ hu).2
  unfold inbox
  rw [List.length_map, outbox_count hw hgood hs]
  refine Nat.le_trans ?_ h1
  exact Finset.single_le_sum (f := fun x => (y.got x).countP
      (fun t => decide (portOf t = 0) && decide (nodeOf (d.noc.sc x) t = d.node dst))) (fun _ _ => Nat.zero_le _)
    (Finset.mem_range.2 (hw.placed src hs).1)

/-- The vectors with one of two tags. -/
theorem tags_length {b : List (Vec × Nat)} (h : ∀ e ∈ b, tagOf e.2 = 3 ∨ tagOf e.2 = 2) :
    b.length = (withTag b 3).length + (withTag b 2).length := by
  induction b with
  | nil => rfl
  | cons e b ih =>
    have ih := ih fun e he => h e (List.mem_cons_of_mem _ he)
    unfold withTag at ih ⊢
    simp only [List.length_map] at ih ⊢
    rcases h e (by simp) with h1 | h1 <;> simp [h1] <;> omega

/-! ## who has sent everything -/

section
variable {y : AxisNoc.Sys σ τ}

theorem full_disp (hw : Works d rng) {m : Nat} (hm : m < d.D.mvms 0) (hg : y.got (d.node (.disp m)) = (d.lines m).map (dispTxn d m)) :
    (outbox d y (.disp m) (.mvm 0 m)).length = d.D.tests * d.D.limx 0 := by
  rw [outbox_disp hw hm (List.prefix_refl _) hg (show d.D.Has (.mvm 0 m) from ⟨hw.ok.layers, hm⟩), if_pos rfl, List.length_map,
    (lines_length hw hm).1, (inputFile_right hw.ok hm).2]

theorem full_next (hw : Works d rng) (h : Mid d y) {l m : Nat} (hl : l + 1 < d.D.layers) (hm : m < d.D.mvms (l + 1))
    (hg : (y.got (d.node (.mvm l (d.D.mvms l - 1)))).length = d.D.tests * d.D.limy l) :
    (outbox d y (.mvm l (d.D.mvms l - 1)) (.mvm (l + 1) m)).length = d.D.tests * d.D.limx (l + 1) := by
  have hM := hw.ok.mvms l (by omega)
  obtain ⟨out, sent, h1, h2, h4, h5⟩ := h.mvm l (by omega) (d.D.mvms l - 1) (by omega)
  rw [outbox_mvm hw (by omega) (by omega) h1 h4 h5 (show d.D.Has (.mvm (l + 1) m) from ⟨hl, hm⟩), List.length_map]
  rw [h5, List.length_map] at hg
  rw [← (toward_next hw.ok hl hm h4 h1 h2).2.2 hg]
  unfold toward
  rw [← List.length_map (f := fun e : Out × Nat => e.1.vec), ← List.filterMap_eq_map, List.filterMap_filter]
  congr 1
  apply List.filterMap_congr
  intro e he
  rcases (sent_kind hw.ok (by omega) (by omega) h4 h1 he).2 with ⟨h6, -⟩ | ⟨-, -, k, -, h6, h7, h8, h9⟩ | ⟨h6, -⟩
  · omega
  · simp only [h6, h7, h8, h9, Block.mvm.injEq, true_and, Function.comp_apply]
    by_cases hkm : k = m <;> simp [hkm]
  · omega

theorem full_beside (hw : Works d rng) (h : Mid d y) {l m : Nat} (hl : l < d.D.layers) (hm : m + 1 < d.D.mvms l) :
    (outbox d y (.mvm l m) (.mvm l (m + 1))).length = (y.got (d.node (.mvm l m))).length := by
  obtain ⟨out, sent, h1, -, h4, h5⟩ := h.mvm l hl m (by omega)
  rw [outbox_mvm hw hl (by omega) h1 h4 h5 (show d.D.Has (.mvm l (m + 1)) from ⟨hl, hm⟩), List.length_map, h5, List.length_map,
    List.filter_eq_self.2]
  intro e he
  rcases (sent_kind hw.ok hl (by omega) h4 h1 he).2 with ⟨-, h6, -⟩ | ⟨-, h6, -⟩ | ⟨-, -, -, h8, -⟩
  · omega
  · omega
  · simp [h8]

theorem full_last (hw : Works d rng) (h : Mid d y) :
    (outbox d y (.mvm (d.D.layers - 1) (d.D.mvms (d.D.layers - 1) - 1)) .coll).length =
      (y.got (d.node (.mvm (d.D.layers - 1) (d.D.mvms (d.D.layers - 1) - 1)))).length := by
  have hlay := hw.ok.layers
  have hM := hw.ok.mvms (d.D.layers - 1) (by omega)
  obtain ⟨out, sent, h1, -, h4, h5⟩ := h.mvm (d.D.layers - 1) (by omega) (d.D.mvms (d.D.layers - 1) - 1) (by omega)
  rw [outbox_mvm hw (by omega) (by omega) h1 h4 h5 (show d.D.Has .coll from trivial), List.length_map, h5, List.length_map,
    List.filter_eq_self.2]
  intro e he
  rcases (sent_kind hw.ok (by omega) (by omega) h4 h1 he).2 with ⟨-, -, h6, -⟩ | ⟨h6, -⟩ | ⟨h6, -⟩
  · simp [h6]
  · omega
  · omega

end

/-- The edges that suffice for a matrix vector multiplier to send all it can. -/
def restEdges (d : Params) : Nat := 2 * ((d.D.tests + 1) * d.q.memDepth) + d.q.rfLatency + d.q.computeLatency

/-- A module that has got everything has sent everything. -/
theorem Quiet.sends (hw : Works d rng) (Q : Quiet VA SA d va sa t n L) (hE : restEdges d + 1 ≤ edges t n L) {l m : Nat}
    (hl : l < d.D.layers) (hm : m < d.D.mvms l)
    (h3 : (withTag (inbox d (xs VA SA d va sa t n).noc (.mvm l m)) 3).length = d.D.tests * d.D.limx l)
    (h2 : m ≠ 0 → d.D.tests * d.D.limy l ≤ (withTag (inbox d (xs VA SA d va sa t n).noc (.mvm l m)) 2).length) :
    ((xs VA SA d va sa t n).noc.got (d.node (.mvm l m))).length = d.D.tests * d.D.limy l := by
  have hg := Q.good n (Nat.le_refl _) (by omega)
  obtain ⟨h, r, p, q, f, I, R, hgot, hi, hr, -⟩ := hg.mvm l hl m hm
  have J := hw.ok.job (m := m) hl
  have hR := Q.rests hw hl hm R L (Nat.le_refl _) (Nat.le_refl _) I hE
  have hdep := hw.ok.depth l hl
  have hW : 2 * (d.D.tests * (d.D.limx l * d.D.limy l + 1) + d.D.limx l * d.D.limy l) + 2 + (d.q.rfLatency + d.q.computeLatency) ≤
      restEdges d := by
    unfold restEdges
    have := Nat.mul_le_mul_left (d.D.tests + 1) (show d.D.limx l * d.D.limy l + 1 ≤ d.q.memDepth from hdep)
    rw [Nat.add_mul, Nat.one_mul] at this
    omega
  obtain ⟨k, hk⟩ := Nat.exists_eq_add_of_le hW
  rw [hk] at hR
  have key := Rests.all (hw.ok.fits hl hm) J (xs := feed d.D l m) (rs := partSum d.D l (m - 1)) R.ins
    (fun h0 => R.reds (by simpa using h0)) (K := d.D.tests) (by rw [hi]; exact h3)
    (fun h0 => by rw [hr]; exact h2 (by simpa using h0)) hR.less
  obtain ⟨-, hlen⟩ := R.out hw.ok hl hm I.reach
  have e := congrArg List.length I.out
  simp only [List.length_append] at e
  rw [hgot, List.length_map, I.sent, List.length_map]
  omega

/-- All modules have sent everything. -/
theorem Quiet.all (hw : Works d rng) (ha : Allocs VA SA (mesh d.noc.m) d.noc.b va sa) (ht : ∀ k < n, Paced d (t k))
    (Q : Quiet VA SA d va sa t n L) (hE : restEdges d + 1 ≤ edges t n L)
    (hgood : ∀ u < d.noc.m.nodes, ∀ b ∈ (xs VA SA d va sa t n).noc.got u,
      ∃ p < (d.noc.sc u).n, ∃ b', Sends d u p b' ∧ b = registerTxn (d.noc.sc u) p b')
    (hall : ∀ u < d.noc.m.nodes, ∀ p < (d.noc.mc u).n, ∑ x ∈ Finset.range d.noc.m.nodes, ((xs VA SA d va sa t n).noc.got x).countP
      (fun t => decide (portOf t = p) && decide (nodeOf (d.noc.sc x) t = u)) ≤ (deliveredAt (xs VA SA d va sa t n).noc u p).length)
    (hd : ∀ m < d.D.mvms 0, (xs VA SA d va sa t n).noc.got (d.node (.disp m)) = (d.lines m).map (dispTxn d m)) :
    ∀ l < d.D.layers, ∀ m < d.D.mvms l, ((xs VA SA d va sa t n).noc.got (d.node (.mvm l m))).length = d.D.tests * d.D.limy l := by
  have hg := Q.good n (Nat.le_refl _) (by omega)
  have hmid := hg.mid hw
  have layer : ∀ l < d.D.layers, (∀ m < d.D.mvms l, d.D.Has (feeder d.D l m) ∧ (∀ m', feeder d.D l m ≠ .mvm l m') ∧
      (outbox d (xs VA SA d va sa t n).noc (feeder d.D l m) (.mvm l m)).length = d.D.tests * d.D.limx l) → ∀ m, m < d.D.mvms l →
      ((xs VA SA d va sa t n).noc.got (d.node (.mvm l m))).length = d.D.tests * d.D.limy l := by
    intro l hl hf m
    induction m with
    | zero =>
      intro hm
      obtain ⟨f1, -, f3⟩ := hf 0 hm
      obtain ⟨L', hL1, hL2⟩ := hg.marked hw ha ht (dst := .mvm l 0) ⟨hl, hm⟩
      obtain ⟨hr, htg⟩ := hmid.right hw hl hm hL2
      rw [hL1] at hr htg
      have h1 := tags_length htg
      have h2 := one_arrived hw hgood hall f1 (show d.D.Has (.mvm l 0) from ⟨hl, hm⟩)
      have h3 := hr.few
      have h4 := congrArg List.length (hr.noReds rfl)
      rw [List.length_nil] at h4
      exact Q.sends hw hE hl hm (by omega) (fun h0 => absurd rfl h0)
    | succ m ih =>
      intro hm
      obtain ⟨f1, f2, f3⟩ := hf (m + 1) hm
      obtain ⟨L', hL1, hL2⟩ := hg.marked hw ha ht (dst := .mvm l (m + 1)) ⟨hl, hm⟩
      obtain ⟨hr, htg⟩ := hmid.right hw hl hm hL2
      rw [hL1] at hr htg
      have h1 := tags_length htg
      have h2 := two_arrived hw hgood hall f1 (show d.D.Has (.mvm l m) from ⟨hl, by omega⟩) (f2 m)
        (show d.D.Has (.mvm l (m + 1)) from ⟨hl, hm⟩)
      have h3 := hr.few
      have h4 := hr.fewReds
      have h5 := full_beside hw hmid hl hm
      have h6 := ih (by omega)
      exact Q.sends hw hE hl hm (by omega) (fun _ => by omega)
  intro l
  induction l with
  | zero =>
    intro hl
    exact layer 0 hl fun m hm => ⟨hm, fun _ h => (by cases h), full_disp hw hm (hd m hm)⟩
  | succ l ih =>
    intro hl
    have hM := hw.ok.mvms l (by omega)
    refine layer (l + 1) hl fun m hm => ⟨⟨by omega, by omega⟩, fun m' h => ?_, full_next hw hmid hl hm (ih (by omega) _ (by omega))⟩
    simp only [feeder, Block.mvm.injEq] at h
    omega

/-- After long enough there are such periods, and what was sent before has been taken. -/
theorem settles (hw : Works d rng) (hsm : Small d.D d.q) (ha : Allocs VA SA (mesh d.noc.m) d.noc.b va sa)
    (hg : Grants VA SA (mesh d.noc.m) d.noc.b va sa) (hob : d.noc.b.outSize ≠ 0)
    (hsh : ∀ u < d.noc.m.nodes, ∀ p < (d.noc.sc u).n, (numFlits ((d.noc.sc u).dataw p) : Int) ≤ d.noc.b.buf.perVc)
    (hdp : ∀ u < d.noc.m.nodes, 0 < (d.noc.sc u).depth ∧ 0 < (d.noc.mc u).outDepth) (ht : ∀ k < N, Paced d (t k))
    (hr : Runs d N n₀ J K t) (hse : InputsSeen VA SA d va sa t N) {M : Nat} (hx : d.D.limx 0 ≤ M) (hy : ∀ l < d.D.layers, d.D.limy l ≤ M)
    (hN : n₀ + ((3 * (d.noc.m.n * d.noc.m.k + 1) + 2) * (d.noc.m.nodes * (numFlits (32 * d.D.dim) * (d.D.tests * M))) + 1) *
      (3 * K + 2 * J + 2 * (d.noc.m.nodes * ((2 * d.noc.m.n + 1) * d.noc.b.vcs)) + 7 + (J + L)) ≤ N) :
    ∃ n, n₀ ≤ n ∧ n + L ≤ N ∧ Quiet VA SA d va sa t n L ∧
      ∀ u < d.noc.m.nodes, ∀ p < (d.noc.mc u).n, ∑ x ∈ Finset.range d.noc.m.nodes, ((xs VA SA d va sa t n).noc.got x).countP
        (fun t => decide (portOf t = p) && decide (nodeOf (d.noc.sc x) t = u)) ≤ (deliveredAt (xs VA SA d va sa t n).noc u p).length := by
  have good := goods (VA := VA) (SA := SA) hw ha ht
  have inv := invs (VA := VA) (SA := SA) hw ha ht
  have hst := fun m hm => (inv m hm).2
  have wl := willing hw hsm ha ht hr
  obtain ⟨n, h1, h2, h3, h4⟩ := AxisNoc.drained (L := J + L) hw.setup ha (fun u p b h => (sends_ok hw h).1) (fun m hm => (inv m hm).1)
    wl hg hob hsh hdp (B := d.noc.m.nodes * (numFlits (32 * d.D.dim) * (d.D.tests * M)))
    (by rw [hst N (Nat.le_refl _)]; exact flits_le hw ha ht hx hy) (by rw [Net.mesh_slots]; exact hN)
  have hgot : ∀ m, n ≤ m → m ≤ n + (J + L) → ∀ u < d.noc.m.nodes,
      (xs VA SA d va sa t m).noc.got u = (xs VA SA d va sa t n).noc.got u := by
    intro m m1 m2 u hu
    have := (h3 m m1 m2 u hu).1
    rwa [hst m (by omega), hst n (by omega)] at this
  have hdel : ∀ m, n ≤ m → m ≤ n + (J + L) → ∀ u < d.noc.m.nodes, ∀ p < (d.noc.mc u).n,
      deliveredAt (xs VA SA d va sa t m).noc u p = deliveredAt (xs VA SA d va sa t n).noc u p := by
    intro m m1 m2 u hu p hp
    have := (h4 u hu p hp).2 m m1 m2
    rwa [hst m (by omega), hst n (by omega)] at this
  refine ⟨n + J, by omega, by omega, ⟨fun m m1 m2 => good m (by omega), fun m m1 m2 => ht m (by omega), fun m m1 m2 b hb => ?_,
    fun m m1 m2 he b hb => ⟨fun hre => ?_, ?_⟩⟩, fun u hu p hp => ?_⟩
  · rw [hgot m (by omega) (by omega) _ (hw.placed b hb).1, hgot (n + J) (by omega) (by omega) _ (hw.placed b hb).1]
  · have hu := (hw.placed b hb).1
    obtain ⟨-, -, -, -, -, h5⟩ := (inv m (by omega)).1.period (inv (m + 1) (by omega)).1 hu
    rw [hst m (by omega), hst (m + 1) (by omega)] at h5
    have h6 := (sink_inbox (fun b hb => (hw.setup.ports _ (hw.placed b hb).1).2) hb ((ht m (by omega)).sink _ hu) h5).1
    have h7 : inbox d (xs VA SA d va sa t (m + 1)).noc b = inbox d (xs VA SA d va sa t m).noc b := by
      unfold inbox
      rw [hdel m (by omega) (by omega) _ hu 0 (hw.setup.ports _ hu).2, hdel (m + 1) (by omega) (by omega) _ hu 0 (hw.setup.ports _ hu).2]
    rw [h7, he, hre] at h6
    cases hs : shown (xs VA SA d va sa t m).noc (d.node b) with
    | none => rfl
    | some o =>
      rw [hs] at h6
      simp at h6
  · have hu := (hw.placed b hb).1
    exact AxisNoc.offers_nothing (J := J) (L := J + L) (n := n) (fun m hm => (inv m hm).1) (inputs_seen hw ha ht hse) hu
      (hw.setup.ports _ hu).1 (hdp _ hu).1 h2 (fun k k1 k2 => h3 k k1 k2 _ hu) (wl.source n h1 (by omega) _ hu)
      (by
        obtain ⟨k, k1, k2, k3⟩ := hr.edge n h1 (by omega)
        exact ⟨k, k1, k2, _, _, ((ht k (by omega)).nodeS hu _).1 k3⟩) m m1 (by omega) _ _
      (((ht m (by omega)).nodeS hu _).1 he) 0 (hw.setup.ports _ hu).1
  · have h5 := (h4 u hu p hp).1
    rw [hst n (by omega)] at h5
    rw [hdel (n + J) (by omega) (by omega) u hu p hp]
    refine Nat.le_trans (Nat.le_of_eq (Finset.sum_congr rfl fun x hx' => ?_)) h5
    rw [hgot (n + J) (by omega) (by omega) x (Finset.mem_range.1 hx')]

/-- After long enough the collector has everything. -/
theorem arrives (hw : Works d rng) (hsm : Small d.D d.q) (ha : Allocs VA SA (mesh d.noc.m) d.noc.b va sa)
    (hg : Grants VA SA (mesh d.noc.m) d.noc.b va sa) (hob : d.noc.b.outSize ≠ 0)
    (hsh : ∀ u < d.noc.m.nodes, ∀ p < (d.noc.sc u).n, (numFlits ((d.noc.sc u).dataw p) : Int) ≤ d.noc.b.buf.perVc)
    (hdp : ∀ u < d.noc.m.nodes, 0 < (d.noc.sc u).depth ∧ 0 < (d.noc.mc u).outDepth) (ht : ∀ k < N, Paced d (t k))
    (hr : Runs d N n₀ J K t) (hse : InputsSeen VA SA d va sa t N) {M : Nat} (hx : d.D.limx 0 ≤ M) (hy : ∀ l < d.D.layers, d.D.limy l ≤ M)
    (hN : n₀ + ((3 * (d.noc.m.n * d.noc.m.k + 1) + 2) * (d.noc.m.nodes * (numFlits (32 * d.D.dim) * (d.D.tests * M))) + 1) *
      (3 * K + 2 * J + 2 * (d.noc.m.nodes * ((2 * d.noc.m.n + 1) * d.noc.b.vcs)) + 7 + (J + (restEdges d + d.q.fifoSize + 1) * J)) ≤ N) :
    ∃ n, n ≤ N ∧ d.golden.length ≤ (received d (xs VA SA d va sa t n)).length ∧ d.q.fifoSize ≤ edges t n (N - n) := by
  obtain ⟨n, h1, h2, Q, hall⟩ := settles hw hsm ha hg hob hsh hdp ht hr hse hx hy hN
  have hsz := hw.size
  have hE := edges_many hr.edge (restEdges d + d.q.fifoSize + 1) h1 h2
  obtain ⟨hinv, hst⟩ := invs (VA := VA) (SA := SA) hw ha ht n (by omega)
  have hgood := hinv.good
  rw [hst] at hgood
  have hd := fun m hm => Q.feeds hw (J := J) (m := m) (Nat.mul_le_mul_right J (show 3 ≤ restEdges d + d.q.fifoSize + 1 by omega))
    (fun k k1 k2 => hr.edge k (by omega) (by omega)) hm
  have hsent := Q.all hw ha (fun k hk => ht k (by omega)) (by omega) hgood hall hd
  have hlay := hw.ok.layers
  have hM := hw.ok.mvms (d.D.layers - 1) (by omega)
  have hmid := (Q.good n (Nat.le_refl _) (by omega)).mid hw
  have h3 := one_arrived hw hgood hall (src := .mvm (d.D.layers - 1) (d.D.mvms (d.D.layers - 1) - 1)) ⟨by omega, by omega⟩
    (show d.D.Has .coll from trivial)
  rw [full_last hw hmid, hsent _ (by omega) _ (by omega)] at h3
  refine ⟨n, by omega, ?_, ?_⟩
  · rw [(golden_length hw).1, goldenFile_eq hw.ok, List.length_map, List.length_range]
    unfold received
    rw [List.length_map]
    exact h3
  · have e : N - n = (restEdges d + d.q.fifoSize + 1) * J + (N - n - (restEdges d + d.q.fifoSize + 1) * J) := by omega
    rw [e, edges_add]
    omega

end RadSim.Mlp
