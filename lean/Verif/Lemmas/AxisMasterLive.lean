import Verif.Lemmas.AxisMaster

namespace RadSim

/-! ## an adapter edge makes progress -/

/-- A channel with a complete packet that the process can see. -/
def Ready (s : MasterState) (w : Nat) : Prop := s.pop w < s.push w ∧ s.fifos w ≠ []

theorem searchLoop_finds {c : MasterCfg} {s : MasterState}
    (hcoh : ∀ v f, f ∈ s.fifos v → v < c.vcs → f.destIf.toNat < c.n)
    (hroom : ∀ d, d < c.n → (s.outq d).length < c.outDepth) (k : Nat) :
    ∀ (prio : List Nat) (d : Nat) (b : Bool), (∀ v ∈ prio, v < c.vcs) →
      (b = true ∨ ∃ w ∈ (rotate1 prio).take k, Ready s w) →
      ∀ prio' d' b', searchLoop c s k prio d b = .ok (prio', d', b') → b' = true := by
  induction k with
  | zero =>
    intro prio d b _ h prio' d' b' he
    simp only [searchLoop, Except.ok.injEq, Prod.mk.injEq] at he
    rcases h with h | ⟨w, hw, _⟩
    · rw [← he.2.2, h]
    · simp at hw
  | succ k ih =>
    intro prio d b hp h prio' d' b' he
    cases b with
    | true =>
      simp only [searchLoop, if_true, Except.ok.injEq, Prod.mk.injEq] at he
      exact he.2.2.symm
    | false =>
      rcases h with h | ⟨w, hw, hr⟩
      · cases h
      simp only [searchLoop, Bool.false_eq_true, if_false] at he
      cases hro : rotate1 prio with
      | nil => rw [hro] at hw; simp at hw
      | cons v vs =>
        have hp' : ∀ u ∈ v :: vs, u < c.vcs := by
          intro u hu
          rw [← hro] at hu
          exact hp u ((rotate1_perm prio).subset hu)
        rw [hro] at hw he
        simp only [List.take_succ_cons, List.mem_cons] at hw
        simp only at he
        have hnext : v ≠ w → ∃ u ∈ (rotate1 (v :: vs)).take k, Ready s u := by
          intro hne
          rcases hw with hw | hw
          · exact absurd hw.symm hne
          · refine ⟨w, ?_, hr⟩
            simp only [rotate1]
            rw [List.take_append]
            simp [hw]
        cases hf : s.fifos v with
        | nil =>
          rw [hf] at he
          have hne : v ≠ w := by
            intro e; subst e; exact hr.2 hf
          exact ih _ _ _ hp' (Or.inr (hnext hne)) _ _ _ he
        | cons f rest =>
          rw [hf] at he
          have hd := hcoh v f (by simp [hf]) (hp' v (by simp))
          by_cases hlt : s.pop v < s.push v
          · simp only [hasPacket, hlt, if_true, roomFor, hd, hroom _ hd, decide_true] at he
            exact ih _ _ _ hp' (Or.inl rfl) _ _ _ he
          · simp only [hasPacket, hlt, if_false] at he
            have hne : v ≠ w := by
              intro e; subst e; exact hlt hr.1
            exact ih _ _ _ hp' (Or.inr (hnext hne)) _ _ _ he

/-- With room in the output FIFOs and a complete packet in some FIFO, an adapter edge takes a
flit. -/
theorem depackStep_progress {c : MasterCfg} (hn : 0 < c.n) (hvc : 0 < c.vcs) {s : MasterState}
    {acc : List BsFlit} {hist : List (Nat × List ScFlit)} (hi : FifoInv c s acc hist)
    (hcoh : ∀ v, v < c.vcs → Coherent c.n (onVc v acc))
    (hroom : ∀ d, d < c.n → (s.outq d).length < c.outDepth)
    (w : Nat) (hw : w < c.vcs) (ht : 0 < (s.fifos w).countP (fun f => f.tail)) :
    ∃ s' v, depackStep c s true = .ok (s', [v]) := by
  obtain ⟨s', popped, hist', h1, _⟩ := depackStep_inv hn hvc hi hcoh true
  have hit := hi.commit
  generalize htd : ({ s with push := s.pushNext } : MasterState) = t at hit
  have eo : t.outq = s.outq := by rw [← htd]
  have ef : t.fifos = s.fifos := by rw [← htd]
  have hready : Ready t w := by
    refine ⟨?_, ?_⟩
    · have := hi.cnt w
      rw [← htd]
      show s.pop w < s.pushNext w
      omega
    · rw [ef]
      intro h
      rw [h] at ht
      simp at ht
  rw [← ef] at ht
  rw [← eo] at hroom
  have hcohf := fun v f => hit.fifo_coherent hcoh v f
  have hpv : ∀ v ∈ t.prio, v < c.vcs := by
    intro v hv
    simpa using hit.prio.subset hv
  simp only [depackStep, if_true, htd] at h1
  simp only [depackStep, if_true, htd]
  cases hp : t.prio with
  | nil => rw [hp] at h1; simp at h1
  | cons v vs =>
    rw [hp] at h1
    simp only at h1 ⊢
    have hv : v < c.vcs := hpv v (by simp [hp])
    have hd : destOf t v < c.n := by
      unfold destOf
      split
      · exact hn
      · rename_i f rest hf
        exact hcohf v f (by simp [hf]) hv
    have pop_of : ∀ prio d b, b = true → d < c.n → ∀ s' popped,
        popPhase c { t with prio } d b = .ok (s', popped) → ∃ u, popped = [u] := by
      intro prio d b hb hd s' popped h
      subst hb
      simp only [popPhase, roomFor, hd, if_true, hroom d hd, decide_true, Bool.and_self] at h
      cases prio with
      | nil => simp at h
      | cons u us =>
        simp only at h
        cases hfu : t.fifos u with
        | nil => simp [hfu] at h
        | cons f rest =>
          simp only [hfu] at h
          split at h
          · split at h
            · simp only [Except.ok.injEq, Prod.mk.injEq] at h; exact ⟨u, h.2.symm⟩
            · cases h
          · simp only [Except.ok.injEq, Prod.mk.injEq] at h; exact ⟨u, h.2.symm⟩
    have hdn : ∀ prio d b, Selected c t prio d b → d < c.n := fun _ _ _ h => h.2.1
    by_cases hlt : t.pop v < t.push v
    · have hb : hasPacket c t v (destOf t v) = .ok true := by
        simp [hasPacket, hlt, roomFor, hd, hroom _ hd]
      rw [hb] at h1
      simp only [hb] at h1 ⊢
      cases hdep : t.depack with
      | true =>
        simp only [hdep, if_true] at h1 ⊢
        obtain ⟨u, rfl⟩ := pop_of t.prio (destOf t v) true rfl hd s' popped h1
        exact ⟨s', u, h1⟩
      | false =>
        simp only [hdep, Bool.false_eq_true, if_false] at h1 ⊢
        have hs : searchLoop c t c.vcs (v :: vs) (destOf t v) true = .ok (v :: vs, destOf t v, true) := by
          cases c.vcs <;> simp [searchLoop]
        rw [hs] at h1 ⊢
        simp only at h1 ⊢
        rw [← hdep] at h1
        obtain ⟨u, rfl⟩ := pop_of (v :: vs) (destOf t v) true rfl hd s' popped h1
        rw [← hdep]
        exact ⟨s', u, h1⟩
    · have hb : hasPacket c t v (destOf t v) = .ok false := by
        simp [hasPacket, hlt]
      rw [hb] at h1
      simp only [hb] at h1 ⊢
      cases hdep : t.depack with
      | true =>
        exfalso
        obtain ⟨v', vs', k1, k2, _⟩ := hit.busy hdep
        rw [hp] at k1
        cases k1
        exact hlt k2
      | false =>
        simp only [hdep, Bool.false_eq_true, if_false] at h1 ⊢
        have hsel : Selected c t (v :: vs) (destOf t v) false := ⟨by rw [hp], hd, by simp⟩
        obtain ⟨prio', d', b', hs, hsel'⟩ := searchLoop_ok hcohf hpv (by simp [hp]) c.vcs _ _ _ hsel
        have hfind := searchLoop_finds hcohf hroom c.vcs (v :: vs) (destOf t v) false
          (by rw [← hp]; exact hpv) (Or.inr ⟨w, by
            have hlen : (rotate1 (v :: vs)).length = c.vcs := by
              have h1 := (rotate1_perm (v :: vs)).length_eq
              rw [h1, ← hp, hit.prio.length_eq, List.length_range]
            rw [List.take_of_length_le (by omega)]
            apply (rotate1_perm (v :: vs)).symm.subset
            rw [← hp]
            exact hit.prio.symm.subset (by simpa using hw), hready⟩) prio' d' b' hs
        subst hfind
        rw [hs] at h1 ⊢
        simp only at h1 ⊢
        rw [← hdep] at h1
        obtain ⟨u, rfl⟩ := pop_of prio' d' true rfl hsel'.2.1 s' popped h1
        rw [← hdep]
        exact ⟨s', u, h1⟩

/-! ## draining the ports -/

/-- Beats an interface still has to hand over. -/
def remaining (c : MasterCfg) (s : MasterState) (i : Nat) : Nat :=
  ((s.outq i).flatMap (shown (numFlits (c.dataw i)))).length - s.chunk i

theorem exists_bound (f : Nat → Nat) (n : Nat) : ∃ N, ∀ i, i < n → f i ≤ N := by
  induction n with
  | zero => exact ⟨0, by omega⟩
  | succ n ih =>
    obtain ⟨N, h⟩ := ih
    refine ⟨N + f n, fun i hi => ?_⟩
    by_cases he : i = n
    · subst he; omega
    · have := h i (by omega); omega

theorem remaining_pos {c : MasterCfg} {s : MasterState} {i : Nat} {del : List AxisOut}
    {hist : List (List ScFlit)}
    (h : PortOk (numFlits (c.dataw i)) (s.outq i) (s.chunk i) (s.port i) del hist)
    (hq : s.outq i ≠ []) : 0 < remaining c s i := by
  cases hqq : s.outq i with
  | nil => exact absurd hqq hq
  | cons p rest =>
    have := h.chunkLt p rest hqq
    unfold remaining
    rw [hqq]
    simp only [List.flatMap_cons, List.length_append, shown, List.length_replicate]
    omega

/-- Parts of the state that node edges leave alone. -/
def SameCore (s s' : MasterState) : Prop :=
  s'.fifos = s.fifos ∧ s'.held = s.held ∧ s'.pkt = s.pkt ∧ s'.depack = s.depack ∧
    s'.pop = s.pop ∧ s'.pushNext = s.pushNext

/-- An event that brings in nothing from the router. -/
def MasterEvent.isInternal : MasterEvent → Bool
  | .noc none => true
  | .noc (some _) => false
  | _ => true

theorem drain_ports {c : MasterCfg} (hn : 0 < c.n) (hvc : 0 < c.vcs) (N : Nat) :
    ∀ (s : MasterState) (h : MasterHist) (hist : List (Nat × List ScFlit)),
      MasterInv c s h hist → GoodArrivals c h.accepted →
      (∀ i, i < c.n → s.outq i ≠ [] → (s.port i).isSome = true) →
      (∀ i, i < c.n → remaining c s i ≤ N) →
      ∃ es s' h', (∀ e ∈ es, e.isInternal = true) ∧ masterRun c s h es = (h', .ok s') ∧
        MasterInv c s' h' hist ∧ h'.accepted = h.accepted ∧ SameCore s s' ∧
        ∀ i, i < c.n → s'.outq i = [] := by
  induction N with
  | zero =>
    intro s h hist hi _ _ hN
    refine ⟨[], s, h, by simp, rfl, hi, rfl, ⟨rfl, rfl, rfl, rfl, rfl, rfl⟩, fun i hin => ?_⟩
    cases hq : s.outq i with
    | nil => rfl
    | cons p rest =>
      have := remaining_pos (hi.ports i hin) (by simp [hq])
      have := hN i hin
      omega
  | succ N ih =>
    intro s h hist hi hg hcons hN
    obtain ⟨s1, g1, ⟨oq, ch, po, hs1⟩, _, g4, g5, g6⟩ :=
      portLoop_ok hi.ports (fun _ => true) c.n (Nat.le_refl _)
    have hstep : masterStep c s h (.node (fun _ => true)) =
        ({ h with delivered := h.delivered ++ portHandshakes c s (fun _ => true) }, .ok s1) := by
      simp [masterStep, g1]
    obtain ⟨s1', hist', k1, k2⟩ := masterStep_inv hn hvc hi (.node (fun _ => true)) (by
      rw [hstep]; exact hg)
    have hsame : s1' = s1 := by rw [hstep] at k1; simpa using k1.symm
    subst hsame
    rw [hstep] at k2
    have hinv : MasterInv c s1' { h with delivered := h.delivered ++ portHandshakes c s (fun _ => true) } hist := by
      refine ⟨?_, ?_⟩
      · have hf := hi.fifo
        subst hs1
        exact ⟨hf.prio, hf.stream, hf.histOk, hf.idle, hf.busy,
          fun hd f hfm => Nat.lt_of_le_of_lt (g6 _) (hf.room hd f hfm), hf.cnt, hf.le,
          hf.fifoLen, fun i => Nat.le_trans (g6 i) (hf.outLen i), hf.heldVc⟩
      · intro i hin
        rw [beatsOn_append, beatsOn_handshakes _ hin]
        exact g4 i hin
    have hcore : SameCore s s1' := by subst hs1; exact ⟨rfl, rfl, rfl, rfl, rfl, rfl⟩
    obtain ⟨es, s', h', e1, e2, e3, e4, e5, e6⟩ := ih s1' _ hist hinv hg (by
      intro i hin hne
      have h1 := (g5 i hin).2
      cases hq : s1'.outq i with
      | nil => exact absurd hq hne
      | cons p rest =>
        rw [hq] at h1
        simp only [presentPhase] at h1
        split at h1
        · cases h1
        · simp only [Except.ok.injEq] at h1
          rw [← h1]; rfl) (by
      intro i hin
      have h1 := hN i hin
      have hout0 := (hi.ports i hin).outs
      have hout1 := (g4 i hin).outs
      -- one more beat delivered when the port was showing one
      by_cases hq : s.outq i = []
      · have : s1'.outq i = [] := by
          have := g6 i
          rw [hq] at this
          exact List.length_eq_zero_iff.mp (Nat.le_zero.mp this)
        simp [remaining, this]
      · obtain ⟨o, ho⟩ := Option.isSome_iff_exists.mp (hcons i hin hq)
        have hl0 := congrArg List.length hout0
        have hl1 := congrArg List.length hout1
        simp only [ho, if_true, List.length_append, List.length_map, List.length_drop,
          Option.toList_some, List.length_cons, List.length_nil] at hl0 hl1
        unfold remaining at h1 ⊢
        omega)
    refine ⟨.node (fun _ => true) :: es, s', h', ?_, ?_, e3, by rw [e4], ?_, e6⟩
    · intro e he
      simp only [List.mem_cons] at he
      rcases he with rfl | he
      · rfl
      · exact e1 e he
    · rw [masterRun, hstep]; exact e2
    · obtain ⟨a1, a2, a3, a4, a5, a6⟩ := hcore
      obtain ⟨b1, b2, b3, b4, b5, b6⟩ := e5
      exact ⟨b1.trans a1, b2.trans a2, b3.trans a3, b4.trans a4, b5.trans a5, b6.trans a6⟩

theorem masterRun_append' {c : MasterCfg} {es es' : List MasterEvent} {s s' : MasterState}
    {h h' : MasterHist} (h1 : masterRun c s h es = (h', .ok s')) :
    masterRun c s h (es ++ es') = masterRun c s' h' es' := by
  induction es generalizing s h with
  | nil => simp only [masterRun, Prod.mk.injEq, Except.ok.injEq] at h1; rw [h1.1, h1.2]; rfl
  | cons e es ih =>
    simp only [masterRun, List.cons_append] at h1 ⊢
    cases hst : masterStep c s h e with
    | mk hh r =>
      rw [hst] at h1
      cases r with
      | error err => simp at h1
      | ok s1 => exact ih h1

/-- Any state can hand over everything its ports have queued. -/
theorem drain_outputs {c : MasterCfg} (hn : 0 < c.n) (hvc : 0 < c.vcs) {s : MasterState}
    {h : MasterHist} {hist : List (Nat × List ScFlit)} (hi : MasterInv c s h hist)
    (hg : GoodArrivals c h.accepted) :
    ∃ es s' h', (∀ e ∈ es, e.isInternal = true) ∧ masterRun c s h es = (h', .ok s') ∧
      MasterInv c s' h' hist ∧ h'.accepted = h.accepted ∧ SameCore s s' ∧
      ∀ i, i < c.n → s'.outq i = [] := by
  -- one edge makes the ports show what is queued
  obtain ⟨s1, g1, ⟨oq, ch, po, hs1⟩, _, g4, g5, g6⟩ :=
    portLoop_ok hi.ports (fun _ => true) c.n (Nat.le_refl _)
  have hstep : masterStep c s h (.node (fun _ => true)) =
      ({ h with delivered := h.delivered ++ portHandshakes c s (fun _ => true) }, .ok s1) := by
    simp [masterStep, g1]
  have hinv : MasterInv c s1 { h with delivered := h.delivered ++ portHandshakes c s (fun _ => true) } hist := by
    refine ⟨?_, ?_⟩
    · have hf := hi.fifo
      subst hs1
      exact ⟨hf.prio, hf.stream, hf.histOk, hf.idle, hf.busy,
        fun hd f hfm => Nat.lt_of_le_of_lt (g6 _) (hf.room hd f hfm), hf.cnt, hf.le,
        hf.fifoLen, fun i => Nat.le_trans (g6 i) (hf.outLen i), hf.heldVc⟩
    · intro i hin
      rw [beatsOn_append, beatsOn_handshakes _ hin]
      exact g4 i hin
  have hcore : SameCore s s1 := by subst hs1; exact ⟨rfl, rfl, rfl, rfl, rfl, rfl⟩
  obtain ⟨N, hN⟩ := exists_bound (remaining c s1) c.n
  obtain ⟨es, s', h', e1, e2, e3, e4, e5, e6⟩ := drain_ports hn hvc N s1 _ hist hinv hg (by
    intro i hin hne
    have h1 := (g5 i hin).2
    cases hq : s1.outq i with
    | nil => exact absurd hq hne
    | cons p rest =>
      rw [hq] at h1
      simp only [presentPhase] at h1
      split at h1
      · cases h1
      · simp only [Except.ok.injEq] at h1
        rw [← h1]; rfl) hN
  refine ⟨.node (fun _ => true) :: es, s', h', ?_, ?_, e3, by rw [e4], ?_, e6⟩
  · intro e he
    simp only [List.mem_cons] at he
    rcases he with rfl | he
    · rfl
    · exact e1 e he
  · rw [masterRun, hstep]; exact e2
  · obtain ⟨a1, a2, a3, a4, a5, a6⟩ := hcore
    obtain ⟨b1, b2, b3, b4, b5, b6⟩ := e5
    exact ⟨b1.trans a1, b2.trans a2, b3.trans a3, b4.trans a4, b5.trans a5, b6.trans a6⟩

/-- Total number of flits in the ejection FIFOs of the channels `0..k-1`. -/
def fifoTotal (s : MasterState) : Nat → Nat
  | 0 => 0
  | k + 1 => fifoTotal s k + (s.fifos k).length

theorem fifoTotal_congr {s s' : MasterState} (k : Nat) (h : s'.fifos = s.fifos) :
    fifoTotal s' k = fifoTotal s k := by
  induction k with
  | zero => rfl
  | succ k ih => simp [fifoTotal, ih, h]

theorem fifoTotal_pop {s s' : MasterState} {v : Nat}
    (h : ∀ w, (s'.fifos w).length + [v].count w = (s.fifos w).length) (k : Nat) :
    fifoTotal s' k + (if v < k then 1 else 0) = fifoTotal s k := by
  induction k with
  | zero => simp [fifoTotal]
  | succ k ih =>
    have := h k
    simp only [fifoTotal]
    by_cases hk : v = k
    · subst hk
      simp at this ih ⊢
      omega
    · have h1 : [v].count k = 0 := by simp [hk]
      rw [h1] at this
      by_cases h2 : v < k
      · have h3 : v < k + 1 := by omega
        simp only [h2, if_true] at ih
        simp only [h3, if_true]
        omega
      · have h3 : ¬ v < k + 1 := by omega
        simp only [h2, if_false] at ih
        simp only [h3, if_false]
        omega

/-- Every complete packet in the ejection FIFOs can be brought to the ports and handed over. -/
theorem drain_fifos {c : MasterCfg} (hn : 0 < c.n) (hvc : 0 < c.vcs) (ho : 0 < c.outDepth)
    (T : Nat) :
    ∀ (s : MasterState) (h : MasterHist) (hist : List (Nat × List ScFlit)),
      MasterInv c s h hist → GoodArrivals c h.accepted → fifoTotal s c.vcs ≤ T →
      ∃ es s' h' hist', (∀ e ∈ es, e.isInternal = true) ∧ masterRun c s h es = (h', .ok s') ∧
        MasterInv c s' h' hist' ∧ h'.accepted = h.accepted ∧ s'.held = s.held ∧
        (∀ i, i < c.n → s'.outq i = []) ∧
        ∀ v, v < c.vcs → (s'.fifos v).countP (fun f => f.tail) = 0 := by
  induction T with
  | zero =>
    intro s h hist hi hg hT
    obtain ⟨es, s', h', e1, e2, e3, e4, e5, e6⟩ := drain_outputs hn hvc hi hg
    refine ⟨es, s', h', hist, e1, e2, e3, e4, e5.2.1, e6, fun v hv => ?_⟩
    have hz : ∀ k, fifoTotal s k = 0 → ∀ v, v < k → s.fifos v = [] := by
      intro k
      induction k with
      | zero => intro _ v hv; omega
      | succ k ih =>
        intro hk v hv
        simp only [fifoTotal] at hk
        by_cases he : v = k
        · subst he
          exact List.length_eq_zero_iff.mp (by omega)
        · exact ih (by omega) v (by omega)
    rw [e5.1, hz c.vcs (by omega) v hv]
    rfl
  | succ T ih =>
    intro s h hist hi hg hT
    obtain ⟨es, s1, h1, e1, e2, e3, e4, e5, e6⟩ := drain_outputs hn hvc hi hg
    by_cases hex : ∃ w, w < c.vcs ∧ 0 < (s1.fifos w).countP (fun f => f.tail)
    · obtain ⟨w, hw, hpos⟩ := hex
      have hg1 : GoodArrivals c h1.accepted := by rw [e4]; exact hg
      obtain ⟨s2, v, hst⟩ := depackStep_progress hn hvc e3.fifo hg1.2
        (fun d hd => by rw [e6 d hd]; exact ho) w hw hpos
      obtain ⟨s2', popped, hist', k1, _, _, _, _, _, _, k8, _, k10, _⟩ :=
        depackStep_inv hn hvc e3.fifo hg1.2 true
      have hsame : s2' = s2 ∧ popped = [v] := by
        rw [hst] at k1
        simp only [Except.ok.injEq, Prod.mk.injEq] at k1
        exact ⟨k1.1.symm, k1.2.symm⟩
      obtain ⟨rfl, rfl⟩ := hsame
      have hstep : masterStep c s1 h1 (.adapter true) =
          ({ h1 with pops := h1.pops ++ [v] }, .ok s2') := by
        simp only [masterStep, hst]
      obtain ⟨s3, hist3, m1, m2⟩ := masterStep_inv hn hvc e3 (.adapter true) (by
        rw [hstep]; exact hg1)
      rw [hstep] at m1 m2
      have : s3 = s2' := by simpa using m1.symm
      subst this
      -- one flit fewer
      have hv : v < c.vcs := by
        have h3 := k8 v
        by_cases hvv : v < c.vcs
        · exact hvv
        · exfalso
          simp only [depackStep, if_true] at hst
          -- the popped channel heads a permutation of the channels
          have hperm := m2.fifo.prio
          have h4 := e3.fifo.prio
          have hmem : v ∈ List.range c.vcs := by
            -- taken from the priority queue
            have hp : ∀ (t : MasterState) prio d b s' l, prio.Perm (List.range c.vcs) →
                popPhase c { t with prio } d b = .ok (s', l) → ∀ u ∈ l, u ∈ List.range c.vcs := by
              intro t prio d b s' l hpr hpp u hu
              simp only [popPhase] at hpp
              split at hpp
              · cases hpp
              · split at hpp
                · split at hpp
                  · cases hpp
                  · rename_i x xs hx
                    split at hpp
                    · cases hpp
                    · split at hpp
                      · split at hpp
                        · simp only [Except.ok.injEq, Prod.mk.injEq] at hpp
                          rw [← hpp.2] at hu
                          simp only [List.mem_singleton] at hu
                          subst hu
                          exact hpr.subset (by simp)
                        · cases hpp
                      · simp only [Except.ok.injEq, Prod.mk.injEq] at hpp
                        rw [← hpp.2] at hu
                        simp only [List.mem_singleton] at hu
                        subst hu
                        exact hpr.subset (by simp)
                · simp only [Except.ok.injEq, Prod.mk.injEq] at hpp
                  rw [← hpp.2] at hu
                  simp at hu
            split at hst
            · cases hst
            · rename_i x xs hx
              split at hst
              · cases hst
              · rename_i b hb
                split at hst
                · refine hp { s1 with push := s1.pushNext } s1.prio _ _ _ _ h4 hst v (by simp)
                · split at hst
                  · cases hst
                  · rename_i pr d cmp hs
                    have hit := e3.fifo.commit
                    have hcohf := fun v f => hit.fifo_coherent hg1.2 v f
                    have hpv : ∀ v ∈ s1.prio, v < c.vcs := by
                      intro v hv
                      simpa using e3.fifo.prio.subset hv
                    have hselperm : pr.Perm (List.range c.vcs) := by
                      have hperm2 : ∀ (t : MasterState) k prio d b pr d' b',
                          searchLoop c t k prio d b = .ok (pr, d', b') → pr.Perm prio := by
                        intro t k
                        induction k with
                        | zero =>
                          intro prio d b pr d' b' h
                          simp only [searchLoop, Except.ok.injEq, Prod.mk.injEq] at h
                          rw [h.1]
                        | succ k ih =>
                          intro prio d b pr d' b' h
                          simp only [searchLoop] at h
                          split at h
                          · simp only [Except.ok.injEq, Prod.mk.injEq] at h
                            rw [h.1]
                          · have hr := rotate1_perm prio
                            split at h
                            · cases h
                            · rename_i y ys hy
                              rw [hy] at hr
                              split at h
                              · exact (ih _ _ _ _ _ _ h).trans hr
                              · split at h
                                · cases h
                                · exact (ih _ _ _ _ _ _ h).trans hr
                      have := hperm2 _ _ _ _ _ _ _ _ hs
                      rw [← hx] at this
                      exact this.trans h4
                    exact hp { s1 with push := s1.pushNext } pr _ _ _ _ hselperm hst v (by simp)
          simp at hmem
          exact hvv hmem
      have hT2 : fifoTotal s3 c.vcs ≤ T := by
        have h5 := fifoTotal_pop (s := s1) (s' := s3) (v := v) k8 c.vcs
        have h6 := fifoTotal_congr (s := s) (s' := s1) c.vcs e5.1
        rw [if_pos hv] at h5
        omega
      obtain ⟨es', s', h', hist4, f1, f2, f3, f4, f5, f6, f7⟩ := ih s3 _ _ m2 hg1 hT2
      refine ⟨es ++ .adapter true :: es', s', h', hist4, ?_, ?_, f3, by rw [f4]; exact e4, ?_, f6, f7⟩
      · intro e he
        simp only [List.mem_append, List.mem_cons] at he
        rcases he with he | rfl | he
        · exact e1 e he
        · rfl
        · exact f1 e he
      · rw [masterRun_append' e2, masterRun, hstep]
        exact f2
      · rw [f5, k10]; exact e5.2.1
    · refine ⟨es, s1, h1, hist, e1, e2, e3, e4, e5.2.1, e6, fun v hv => ?_⟩
      cases Nat.eq_zero_or_pos ((s1.fifos v).countP (fun f => f.tail)) with
      | inl h => exact h
      | inr h => exact absurd ⟨v, hv, h⟩ hex

theorem packetsOf_noTail (l : List ScFlit) (h : ∀ f ∈ l, f.tail = false) :
    cutAtTails [] l = ([], l) := by
  have := cutAtTails_noTail [] l [] h
  simpa [cutAtTails] using this

end RadSim
