import Verif.Lemmas.DlrmFiSafe

/-! The feature-interaction module sends every vector whose words have come in. -/
namespace RadSim.Dlrm

open Spec

theorem execute_shape {cfg : Cfg} {s s' : FiSt} (he : execute cfg s = .ok s') :
    s'.outF = s.outF ∨
      (s.ofull s.dest = false ∧ ∃ v, s'.outF = upd s.outF s.dest (s.outF s.dest ++ [v])) := by
  unfold execute at he
  split at he
  · cases he
  split at he
  · cases he
  · cases he; exact .inl rfl
  split at he
  case isFalse => cases he
  split at he
  · cases he; exact .inl rfl
  rename_i hof
  split at he
  · cases he
  · cases he
    exact .inr ⟨by simpa using hof, _, rfl⟩

/-- The output FIFOs never hold more than `depth - 2` vectors, and are not shown as
full below that. -/
structure Slack (cfg : Cfg) (s : FiSt) : Prop where
  below : ∀ ch < cfg.numOut, s.ofull ch = false → (s.outF ch).length < cfg.depth - 2
  most : ∀ ch < cfg.numOut, (s.outF ch).length ≤ cfg.depth - 2
  tv : ∀ ch < cfg.numOut, s.tvalid ch = !(s.outF ch).isEmpty

theorem Slack.tick {cfg : Cfg} (hd : 4 ≤ cfg.depth) {s t : FiSt} {i : FiIn} (h : Slack cfg s)
    (ht : fiTick cfg s i = .ok t) :
    Slack cfg t ∧
      ((∀ ch < cfg.numOut, i.tready ch = true) → ∀ ch < cfg.numOut, t.ofull ch = false) := by
  unfold fiTick at ht
  split at ht
  · cases ht
  rename_i s' hs'
  have hshape := execute_shape hs'
  have hsame : s'.tvalid = s.tvalid ∧ s'.ofull = s.ofull := by
    unfold execute at hs'
    split at hs'
    · cases hs'
    split at hs'
    · cases hs'
    · cases hs'; exact ⟨rfl, rfl⟩
    split at hs'
    case isFalse => cases hs'
    split at hs'
    · cases hs'; exact ⟨rfl, rfl⟩
    split at hs'
    · cases hs'
    · cases hs'; exact ⟨rfl, rfl⟩
  unfold finish at ht
  split at ht
  · cases ht
  cases ht
  have hlen : ∀ ch < cfg.numOut, (s'.outF ch).length ≤ cfg.depth - 2 ∧
      (s'.outF ch).length ≤ (s.outF ch).length + 1 ∧
      (s.outF ch).length ≤ (s'.outF ch).length := by
    intro ch hch
    have h1 := h.most ch hch
    rcases hshape with heq | ⟨hof, v, hv⟩
    · rw [heq]; dsimp only; omega
    · rw [hv]
      dsimp only [upd]
      split
      · rename_i hc
        dsimp only at hof
        have := h.below ch hch (by rw [hc]; exact hof)
        subst hc
        simp; omega
      · omega
  refine ⟨⟨?_, ?_, ?_⟩, ?_⟩
  · intro ch hch hfl
    dsimp only at hfl ⊢
    rw [if_pos hch] at hfl ⊢
    have := of_decide_eq_false hfl
    unfold mark at this
    rw [if_pos (by omega)] at this
    omega
  · intro ch hch
    dsimp only
    rw [if_pos hch]
    have := (hlen ch hch).1
    unfold drained
    split
    · simp; omega
    · exact this
  · intro ch hch
    dsimp only
    rw [if_pos hch, if_pos hch]
  · intro hr ch hch
    dsimp only
    rw [if_pos hch]
    apply decide_eq_false
    unfold mark
    rw [if_pos (by omega)]
    unfold drained
    rw [hr ch hch, hsame.1, h.tv ch hch]
    obtain ⟨h1, h2, h3⟩ := hlen ch hch
    cases ho : s.outF ch with
    | nil => rw [ho] at h2; simp at h2 ⊢; omega
    | cons v r => rw [ho] at h2 h3; simp at h2 h3 ⊢; omega

theorem slack_run {cfg : Cfg} (hd : 4 ≤ cfg.depth) {ins : Nat → FiIn} :
    ∀ n s, fiAt cfg ins n = .ok s → Slack cfg s := by
  intro n
  induction n with
  | zero =>
    intro s h
    cases h
    refine ⟨fun ch _ _ => ?_, fun ch _ => ?_, fun ch _ => rfl⟩ <;> simp [fiInit] <;> omega
  | succ n ih =>
    intro t ht
    cases hs : fiAt cfg ins n with
    | error e => rw [fiAt, hs] at ht; cases ht
    | ok s =>
      rw [fiAt, hs] at ht
      exact ((ih s hs).tick hd ht).1

theorem ready_of (cfg : Cfg) (empty : Nat → Bool) :
    ∀ (inst : Inst), (∀ st ∈ inst, st.fifo ≤ cfg.numCh) →
      (∀ st ∈ inst, st.fifo ≠ 0 → empty (st.fifo - 1) = false) →
      ready cfg empty inst = .ok true := by
  intro inst
  induction inst with
  | nil => intro _ _; rfl
  | cons a r ih =>
    intro h1 h2
    have hr := ih (fun x hx => h1 x (by simp [hx])) (fun x hx => h2 x (by simp [hx]))
    have hc := h1 a (by simp)
    unfold ready
    split
    · exact hr
    · rename_i h0
      rw [if_pos (by omega), hr, h2 a (by simp) h0]
      rfl

theorem arrived_mono (cfg : Cfg) (ins : Nat → FiIn) (c n : Nat) :
    ∀ d, (arrived cfg ins c n).length ≤ (arrived cfg ins c (n + d)).length := by
  intro d
  induction d with
  | zero => exact Nat.le_refl _
  | succ d ih =>
    rw [show n + (d + 1) = n + d + 1 by omega, arrived, List.length_append]
    omega

theorem sent_mono (cfg : Cfg) (ins : Nat → FiIn) (c n : Nat) :
    ∀ d, (sent cfg ins c n).length ≤ (sent cfg ins c (n + d)).length := by
  intro d
  induction d with
  | zero => exact Nat.le_refl _
  | succ d ih =>
    rw [show n + (d + 1) = n + d + 1 by omega, sent, List.length_append]
    omega

section
variable {cfg : Cfg} {ins : Nat → FiIn} {σ : Nat → Nat → Nat} (hd : 4 ≤ cfg.depth)
  (hs : ∀ inst ∈ cfg.prog, Sound cfg inst) (hp : cfg.prog ≠ []) (ho : 0 < cfg.numOut)
  (hpol : Polite cfg ins) (hfeed : Feeds cfg ins σ)
include hd hs hp ho hpol hfeed

omit hd hs ho hpol hfeed in
theorem instAt_mem (k : Nat) : instAt cfg.prog k ∈ cfg.prog := by
  have hl : k % cfg.prog.length < cfg.prog.length := Nat.mod_lt _ (List.length_pos_iff.mpr hp)
  unfold instAt
  rw [List.getElem?_eq_getElem hl]
  exact List.getElem_mem hl

/-- Once the outputs are ready, an instruction runs in every period for as long as
its words are there. -/
theorem counts {n0 K : Nat}
    (hsup : Supplied cfg (fun c => (arrived cfg ins c n0).length) K)
    (hr : ∀ n, n0 ≤ n → ∀ ch < cfg.numOut, (ins n).tready ch = true) :
    ∀ d, ∃ s k, fiAt cfg ins (n0 + 1 + d) = .ok s ∧
      FiInv cfg σ (fun c => (arrived cfg ins c (n0 + 1 + d)).length)
        (fun c => sent cfg ins c (n0 + 1 + d)) s k ∧
      (∀ ch < cfg.numOut, s.ofull ch = false) ∧ min d K ≤ k := by
  intro d
  induction d with
  | zero =>
    obtain ⟨s0, h0, -⟩ := safe_run hs hp ho ins n0
    obtain ⟨s1, h1, -⟩ := safe_run hs hp ho ins (n0 + 1)
    obtain ⟨k, hk⟩ := fi_inv hd hpol hfeed (n0 + 1) s1 h1
    have ht := h1
    rw [fiAt, h0] at ht
    have := ((slack_run hd n0 s0 h0).tick hd ht).2 (hr n0 (Nat.le_refl _))
    exact ⟨s1, k, h1, hk, this, by omega⟩
  | succ d ih =>
    obtain ⟨s, k, h1, hk, hof, hmin⟩ := ih
    obtain ⟨t, h2, -⟩ := safe_run hs hp ho ins (n0 + 1 + d + 1)
    obtain ⟨k', hk', hle, hgo⟩ := fi_step hd hpol hfeed h1 h2 hk
    have ht := h2
    rw [fiAt, h1] at ht
    have hof' := ((slack_run hd _ s h1).tick hd ht).2 (hr _ (by omega))
    refine ⟨t, k', h2, hk', hof', ?_⟩
    by_cases hlt : k < K
    · have hm : instAt cfg.prog k ∈ cfg.prog := instAt_mem hp k
      have hso := hs _ hm
      have := hgo ⟨⟨instAt cfg.prog k, by
          have hl : k % cfg.prog.length < cfg.prog.length :=
            Nat.mod_lt _ (List.length_pos_iff.mpr hp)
          rw [hk.core.pc, List.getElem?_eq_getElem hl, instAt, List.getElem?_eq_getElem hl]
          rfl, ready_of cfg s.empty _ hso.channel (fun st hst h0 => by
            have hc := hso.channel st hst
            have hlt1 : st.fifo - 1 < cfg.numCh := by omega
            have hsp := hsup k hlt st hst h0
            dsimp only at hsp
            have hmono := arrived_mono cfg ins (st.fifo - 1) n0 (1 + d)
            rw [show n0 + (1 + d) = n0 + 1 + d by omega] at hmono
            rw [hk.emp _ hlt1, (hk.core.fifo _ hlt1).2]
            unfold seg
            obtain ⟨m, hm⟩ : ∃ m, (arrived cfg ins (st.fifo - 1) (n0 + 1 + d)).length -
                popsBefore cfg.prog (st.fifo - 1) k = m + 1 :=
              ⟨(arrived cfg ins (st.fifo - 1) (n0 + 1 + d)).length -
                popsBefore cfg.prog (st.fifo - 1) k - 1, by omega⟩
            rw [hm, List.range'_succ]
            rfl)⟩, hof _ (by rw [hk.core.dest]; exact Nat.mod_lt _ ho)⟩
      omega
    · omega

omit hpol hfeed in
/-- A ready output hands over one vector per period. -/
theorem drains {n0 L : Nat} {ch : Nat} (hch : ch < cfg.numOut) {s : FiSt}
    (h1 : fiAt cfg ins n0 = .ok s)
    (hL : L ≤ (sent cfg ins ch n0).length + (s.outF ch).length)
    (hr : ∀ n, n0 ≤ n → (ins n).tready ch = true) :
    ∀ d, ∃ t, fiAt cfg ins (n0 + d) = .ok t ∧
      L ≤ (sent cfg ins ch (n0 + d)).length + (t.outF ch).length ∧
      (min L ((sent cfg ins ch n0).length + d) ≤ (sent cfg ins ch (n0 + d)).length) := by
  intro d
  induction d with
  | zero => exact ⟨s, h1, hL, by rw [Nat.add_zero, Nat.add_zero]; omega⟩
  | succ d ih =>
    obtain ⟨t, h2, hL2, hm⟩ := ih
    obtain ⟨u, h3, -⟩ := safe_run hs hp ho ins (n0 + d + 1)
    have hsl := slack_run hd _ t h2
    have ht := h3
    rw [fiAt, h2] at ht
    dsimp only at ht
    unfold fiTick at ht
    split at ht
    · cases ht
    rename_i s' hs'
    have hsame : s'.tvalid = t.tvalid := by
      unfold execute at hs'
      split at hs'
      · cases hs'
      split at hs'
      · cases hs'
      · cases hs'; rfl
      split at hs'
      case isFalse => cases hs'
      split at hs'
      · cases hs'; rfl
      split at hs'
      · cases hs'
      · cases hs'; rfl
    have hge : (t.outF ch).length ≤ (s'.outF ch).length := by
      rcases execute_shape hs' with heq | ⟨-, v, hv⟩
      · rw [heq]; exact Nat.le_refl _
      · rw [hv]
        dsimp only [upd]
        split
        · rename_i hc; rw [hc]; simp
        · exact Nat.le_refl _
    unfold finish at ht
    split at ht
    · cases ht
    cases ht
    have hsent : (sent cfg ins ch (n0 + d + 1)).length =
        (sent cfg ins ch (n0 + d)).length + if (t.outF ch).isEmpty then 0 else 1 := by
      rw [sent, h2]
      dsimp only
      rw [hr _ (by omega), hsl.tv ch hch]
      cases (t.outF ch) <;> simp
    refine ⟨_, h3, ?_, ?_⟩
    · rw [show n0 + (d + 1) = n0 + d + 1 by omega, hsent]
      dsimp only
      rw [if_pos hch]
      unfold drained
      rw [hr _ (by omega), hsame, hsl.tv ch hch]
      cases ho' : t.outF ch with
      | nil => rw [ho'] at hge hL2; simp at hge hL2 ⊢; omega
      | cons v r => rw [ho'] at hge hL2; simp at hge hL2 ⊢; omega
    · rw [show n0 + (d + 1) = n0 + d + 1 by omega, hsent]
      cases ho' : t.outF ch with
      | nil => rw [ho'] at hL2; simp at hL2 ⊢; omega
      | cons v r => simp; omega

/-- Every vector whose words have come in is sent. -/
theorem all_sent {n0 K : Nat}
    (hsup : Supplied cfg (fun c => (arrived cfg ins c n0).length) K)
    (hr : ∀ n, n0 ≤ n → ∀ ch < cfg.numOut, (ins n).tready ch = true) (n : Nat)
    (hn : n0 + 1 + K + cfg.depth ≤ n) :
    ∀ ch < cfg.numOut, ∀ i, ch + i * cfg.numOut < K → i < (sent cfg ins ch n).length := by
  intro ch hch i hi
  obtain ⟨s, k, h1, hk, -, hmin⟩ := counts hd hs hp ho hpol hfeed hsup hr K
  have hKk : K ≤ k := by omega
  have hout := hk.core.out ch hch i
  rw [if_pos (by omega)] at hout
  have hlen := (List.getElem?_eq_some_iff.mp hout).1
  rw [List.length_append, List.length_map] at hlen
  have hsl := (slack_run hd _ s h1).most ch hch
  obtain ⟨t, h2, -, h3⟩ := drains hd hs hp ho hch h1 (L := i + 1) (by omega)
    (fun m hm => hr m (by omega) ch hch) cfg.depth
  have := sent_mono cfg ins ch (n0 + 1 + K + cfg.depth) (n - (n0 + 1 + K + cfg.depth))
  rw [show n0 + 1 + K + cfg.depth + (n - (n0 + 1 + K + cfg.depth)) = n by omega] at this
  omega

end

end RadSim.Dlrm
