import Verif.Lemmas.NetworkOrder

/-! # Nodes that react to a network

In a tick the nodes see what the network has just handed out, before they decide what they send. -/

namespace RadSim.Net

open Router (Flit Cfg upto)

variable {δ σ τ ρ ρ' : Type} {VA : Alloc.Cls σ ρ} {SA : Alloc.Cls τ ρ'} {t : Topo} {b : Cfg} {va : Nat → σ} {sa : Nat → τ}
  {N : Nat}

/-- What nodes send in a tick only goes into the channels they send on. -/
theorem tick_inject {e : Env δ ρ ρ'} {s s' : S δ σ τ} (h : tick VA SA t b e s = .ok s') (j : Nat → Option (Flit δ)) :
    tick VA SA t b { e with inject := j } s =
      .ok { s' with fIn := fun l => if l < t.links ∧ t.driver l = none then j l else s'.fIn l } := by
  have hr : stepRouter VA SA t b { e with inject := j } s = stepRouter VA SA t b e s := rfl
  unfold tick at h ⊢
  rw [hr]
  dsimp only
  split at h
  · cases h
  · rename_i f hf
    split at h
    · cases h
    · rename_i c hc
      split at h
      · cases h
      · rename_i out ho
        cases h
        simp only [Except.ok.injEq, S.mk.injEq, true_and]
        refine ⟨?_, rfl, trivial⟩
        funext l
        by_cases hl : l < t.links
        · unfold sentFlit
          cases hd : t.driver l with
          | none => simp [hl]
          | some x => simp [hl]
        · simp [hl]

variable {e : Nat → Env δ ρ ρ'} {s : Nat → S δ σ τ}

/-- The flits at the end of a link after a tick had entered before it. -/
theorem flitsAt_next (h : Ticks VA SA t b va sa N e s) {x : Env δ ρ ρ'} {s' : S δ σ τ}
    (hs : tick VA SA t b x (s N) = .ok s') {l : Nat} (hl : l < t.links) :
    flitsAt s l (N + 1) ++ (s'.fOut l).toList <+: entered s l N := by
  have h1 : ((s N).fQ l).map Prod.snd ++ ((s N).fIn l).toList = (s'.fOut l).toList ++ (s'.fQ l).map Prod.snd :=
    channel_tick ((step_of (e := fun _ => x) (s := fun k => Nat.casesOn k (s N) fun _ => s') (n := 0) hs).flit l hl)
  rw [h.flits (Nat.le_refl _) hl, List.append_assoc, h1, ← List.append_assoc]
  exact List.prefix_append _ _

/-- The credits at the end of a link after a tick had been sent before it. -/
theorem creditsAt_next (h : Ticks VA SA t b va sa N e s) {x : Env δ ρ ρ'} {s' : S δ σ τ}
    (hs : tick VA SA t b x (s N) = .ok s') {l : Nat} (hl : l < t.links) :
    creditsAt s l (N + 1) ++ (s'.cOut l).toList <+: backed s l N := by
  have h1 : ((s N).cQ l).map Prod.snd ++ ((s N).cIn l).toList = (s'.cOut l).toList ++ (s'.cQ l).map Prod.snd :=
    channel_tick ((step_of (e := fun _ => x) (s := fun k => Nat.casesOn k (s N) fun _ => s') (n := 0) hs).credit l hl)
  rw [h.backs (Nat.le_refl _) hl, List.append_assoc, h1, ← List.append_assoc]
  exact List.prefix_append _ _

/-- A run goes on. -/
theorem Ticks.snoc (h : Ticks VA SA t b va sa N e s) (hl : Legal t b (e N)) (hn : Nodes t b e s (N + 1))
    (hs : tick VA SA t b (e N) (s N) = .ok (s (N + 1))) : Ticks VA SA t b va sa (N + 1) e s where
  start := h.start
  legal n hn' := by
    rcases Nat.lt_succ_iff_lt_or_eq.1 hn' with h1 | rfl
    · exact h.legal n h1
    · exact hl
  nodes n hn' := by
    rcases Nat.lt_succ_iff_lt_or_eq.1 (Nat.lt_succ_of_le hn') with h1 | rfl
    · exact h.nodes n (by omega)
    · exact hn
  step n hn' := by
    rcases Nat.lt_succ_iff_lt_or_eq.1 hn' with h1 | rfl
    · exact h.step n h1
    · exact hs

theorem injected_succ (e : Nat → Env δ ρ ρ') (l n : Nat) : injected e l (n + 1) = injected e l n ++ ((e n).inject l).toList :=
  filterMap_snoc _ _ _

theorem credited_succ (e : Nat → Env δ ρ ρ') (l n : Nat) : credited e l (n + 1) = credited e l n ++ ((e n).credit l).toList :=
  filterMap_snoc _ _ _

/-- What a source may rely on when it sees the credits of a tick. -/
theorem source_sees (ht : t.Wired) (hb : b.Ok) (ha : Allocs VA SA t b va sa) (h : Ticks VA SA t b va sa N e s)
    {x : Env δ ρ ρ'} {s' : S δ σ τ} (hs : tick VA SA t b x (s N) = .ok s') {l : Nat} (hl : t.Source l) :
    (∀ c ∈ s'.cOut l, c.Nodup) ∧
      ∀ v, (creditsAt s l (N + 1) ++ (s'.cOut l).toList).flatten.count v ≤ (onVc (injected e l N) v).length := by
  have hag := agreed hb ha h (Nat.le_refl N) (runs ht hb ha h N (Nat.le_refl N)) hl.1
  have hp := creditsAt_next h hs hl.1
  refine ⟨fun c hc => (hag.credit c (hp.subset ?_)).1, fun v => ?_⟩
  · exact List.mem_append_right _ (by rw [Option.mem_def.1 hc]; simp)
  · refine (count_flatten_prefix hp v).trans ((hag.credits v).trans ?_)
    rw [← h.entered_source (Nat.le_refl N) hl]
    exact ((flitsAt_prefix h (Nat.le_refl N) hl.1).filter _).length_le

/-- What a sink may rely on when it sees the flit of a tick. -/
theorem sink_sees (ht : t.Wired) (hb : b.Ok) (ha : Allocs VA SA t b va sa) (h : Ticks VA SA t b va sa N e s)
    {x : Env δ ρ ρ'} {s' : S δ σ τ} (hs : tick VA SA t b x (s N) = .ok s') {l : Nat} (hl : t.Sink l) :
    (∀ f ∈ flitsAt s l (N + 1) ++ (s'.fOut l).toList, f.vc < b.vcs) ∧
      ∀ v, ((onVc (flitsAt s l (N + 1) ++ (s'.fOut l).toList) v).length : Int) ≤
        b.buf.perVc + (credited e l N).flatten.count v := by
  have hag := agreed hb ha h (Nat.le_refl N) (runs ht hb ha h N (Nat.le_refl N)) hl.1
  have hp := flitsAt_next h hs hl.1
  refine ⟨fun f hf => hag.vcs f (hp.subset hf), fun v => ?_⟩
  have h1 := (hp.filter fun f => decide (f.vc = v)).length_le
  have h2 := hag.space v
  have h3 := count_flatten_prefix (creditsAt_prefix h (Nat.le_refl N) hl.1) v
  rw [h.backed_sink (Nat.le_refl N) hl] at h3
  unfold onVc at h2 ⊢
  omega

end RadSim.Net
