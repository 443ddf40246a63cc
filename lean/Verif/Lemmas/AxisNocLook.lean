import Verif.Lemmas.AxisNocLive

/-! # The beats that the ports show

A beat at a port is one that the module would have if it took it: what holds of all beats taken holds of it too. -/

namespace RadSim.AxisNoc

open Net

variable {σ τ ρ ρ' : Type} {VA : Alloc.Cls σ ρ} {SA : Alloc.Cls τ ρ'} {c : Cfg} {va : Nat → σ} {sa : Nat → τ} {i : Nat → In ρ ρ'}
  {P : Nat → Nat → AxisTxn → Prop} {rng : Nat → Nat × Nat} {n : Nat}

/-- In period `n` all modules take what they are shown, and nothing else happens at the ports. -/
def look (i : Nat → In ρ ρ') (n k : Nat) : In ρ ρ' :=
  if k < n then i k else
    { i n with sPre := fun _ => [], sPost := fun _ => [], mPre := fun _ => [.node fun _ => true], mPost := fun _ => [] }

theorem after_congr {i j : Nat → In ρ ρ'} : ∀ {n : Nat}, (∀ k < n, i k = j k) → after VA SA c va sa i n = after VA SA c va sa j n
  | 0, _ => rfl
  | n + 1, h => by
    unfold after
    rw [after_congr fun k hk => h k (by omega), h n (by omega)]

theorem handshakes_all (s : MasterState) (p : Nat) : ∀ n, ((List.range n).filterMap fun i => (s.port i).map fun o => (i, o)).filter
    (fun y => y.1 = p) = if p < n then ((s.port p).map fun o => (p, o)).toList else []
  | 0 => rfl
  | n + 1 => by
    rw [List.range_succ, List.filterMap_append, List.filter_append, handshakes_all s p n]
    by_cases h1 : p < n
    · rw [if_pos h1, if_pos (by omega)]
      cases h : s.port n with
      | none => simp [h]
      | some o => simp [h, show ¬ n = p by omega]
    · rw [if_neg h1]
      by_cases h2 : p = n
      · subst h2
        rw [if_pos (by omega)]
        cases h : s.port p <;> simp [h]
      · rw [if_neg (by omega)]
        cases h : s.port n with
        | none => simp [h]
        | some o => simp [h, show ¬ n = p by omega]

/-- What the modules have and would have. -/
theorem looks (hs : Setup c rng) (ha : Allocs VA SA (mesh c.m) c.b va sa) (hgo : ∀ u p t, P u p t → Exists c u p t)
    (ht : ∀ k ≤ n, InTime (i k)) (ho : ∀ k < n, Offered c P (i k)) {x : Sys σ τ} (hx : after VA SA c va sa i n = .ok x) :
    ∃ (i' : Nat → In ρ ρ') (y : Sys σ τ), after VA SA c va sa i' (n + 1) = .ok y ∧ (∀ k < n + 1, InTime (i' k)) ∧
      (∀ k < n + 1, Offered c P (i' k)) ∧ (∀ u < c.m.nodes, y.got u = x.got u) ∧
      ∀ u < c.m.nodes, ∀ p < (c.mc u).n, deliveredAt y u p = deliveredAt x u p ++ (((x.master u).port p).map beatOut).toList := by
  have hti : ∀ k < n + 1, InTime (look i n k) := by
    intro k hk
    unfold look
    split
    · exact ht k (by omega)
    · exact ht n (Nat.le_refl _)
  have hof : ∀ k < n + 1, Offered c P (look i n k) := by
    intro k hk
    unfold look
    split
    · exact ho k (by omega)
    · intro u _ beats seen hm
      cases hm
  have hinv : ∀ m ≤ n + 1, Inv VA SA c va sa (look i n) P m := fun m hm =>
    inv_all hs ha hgo m (fun k hk => hti k (by omega)) fun k hk => hof k (by omega)
  have hst : st VA SA c va sa (look i n) n = x := by
    have h1 := (hinv n (by omega)).ok
    rw [after_congr (j := i) (fun k hk => by unfold look; rw [if_pos hk]), hx] at h1
    exact (Except.ok.inj h1).symm
  have hl : look i n n =
      { i n with sPre := fun _ => [], sPost := fun _ => [], mPre := fun _ => [.node fun _ => true], mPost := fun _ => [] } := by
    unfold look
    rw [if_neg (Nat.lt_irrefl n)]
  refine ⟨_, _, (hinv (n + 1) (Nat.le_refl _)).ok, hti, hof, fun u hu => ?_, fun u hu p hp => ?_⟩
  · obtain ⟨acc, out, h1, h2, -⟩ := (hinv n (by omega)).period (hinv (n + 1) (Nat.le_refl _)) hu
    rw [hst] at h1 h2
    rw [h2]
    have : acc = [] := by
      rw [List.eq_nil_iff_forall_not_mem]
      intro b hb
      obtain ⟨beats, seen, p, b', he, -⟩ := slaveRun_mem h1 b hb
      rw [hl] at he
      simp at he
    rw [this, List.append_nil]
  · obtain ⟨-, -, -, -, -, h1⟩ := (hinv n (by omega)).period (hinv (n + 1) (Nat.le_refl _)) hu
    rw [hst, hl] at h1
    dsimp only at h1
    generalize (((nets VA SA c va sa (look i n) (n + 1)).fOut (ejLink c.m u)).map toBs) = f at h1
    simp only [List.map_cons, List.map_nil, List.cons_append, List.nil_append, MasterEdge.event, masterRun, masterStep] at h1
    have hd : ((st VA SA c va sa (look i n) (n + 1)).hist u).delivered =
        (x.hist u).delivered ++ portHandshakes (c.mc u) (x.master u) (fun _ => true) := by
      split at h1
      · cases h1
      · rename_i h' s' hp'
        rw [Prod.mk.injEq] at hp'
        split at h1
        · cases h1
        · rename_i h'' s'' hp''
          rw [Prod.mk.injEq] at hp''
          have e := congrArg Prod.fst h1
          dsimp only at e
          rw [← e, ← hp''.1, ← hp'.1]
          cases s'.held <;> rfl
    unfold deliveredAt
    rw [hd, List.filter_append, List.map_append]
    congr 1
    unfold portHandshakes
    simp only [if_true]
    rw [handshakes_all, if_pos hp]
    cases (x.master u).port p <;> rfl

end RadSim.AxisNoc
