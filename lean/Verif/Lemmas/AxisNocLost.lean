import Verif.Lemmas.AxisNocLive

/-! # Credits that a sink side adapter has lost -/

namespace RadSim.AxisNoc

open Router (Flit Hop)
open Routing (Shape Rf dimOrderMesh vcOk)
open Net

/-- At least `L` flits of channel `v` have left the FIFO without a credit. -/
def Owes (L v : Nat) (s : MasterState) (h : MasterHist) : Prop :=
  h.credits.count v + s.credit.toList.count v + L ≤ h.pops.count v

theorem owes_step {c : MasterCfg} (hn : 0 < c.n) (hvc : 0 < c.vcs) {s s' : MasterState} {h h' : MasterHist}
    {hist : List (Nat × List ScFlit)} (hi : MasterInv c s h hist) (e : MasterEvent) (hg : GoodArrivals c h'.accepted)
    (hs : masterStep c s h e = (h', .ok s')) {L v : Nat} (ho : Owes L v s h) : Owes L v s' h' := by
  cases e with
  | noc a =>
    simp only [masterStep, Prod.mk.injEq] at hs
    have hcr : s'.credit = s.credit := by
      have := hs.2
      simp only [ejectStep] at this
      split at this
      · cases this; rfl
      · split at this
        · split at this <;> cases this <;> rfl
        · cases this
    unfold Owes
    rw [← hs.1, hcr]
    split <;> exact ho
  | adapter cm =>
    have hga : GoodArrivals c h.accepted := by
      obtain ⟨l, hl⟩ := masterStep_accepted c s h (.adapter cm)
      rw [hs] at hl
      rw [hl] at hg
      exact hg.prefix
    obtain ⟨s1, popped, hist', h1, _, _, _, _, _, hlen, hcnt, hcr, -⟩ := depackStep_inv hn hvc hi.fifo hga.2 cm
    simp only [masterStep, h1, Prod.mk.injEq, Except.ok.injEq] at hs
    obtain ⟨rfl, rfl⟩ := hs
    unfold Owes at ho ⊢
    simp only [List.count_append]
    rw [hcr]
    cases hc : s.credit with
    | some w => simp only [hc] at ho ⊢; omega
    | none =>
      simp only [hc, Option.toList_none, List.count_nil] at ho
      match popped, hlen with
      | [], _ => simp; omega
      | [x], _ => simp; omega
  | node r =>
    obtain ⟨s1, g1, ⟨oq, ch, po, hs'⟩, _⟩ := portLoop_ok hi.ports r c.n (Nat.le_refl _)
    have e1 : (masterStep c s h (.node r)).2 = .ok s1 := g1
    have e2 : (masterStep c s h (.node r)).1.credits = h.credits ∧ (masterStep c s h (.node r)).1.pops = h.pops := ⟨rfl, rfl⟩
    rw [hs] at e1 e2
    injection e1 with e1
    subst e1 hs'
    unfold Owes
    rw [e2.1, e2.2]
    exact ho
  | tick =>
    simp only [masterStep, Prod.mk.injEq, Except.ok.injEq] at hs
    obtain ⟨rfl, rfl⟩ := hs
    unfold Owes at ho ⊢
    simpa [List.count_append] using ho

theorem owes_run {c : MasterCfg} (hn : 0 < c.n) (hvc : 0 < c.vcs) {L v : Nat} : ∀ (es : List MasterEvent) {s s' : MasterState}
    {h h' : MasterHist} {hist : List (Nat × List ScFlit)}, MasterInv c s h hist → GoodArrivals c h'.accepted →
    masterRun c s h es = (h', .ok s') → Owes L v s h → Owes L v s' h' := by
  intro es
  induction es with
  | nil =>
    intro s s' h h' hist _ _ hr ho
    cases hr
    exact ho
  | cons e es ih =>
    intro s s' h h' hist hi hg hr ho
    obtain ⟨s1, h1, hs1, hr1⟩ := run_cons hr
    have hg1 : GoodArrivals c h1.accepted := by
      obtain ⟨l, hl⟩ := masterRun_accepted c es s1 h1
      rw [hr1] at hl
      rw [hl] at hg
      exact hg.prefix
    obtain ⟨s1', hist1, e1, i1⟩ := masterStep_inv hn hvc hi e (by rw [hs1]; exact hg1)
    rw [hs1] at e1 i1
    injection e1 with e1
    subst e1
    exact ih i1 hg hr1 (owes_step hn hvc hi e hg1 hs1 ho)

/-- Flits of a packet whose tail has not come are not taken. -/
theorem pops_le {c : MasterCfg} {s : MasterState} {h : MasterHist} {hist : List (Nat × List ScFlit)} (hm : MasterInv c s h hist)
    (hd : DropInv c s h) {v : Nat} (hv : v < c.vcs) {w q : List ScFlit} (hA : RadSim.onVc v h.accepted = w ++ q)
    (hq : ∀ f ∈ q, f.tail = false) : h.pops.count v ≤ w.length := by
  have hst := hm.fifo.stream v hv
  unfold inside at hst
  rw [hd.held] at hst
  simp only [Option.toList_none, RadSim.onVc, List.filter_nil, List.map_nil, List.append_nil] at hst
  have hA' := hA
  unfold RadSim.onVc at hA'
  rw [hA'] at hst
  have hf := hd.fifo v
  have hl : h.accepted.countP (fun g => g.vc == v) = w.length + q.length := by
    rw [← List.length_append, ← hA, RadSim.onVc, List.length_map, List.countP_eq_length_filter]
  by_contra hlt
  have hlt : w.length < h.pops.count v := Nat.lt_of_not_le hlt
  set K := (if s.depack = true ∧ s.prio.head? = some v then s.pkt else []) with hK
  have hlen := congrArg List.length hst
  simp only [List.length_append] at hlen
  have hnt : ∀ f ∈ s.fifos v, f.tail = false := by
    intro f hf'
    refine hq f ?_
    have hsuf : s.fifos v <:+ w ++ q := by
      rw [hst, ← List.append_assoc]
      exact List.suffix_append _ _
    rcases List.suffix_or_suffix_of_suffix hsuf (List.suffix_append w q) with h1 | h1
    · exact h1.subset hf'
    · have := h1.length_le
      omega
  have hno : (s.fifos v).countP (fun f => f.tail) = 0 := List.countP_eq_zero.2 fun f hf' => by rw [hnt f hf']; decide
  have hKn : K = [] := by
    rw [hK]
    split
    · rename_i hb
      exfalso
      obtain ⟨v', vs, hp, hpp, -⟩ := hm.fifo.busy hb.1
      rw [hp, List.head?_cons] at hb
      have : v' = v := Option.some.inj hb.2
      subst this
      have h1 := hm.fifo.cnt v'
      have h2 := hm.fifo.le v'
      omega
    · rfl
  rw [hKn, List.nil_append] at hst
  rw [hKn, List.length_nil] at hlen
  have hne : (histVc v hist) ≠ [] := by
    intro h0
    rw [h0, List.flatten_nil, List.length_nil] at hlen
    omega
  obtain ⟨l, p, hlp⟩ : ∃ l p, histVc v hist = l ++ [p] := ⟨_, _, (List.dropLast_append_getLast hne).symm⟩
  have hp : ClosedPacket p := by
    have : p ∈ histVc v hist := by simp [hlp]
    obtain ⟨x, hx, rfl⟩ := List.mem_map.1 this
    exact (hm.fifo.histOk x (List.mem_filter.1 hx).1).1
  obtain ⟨ini, last, rfl, ht, -⟩ := hp
  have : last ∈ q := by
    have hsuf : last :: s.fifos v <:+ w ++ q := by
      rw [hst, hlp]
      simp only [List.flatten_append, List.flatten_cons, List.flatten_nil, List.append_nil]
      exact ⟨l.flatten ++ ini, by simp⟩
    rcases List.suffix_or_suffix_of_suffix hsuf (List.suffix_append w q) with h1 | h1
    · exact h1.subset (by simp)
    · have := h1.length_le
      rw [List.length_cons] at this
      have : q = last :: s.fifos v := List.IsSuffix.eq_of_length h1 (by rw [List.length_cons]; omega)
      rw [this]
      simp
  rw [hq last this] at ht
  cases ht

variable {σ τ ρ ρ' : Type} {VA : Alloc.Cls σ ρ} {SA : Alloc.Cls τ ρ'} {c : Cfg} {va : Nat → σ} {sa : Nat → τ} {i : Nat → In ρ ρ'}
  {P : Nat → Nat → AxisTxn → Prop} {rng : Nat → Nat × Nat} {n : Nat}

theorem Inv.accepted_mono (h : Inv VA SA c va sa i P n) (h' : Inv VA SA c va sa i P (n + 1)) {u : Nat} (hu : u < c.m.nodes) :
    ((st VA SA c va sa i n).hist u).accepted <+: ((st VA SA c va sa i (n + 1)).hist u).accepted := by
  rw [h.arrived u hu, h'.arrived u hu, flitsAt_succ _ _ (n + 1), List.map_append]
  exact List.prefix_append _ _

theorem Inv.good_arrivals (hs : Setup c rng) (ha : Allocs VA SA (mesh c.m) c.b va sa) (hP : ∀ u p t, P u p t → Exists c u p t)
    (h : Inv VA SA c va sa i P n) (h' : Inv VA SA c va sa i P (n + 1)) {u : Nat} (hu : u < c.m.nodes) :
    GoodArrivals (c.mc u) ((st VA SA c va sa i (n + 1)).hist u).accepted := by
  have := h.arrivals hs ha hP (h'.ticks.step n (by omega)) hu
  rw [h'.arrived u hu, flitsAt_succ]
  exact this

/-- If an adapter has lost so many credits of a channel that the packet that it waits for does not fit into the other places,
it gets no more flits on this channel. -/
theorem Inv.blocked (hs : Setup c rng) (ha : Allocs VA SA (mesh c.m) c.b va sa) (hP : ∀ u p t, P u p t → Exists c u p t)
    (h : Inv VA SA c va sa i P n) (h' : Inv VA SA c va sa i P (n + 1)) {u v L : Nat} (hu : u < c.m.nodes)
    (hv : v < c.b.vcs) {w q : List ScFlit} (hA : RadSim.onVc v ((st VA SA c va sa i n).hist u).accepted = w ++ q)
    (hq : ∀ f ∈ q, f.tail = false) (hL : c.b.buf.perVc ≤ ((L + q.length : Nat) : Int)) (ho : Owes L v ((st VA SA c va sa i n).master u) ((st VA SA c va sa i n).hist u)) :
    RadSim.onVc v ((st VA SA c va sa i (n + 1)).hist u).accepted = w ++ q ∧
      Owes L v ((st VA SA c va sa i (n + 1)).master u) ((st VA SA c va sa i (n + 1)).hist u) := by
  obtain ⟨_, _, _, _, _, hr⟩ := h.period h' hu
  obtain ⟨hist, hm, hd⟩ := h.master u hu
  have hsink : (mesh c.m).Sink (ejLink c.m u) := (mesh_sink hs.k).2 ⟨u, hu, rfl⟩
  have hg := h.good_arrivals hs ha hP h' hu
  refine ⟨?_, owes_run (hs.ports u hu).2 (by
    rw [hs.sameVcs u hu]
    exact Nat.lt_of_le_of_lt (Nat.zero_le _) (hs.vcs 0)) _ hm hg hr ho⟩
  have space := fun {n : Nat} (h : Inv VA SA c va sa i P n) => (agreed hs.ok ha h.ticks (Nat.le_refl n)
    (runs (mesh_wired hs.k) hs.ok ha h.ticks n (Nat.le_refl n)) hsink.1).space v
  have back : ∀ {n : Nat}, Inv VA SA c va sa i P n →
      (creditsAt (nets VA SA c va sa i) (ejLink c.m u) (n + 1)).flatten.count v ≤ ((st VA SA c va sa i n).hist u).credits.count v := by
    intro n h
    rw [h.returned u hu, ← h.ticks.backed_sink (Nat.le_refl n) hsink]
    exact count_flatten_prefix (creditsAt_prefix h.ticks (Nat.le_refl n) hsink.1) v
  have come : ∀ {n : Nat}, Inv VA SA c va sa i P n → ((st VA SA c va sa i n).hist u).accepted.countP (fun g => g.vc == v) ≤
      (Net.onVc (entered (nets VA SA c va sa i) (ejLink c.m u) n) v).length := by
    intro n h
    rw [h.arrived u hu, count_toBs]
    exact ((flitsAt_prefix h.ticks (Nat.le_refl n) hsink.1).filter _).length_le
  have k1 := space h
  have k2 := back h
  have k3 := come h
  have k4 := space h'
  have k5 := back h'
  have k6 := come h'
  have k7 := pops_le hm hd (by rw [hs.sameVcs u hu]; exact hv) hA hq
  have k0 : ((st VA SA c va sa i n).hist u).accepted.countP (fun g => g.vc == v) = w.length + q.length := by
    rw [← List.length_append, ← hA, RadSim.onVc, List.length_map, List.countP_eq_length_filter]
  unfold Owes at ho
  have k8 : ((st VA SA c va sa i n).master u).credit.toList.count v = 0 := by omega
  have k9 : ((st VA SA c va sa i (n + 1)).hist u).credits.count v = ((st VA SA c va sa i n).hist u).credits.count v := by
    rw [h'.returned u hu, credited_succ, List.flatten_append, List.count_append, ← h.returned u hu]
    have : (envs VA SA c va sa i n).credit (ejLink c.m u) = ((st VA SA c va sa i n).master u).credit.map fun v => [v] := by
      show Option.map _ ((st VA SA c va sa i n).master (ejLink c.m u - ejLink c.m 0)).credit = _
      rw [show ejLink c.m u - ejLink c.m 0 = u by unfold ejLink; omega]
    rw [this]
    cases hc : ((st VA SA c va sa i n).master u).credit with
    | none => simp
    | some w =>
      rw [hc] at k8
      simpa using k8
  have k10 : RadSim.onVc v ((st VA SA c va sa i n).hist u).accepted <+:
      RadSim.onVc v ((st VA SA c va sa i (n + 1)).hist u).accepted := by
    rw [h.arrived u hu, h'.arrived u hu, flitsAt_succ _ _ (n + 1), List.map_append, RadSim.onVc_append]
    exact List.prefix_append _ _
  rw [hA] at k10
  refine (k10.eq_of_length (Nat.le_antisymm k10.length_le ?_)).symm
  rw [RadSim.onVc, List.length_map, ← List.countP_eq_length_filter, List.length_append]
  omega

end RadSim.AxisNoc
