import Verif.Lemmas.Network

/-! # A network at rest

A network without flits and credits stays as it is while the nodes send nothing. This extends finite runs to runs of any
length. -/

namespace RadSim.Net

open Router (R Flit Cfg upto)

variable {δ σ τ ρ ρ' : Type} {VA : Alloc.Cls σ ρ} {SA : Alloc.Cls τ ρ'} {t : Topo} {b : Cfg}

/-- Nothing is on its way. -/
def Rests (t : Topo) (s : S δ σ τ) : Prop :=
  (∀ r < t.size, (s.r r).active = false ∧ (∀ o < t.outputs r, (s.r r).outBuf o = []) ∧
    ∀ i < t.inputs r, (s.r r).credBuf i = []) ∧
  ∀ l < t.links, s.fIn l = none ∧ s.fQ l = [] ∧ s.fOut l = none ∧ s.cIn l = none ∧ s.cQ l = [] ∧ s.cOut l = none

/-- The nodes send nothing. -/
def Silent (t : Topo) (e : Env δ ρ ρ') : Prop :=
  (∀ l, t.Source l → e.inject l = none) ∧ ∀ l, t.Sink l → e.credit l = none

theorem rest_tick (ht : t.Wired) {e : Env δ ρ ρ'} {s : S δ σ τ} (h : Rests t s) (hs : Silent t e) :
    ∃ s', tick VA SA t b e s = .ok s' ∧ Rests t s' := by
  have hr : ∀ r < t.size, stepRouter VA SA t b e s r =
      .ok (Router.send (t.cfg b r) { s.r r with credQ := (s.r r).credQ ++ [], active := false }) := by
    intro r hr
    have ha : Router.arrivals (t.cfg b r) (seen t e s r) = [] := by
      unfold Router.arrivals
      rw [List.filterMap_eq_nil_iff]
      intro i hi
      have hi : i < t.inputs r := List.mem_range.1 hi
      simp only [seen, if_pos hi, (h.2 _ (ht.inLt r hr i hi)).2.2.1, Option.map_none]
    have hc : Router.creditArrivals (t.cfg b r) (seen t e s r) = [] := by
      unfold Router.creditArrivals
      rw [List.filterMap_eq_nil_iff]
      intro o ho
      have ho : o < t.outputs r := List.mem_range.1 ho
      simp only [seen, if_pos ho, (h.2 _ (ht.outLt r hr o ho)).2.2.2.2.2, Option.map_none]
    unfold stepRouter Router.tick
    simp only [ha, hc, (h.1 r hr).1, List.isEmpty_nil, Bool.not_true, Bool.or_false, Bool.false_eq_true, if_false]
  have hch : ∀ {α : Type} (d now : Int), stepChannel (α := α) d now none [] = .ok ([], none) := fun _ _ => rfl
  obtain ⟨f, hf⟩ := each_exists (d := (([], none) : Channel.Queue (Flit δ) × Option (Flit δ))) (n := t.links)
    (f := fun l => stepChannel (t.flitDelay l) e.now (s.fIn l) (s.fQ l)) fun l hl => by
      rw [(h.2 l hl).1, (h.2 l hl).2.1]; exact ⟨_, hch _ _⟩
  obtain ⟨c, hc⟩ := each_exists (d := (([], none) : Channel.Queue (List Nat) × Option (List Nat))) (n := t.links)
    (f := fun l => stepChannel (t.creditDelay l) e.now (s.cIn l) (s.cQ l)) fun l hl => by
      rw [(h.2 l hl).2.2.2.1, (h.2 l hl).2.2.2.2.1]; exact ⟨_, hch _ _⟩
  obtain ⟨out, hout⟩ := each_exists (d := (s.r 0, (⟨fun _ => none, fun _ => none⟩ : Router.Out δ))) (n := t.size)
    (f := stepRouter VA SA t b e s) fun r hr' => ⟨_, hr r hr'⟩
  have hstep : tick VA SA t b e s = .ok (S.mk (fun k => (out k).1) (fun l => if l < t.links then sentFlit t e out l else none)
      (fun l => (f l).1) (fun l => (f l).2) (fun l => if l < t.links then sentCredit t e out l else none) (fun l => (c l).1)
      (fun l => (c l).2)) := by
    unfold tick
    simp only [hf, hc, hout]
  refine ⟨_, hstep, ?_⟩
  have ho : ∀ r < t.size, out r =
      Router.send (t.cfg b r) { s.r r with credQ := (s.r r).credQ ++ [], active := false } := by
    intro r hr'
    have := (each_ok hout).1 r hr'
    rw [hr r hr'] at this
    exact (Except.ok.inj this).symm
  have hf' : ∀ l < t.links, f l = ([], none) := by
    intro l hl
    have := (each_ok hf).1 l hl
    rw [(h.2 l hl).1, (h.2 l hl).2.1, hch] at this
    exact (Except.ok.inj this).symm
  have hc' : ∀ l < t.links, c l = ([], none) := by
    intro l hl
    have := (each_ok hc).1 l hl
    rw [(h.2 l hl).2.2.2.1, (h.2 l hl).2.2.2.2.1, hch] at this
    exact (Except.ok.inj this).symm
  refine ⟨fun r hr' => ?_, fun l hl => ?_⟩
  · simp only [ho r hr', Router.send]
    refine ⟨trivial, fun o h' => ?_, fun i h' => ?_⟩
    · rw [if_pos (show o < (t.cfg b r).outputs from h'), (h.1 r hr').2.1 o h', List.tail_nil]
    · rw [if_pos (show i < (t.cfg b r).inputs from h'), (h.1 r hr').2.2 i h', List.tail_nil]
  · simp only [if_pos hl, hf' l hl, hc' l hl, true_and, and_true]
    constructor
    · unfold sentFlit
      split
      · rename_i r o hd
        obtain ⟨h1, h2, -⟩ := driver_some hd
        simp only [ho r h1, Router.send, if_pos (show o < (t.cfg b r).outputs from h2), (h.1 r h1).2.1 o h2, List.head?_nil]
      · rename_i hd
        exact hs.1 l ((driver_none hl).1 hd)
    · unfold sentCredit
      split
      · rename_i r i hd
        obtain ⟨h1, h2, -⟩ := reader_some hd
        simp only [ho r h1, Router.send, if_pos (show i < (t.cfg b r).inputs from h2), (h.1 r h1).2.2 i h2, List.head?_nil]
      · rename_i hd
        exact hs.2 l ((reader_none hl).1 hd)

theorem filterMap_upto {α β : Type} {f : Nat → α} {g : α → Option β} {m n : Nat} (h : m ≤ n)
    (hn : ∀ k, m ≤ k → k < n → g (f k) = none) : (upto f n).filterMap g = (upto f m).filterMap g := by
  induction n, h using Nat.le_induction with
  | base => rfl
  | succ n hmn ih =>
    rw [Router.upto_succ, List.filterMap_append, ih fun k h1 h2 => hn k h1 (by omega)]
    simp [hn n hmn (Nat.lt_succ_self _)]

/-- A run that has come to rest goes on. -/
theorem rest_on (ht : t.Wired) {e : Nat → Env δ ρ ρ'} {s : Nat → S δ σ τ} {M : Nat} (h : Rests t (s M))
    (hs : ∀ n, M ≤ n → Silent t (e n))
    (hstep : ∀ n, M ≤ n → ∀ s', tick VA SA t b (e n) (s n) = .ok s' → s (n + 1) = s') :
    ∀ n, M ≤ n → Rests t (s n) ∧ tick VA SA t b (e n) (s n) = .ok (s (n + 1)) := by
  have key : ∀ n, M ≤ n → Rests t (s n) := by
    intro n hn
    induction n, hn using Nat.le_induction with
    | base => exact h
    | succ n hn ih =>
      obtain ⟨s', h1, h2⟩ := rest_tick (VA := VA) (SA := SA) (b := b) ht ih (hs n hn)
      rw [hstep n hn s' h1]
      exact h2
  intro n hn
  refine ⟨key n hn, ?_⟩
  obtain ⟨s', h1, h2⟩ := rest_tick (VA := VA) (SA := SA) (b := b) ht (key n hn) (hs n hn)
  rw [h1, hstep n hn s' h1]

section
variable {e : Nat → Env δ ρ ρ'} {s : Nat → S δ σ τ} {M n l : Nat}

theorem injected_rest (hs : ∀ n, M ≤ n → Silent t (e n)) (hn : M ≤ n) (hl : t.Source l) :
    injected e l n = injected e l M := filterMap_upto hn fun k h1 _ => (hs k h1).1 l hl

theorem credited_rest (hs : ∀ n, M ≤ n → Silent t (e n)) (hn : M ≤ n) (hl : t.Sink l) :
    credited e l n = credited e l M := filterMap_upto hn fun k h1 _ => (hs k h1).2 l hl

theorem flitsAt_rest (hr : ∀ n, M ≤ n → Rests t (s n)) (hn : M ≤ n) (hl : l < t.links) :
    flitsAt s l (n + 1) = flitsAt s l (M + 1) :=
  filterMap_upto (by omega) fun k h1 _ => ((hr k (by omega)).2 l hl).2.2.1

theorem creditsAt_rest (hr : ∀ n, M ≤ n → Rests t (s n)) (hn : M ≤ n) (hl : l < t.links) :
    creditsAt s l (n + 1) = creditsAt s l (M + 1) :=
  filterMap_upto (by omega) fun k h1 _ => ((hr k (by omega)).2 l hl).2.2.2.2.2

theorem ticks_rest (ht : t.Wired) {va : Nat → σ} {sa : Nat → τ} (h : Ticks VA SA t b va sa M e s) (hr : Rests t (s M))
    (hs : ∀ n, M ≤ n → Silent t (e n))
    (hstep : ∀ n, M ≤ n → ∀ s', tick VA SA t b (e n) (s n) = .ok s' → s (n + 1) = s')
    {N : Nat} (hl : ∀ n < N, Legal t b (e n)) : Ticks VA SA t b va sa N e s := by
  have key := rest_on ht hr hs hstep
  have hr' : ∀ n, M ≤ n → Rests t (s n) := fun n hn => (key n hn).1
  refine ⟨h.start, hl, fun n hn => ?_, fun n hn => ?_⟩
  · by_cases hM : n ≤ M
    · exact h.nodes n hM
    · have hM : M ≤ n := by omega
      have := h.nodes M (Nat.le_refl _)
      refine ⟨fun l hl => ?_, fun l hl v => ?_, fun l hl v => ?_, fun l hl => ?_, fun l hl v => ?_⟩
      · rw [injected_rest hs hM hl]; exact this.vcs l hl
      · rw [injected_rest hs hM hl]; exact this.packets l hl v
      · rw [injected_rest hs hM hl, creditsAt_rest hr' hM hl.1]; exact this.space l hl v
      · rw [credited_rest hs hM hl]; exact this.credit l hl
      · rw [credited_rest hs hM hl, flitsAt_rest hr' hM hl.1]; exact this.credits l hl v
  · by_cases hM : n < M
    · exact h.step n hM
    · exact (key n (by omega)).2

end

end RadSim.Net
