import Verif.Spec.Network
import Verif.Props.Router

/-! # A network never fails -/

namespace RadSim.Net

open Router (R In Out Flit Hop Cfg upto received sent granted returned sentOn)
open Alloc (Holds Valid asked)
open Channel (Queue)

variable {δ σ τ ρ ρ' : Type}

/-! ## The loops and the wiring -/

theorem each_ok {ε α : Type} {d : α} {f : Nat → Except ε α} {n : Nat} {g : Nat → α} (h : each d f n = .ok g) :
    (∀ k < n, f k = .ok (g k)) ∧ ∀ k, n ≤ k → g k = d := by
  induction n generalizing g with
  | zero => cases h; exact ⟨by omega, fun _ _ => rfl⟩
  | succ n ih =>
    unfold each at h
    split at h
    · cases h
    · rename_i g' hg
      split at h
      · cases h
      · rename_i x hx
        cases h
        obtain ⟨h1, h2⟩ := ih hg
        refine ⟨fun k hk => ?_, fun k hk => ?_⟩
        · by_cases hkn : k = n
          · subst hkn; rw [hx]; simp
          · rw [h1 k (by omega)]; simp [upd_apply, hkn]
        · rw [upd_apply, if_neg (by omega)]; exact h2 k (by omega)

theorem each_exists {ε α : Type} {d : α} {f : Nat → Except ε α} {n : Nat} (h : ∀ k < n, ∃ x, f k = .ok x) :
    ∃ g, each d f n = .ok g := by
  induction n with
  | zero => exact ⟨_, rfl⟩
  | succ n ih =>
    obtain ⟨g, hg⟩ := ih fun k hk => h k (by omega)
    obtain ⟨x, hx⟩ := h n (by omega)
    exact ⟨upd g n x, by unfold each; rw [hg]; simp only [hx]⟩

theorem mem_ports {n : Nat} {p : Nat → Nat} {x : Nat × Nat} :
    x ∈ ((List.range n).flatMap fun r => (List.range (p r)).map (Prod.mk r)) ↔ x.1 < n ∧ x.2 < p x.1 := by
  obtain ⟨a, b⟩ := x
  simp only [List.mem_flatMap, List.mem_range, List.mem_map, Prod.mk.injEq]
  constructor
  · rintro ⟨r, hr, o, ho, rfl, rfl⟩; exact ⟨hr, ho⟩
  · rintro ⟨h1, h2⟩; exact ⟨a, h1, b, h2, rfl, rfl⟩

theorem driver_some {t : Topo} {l r o : Nat} (h : t.driver l = some (r, o)) :
    r < t.size ∧ o < t.outputs r ∧ t.outLink r o = l := by
  have h1 := List.find?_some h
  have h2 := mem_ports.1 (List.mem_of_find?_eq_some h)
  exact ⟨h2.1, h2.2, by simpa using h1⟩

theorem reader_some {t : Topo} {l r i : Nat} (h : t.reader l = some (r, i)) :
    r < t.size ∧ i < t.inputs r ∧ t.inLink r i = l := by
  have h1 := List.find?_some h
  have h2 := mem_ports.1 (List.mem_of_find?_eq_some h)
  exact ⟨h2.1, h2.2, by simpa using h1⟩

theorem driver_none {t : Topo} {l : Nat} (hl : l < t.links) : t.driver l = none ↔ t.Source l := by
  simp only [Topo.driver, List.find?_eq_none, Topo.Source]
  constructor
  · intro h
    refine ⟨hl, fun r hr o ho => ?_⟩
    simpa using h (r, o) (mem_ports.2 ⟨hr, ho⟩)
  · intro h x hx
    have := mem_ports.1 hx
    simpa using h.2 x.1 this.1 x.2 this.2

theorem reader_none {t : Topo} {l : Nat} (hl : l < t.links) : t.reader l = none ↔ t.Sink l := by
  simp only [Topo.reader, List.find?_eq_none, Topo.Sink]
  constructor
  · intro h
    refine ⟨hl, fun r hr o ho => ?_⟩
    simpa using h (r, o) (mem_ports.2 ⟨hr, ho⟩)
  · intro h x hx
    have := mem_ports.1 hx
    simpa using h.2 x.1 this.1 x.2 this.2

theorem driver_out {t : Topo} (ht : t.Wired) {r o : Nat} (hr : r < t.size) (ho : o < t.outputs r) :
    t.driver (t.outLink r o) = some (r, o) := by
  cases h : t.driver (t.outLink r o) with
  | none => exact absurd rfl (((driver_none (ht.outLt r hr o ho)).1 h).2 r hr o ho)
  | some x =>
    obtain ⟨r', o'⟩ := x
    obtain ⟨h1, h2, h3⟩ := driver_some h
    obtain ⟨rfl, rfl⟩ := ht.outInj r' h1 o' h2 r hr o ho h3
    rfl

theorem reader_in {t : Topo} (ht : t.Wired) {r i : Nat} (hr : r < t.size) (hi : i < t.inputs r) :
    t.reader (t.inLink r i) = some (r, i) := by
  cases h : t.reader (t.inLink r i) with
  | none => exact absurd rfl (((reader_none (ht.inLt r hr i hi)).1 h).2 r hr i hi)
  | some x =>
    obtain ⟨r', i'⟩ := x
    obtain ⟨h1, h2, h3⟩ := reader_some h
    obtain ⟨rfl, rfl⟩ := ht.inInj r' h1 i' h2 r hr i hi h3
    rfl

/-! ## Channels -/

theorem channel_tick {α : Type} {d now : Int} {x : Option α} {q q' : Queue α} {y : Option α}
    (h : Channel.tick d now x q = some (q', y)) : q.map Prod.snd ++ x.toList = y.toList ++ q'.map Prod.snd := by
  have hw : ∀ q : Queue α, q.map Prod.snd = (Channel.write now q).2.toList ++ (Channel.write now q).1.map Prod.snd := by
    intro q
    cases q with
    | nil => rfl
    | cons a q =>
      obtain ⟨t, a⟩ := a
      by_cases hc : now < t <;> simp [Channel.write, hc]
  unfold Channel.tick at h
  cases hr : Channel.read d now x q with
  | none => rw [hr] at h; cases h
  | some q1 =>
    rw [hr] at h
    simp only [Option.map_some, Option.some.injEq] at h
    have h1 := hw q1
    rw [h] at h1
    rw [← h1]
    unfold Channel.read at hr
    cases x with
    | none => cases hr; simp
    | some x =>
      simp only at hr
      split at hr
      · cases hr; simp
      · cases hr

theorem channel_exists {α : Type} {d now : Int} {x : Option α} {q : Queue α} (h : now + d ≤ Channel.intMax) :
    ∃ y, Channel.tick d now x q = some y := by
  unfold Channel.tick Channel.read
  cases x with
  | none => exact ⟨_, rfl⟩
  | some x => simp only; rw [if_pos h]; exact ⟨_, rfl⟩

/-- What has gone into a channel has come out, waits, or has just been put in. -/
theorem channel_hist {α : Type} {d : Int} {now : Nat → Int} {x y : Nat → Option α} {q : Nat → Queue α} {N : Nat}
    (hx : x 0 = none) (hy : y 0 = none) (hq : q 0 = [])
    (h : ∀ n < N, Channel.tick d (now n) (x n) (q n) = some (q (n + 1), y (n + 1))) :
    ∀ n ≤ N, (upto x (n + 1)).filterMap id =
      (upto y (n + 1)).filterMap id ++ (q n).map Prod.snd ++ (x n).toList := by
  have snoc : ∀ (z : Nat → Option α) n, (upto z (n + 1)).filterMap id = (upto z n).filterMap id ++ (z n).toList := by
    intro z n
    rw [Router.upto_succ, List.filterMap_append]
    cases hz : z n <;> simp
  intro n
  induction n with
  | zero => intro _; simp [upto, hx, hy, hq]
  | succ n ih =>
    intro hn
    rw [snoc x (n + 1), ih (by omega), snoc y (n + 1)]
    have := channel_tick (h n (by omega))
    rw [List.append_assoc (_ ++ _), List.append_assoc, ← List.append_assoc (List.map _ _), this]
    simp

/-! ## One tick -/

/-- What a router sees, and what it sends. -/
def insOf (t : Topo) (e : Nat → Env δ ρ ρ') (s : Nat → S δ σ τ) (r n : Nat) : In δ ρ ρ' := seen t (e n) (s n) r

def outOf (VA : Alloc.Cls σ ρ) (SA : Alloc.Cls τ ρ') (t : Topo) (b : Cfg) (e : Nat → Env δ ρ ρ') (s : Nat → S δ σ τ)
    (r n : Nat) : Out δ :=
  match Router.tick VA SA (t.cfg b r) (insOf t e s r n) ((s n).r r) with
  | .ok x => x.2
  | .error _ => ⟨fun _ => none, fun _ => none⟩

structure Step (VA : Alloc.Cls σ ρ) (SA : Alloc.Cls τ ρ') (t : Topo) (b : Cfg) (e : Nat → Env δ ρ ρ')
    (s : Nat → S δ σ τ) (n : Nat) : Prop where
  router : ∀ r < t.size, Router.tick VA SA (t.cfg b r) (insOf t e s r n) ((s n).r r) =
    .ok ((s (n + 1)).r r, outOf VA SA t b e s r n)
  flit : ∀ l < t.links, Channel.tick (t.flitDelay l) (e n).now ((s n).fIn l) ((s n).fQ l) =
    some ((s (n + 1)).fQ l, (s (n + 1)).fOut l)
  credit : ∀ l < t.links, Channel.tick (t.creditDelay l) (e n).now ((s n).cIn l) ((s n).cQ l) =
    some ((s (n + 1)).cQ l, (s (n + 1)).cOut l)
  driven : ∀ l < t.links, ∀ r o, t.driver l = some (r, o) → (s (n + 1)).fIn l = (outOf VA SA t b e s r n).flit o
  sourced : ∀ l < t.links, t.driver l = none → (s (n + 1)).fIn l = (e n).inject l
  returns : ∀ l < t.links, ∀ r i, t.reader l = some (r, i) → (s (n + 1)).cIn l = (outOf VA SA t b e s r n).credit i
  sunk : ∀ l < t.links, t.reader l = none → (s (n + 1)).cIn l = (e n).credit l

theorem stepChannel_ok {α : Type} {d now : Int} {x : Option α} {q : Queue α} {y : Queue α × Option α}
    (h : stepChannel d now x q = .ok y) : Channel.tick d now x q = some y := by
  unfold stepChannel at h
  split at h
  · cases h
  · cases h; assumption

theorem stepRouter_ok {VA : Alloc.Cls σ ρ} {SA : Alloc.Cls τ ρ'} {t : Topo} {b : Cfg} {e : Env δ ρ ρ'} {s : S δ σ τ}
    {r : Nat} {y : R δ σ τ × Out δ} (h : stepRouter VA SA t b e s r = .ok y) :
    Router.tick VA SA (t.cfg b r) (seen t e s r) (s.r r) = .ok y := by
  unfold stepRouter at h
  split at h
  · cases h
  · cases h; assumption

theorem step_of {VA : Alloc.Cls σ ρ} {SA : Alloc.Cls τ ρ'} {t : Topo} {b : Cfg} {e : Nat → Env δ ρ ρ'}
    {s : Nat → S δ σ τ} {n : Nat} (h : tick VA SA t b (e n) (s n) = .ok (s (n + 1))) : Step VA SA t b e s n := by
  unfold tick at h
  split at h
  · cases h
  · rename_i f hf
    split at h
    · cases h
    · rename_i c hc
      split at h
      · cases h
      · rename_i out hout
        simp only [Except.ok.injEq] at h
        obtain ⟨f1, _⟩ := each_ok hf
        obtain ⟨c1, _⟩ := each_ok hc
        obtain ⟨o1, _⟩ := each_ok hout
        have ho : ∀ r < t.size, (out r).2 = outOf VA SA t b e s r n := by
          intro r hr
          have := stepRouter_ok (o1 r hr)
          unfold outOf insOf
          rw [this]
        refine ⟨?_, ?_, ?_, ?_, ?_, ?_, ?_⟩
        · intro r hr
          rw [← h, ← ho r hr]
          exact stepRouter_ok (o1 r hr)
        · intro l hl
          rw [← h]
          exact stepChannel_ok (f1 l hl)
        · intro l hl
          rw [← h]
          exact stepChannel_ok (c1 l hl)
        · intro l hl r o hd
          rw [← h, ← ho r (driver_some hd).1]
          simp only [if_pos hl, sentFlit, hd]
        · intro l hl hd
          rw [← h]
          simp only [if_pos hl, sentFlit, hd]
        · intro l hl r i hd
          rw [← h, ← ho r (reader_some hd).1]
          simp only [if_pos hl, sentCredit, hd]
        · intro l hl hd
          rw [← h]
          simp only [if_pos hl, sentCredit, hd]

theorem tick_exists {VA : Alloc.Cls σ ρ} {SA : Alloc.Cls τ ρ'} {t : Topo} {b : Cfg} {e : Env δ ρ ρ'} {s : S δ σ τ}
    (hl : Legal t b e) (hr : ∀ r < t.size, ∃ y, Router.tick VA SA (t.cfg b r) (seen t e s r) (s.r r) = .ok y) :
    ∃ s', tick VA SA t b e s = .ok s' := by
  obtain ⟨f, hf⟩ := each_exists (d := (([], none) : Queue (Flit δ) × Option (Flit δ))) (n := t.links)
    (f := fun l => stepChannel (t.flitDelay l) e.now (s.fIn l) (s.fQ l)) fun l h => by
      obtain ⟨y, hy⟩ := channel_exists (x := s.fIn l) (q := s.fQ l) (hl.fits l h).1
      exact ⟨y, by unfold stepChannel; rw [hy]⟩
  obtain ⟨c, hc⟩ := each_exists (d := (([], none) : Queue (List Nat) × Option (List Nat))) (n := t.links)
    (f := fun l => stepChannel (t.creditDelay l) e.now (s.cIn l) (s.cQ l)) fun l h => by
      obtain ⟨y, hy⟩ := channel_exists (x := s.cIn l) (q := s.cQ l) (hl.fits l h).2
      exact ⟨y, by unfold stepChannel; rw [hy]⟩
  obtain ⟨o, ho⟩ := each_exists (d := ((s.r 0, ⟨fun _ => none, fun _ => none⟩) : R δ σ τ × Out δ)) (n := t.size)
    (f := stepRouter VA SA t b e s) fun r h => by
      obtain ⟨y, hy⟩ := hr r h
      exact ⟨y, by unfold stepRouter; rw [hy]⟩
  unfold tick
  rw [hf]
  simp only
  rw [hc]
  simp only
  rw [ho]
  exact ⟨_, rfl⟩

/-! ## Histories of links -/

/-- The flits that have been sent on a link when `n` ticks are over, and the credits. -/
def entered (s : Nat → S δ σ τ) (l n : Nat) : List (Flit δ) := (upto s (n + 1)).filterMap fun x => x.fIn l

def backed (s : Nat → S δ σ τ) (l n : Nat) : List (List Nat) := (upto s (n + 1)).filterMap fun x => x.cIn l

theorem upto_map {α β : Type} (f : Nat → α) (g : α → β) (n : Nat) : (upto f n).map g = upto (fun m => g (f m)) n := by
  simp [upto]

theorem filterMap_snoc {α β : Type} (f : Nat → α) (g : α → Option β) (n : Nat) :
    (upto f (n + 1)).filterMap g = (upto f n).filterMap g ++ (g (f n)).toList := by
  rw [Router.upto_succ, List.filterMap_append]
  cases hz : g (f n) <;> simp [hz]

theorem filterMap_id {α β : Type} (f : Nat → α) (g : α → Option β) (n : Nat) :
    (upto (fun m => g (f m)) n).filterMap id = (upto f n).filterMap g := by
  rw [← upto_map, List.filterMap_map]; rfl

theorem filterMap_congr_upto {α α' β : Type} {f : Nat → α} {f' : Nat → α'} {g : α → Option β} {g' : α' → Option β} {n : Nat}
    (h : ∀ m < n, g (f m) = g' (f' m)) : (upto f n).filterMap g = (upto f' n).filterMap g' := by
  induction n with
  | zero => rfl
  | succ n ih => rw [filterMap_snoc, filterMap_snoc, ih fun m hm => h m (by omega), h n (by omega)]

/-- A shifted history. -/
theorem filterMap_shift {α β : Type} {f : Nat → α} {g : α → Option β} (h : g (f 0) = none) (n : Nat) :
    (upto f (n + 1)).filterMap g = (upto (fun m => f (m + 1)) n).filterMap g := by
  induction n with
  | zero => simp [upto, h]
  | succ n ih => rw [filterMap_snoc, ih, filterMap_snoc]

section run
variable {VA : Alloc.Cls σ ρ} {SA : Alloc.Cls τ ρ'} {t : Topo} {b : Cfg} {va : Nat → σ} {sa : Nat → τ} {N : Nat}
  {e : Nat → Env δ ρ ρ'} {s : Nat → S δ σ τ}

theorem Ticks.steps (h : Ticks VA SA t b va sa N e s) {n : Nat} (hn : n < N) : Step VA SA t b e s n := step_of (h.step n hn)

theorem Ticks.flits (h : Ticks VA SA t b va sa N e s) {n l : Nat} (hn : n ≤ N) (hl : l < t.links) :
    entered s l n = flitsAt s l (n + 1) ++ ((s n).fQ l).map Prod.snd ++ ((s n).fIn l).toList := by
  have := channel_hist (x := fun m => (s m).fIn l) (y := fun m => (s m).fOut l) (q := fun m => (s m).fQ l)
    (now := fun m => (e m).now) (d := t.flitDelay l) (N := N) (by simp [h.start, S.init]) (by simp [h.start, S.init])
    (by simp [h.start, S.init]) (fun m hm => (h.steps hm).flit l hl) n hn
  rw [filterMap_id s (fun x => x.fIn l), filterMap_id s (fun x => x.fOut l)] at this
  exact this

theorem Ticks.backs (h : Ticks VA SA t b va sa N e s) {n l : Nat} (hn : n ≤ N) (hl : l < t.links) :
    backed s l n = creditsAt s l (n + 1) ++ ((s n).cQ l).map Prod.snd ++ ((s n).cIn l).toList := by
  have := channel_hist (x := fun m => (s m).cIn l) (y := fun m => (s m).cOut l) (q := fun m => (s m).cQ l)
    (now := fun m => (e m).now) (d := t.creditDelay l) (N := N) (by simp [h.start, S.init]) (by simp [h.start, S.init])
    (by simp [h.start, S.init]) (fun m hm => (h.steps hm).credit l hl) n hn
  rw [filterMap_id s (fun x => x.cIn l), filterMap_id s (fun x => x.cOut l)] at this
  exact this

theorem Ticks.entered_driven (h : Ticks VA SA t b va sa N e s) {n l r o : Nat} (hn : n ≤ N) (hl : l < t.links)
    (hd : t.driver l = some (r, o)) : entered s l n = sent (upto (outOf VA SA t b e s r) n) o := by
  unfold entered sent
  rw [filterMap_shift (by simp [h.start, S.init])]
  exact filterMap_congr_upto fun m hm => (h.steps (by omega)).driven l hl r o hd

theorem Ticks.entered_source (h : Ticks VA SA t b va sa N e s) {n l : Nat} (hn : n ≤ N) (hl : t.Source l) :
    entered s l n = injected e l n := by
  unfold entered injected
  rw [filterMap_shift (by simp [h.start, S.init])]
  exact filterMap_congr_upto fun m hm => (h.steps (by omega)).sourced l hl.1 ((driver_none hl.1).2 hl)

theorem Ticks.backed_read (h : Ticks VA SA t b va sa N e s) {n l r i : Nat} (hn : n ≤ N) (hl : l < t.links)
    (hd : t.reader l = some (r, i)) : backed s l n = (upto (outOf VA SA t b e s r) n).filterMap fun x => x.credit i := by
  unfold backed
  rw [filterMap_shift (by simp [h.start, S.init])]
  exact filterMap_congr_upto fun m hm => (h.steps (by omega)).returns l hl r i hd

theorem Ticks.backed_sink (h : Ticks VA SA t b va sa N e s) {n l : Nat} (hn : n ≤ N) (hl : t.Sink l) :
    backed s l n = credited e l n := by
  unfold backed credited
  rw [filterMap_shift (by simp [h.start, S.init])]
  exact filterMap_congr_upto fun m hm => (h.steps (by omega)).sunk l hl.1 ((reader_none hl.1).2 hl)

theorem filterMap_filter {α β : Type} (l : List α) (f : α → Option β) (p : β → Bool) :
    l.filterMap (fun x => (f x).filter p) = (l.filterMap f).filter p := by
  rw [List.filter_filterMap]

theorem received_eq {r i v n : Nat} (hi : i < t.inputs r) :
    received (upto (insOf t e s r) n) i v = onVc (flitsAt s (t.inLink r i) n) v := by
  unfold received onVc flitsAt
  rw [filterMap_filter (f := fun x : In δ ρ ρ' => x.flit i)]
  congr 1
  exact filterMap_congr_upto fun m _ => by simp [insOf, seen, hi]

theorem received_none {r i v n : Nat} (hi : ¬ i < t.inputs r) : received (upto (insOf t e s r) n) i v = [] := by
  unfold received
  rw [filterMap_filter (f := fun x : In δ ρ ρ' => x.flit i)]
  have : (upto (insOf t e s r) n).filterMap (fun x => x.flit i) = [] := by
    rw [List.filterMap_eq_nil_iff]
    intro x hx
    obtain ⟨m, _, rfl⟩ := Router.upto_mem.1 hx
    simp [insOf, seen, hi]
  rw [this]; rfl

theorem granted_eq {r o u n : Nat} (ho : o < t.outputs r) :
    granted (upto (insOf t e s r) n) o u = (creditsAt s (t.outLink r o) n).flatten.count u := by
  unfold granted creditsAt
  congr 2
  exact filterMap_congr_upto fun m _ => by simp [insOf, seen, ho]

theorem granted_none {r o u n : Nat} (ho : ¬ o < t.outputs r) : granted (upto (insOf t e s r) n) o u = 0 := by
  unfold granted
  have : (upto (insOf t e s r) n).filterMap (fun x => x.credit o) = [] := by
    rw [List.filterMap_eq_nil_iff]
    intro x hx
    obtain ⟨m, _, rfl⟩ := Router.upto_mem.1 hx
    simp [insOf, seen, ho]
  rw [this]; rfl

theorem flitsAt_prefix (h : Ticks VA SA t b va sa N e s) {n l : Nat} (hn : n ≤ N) (hl : l < t.links) :
    flitsAt s l (n + 1) <+: entered s l n := ⟨_, by rw [h.flits hn hl, List.append_assoc]⟩

theorem creditsAt_prefix (h : Ticks VA SA t b va sa N e s) {n l : Nat} (hn : n ≤ N) (hl : l < t.links) :
    creditsAt s l (n + 1) <+: backed s l n := ⟨_, by rw [h.backs hn hl, List.append_assoc]⟩

theorem flitsAt_succ (s : Nat → S δ σ τ) (l n : Nat) : flitsAt s l (n + 1) = flitsAt s l n ++ ((s n).fOut l).toList :=
  filterMap_snoc _ _ _

theorem creditsAt_succ (s : Nat → S δ σ τ) (l n : Nat) : creditsAt s l (n + 1) = creditsAt s l n ++ ((s n).cOut l).toList :=
  filterMap_snoc _ _ _

theorem count_flatten_prefix {a c : List (List Nat)} (h : a <+: c) (v : Nat) : a.flatten.count v ≤ c.flatten.count v := by
  obtain ⟨d, rfl⟩ := h
  simp

/-! ## The agreement on every link -/

/-- What the two ends of a link rely on. -/
structure Agreed (b : Cfg) (s : Nat → S δ σ τ) (l n : Nat) : Prop where
  vcs : ∀ f ∈ entered s l n, f.vc < b.vcs
  packets : ∀ v, Packets Flit.head Flit.tail Flit.pid (onVc (entered s l n) v)
  space : ∀ v, ((onVc (entered s l n) v).length : Int) ≤ b.buf.perVc + (creditsAt s l (n + 1)).flatten.count v
  credit : ∀ c ∈ backed s l n, c.Nodup ∧ ∀ v ∈ c, v < b.vcs
  credits : ∀ v, (backed s l n).flatten.count v ≤ (onVc (flitsAt s l (n + 1)) v).length

/-- The routers have had their part. -/
def Runs (VA : Alloc.Cls σ ρ) (SA : Alloc.Cls τ ρ') (t : Topo) (b : Cfg) (va : Nat → σ) (sa : Nat → τ)
    (e : Nat → Env δ ρ ρ') (s : Nat → S δ σ τ) (n : Nat) : Prop :=
  ∀ r < t.size, Router.Run VA SA (t.cfg b r) (va r) (sa r) (upto (insOf t e s r) n) (upto (outOf VA SA t b e s r) n)
    ((s n).r r)

theorem Cfg_ok {b : Cfg} (hb : b.Ok) (t : Topo) (r : Nat) : (t.cfg b r).Ok :=
  ⟨hb.buf, hb.tail, hb.outSize, hb.route, hb.va, hb.sa, hb.xb⟩

theorem agreed (hb : b.Ok) (ha : Allocs VA SA t b va sa) (h : Ticks VA SA t b va sa N e s)
    {n : Nat} (hn : n ≤ N) (hr : Runs VA SA t b va sa e s n) {l : Nat} (hl : l < t.links) : Agreed b s l n := by
  have hnod := h.nodes n hn
  have hin : (∀ f ∈ entered s l n, f.vc < b.vcs) ∧
      (∀ v, Packets Flit.head Flit.tail Flit.pid (onVc (entered s l n) v)) ∧
      ∀ v, ((onVc (entered s l n) v).length : Int) ≤ b.buf.perVc + (creditsAt s l (n + 1)).flatten.count v := by
    cases hd : t.driver l with
    | none =>
      have hs := (driver_none hl).1 hd
      rw [h.entered_source hn hs]
      exact ⟨hnod.vcs l hs, hnod.packets l hs, hnod.space l hs⟩
    | some x =>
      obtain ⟨r, o⟩ := x
      obtain ⟨h1, h2, rfl⟩ := driver_some hd
      rw [h.entered_driven hn hl hd]
      obtain ⟨k1, k2, k3⟩ := Router.C73_router_respects_credits (Cfg_ok hb t r) (ha.va r h1) (ha.sa r h1) (hr r h1)
      refine ⟨fun f hf => (k1 o f hf).2, fun v => k3 o v, fun v => ?_⟩
      have := k2 o v
      rw [granted_eq h2] at this
      rw [creditsAt_succ, List.flatten_append, List.count_append]
      unfold sentOn at this
      unfold onVc
      change _ ≤ b.buf.perVc + _ at this
      push_cast
      omega
  have hout : (∀ c ∈ backed s l n, c.Nodup ∧ ∀ v ∈ c, v < b.vcs) ∧
      ∀ v, (backed s l n).flatten.count v ≤ (onVc (flitsAt s l (n + 1)) v).length := by
    cases hd : t.reader l with
    | none =>
      have hs := (reader_none hl).1 hd
      rw [h.backed_sink hn hs]
      exact ⟨hnod.credit l hs, hnod.credits l hs⟩
    | some x =>
      obtain ⟨r, i⟩ := x
      obtain ⟨h1, h2, rfl⟩ := reader_some hd
      rw [h.backed_read hn hl hd]
      obtain ⟨k1, k2⟩ := Router.C74_router_credits (Cfg_ok hb t r) (ha.va r h1) (ha.sa r h1) (hr r h1)
      refine ⟨fun c hc => ?_, fun v => ?_⟩
      · obtain ⟨x, hx, hc⟩ := List.mem_filterMap.1 hc
        exact ⟨(k1 x hx i c hc).2.2.1, (k1 x hx i c hc).2.2.2⟩
      · have := k2 i v
        rw [received_eq h2] at this
        unfold returned at this
        rw [flitsAt_succ]
        unfold onVc at this ⊢
        rw [List.filter_append, List.length_append]
        omega
  exact ⟨hin.1, hin.2.1, hin.2.2, hout.1, hout.2⟩

/-- Then every router finds what it expects. -/
theorem admits (ht : t.Wired) (hb : b.Ok) (ha : Allocs VA SA t b va sa) (h : Ticks VA SA t b va sa N e s)
    {n : Nat} (hn : n ≤ N) (hr : Runs VA SA t b va sa e s n) (hl : Legal t b (e n)) {r : Nat} (hrs : r < t.size) :
    Router.Admits (t.cfg b r) (upto (insOf t e s r) n) (upto (outOf VA SA t b e s r) n) (insOf t e s r n) where
  port i f hf := by
    simp only [insOf, seen] at hf
    split at hf
    · rename_i hi
      have hli := ht.inLt r hrs i hi
      refine ⟨hi, (agreed hb ha h hn hr hli).vcs f ?_⟩
      refine (flitsAt_prefix h hn hli).subset ?_
      rw [flitsAt_succ, hf]; simp
    · cases hf
  packets i v := by
    rw [← Router.upto_succ]
    by_cases hi : i < t.inputs r
    · have hli := ht.inLt r hrs i hi
      rw [received_eq hi]
      obtain ⟨d, hd⟩ := (flitsAt_prefix h hn hli).filter (fun f => decide (f.vc = v))
      have := (agreed hb ha h hn hr hli).packets v
      unfold onVc at this ⊢
      rw [← hd] at this
      exact packets_prefix this
    · rw [received_none hi]; exact packets_nil
  space i v := by
    rw [← Router.upto_succ]
    have hp := hb.buf.perVc_pos
    change _ ≤ b.buf.perVc + _
    by_cases hi : i < t.inputs r
    · have hli := ht.inLt r hrs i hi
      rw [received_eq hi]
      have h1 := ((flitsAt_prefix h hn hli).filter (fun f => decide (f.vc = v))).length_le
      have h2 := (agreed hb ha h hn hr hli).space v
      have h3 := count_flatten_prefix (creditsAt_prefix h hn hli) v
      rw [h.backed_read hn hli (reader_in ht hrs hi)] at h3
      unfold returned
      unfold onVc at h2 ⊢
      omega
    · rw [received_none hi]
      simp only [List.length_nil]
      omega
  credit o c hc := by
    simp only [insOf, seen] at hc
    split at hc
    · rename_i ho
      have hlo := ht.outLt r hrs o ho
      refine ⟨ho, (agreed hb ha h hn hr hlo).credit c ?_⟩
      refine (creditsAt_prefix h hn hlo).subset ?_
      rw [creditsAt_succ, hc]; simp
    · cases hc
  credits o u := by
    rw [← Router.upto_succ]
    by_cases ho : o < t.outputs r
    · have hlo := ht.outLt r hrs o ho
      rw [granted_eq ho]
      have h1 := count_flatten_prefix (creditsAt_prefix h hn hlo) u
      have h2 := (agreed hb ha h hn hr hlo).credits u
      have h3 := ((flitsAt_prefix h hn hlo).filter (fun f => decide (f.vc = u))).length_le
      rw [h.entered_driven hn hlo (driver_out ht hrs ho)] at h3
      unfold onVc at h2
      omega
    · rw [granted_none ho]; exact Nat.zero_le _
  offers i f p hp := hl.offers r hrs i f p hp
  once i f := hl.once r hrs i f
  time := hl.time

theorem runs (ht : t.Wired) (hb : b.Ok) (ha : Allocs VA SA t b va sa) (h : Ticks VA SA t b va sa N e s) :
    ∀ n ≤ N, Runs VA SA t b va sa e s n := by
  intro n
  induction n with
  | zero =>
    intro _ r _
    rw [h.start]
    exact .start
  | succ n ih =>
    intro hn r hr
    have h1 := ih (by omega)
    rw [Router.upto_succ, Router.upto_succ]
    exact .step (h1 r hr) (admits ht hb ha h (by omega) h1 (h.legal n (by omega)) hr) ((h.steps (by omega)).router r hr)

/-- Every router of a network has a run. -/
theorem routerTicks (ht : t.Wired) (hb : b.Ok) (ha : Allocs VA SA t b va sa) (h : Ticks VA SA t b va sa N e s) {r : Nat}
    (hr : r < t.size) : Router.Ticks VA SA (t.cfg b r) (va r) (sa r) N (insOf t e s r) (outOf VA SA t b e s r)
      fun n => (s n).r r where
  start := by rw [h.start]; rfl
  admits n hn := admits ht hb ha h (by omega) (runs ht hb ha h n (by omega)) (h.legal n hn) hr
  step n hn := (h.steps hn).router r hr

theorem never_fails (ht : t.Wired) (hb : b.Ok) (ha : Allocs VA SA t b va sa) (h : Ticks VA SA t b va sa N e s)
    (hl : Legal t b (e N)) : ∃ s', tick VA SA t b (e N) (s N) = .ok s' := by
  have h1 := runs ht hb ha h N (Nat.le_refl _)
  refine tick_exists hl fun r hr => ?_
  obtain ⟨s', o, h2⟩ := Router.C71_router_never_fails (Cfg_ok hb t r) (ha.va r hr) (ha.sa r hr) (h1 r hr)
    (admits ht hb ha h (Nat.le_refl _) h1 hl hr)
  exact ⟨_, h2⟩

end run

end RadSim.Net
