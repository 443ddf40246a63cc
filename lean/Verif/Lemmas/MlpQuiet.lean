import Verif.Lemmas.MlpReady
import Verif.Lemmas.MvmRest
import Verif.Lemmas.AddLive

/-! # Periods in which the modules of the design `mlp` send and get nothing -/

namespace RadSim.Mlp

open AddDesign (Fifo FifoErr SEdge MEdge until_edge)
open AxisNoc (In SlaveEdge MasterEdge Offered)
open Net (mesh Allocs each each_ok)

variable {σ τ ρ ρ' : Type} {VA : Alloc.Cls σ ρ} {SA : Alloc.Cls τ ρ'} {d : Params} {va : Nat → σ} {sa : Nat → τ} {t : Nat → Tick ρ ρ'}
  {rng : Nat → Nat × Nat} {n N n₀ J K L : Nat}

/-- The module edges in `e` periods from period `m` on. -/
def edges (t : Nat → Tick ρ ρ') : Nat → Nat → Nat
  | _, 0 => 0
  | m, e + 1 => (if (t m).edge then 1 else 0) + edges t (m + 1) e

theorem edges_add (m : Nat) : ∀ a b, edges t m (a + b) = edges t m a + edges t (m + a) b := by
  intro a
  induction a generalizing m with
  | zero => intro b; simp [edges]
  | succ a ih =>
    intro b
    rw [show a + 1 + b = a + b + 1 by omega, edges, edges, ih, show m + 1 + a = m + (a + 1) by omega]
    omega

theorem edges_pos : ∀ {J m : Nat}, (∃ k, m ≤ k ∧ k < m + J ∧ (t k).edge = true) → 1 ≤ edges t m J
  | 0, m, ⟨k, h1, h2, _⟩ => by omega
  | J + 1, m, ⟨k, h1, h2, h3⟩ => by
    rw [edges]
    by_cases hk : k = m
    · subst hk
      rw [h3]
      simp
    · have := edges_pos (J := J) (m := m + 1) ⟨k, by omega, by omega, h3⟩
      omega

theorem edges_many (h : ∀ k, n₀ ≤ k → k + J ≤ N → ∃ k', k ≤ k' ∧ k' < k + J ∧ (t k').edge = true) :
    ∀ (W : Nat) {m : Nat}, n₀ ≤ m → m + W * J ≤ N → W ≤ edges t m (W * J)
  | 0, _, _, _ => Nat.zero_le _
  | W + 1, m, h1, h2 => by
    rw [Nat.add_mul, Nat.one_mul] at h2 ⊢
    have h3 := edges_many h W h1 (by omega)
    have h4 := edges_pos (h (m + W * J) (by omega) (by omega))
    rw [edges_add]
    omega

theorem edges_eq : ∀ (e : Nat) {m : Nat}, (List.range e).countP (fun k => (t (m + k)).edge) = edges t m e
  | 0, _ => rfl
  | e + 1, m => by
    rw [edges_add (b := 1), List.range_succ, List.countP_append, List.countP_singleton, edges_eq e]
    rfl

/-- The modules in a period with an edge. -/
theorem step_modules {x y : Sys σ τ} {tk : Tick ρ ρ'} (h : step VA SA d tk x = .ok y) (he : tk.edge = true) (hd : tk.drive = tk.edge) :
    (∀ m < d.D.mvms 0, dispTick d.q.fifoSize d.D.dim (x.feed m) (took x.noc y.noc (d.node (.disp m))) (x.disp m) = .ok (y.disp m) ∧
      y.feed m = (x.feed m).tick (d.lines m) (dispRdy (x.disp m))) ∧
    ∀ l < d.D.layers, ∀ m < d.D.mvms l, mvmStep d tk x y.noc l m = .ok (y.mvm l m) := by
  unfold step at h
  split at h
  · cases h
  · dsimp only at h
    rw [if_pos he] at h
    split at h
    · cases h
    · rename_i hm
      cases h
      unfold modules at hm
      split at hm
      · cases hm
      · rename_i h1
        split at hm
        · cases hm
        · rename_i h2
          split at hm
          · cases hm
          · cases hm
            refine ⟨fun m hm => ⟨?_, ?_⟩, fun l hl m hm => (each_ok ((each_ok h2).1 l hl)).1 m hm⟩
            · have := (each_ok h1).1 m hm
              dsimp only
              generalize dispTick d.q.fifoSize d.D.dim (x.feed m) _ (x.disp m) = z at this ⊢
              cases z with
              | error e => cases this
              | ok f => exact congrArg _ (Except.ok.inj this)
            · dsimp only
              rw [hd, he]
              rfl

/-- The modules in a period without an edge. -/
theorem step_still {x y : Sys σ τ} {tk : Tick ρ ρ'} (h : step VA SA d tk x = .ok y) (he : tk.edge = false) (hd : tk.drive = tk.edge) :
    y.feed = x.feed ∧ y.disp = x.disp ∧ y.mvm = x.mvm := by
  unfold step at h
  split at h
  · cases h
  · dsimp only at h
    rw [if_neg (by simp [he])] at h
    cases h
    rw [hd, he]
    exact ⟨rfl, rfl, rfl⟩

/-- An edge at which a matrix vector multiplier gets and sends nothing. -/
theorem mvm_quiet (hw : Works d rng) {l m : Nat} (hl : l < d.D.layers) (hm : m < d.D.mvms l) {x y : Sys σ τ} {tk : Tick ρ ρ'} {h : Seen}
    {r : Ref} {p f : List Out} (I : Follows (d.D.mvm d.q l m) h (x.mvm l m) r p [] f) (R : Right d.D l m h.ins h.reds)
    (hs : mvmStep d tk x y.noc l m = .ok (y.mvm l m)) (hgot : y.noc.got (d.node (.mvm l m)) = x.noc.got (d.node (.mvm l m)))
    (hin : readies d x (d.node (.mvm l m)) 0 = true → shown x.noc (d.node (.mvm l m)) = none) :
    ∃ r' q' f', Follows (d.D.mvm d.q l m) h (y.mvm l m) r' p q' f' ∧
      (q' = [] → Pass (d.D.mvm d.q l m) (x.mvm l m) r (y.mvm l m) r') := by
  have hb := (hw.apart (d.node (.mvm l m)) (.mvm l m)).2 ⟨⟨hl, hm⟩, rfl⟩
  have hre : readies d x (d.node (.mvm l m)) 0 = (x.mvm l m).wire.rxReady := by
    unfold readies
    rw [hb]
    simp
  have htk : took x.noc y.noc (d.node (.mvm l m)) = false := by
    unfold took
    rw [hgot]
    simp
  obtain ⟨room, hcalm⟩ := I.calm
  have hreg := (settle_same (room' := false) hcalm).2.1
  obtain ⟨I', hu', hrx, htx⟩ := I.settle false
  unfold mvmStep at hs
  dsimp only at hs
  rw [htk] at hs
  generalize settle (d.D.mvm d.q l m) false (x.mvm l m) (x.mvm l m) = s at I' hu' hrx htx hs hreg
  generalize hcy : (⟨match shown x.noc (d.node (.mvm l m)) with
      | some o => ⟨true, unpack d.D.dim o.tdata⟩
      | none => ⟨false, []⟩, match shown y.noc (d.node (.mvm l m)) with
      | some o => o.tuser.toNat
      | none => s.rxUser, tk.room (d.node (.mvm l m)), tk.later (d.node (.mvm l m))⟩ : Cycle) = cy at hs
  rw [Bool.and_false] at htx
  have hno : (cy.rx.valid && s.wire.rxReady) = false := by
    rw [hrx, ← hre]
    cases hr : readies d x (d.node (.mvm l m)) 0 with
    | false => simp
    | true =>
      rw [← hcy, hin hr]
      rfl
  have hadd : h.add s cy = h := by
    unfold Seen.add
    rw [hno, htx, Bool.and_false]
    simp
  obtain ⟨s', r', f', hc, I'', ⟨a, b, ha, hb', hn⟩, -, hbk, hfr⟩ := cycle_follows (hw.ok.fits hl hm) I' cy ((hw.ok.job hl).sound _ _)
    (fun r hr => by rw [hadd] at hr; exact R.shows hw.ok (golden_shows hw) hl hm hr)
  rw [hc] at hs
  have hs : s' = y.mvm l m := Except.ok.inj hs
  subst hs
  rw [hadd] at I'' ha hb'
  rw [htx] at I''
  have ea : a = [] := by simpa using ha.symm
  have eb : b = [] := by simpa using hb'.symm
  subst ea eb
  have em : r.more [] [] = r := by
    unfold Ref.more
    simp
  rw [em] at hn
  simp only [Bool.false_eq_true, if_false, List.append_nil, List.nil_append] at I''
  refine ⟨_, _, _, I'', fun hq => ⟨?_, by rw [← hreg]; exact hq, by rw [← hreg]; exact hbk, by rw [← hreg]; exact hfr⟩⟩
  rcases hn with hn | ⟨e1, e2, e3, e4⟩
  · exact .inl hn
  · refine .inr ⟨e1, e2, e3, fun hab => e4 ⟨?_, ?_⟩⟩
    · have := hw.ok.fifo
      simp only [List.length_nil, Mvm.outCfg, Design.mvm]
      omega
    · unfold Able at hab ⊢
      rw [hreg]
      exact hab

/-- Periods in which nothing is sent, nothing arrives, and nothing is offered. -/
structure Quiet (VA : Alloc.Cls σ ρ) (SA : Alloc.Cls τ ρ') (d : Params) (va : Nat → σ) (sa : Nat → τ) (t : Nat → Tick ρ ρ')
    (n L : Nat) : Prop where
  good : ∀ m, n ≤ m → m ≤ n + L → Good VA SA d va sa t m
  paced : ∀ m, n ≤ m → m < n + L → Paced d (t m)
  got : ∀ m, n ≤ m → m ≤ n + L → ∀ b, d.D.Has b → (xs VA SA d va sa t m).noc.got (d.node b) = (xs VA SA d va sa t n).noc.got (d.node b)
  none : ∀ m, n ≤ m → m < n + L → (t m).edge = true → ∀ b, d.D.Has b →
    (readies d (xs VA SA d va sa t m) (d.node b) 0 = true → shown (xs VA SA d va sa t m).noc (d.node b) = none) ∧
    offers d (xs VA SA d va sa t m) (d.node b) 0 = none

/-- A module that offers nothing has nothing to send. -/
theorem offers_mvm (hw : Works d rng) {l m : Nat} (hl : l < d.D.layers) (hm : m < d.D.mvms l) {x : Sys σ τ} {h : Seen} {r : Ref}
    {p q f : List Out} (I : Follows (d.D.mvm d.q l m) h (x.mvm l m) r p q f) (hno : offers d x (d.node (.mvm l m)) 0 = none) : q = [] := by
  have hb := (hw.apart (d.node (.mvm l m)) (.mvm l m)).2 ⟨⟨hl, hm⟩, rfl⟩
  have h1 := (I.shows (hw.ok.fits hl hm)).1
  unfold offers at hno
  rw [if_pos rfl, hb] at hno
  dsimp only at hno
  split at hno
  · cases hno
  · rename_i hv
    rw [h1] at hv
    cases q with
    | nil => rfl
    | cons _ _ => simp at hv

/-- A matrix vector multiplier in such periods. -/
theorem Quiet.rests (hw : Works d rng) (Q : Quiet VA SA d va sa t n L) {l m : Nat} (hl : l < d.D.layers) (hm : m < d.D.mvms l)
    {h : Seen} {p : List Out} (R : Right d.D l m h.ins h.reds) : ∀ (e : Nat) {a W : Nat} {r : Ref} {q f : List Out}, n ≤ a → a + e ≤ n + L →
      Follows (d.D.mvm d.q l m) h ((xs VA SA d va sa t a).mvm l m) r p q f → W + 1 ≤ edges t a e →
      Rests (d.D.mvm d.q l m) h p W ((xs VA SA d va sa t a).mvm l m) r f
  | 0, a, W, r, q, f, _, _, _, hW => by simp [edges] at hW
  | e + 1, a, W, r, q, f, h1, h2, I, hW => by
    rw [edges] at hW
    have hst := (Q.good a h1 (by omega)).next (Q.good (a + 1) (by omega) (by omega))
    have hp := (Q.paced a h1 (by omega)).drive
    cases he : (t a).edge with
    | false =>
      rw [he] at hW
      have e1 := congrFun (congrFun (step_still hst he hp).2.2 l) m
      rw [← e1] at I ⊢
      exact Quiet.rests hw Q hl hm R e (by omega) (by omega) I (by simpa using hW)
    | true =>
      rw [he, if_pos rfl] at hW
      obtain ⟨h3, h4⟩ := Q.none a h1 (by omega) he (.mvm l m) ⟨hl, hm⟩
      have hq := offers_mvm hw hl hm I h4
      subst hq
      cases W with
      | zero => exact I
      | succ W =>
        refine ⟨I, ?_⟩
        obtain ⟨r', q', f', I', hP⟩ := mvm_quiet hw hl hm I R ((step_modules hst he hp).2 l hl m hm)
          (by rw [Q.got a h1 (by omega) (.mvm l m) ⟨hl, hm⟩, Q.got (a + 1) (by omega) (by omega) (.mvm l m) ⟨hl, hm⟩]) h3
        have hR := Quiet.rests hw Q hl hm R e (W := W) (by omega) (by omega) I' (by omega)
        have hq' : q' = [] := by
          have e1 := hR.follows.out
          rw [I'.out] at e1
          have := congrArg List.length e1
          simp only [List.length_append, List.length_nil] at this
          exact List.length_eq_zero_iff.1 (by omega)
        exact ⟨_, r', f', hP hq', hR⟩

/-- A dispatcher that offers nothing is empty. -/
theorem offers_disp (hw : Works d rng) {m : Nat} (hm : m < d.D.mvms 0) {x : Sys σ τ} {sent : List Vec}
    (hf : Feeds d.q.fifoSize (d.lines m) (x.feed m) (x.disp m) sent) (hno : offers d x (d.node (.disp m)) 0 = none) : (x.disp m).mem = [] := by
  unfold offers at hno
  rw [if_pos rfl, (hw.apart (d.node (.disp m)) (.disp m)).2 ⟨hm, rfl⟩] at hno
  rw [Option.map_eq_none_iff, hf.offer (hw.first hm)] at hno
  exact List.head?_eq_none_iff.1 hno

/-- A dispatcher in such periods has sent all lines. -/
theorem Quiet.feeds (hw : Works d rng) (Q : Quiet VA SA d va sa t n L) (hL : 3 * J ≤ L)
    (hex : ∀ k, n ≤ k → k + J ≤ n + L → ∃ k', k ≤ k' ∧ k' < k + J ∧ (t k').edge = true) {m : Nat} (hm : m < d.D.mvms 0) :
    (xs VA SA d va sa t n).noc.got (d.node (.disp m)) = (d.lines m).map (dispTxn d m) := by
  have hsz := hw.size
  -- at an edge
  have hE : ∀ k, n ≤ k → k < n + L → (t k).edge = true → ((xs VA SA d va sa t k).disp m).mem = [] ∧
      ((xs VA SA d va sa t (k + 1)).disp m).mem =
        (if ((xs VA SA d va sa t k).feed m).wen then [((xs VA SA d va sa t k).feed m).wdata] else []) ∧
      (xs VA SA d va sa t (k + 1)).feed m = ((xs VA SA d va sa t k).feed m).tick (d.lines m) true := by
    intro k k1 k2 he
    obtain ⟨sent, hf, -⟩ := (Q.good k k1 (by omega)).disp m hm
    have hmem := offers_disp hw hm hf (Q.none k k1 k2 he (.disp m) hm).2
    obtain ⟨h1, h2⟩ := (step_modules ((Q.good k k1 (by omega)).next (Q.good (k + 1) (by omega) (by omega))) he
      (Q.paced k k1 k2).drive).1 m hm
    have htk : took (xs VA SA d va sa t k).noc (xs VA SA d va sa t (k + 1)).noc (d.node (.disp m)) = false := by
      unfold took
      rw [Q.got k k1 (by omega) (.disp m) hm, Q.got (k + 1) (by omega) (by omega) (.disp m) hm]
      simp
    rw [htk] at h1
    obtain ⟨f', h3, h4, -⟩ := hf.tick d.D.dim (hw.first hm) false
    rw [h1] at h3
    have h3 := Except.ok.inj h3
    obtain ⟨z, hz⟩ := hf.holds
    have haf : ((xs VA SA d va sa t k).disp m).almostFull = decide (d.q.fifoSize - 1 ≤ ((xs VA SA d va sa t k).disp m).mem.length) :=
      hz.almostFull
    refine ⟨hmem, by rw [h3, h4, hmem]; simp, ?_⟩
    rw [h2]
    congr 1
    simp only [dispRdy, haf, hmem, List.length_nil, Bool.not_eq_true', decide_eq_false_iff_not]
    omega
  have hS : ∀ k, n ≤ k → k < n + L → (t k).edge = false →
      (xs VA SA d va sa t (k + 1)).disp = (xs VA SA d va sa t k).disp ∧ (xs VA SA d va sa t (k + 1)).feed = (xs VA SA d va sa t k).feed := by
    intro k k1 k2 he
    obtain ⟨h1, h2, -⟩ := step_still ((Q.good k k1 (by omega)).next (Q.good (k + 1) (by omega) (by omega))) he (Q.paced k k1 k2).drive
    exact ⟨h2, h1⟩
  have hA : ∀ k, n ≤ k → k + 1 + J ≤ n + L → (t k).edge = true → ((xs VA SA d va sa t k).feed m).wen = false := by
    intro k k1 k2 he
    cases hwen : ((xs VA SA d va sa t k).feed m).wen with
    | false => rfl
    | true =>
      exfalso
      refine until_edge (Q := fun k => ((xs VA SA d va sa t k).disp m).mem ≠ []) (E := fun k => (t k).edge = true)
        (a := k + 1) (J := J) ?_ ?_ (hex (k + 1) (by omega) (by omega)) ?_
      · intro j j1 j2 hQ hj
        show ((xs VA SA d va sa t (j + 1)).disp m).mem ≠ []
        rw [(hS j (by omega) (by omega) (by simpa using hj)).1]
        exact hQ
      · intro j j1 j2 hQ hj
        exact hQ (hE j (by omega) (by omega) hj).1
      · rw [(hE k k1 (by omega) he).2.1, hwen]
        simp
  obtain ⟨k, k1, k2, he⟩ := hex n (Nat.le_refl _) (by omega)
  obtain ⟨e1, e2, e3⟩ := hE k k1 (by omega) he
  rw [hA k k1 (by omega) he] at e2
  have hfull : ¬ ((xs VA SA d va sa t k).feed m).written < (d.lines m).length := by
    intro hlt
    have hwen : ((xs VA SA d va sa t (k + 1)).feed m).wen = true := by
      rw [e3]
      unfold Feeder.tick
      rw [if_pos (by simp [hlt])]
    refine until_edge (Q := fun k => ((xs VA SA d va sa t k).feed m).wen = true) (E := fun k => (t k).edge = true)
      (a := k + 1) (J := J) ?_ ?_ (hex (k + 1) (by omega) (by omega)) hwen
    · intro j j1 j2 hQ hj
      show ((xs VA SA d va sa t (j + 1)).feed m).wen = true
      rw [(hS j (by omega) (by omega) (by simpa using hj)).2]
      exact hQ
    · intro j j1 j2 hQ hj
      have := hA j (by omega) (by omega) hj
      rw [hQ] at this
      cases this
  obtain ⟨sent, hf, hg⟩ := (Q.good k k1 (by omega)).disp m hm
  have ho := hf.order
  rw [e1, hA k k1 (by omega) he, List.take_of_length_le (by omega)] at ho
  rw [← Q.got k k1 (by omega) (.disp m) hm, hg, ← ho]
  simp

end RadSim.Mlp
