import Verif.Spec.DlrmLookup

/-! Lemmas about the embedding-lookup module of the DLRM design. -/
namespace RadSim.Dlrm

open Spec

theorem enqueue_total (cfg : ElCfg) :
    ∀ (ls : List Lookup) (f : Nat → List Lookup), (∀ l ∈ ls, l.channel < cfg.numCh) →
      ∃ f', enqueue cfg ls f = .ok f' ∧ ∀ c, f' c = f c ++ ls.filter fun l => l.channel == c := by
  intro ls
  induction ls with
  | nil => intro f _; exact ⟨f, rfl, by simp⟩
  | cons l r ih =>
    intro f h
    obtain ⟨f', h1, h2⟩ := ih (upd f l.channel (f l.channel ++ [l]))
      (fun x hx => h x (by simp [hx]))
    refine ⟨f', ?_, ?_⟩
    · rw [enqueue, if_pos (h l (by simp)), h1]
    · intro c
      rw [h2 c]
      unfold upd
      by_cases hc : c = l.channel
      · subst hc; simp
      · have : (l.channel == c) = false := by simpa using fun h => hc h.symm
        rw [if_neg hc, List.filter_cons, this]
        simp

/-- The invariant: what was asked for and what waits make up what is wanted, and an
offer is the front of the FIFO or cannot be accepted. -/
structure ElInv (cfg : ElCfg) (ins : Nat → ElIn) (n : Nat) (s : ElSt) : Prop where
  all : ∀ c < cfg.numCh, requested cfg ins c n ++ (s.fifo c).map (lookupAddr cfg c) =
    wanted cfg.portBase c (handed cfg ins n)
  fresh : ∀ c < cfg.numCh, s.arvalid c = true →
    (∃ l r, s.fifo c = l :: r ∧ s.araddr c = lookupAddr cfg c l) ∨ (ins n).arready c = false

theorem wanted_append (pb : Nat → Nat) (c : Nat) (a b : List Lookup) :
    wanted pb c (a ++ b) = wanted pb c a ++ wanted pb c b := by
  simp [wanted]

/-- What one period does. -/
theorem el_step {cfg : ElCfg} {ins : Nat → ElIn} (hch : Channels cfg ins)
    (htw : NotTwice cfg ins) {n : Nat} {s : ElSt} (hs : elAt cfg ins n = .ok s)
    (h : ElInv cfg ins n s) :
    ∃ t, elAt cfg ins (n + 1) = .ok t ∧ ElInv cfg ins (n + 1) t ∧
      ∀ c < cfg.numCh, s.fifo c ≠ [] → t.arvalid c = true := by
  have hq : ∃ f, (if elReady cfg s && (ins n).valid then enqueue cfg (ins n).data s.fifo
        else .ok s.fifo) = Except.ok f ∧
      ∀ c, f c = s.fifo c ++ (if elReady cfg s && (ins n).valid then (ins n).data else []).filter
        fun l => l.channel == c := by
    split
    · exact enqueue_total cfg _ _ (hch n)
    · exact ⟨s.fifo, rfl, by simp⟩
  obtain ⟨f, hf1, hf2⟩ := hq
  have hne : ∀ c < cfg.numCh, s.arvalid c = true → (ins n).arready c = true →
      ∃ l r, s.fifo c = l :: r ∧ s.araddr c = lookupAddr cfg c l := by
    intro c hc hv hr
    rcases h.fresh c hc hv with h1 | h1
    · exact h1
    · rw [hr] at h1; cases h1
  have hnf : ((List.range cfg.numCh).any fun c => s.arvalid c && (ins n).arready c &&
      (f c).isEmpty) = false := by
    rw [List.any_eq_false]
    intro c hc
    have hc' := List.mem_range.mp hc
    by_cases hv : s.arvalid c = true
    · by_cases hr : (ins n).arready c = true
      · obtain ⟨l, r, hl, -⟩ := hne c hc' hv hr
        rw [hf2 c, hl]; simp
      · simp [hr]
    · simp [hv]
  have ht : ∃ t, elAt cfg ins (n + 1) = .ok t ∧
      (∀ c < cfg.numCh, t.arvalid c = !(f c).isEmpty) ∧
      (∀ c < cfg.numCh, ∀ l r, f c = l :: r → t.araddr c = lookupAddr cfg c l) ∧
      (∀ c < cfg.numCh, t.fifo c =
        if s.arvalid c && (ins n).arready c then (f c).tail else f c) := by
    rw [elAt, hs]
    dsimp only
    unfold elTick
    rw [hf1]
    dsimp only
    unfold offer
    dsimp only
    rw [hnf]
    refine ⟨_, rfl, ?_, ?_, ?_⟩
    · intro c hc
      dsimp only
      rw [if_pos hc]
    · intro c hc l r hl
      dsimp only
      rw [if_pos hc, hl]
    · intro c hc
      dsimp only
      rw [if_pos hc]
  obtain ⟨t, ht0, ht1, ht2, ht3⟩ := ht
  have hhand : handed cfg ins (n + 1) = handed cfg ins n ++
      (if elReady cfg s && (ins n).valid then (ins n).data else []) := by
    rw [handed, hs]
  refine ⟨t, ht0, ⟨?_, ?_⟩, ?_⟩
  · intro c hc
    have hall := h.all c hc
    rw [hhand, wanted_append, ← hall, requested, hs]
    dsimp only
    rw [ht3 c hc]
    have hw : wanted cfg.portBase c
        (if elReady cfg s && (ins n).valid then (ins n).data else []) =
        ((if elReady cfg s && (ins n).valid then (ins n).data else []).filter
          fun l => l.channel == c).map (lookupAddr cfg c) := rfl
    rw [hw]
    by_cases hb : (s.arvalid c && (ins n).arready c) = true
    · rw [if_pos hb, if_pos hb]
      rw [Bool.and_eq_true] at hb
      obtain ⟨l, r, hl, ha⟩ := hne c hc hb.1 hb.2
      rw [hf2 c, hl, ha]
      simp
    · rw [if_neg hb, if_neg hb, hf2 c]
      simp
  · intro c hc hv
    by_cases hb : (s.arvalid c && (ins n).arready c) = true
    · rw [Bool.and_eq_true] at hb
      exact .inr (htw n s hs c hc hb.1 hb.2)
    · left
      rw [ht1 c hc] at hv
      rw [ht3 c hc, if_neg hb]
      cases hfc : f c with
      | nil => rw [hfc] at hv; simp at hv
      | cons l r => exact ⟨l, r, rfl, ht2 c hc l r hfc⟩
  · intro c hc hn
    rw [ht1 c hc, hf2 c]
    cases hfc : s.fifo c with
    | nil => exact absurd hfc hn
    | cons l r => rfl

theorem el_run {cfg : ElCfg} {ins : Nat → ElIn} (hch : Channels cfg ins)
    (htw : NotTwice cfg ins) : ∀ n, ∃ s, elAt cfg ins n = .ok s ∧ ElInv cfg ins n s := by
  intro n
  induction n with
  | zero =>
    refine ⟨elInit, rfl, ⟨fun c _ => ?_, fun c _ h => by cases h⟩⟩
    simp [requested, handed, wanted, elInit]
  | succ n ih =>
    obtain ⟨s, h1, h2⟩ := ih
    obtain ⟨t, h3, h4, -⟩ := el_step hch htw h1 h2
    exact ⟨t, h3, h4⟩

theorem requested_mono (cfg : ElCfg) (ins : Nat → ElIn) (c n : Nat) :
    ∀ d, (requested cfg ins c n).length ≤ (requested cfg ins c (n + d)).length := by
  intro d
  induction d with
  | zero => exact Nat.le_refl _
  | succ d ih =>
    rw [show n + (d + 1) = n + d + 1 by omega, requested, List.length_append]
    omega

theorem handed_mono (cfg : ElCfg) (ins : Nat → ElIn) (n : Nat) :
    ∀ d, handed cfg ins n <+: handed cfg ins (n + d) := by
  intro d
  induction d with
  | zero => exact List.prefix_refl _
  | succ d ih =>
    rw [show n + (d + 1) = n + d + 1 by omega, handed]
    exact ih.trans (List.prefix_append _ _)

theorem wanted_mono (pb : Nat → Nat) (c : Nat) {a b : List Lookup} (h : a <+: b) :
    wanted pb c a <+: wanted pb c b := by
  obtain ⟨t, rfl⟩ := h
  rw [wanted_append]
  exact List.prefix_append _ _

/-- While something waits, a request is accepted within `p + 1` periods. -/
theorem el_next {cfg : ElCfg} {ins : Nat → ElIn} (hch : Channels cfg ins)
    (htw : NotTwice cfg ins) {c n0 p : Nat} (hc : c < cfg.numCh) (hof : Often ins c n0 p)
    {m L : Nat} (hm : n0 ≤ m) (hL : L ≤ (wanted cfg.portBase c (handed cfg ins m)).length)
    (hlt : (requested cfg ins c m).length < L) :
    (requested cfg ins c m).length + 1 ≤ (requested cfg ins c (m + (p + 1))).length := by
  rcases Nat.lt_or_ge (requested cfg ins c m).length
    (requested cfg ins c (m + (p + 1))).length with h | h
  · exact h
  · exfalso
    obtain ⟨j, hj, hjr⟩ := hof (m + 1) (by omega)
    have hsame : ∀ d, d ≤ p + 1 →
        (requested cfg ins c (m + d)).length = (requested cfg ins c m).length := by
      intro d hd
      have h1 := requested_mono cfg ins c m d
      have h2 := requested_mono cfg ins c (m + d) (p + 1 - d)
      rw [show m + d + (p + 1 - d) = m + (p + 1) by omega] at h2
      omega
    obtain ⟨s, hs1, hs2⟩ := el_run hch htw (m + j)
    obtain ⟨t, ht1, ht2, ht3⟩ := el_step hch htw hs1 hs2
    have hall := congrArg List.length (hs2.all c hc)
    rw [List.length_append, List.length_map, hsame j (by omega)] at hall
    have hw := (wanted_mono cfg.portBase c (handed_mono cfg ins m j)).length_le
    have hv := ht3 c hc (by
      intro hnil
      rw [hnil] at hall
      simp at hall
      omega)
    have h1 := hsame (j + 1) (by omega)
    have h2 := hsame (j + 2) (by omega)
    rw [show m + (j + 2) = m + j + 1 + 1 by omega, requested, ht1] at h2
    dsimp only at h2
    rw [hv, show m + j + 1 = m + 1 + j by omega, hjr] at h2
    rw [show m + (j + 1) = m + 1 + j by omega] at h1
    simp at h2
    omega

/-- Everything handed over is asked for. -/
theorem el_all {cfg : ElCfg} {ins : Nat → ElIn} (hch : Channels cfg ins)
    (htw : NotTwice cfg ins) {c n0 p : Nat} (hc : c < cfg.numCh) (hof : Often ins c n0 p) :
    ∀ d, min d (wanted cfg.portBase c (handed cfg ins n0)).length ≤
      (requested cfg ins c (n0 + (p + 1) * d)).length := by
  intro d
  induction d with
  | zero => simp
  | succ d ih =>
    rw [show n0 + (p + 1) * (d + 1) = n0 + (p + 1) * d + (p + 1) by rw [Nat.mul_add]; omega]
    rcases Nat.lt_or_ge (requested cfg ins c (n0 + (p + 1) * d)).length
      (wanted cfg.portBase c (handed cfg ins n0)).length with hlt | hge
    · have hw := (wanted_mono cfg.portBase c (handed_mono cfg ins n0 ((p + 1) * d))).length_le
      have := el_next hch htw hc hof (m := n0 + (p + 1) * d) (by omega) hw hlt
      omega
    · have := requested_mono cfg ins c (n0 + (p + 1) * d) (p + 1)
      omega

/-- The FIFOs stay short: below the mark while `full` is low, and never longer than one
vector beyond it. -/
theorem el_short {cfg : ElCfg} {ins : Nat → ElIn} {M : Nat} (hch : Channels cfg ins)
    (hd : 5 ≤ cfg.depth)
    (hM : ∀ n, ∀ c < cfg.numCh, ((ins n).data.filter fun l => l.channel == c).length ≤ M) :
    ∀ n s, elAt cfg ins n = .ok s → ∀ c < cfg.numCh,
      (s.full c = false → (s.fifo c).length ≤ cfg.depth - 5) ∧
      (s.fifo c).length ≤ cfg.depth - 5 + M := by
  intro n
  induction n with
  | zero => intro s hs c _; cases hs; exact ⟨fun _ => Nat.zero_le _, Nat.zero_le _⟩
  | succ n ih =>
    intro t ht c hc
    rw [elAt] at ht
    cases hs : elAt cfg ins n with
    | error e => rw [hs] at ht; cases ht
    | ok s =>
      rw [hs] at ht
      dsimp only at ht
      have ihs := ih s hs c hc
      have hq : ∃ f, (if elReady cfg s && (ins n).valid then enqueue cfg (ins n).data s.fifo
            else .ok s.fifo) = Except.ok f ∧ (f c).length ≤ cfg.depth - 5 + M := by
        split
        · rename_i hr
          obtain ⟨f, h1, h2⟩ := enqueue_total cfg _ s.fifo (hch n)
          refine ⟨f, h1, ?_⟩
          rw [Bool.and_eq_true] at hr
          have hfull := (List.all_eq_true.mp hr.1) c (List.mem_range.mpr hc)
          have := ihs.1 (by simpa using hfull)
          have := hM n c hc
          rw [h2 c, List.length_append]
          omega
        · exact ⟨s.fifo, rfl, ihs.2⟩
      obtain ⟨f, hf1, hf2⟩ := hq
      unfold elTick at ht
      rw [hf1] at ht
      dsimp only at ht
      unfold offer at ht
      dsimp only at ht
      split at ht
      · cases ht
      · cases ht
        have hle : (if s.arvalid c && (ins n).arready c then (f c).tail else f c).length ≤
            (f c).length := by
          split
          · rw [List.length_tail]; omega
          · exact Nat.le_refl _
        refine ⟨fun hfull => ?_, ?_⟩
        · dsimp only at hfull ⊢
          rw [if_pos hc] at hfull ⊢
          have := of_decide_eq_false hfull
          unfold mark at this
          rw [if_pos (by omega)] at this
          omega
        · dsimp only
          rw [if_pos hc]
          omega

end RadSim.Dlrm
