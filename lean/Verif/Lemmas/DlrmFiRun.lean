import Verif.Lemmas.DlrmFi

/-! The invariant of the feature-interaction module of the DLRM design. -/
namespace RadSim.Dlrm

open Spec

/-- The FIFOs and pointers after `k` instructions, when `arr c` words have come in
on channel `c` and the words `sl c` have gone out on channel `c`. -/
structure Core (cfg : Cfg) (σ : Nat → Nat → Nat) (arr : Nat → Nat) (sl : Nat → List Nat)
    (s : FiSt) (k : Nat) : Prop where
  pc : s.pc = k % cfg.prog.length
  dest : s.dest = k % cfg.numOut
  fifo : ∀ c < cfg.numCh, popsBefore cfg.prog c k ≤ arr c ∧
    s.inF c = seg cfg σ c (popsBefore cfg.prog c k) (arr c - popsBefore cfg.prog c k)
  out : ∀ ch < cfg.numOut, ∀ i, (sl ch ++ (s.outF ch).map pack)[i]? =
    if ch + i * cfg.numOut < k then
      some (pack (fillUp cfg (vector cfg.prog σ (ch + i * cfg.numOut)))) else none

theorem Core.accept {cfg : Cfg} {σ : Nat → Nat → Nat} {arr : Nat → Nat} {sl : Nat → List Nat}
    {s : FiSt} {k : Nat} (h : Core cfg σ arr sl s k) (i : FiIn)
    (hlen : ∀ c < cfg.numCh, i.rvalid c = true → (s.inF c).length < cfg.depth)
    (hdat : ∀ c < cfg.numCh, i.rvalid c = true → i.rdata c = σ c (arr c)) :
    Core cfg σ (fun c => if i.rvalid c then arr c + 1 else arr c) sl
      { s with inF := accept cfg i s.inF } k where
  pc := h.pc
  dest := h.dest
  out := h.out
  fifo := by
    intro c hc
    obtain ⟨h1, h2⟩ := h.fifo c hc
    dsimp only
    unfold Dlrm.accept
    by_cases hv : i.rvalid c = true
    · rw [if_pos hv, if_pos ⟨hc, hlen c hc hv, hv⟩, h2, hdat c hc hv]
      refine ⟨by omega, ?_⟩
      unfold seg
      rw [show arr c + 1 - popsBefore cfg.prog c k = arr c - popsBefore cfg.prog c k + 1 by omega,
        List.range'_concat, List.map_append]
      simp only [List.map_cons, List.map_nil, Nat.one_mul]
      rw [show popsBefore cfg.prog c k + (arr c - popsBefore cfg.prog c k) = arr c by omega]
    · rw [if_neg hv, if_neg (fun h => hv h.2.2)]
      exact ⟨h1, h2⟩

/-- What running an instruction leaves alone. -/
structure Same (s s' : FiSt) : Prop where
  tvalid : s'.tvalid = s.tvalid
  tdata : s'.tdata = s.tdata
  empty : s'.empty = s.empty
  full : s'.full = s.full
  ofull : s'.ofull = s.ofull
  grows : ∀ ch, ∃ t, s'.outF ch = s.outF ch ++ t

theorem mod_next (k m : Nat) (h : k % m < m) :
    (if k % m = m - 1 then 0 else k % m + 1) = (k + 1) % m := by
  rw [Nat.add_mod]
  by_cases h1 : m = 1
  · subst h1; simp [Nat.mod_one]
  · have : 1 % m = 1 := Nat.mod_eq_of_lt (by omega)
    rw [this]
    split
    · rename_i h2
      rw [h2, show m - 1 + 1 = m by omega, Nat.mod_self]
    · rw [Nat.mod_eq_of_lt (a := k % m + 1) (by omega)]

theorem Core.execute {cfg : Cfg} {σ : Nat → Nat → Nat} {arr : Nat → Nat} {sl : Nat → List Nat}
    {s s' : FiSt} {k : Nat} (h : Core cfg σ arr sl s k) (he : execute cfg s = .ok s') :
    Same s s' ∧ ((s' = s) ∨ Core cfg σ arr sl s' (k + 1)) := by
  unfold Dlrm.execute at he
  split at he
  · cases he
  rename_i inst hinst
  split at he
  · cases he
  · cases he
    exact ⟨⟨rfl, rfl, rfl, rfl, rfl, fun _ => ⟨[], by simp⟩⟩, .inl rfl⟩
  rename_i hready
  split at he
  case isFalse => cases he
  rename_i hdlt
  split at he
  · cases he
    exact ⟨⟨rfl, rfl, rfl, rfl, rfl, fun _ => ⟨[], by simp⟩⟩, .inl rfl⟩
  split at he
  · cases he
  rename_i f v hst
  cases he
  have hinst' : instAt cfg.prog k = inst := by
    unfold instAt
    rw [← h.pc, hinst]; rfl
  obtain ⟨hv, hf⟩ := steps_ok cfg σ inst s.inF (fun c => popsBefore cfg.prog c k)
    (fun c => arr c - popsBefore cfg.prog c k) [] f v (ready_channels cfg _ inst _ hready)
    (fun c hc => (h.fifo c hc).2) hst
  have hvec : v = vector cfg.prog σ k := by
    rw [hv]; unfold vector; rw [hinst']; simp
  refine ⟨⟨rfl, rfl, rfl, rfl, rfl, fun ch => ?_⟩, .inr ⟨?_, ?_, ?_, ?_⟩⟩
  · dsimp only [upd]
    split
    · rename_i hc; subst hc; exact ⟨_, rfl⟩
    · exact ⟨[], by simp⟩
  · dsimp only
    have hpl : s.pc < cfg.prog.length := by
      rcases Nat.lt_or_ge s.pc cfg.prog.length with hl | hl
      · exact hl
      · rw [List.getElem?_eq_none hl] at hinst; cases hinst
    rw [h.pc] at hpl ⊢
    exact mod_next k _ hpl
  · dsimp only
    rw [h.dest] at hdlt ⊢
    exact mod_next k _ hdlt
  · intro c hc
    obtain ⟨h1, h2⟩ := hf c hc
    have h3 := (h.fifo c hc).1
    dsimp only at h1 h2 ⊢
    rw [show popsBefore cfg.prog c (k + 1) = popsBefore cfg.prog c k + popsIn c inst by
      rw [popsBefore, hinst']]
    refine ⟨by omega, ?_⟩
    rw [h2]
    congr 1
    omega
  · intro ch hch i
    have ho := h.out ch hch i
    dsimp only [upd]
    by_cases hc : ch = s.dest
    · rw [if_pos hc, List.map_append, ← List.append_assoc, List.getElem?_append]
      have hlen : ∀ j, j < (sl ch ++ (s.outF ch).map pack).length ↔ ch + j * cfg.numOut < k := by
        intro j
        have := h.out ch hch j
        constructor
        · intro hj
          rw [List.getElem?_eq_getElem hj] at this
          split at this
          · assumption
          · cases this
        · intro hj
          rw [if_pos hj] at this
          exact (List.getElem?_eq_some_iff.mp this).1
      have hck : ch = k % cfg.numOut := by rw [hc, h.dest]
      have hm : 0 < cfg.numOut := by omega
      have hlenk : ∀ j, j < (sl ch ++ (s.outF ch).map pack).length ↔ j < k / cfg.numOut := by
        intro j
        rw [hlen j, hck]
        have hdm := Nat.mod_add_div k cfg.numOut
        constructor
        · intro hj
          rw [Nat.mul_comm] at hj
          exact Nat.lt_of_mul_lt_mul_left (a := cfg.numOut) (by omega)
        · intro hj
          have : cfg.numOut * (j + 1) ≤ cfg.numOut * (k / cfg.numOut) := Nat.mul_le_mul_left _ hj
          rw [Nat.mul_add, Nat.mul_one] at this
          rw [Nat.mul_comm]
          omega
      have hL : (sl ch ++ (s.outF ch).map pack).length = k / cfg.numOut := by
        have h1 := hlenk ((sl ch ++ (s.outF ch).map pack).length)
        have h2 := hlenk (k / cfg.numOut)
        omega
      rw [← hc]
      have hkk : ch + (k / cfg.numOut) * cfg.numOut = k := by
        rw [hck, Nat.mul_comm]; exact Nat.mod_add_div _ _
      split
      · rename_i hi
        rw [ho, if_pos ((hlen i).mp hi), if_pos (by have := (hlen i).mp hi; omega)]
      · rename_i hi
        rw [hL]
        by_cases hik : i = k / cfg.numOut
        · subst hik
          rw [hkk, if_pos (by omega)]
          simp [hvec]
        · have hgt : k / cfg.numOut < i := by omega
          rw [if_neg (by
            have : cfg.numOut * (k / cfg.numOut + 1) ≤ cfg.numOut * i := Nat.mul_le_mul_left _ hgt
            rw [Nat.mul_add, Nat.mul_one, Nat.mul_comm _ (k / cfg.numOut), Nat.mul_comm _ i] at this
            omega)]
          rw [List.getElem?_eq_none]
          simp; omega
    · rw [if_neg hc, ho]
      have hne : ch + i * cfg.numOut ≠ k := by
        intro hk
        apply hc
        rw [h.dest, ← hk, Nat.add_mul_mod_self_right, Nat.mod_eq_of_lt hch]
      by_cases hlt : ch + i * cfg.numOut < k
      · rw [if_pos hlt, if_pos (by omega)]
      · rw [if_neg hlt, if_neg (by omega)]

/-- The invariant between two periods. -/
structure FiInv (cfg : Cfg) (σ : Nat → Nat → Nat) (arr : Nat → Nat) (sl : Nat → List Nat)
    (s : FiSt) (k : Nat) : Prop where
  core : Core cfg σ arr sl s k
  tv : ∀ ch < cfg.numOut, s.tvalid ch = !(s.outF ch).isEmpty
  td : ∀ ch < cfg.numOut, ∀ v r, s.outF ch = v :: r → s.tdata ch = pack v
  emp : ∀ c < cfg.numCh, s.empty c = (s.inF c).isEmpty
  ful : ∀ c < cfg.numCh, s.full c = false → (s.inF c).length < cfg.depth
  ofl : ∀ ch < cfg.numOut, s.ofull ch = true → mark cfg.depth 2 ≤ (s.outF ch).length

theorem FiInv.init (cfg : Cfg) (σ : Nat → Nat → Nat) (hd : 4 ≤ cfg.depth) :
    FiInv cfg σ (fun _ => 0) (fun _ => []) fiInit 0 where
  core :=
    { pc := by simp [fiInit]
      dest := by simp [fiInit]
      fifo := by intro c _; simp [popsBefore, fiInit, seg]
      out := by intro ch _ i; simp [fiInit] }
  tv := by intro ch _; rfl
  td := by intro ch _ v r h; cases h
  emp := by intro c _; rfl
  ful := by intro c _ _; simp [fiInit]; omega
  ofl := by intro ch _ h; cases h

theorem popsEmpty_false {cfg : Cfg} {s s' : FiSt} {i : FiIn} (hs : Same s s')
    (tv : ∀ ch < cfg.numOut, s.tvalid ch = !(s.outF ch).isEmpty) :
    popsEmpty cfg s' i = false := by
  unfold popsEmpty
  rw [List.any_eq_false]
  intro c hc
  have hc' := List.mem_range.mp hc
  obtain ⟨t, ht⟩ := hs.grows c
  rw [hs.tvalid, tv c hc', ht]
  cases s.outF c <;> simp

/-- The end of a period keeps the invariant and moves what is handed over from the
output FIFO to the words sent. -/
theorem Core.finish {cfg : Cfg} {σ : Nat → Nat → Nat} {arr : Nat → Nat} {sl : Nat → List Nat}
    {s s' t : FiSt} {k : Nat} {i : FiIn} (hd : 4 ≤ cfg.depth)
    (h : Core cfg σ arr sl s' k) (hs : Same s s')
    (tv : ∀ ch < cfg.numOut, s.tvalid ch = !(s.outF ch).isEmpty)
    (td : ∀ ch < cfg.numOut, ∀ v r, s.outF ch = v :: r → s.tdata ch = pack v)
    (hf : finish cfg s' i = .ok t) :
    FiInv cfg σ arr
      (fun ch => sl ch ++ if i.tready ch && s.tvalid ch then [s.tdata ch] else []) t k := by
  unfold Dlrm.finish at hf
  rw [popsEmpty_false hs tv] at hf
  simp only [Bool.false_eq_true, if_false, Except.ok.injEq] at hf
  subst hf
  refine ⟨⟨h.pc, h.dest, h.fifo, ?_⟩, ?_, ?_, ?_, ?_, ?_⟩
  · intro ch hch j
    rw [← h.out ch hch j]
    dsimp only
    rw [if_pos hch]
    congr 1
    unfold drained
    rw [hs.tvalid]
    by_cases hb : (i.tready ch && s.tvalid ch) = true
    · rw [if_pos hb, if_pos hb]
      have htv : s.tvalid ch = true := by
        rw [Bool.and_eq_true] at hb; exact hb.2
      rw [tv ch hch] at htv
      obtain ⟨u, hu⟩ := hs.grows ch
      cases ho : s.outF ch with
      | nil => rw [ho] at htv; simp at htv
      | cons v r =>
        rw [td ch hch v r ho, hu, ho]
        simp
    · rw [if_neg hb, if_neg hb]
      simp
  · intro ch hch
    dsimp only
    rw [if_pos hch, if_pos hch]
  · intro ch hch v r hv
    dsimp only at hv ⊢
    rw [if_pos hch] at hv ⊢
    rw [hv]
  · intro c hc
    dsimp only
    rw [if_pos hc]
  · intro c hc hfl
    dsimp only at hfl ⊢
    rw [if_pos hc] at hfl
    have := of_decide_eq_false hfl
    unfold mark at this
    rw [if_pos hd] at this
    omega
  · intro ch hch hfl
    dsimp only at hfl ⊢
    rw [if_pos hch] at hfl ⊢
    exact of_decide_eq_true hfl

/-- When the next instruction runs. -/
def Goes (cfg : Cfg) (s : FiSt) : Prop :=
  (∃ inst, cfg.prog[s.pc]? = some inst ∧ ready cfg s.empty inst = .ok true) ∧
    s.ofull s.dest = false

theorem execute_moves {cfg : Cfg} {s s' : FiSt} (hg : Goes cfg s)
    (he : execute cfg s = .ok s') : s' ≠ s := by
  obtain ⟨⟨inst, h1, h2⟩, h3⟩ := hg
  unfold execute at he
  rw [h1] at he
  dsimp only at he
  rw [h2] at he
  dsimp only at he
  split at he
  · rw [h3] at he
    simp only [Bool.false_eq_true, if_false] at he
    split at he
    · cases he
    · rename_i f v _
      simp only [Except.ok.injEq] at he
      intro hs
      have h4 : (s'.outF s.dest).length = (s.outF s.dest).length := by rw [hs]
      rw [← he] at h4
      dsimp only [upd] at h4
      simp at h4
  · cases he

/-- One period keeps the invariant; if the next instruction can run, it does. -/
theorem fi_step {cfg : Cfg} {ins : Nat → FiIn} {σ : Nat → Nat → Nat} (hd : 4 ≤ cfg.depth)
    (hpol : Polite cfg ins) (hfeed : Feeds cfg ins σ) {n : Nat} {s t : FiSt} {k : Nat}
    (hs : fiAt cfg ins n = .ok s) (ht : fiAt cfg ins (n + 1) = .ok t)
    (hk : FiInv cfg σ (fun c => (arrived cfg ins c n).length) (fun c => sent cfg ins c n) s k) :
    ∃ k', FiInv cfg σ (fun c => (arrived cfg ins c (n + 1)).length)
        (fun c => sent cfg ins c (n + 1)) t k' ∧ k ≤ k' ∧ (Goes cfg s → k + 1 ≤ k') := by
  rw [fiAt, hs] at ht
  dsimp only at ht
  unfold fiTick at ht
  split at ht
  · cases ht
  rename_i s' hs'
  have hrr : ∀ c < cfg.numCh, (ins n).rvalid c = true → rready s c = true := hpol n s hs
  have harr : ∀ c < cfg.numCh, (arrived cfg ins c (n + 1)).length =
      if (ins n).rvalid c then (arrived cfg ins c n).length + 1
      else (arrived cfg ins c n).length := by
    intro c hc
    rw [arrived, hs]
    dsimp only
    by_cases hv : (ins n).rvalid c = true
    · rw [hv, hrr c hc hv]; simp
    · simp [hv]
  have hdat : ∀ c < cfg.numCh, (ins n).rvalid c = true →
      (ins n).rdata c = σ c (arrived cfg ins c n).length := by
    intro c hc hv
    apply hfeed c hc (n + 1)
    rw [arrived, hs]
    dsimp only
    rw [hv, hrr c hc hv]
    simp
  have hacc := hk.core.accept (ins n)
    (fun c hc hv => hk.ful c hc (by simpa [rready] using hrr c hc hv)) hdat
  have hsl : (fun ch => sent cfg ins ch n ++
      if (ins n).tready ch && s.tvalid ch then [s.tdata ch] else []) =
      fun ch => sent cfg ins ch (n + 1) := by
    funext ch
    rw [sent, hs]
  have hfix : ∀ {k}, FiInv cfg σ (fun c => if (ins n).rvalid c then
        (arrived cfg ins c n).length + 1 else (arrived cfg ins c n).length)
        (fun ch => sent cfg ins ch (n + 1)) t k →
      FiInv cfg σ (fun c => (arrived cfg ins c (n + 1)).length)
        (fun ch => sent cfg ins ch (n + 1)) t k := by
    intro k h
    refine ⟨⟨h.core.pc, h.core.dest, ?_, h.core.out⟩, h.tv, h.td, h.emp, h.ful, h.ofl⟩
    intro c hc
    have := h.core.fifo c hc
    rw [harr c hc]
    exact this
  obtain ⟨hsame', hor⟩ := hacc.execute hs'
  have hsame : Same s s' := ⟨hsame'.tvalid, hsame'.tdata, hsame'.empty, hsame'.full,
    hsame'.ofull, hsame'.grows⟩
  rcases hor with heq | hcore
  · refine ⟨k, hfix ?_, Nat.le_refl _, fun hg => absurd heq (execute_moves ?_ hs')⟩
    · rw [← hsl]
      subst heq
      exact Core.finish hd hacc hsame hk.tv hk.td ht
    · exact hg
  · refine ⟨k + 1, hfix ?_, by omega, fun _ => Nat.le_refl _⟩
    rw [← hsl]
    exact Core.finish hd hcore hsame hk.tv hk.td ht

/-- The run keeps the invariant. -/
theorem fi_inv {cfg : Cfg} {ins : Nat → FiIn} {σ : Nat → Nat → Nat} (hd : 4 ≤ cfg.depth)
    (hpol : Polite cfg ins) (hfeed : Feeds cfg ins σ) :
    ∀ n s, fiAt cfg ins n = .ok s →
      ∃ k, FiInv cfg σ (fun c => (arrived cfg ins c n).length) (fun c => sent cfg ins c n) s k := by
  intro n
  induction n with
  | zero =>
    intro s h
    cases h
    exact ⟨0, FiInv.init cfg σ hd⟩
  | succ n ih =>
    intro t ht
    cases hs : fiAt cfg ins n with
    | error e => rw [fiAt, hs] at ht; cases ht
    | ok s =>
      obtain ⟨k, hk⟩ := ih s hs
      obtain ⟨k', hk', -⟩ := fi_step hd hpol hfeed hs ht hk
      exact ⟨k', hk'⟩

end RadSim.Dlrm
