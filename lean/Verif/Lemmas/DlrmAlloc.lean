import Verif.Spec.DlrmAlloc
import Mathlib.Data.List.Perm.Basic

/-! Lemmas about the allocation of the embedding tables. -/
namespace RadSim.Dlrm

open Spec

theorem insertRow_perm (r : Row) : ∀ l, (insertRow r l).Perm (r :: l) := by
  intro l
  induction l with
  | nil => exact List.Perm.refl _
  | cons x xs ih =>
    unfold insertRow
    split
    · exact (ih.cons x).trans (List.Perm.swap r x xs)
    · exact List.Perm.refl _

theorem sortRows_perm (rows : List Row) : (sortRows rows).Perm rows := by
  have : ∀ (l acc : List Row), (l.foldl (fun acc r => insertRow r acc) acc).Perm (l ++ acc) := by
    intro l
    induction l with
    | nil => intro acc; exact List.Perm.refl _
    | cons x xs ih =>
      intro acc
      rw [List.foldl_cons]
      exact (ih _).trans (((insertRow_perm x acc).append_left xs).trans
        List.perm_middle)
  have h := this rows []
  rw [List.append_nil] at h
  exact h

/-- The tables of a bank, channel by channel. -/
def flat (isDdr : Bool) (off : Nat) (ts : List (Nat × List Placed)) : List Tab :=
  ts.flatMap fun x => x.2.map fun p => ⟨isDdr, off + x.1 + 1, p.base, p.row⟩

theorem flat_add (isDdr : Bool) (off c : Nat) (p : Placed) : ∀ ts,
    (flat isDdr off (addTable c p ts)).Perm (⟨isDdr, off + c + 1, p.base, p.row⟩ ::
      flat isDdr off ts) := by
  intro ts
  induction ts with
  | nil => exact List.Perm.refl _
  | cons x r ih =>
    obtain ⟨d, ps⟩ := x
    unfold addTable
    split
    · rename_i h
      subst h
      unfold flat
      rw [List.flatMap_cons, List.flatMap_cons, List.map_append, List.append_assoc]
      exact List.perm_middle
    · unfold flat at ih ⊢
      rw [List.flatMap_cons, List.flatMap_cons]
      exact (ih.append_left _).trans List.perm_middle

theorem range_get {α : Type} (l : List α) : ∀ R, l.length ≤ R →
    (List.range R).flatMap (fun r => (l[r]?).toList) = l := by
  intro R
  induction R generalizing l with
  | zero => intro h; cases l with
    | nil => rfl
    | cons x xs => simp at h
  | succ R ih =>
    intro h
    rw [List.range_succ_eq_map, List.flatMap_cons, List.flatMap_map]
    cases l with
    | nil => simp
    | cons x xs =>
      simp only [List.getElem?_cons_zero, Option.toList_some, List.getElem?_cons_succ,
        List.singleton_append]
      rw [ih xs (by simpa using h)]

/-- Round by round and channel by channel give the same tables. -/
theorem rounds_perm (isDdr : Bool) (off R : Nat) : ∀ ts : List (Nat × List Placed),
    (∀ x ∈ ts, x.2.length ≤ R) →
    ((List.range R).flatMap fun r => roundOf isDdr off r ts).Perm (flat isDdr off ts) := by
  intro ts
  induction ts with
  | nil => intro _; simp [roundOf, flat]
  | cons x xs ih =>
    intro h
    have hx : ∀ r, roundOf isDdr off r (x :: xs) =
        ((x.2.map fun p => (⟨isDdr, off + x.1 + 1, p.base, p.row⟩ : Tab))[r]?).toList ++
          roundOf isDdr off r xs := by
      intro r
      unfold roundOf
      rw [List.filterMap_cons, List.getElem?_map]
      cases x.2[r]? <;> rfl
    simp only [hx]
    refine (List.flatMap_append_perm _ _ _).symm.trans ?_
    rw [range_get _ R (by rw [List.length_map]; exact h x (by simp))]
    unfold flat at ih ⊢
    rw [List.flatMap_cons]
    exact (ih fun y hy => h y (by simp [hy])).append_left _

theorem numRounds_le : ∀ (ts : List (Nat × List Placed)) (m : Nat),
    m ≤ ts.foldl (fun m x => max m x.2.length) m ∧
    ∀ x ∈ ts, x.2.length ≤ ts.foldl (fun m x => max m x.2.length) m := by
  intro ts
  induction ts with
  | nil => intro m; exact ⟨Nat.le_refl _, by simp⟩
  | cons y ys ih =>
    intro m
    obtain ⟨h1, h2⟩ := ih (max m y.2.length)
    rw [List.foldl_cons]
    refine ⟨by omega, ?_⟩
    intro x hx
    rcases List.mem_cons.mp hx with rfl | hx
    · omega
    · exact h2 x hx

theorem visit_perm (d h : Bank) :
    (visit d h).Perm (flat true 0 d.tables ++ flat false d.numCh h.tables) := by
  unfold visit
  refine (List.flatMap_append_perm _ _ _).symm.trans ?_
  refine (rounds_perm true 0 _ d.tables ?_).append (rounds_perm false d.numCh _ h.tables ?_)
  · intro x hx
    have : x.2.length ≤ numRounds d.tables := (numRounds_le d.tables 0).2 x hx
    omega
  · intro x hx
    have : x.2.length ≤ numRounds h.tables := (numRounds_le h.tables 0).2 x hx
    omega

/-- The invariant of one bank. -/
structure BankInv (isDdr : Bool) (off : Nat) (nC capC : Nat) (b : Bank) : Prop where
  numCh : b.numCh = nC
  cap : b.cap = capC
  used : ∀ c, b.used c ≤ capC
  below : ∀ t ∈ flat isDdr off b.tables, ∃ c < nC, t.fifo = off + c + 1 ∧ t.ddr = isDdr ∧
    t.base + t.row.words ≤ b.used c
  apart : (flat isDdr off b.tables).Pairwise Apart

theorem apart_symm {x y : Tab} (h : Apart x y) : Apart y x :=
  fun e a ⟨h1, h2, h3, h4⟩ => h e.symm a ⟨h3, h4, h1, h2⟩

theorem find_some {b : Bank} {round words c : Nat} (h : b.find round words = some c) :
    c < b.numCh ∧ b.rounds c < round ∧ b.used c + words ≤ b.cap := by
  unfold Bank.find at h
  have h1 := List.mem_of_find?_eq_some h
  have h2 := List.find?_some h
  simp only [Bool.and_eq_true, decide_eq_true_eq] at h2
  exact ⟨List.mem_range.mp h1, h2.1.1, by omega⟩

theorem bank_put {isDdr : Bool} {off numCh cap : Nat} {b : Bank}
    (h : BankInv isDdr off numCh cap b) {c : Nat} {r : Row} (hc : c < numCh)
    (hw : b.used c + r.words ≤ cap) : BankInv isDdr off numCh cap (b.put c r) := by
  have hperm := flat_add isDdr off c ⟨r, b.used c⟩ b.tables
  have hused : ∀ d, b.used d ≤ (b.put c r).used d := by
    intro d
    simp only [Bank.put, upd]
    split
    · rename_i e; subst e; omega
    · exact Nat.le_refl _
  refine ⟨h.numCh, h.cap, ?_, ?_, ?_⟩
  · intro d
    simp only [Bank.put, upd]
    split
    · exact hw
    · exact h.used d
  · intro t ht
    have ht' := hperm.mem_iff.mp ht
    rcases List.mem_cons.mp ht' with rfl | ht'
    · refine ⟨c, hc, rfl, rfl, ?_⟩
      simp [Bank.put, upd]
    · obtain ⟨d, h1, h2, h3, h4⟩ := h.below t ht'
      exact ⟨d, h1, h2, h3, Nat.le_trans h4 (hused d)⟩
  · refine (hperm.pairwise_iff (fun hxy => apart_symm hxy)).mpr ?_
    rw [List.pairwise_cons]
    refine ⟨?_, h.apart⟩
    intro t ht e a ⟨h1, _, _, h4⟩
    obtain ⟨d, _, hd2, _, hd4⟩ := h.below t ht
    have : d = c := by
      dsimp only at e
      omega
    subst this
    dsimp only at h1
    omega

/-- The invariant of the allocation: both banks in order, and the rows placed. -/
structure AllocInv (nD capD nH capH : Nat) (s : Bank × Bank × Nat) (placed : List Row) : Prop where
  ddr : BankInv true 0 nD capD s.1
  hbm : BankInv false nD nH capH s.2.1
  rows : ((flat true 0 s.1.tables ++ flat false nD s.2.1.tables).map Tab.row).Perm placed

theorem allocOne_inv {nD capD nH capH : Nat} (r : Row) : ∀ fuel s t placed,
    AllocInv nD capD nH capH s placed → allocOne r fuel s = some t →
    AllocInv nD capD nH capH t (r :: placed) := by
  intro fuel
  induction fuel with
  | zero => intro s t placed _ h; cases h
  | succ fuel ih =>
    intro s t placed hi h
    obtain ⟨d, hb, round⟩ := s
    unfold allocOne at h
    split at h
    · rename_i c hc
      cases h
      obtain ⟨h1, h2, h3⟩ := find_some hc
      have hd := hi.ddr
      dsimp only at hd
      rw [hd.numCh] at h1
      rw [hd.cap] at h3
      refine ⟨bank_put hd h1 h3, hi.hbm, ?_⟩
      have hp := (((flat_add true 0 c ⟨r, d.used c⟩ d.tables).append_right
        (flat false nD hb.tables)).map Tab.row)
      exact hp.trans (hi.rows.cons r)
    · split at h
      · rename_i c hc
        cases h
        obtain ⟨h1, h2, h3⟩ := find_some hc
        have hd := hi.hbm
        dsimp only at hd
        rw [hd.numCh] at h1
        rw [hd.cap] at h3
        refine ⟨hi.ddr, bank_put hd h1 h3, ?_⟩
        have hp := (((flat_add false nD c ⟨r, hb.used c⟩ hb.tables).append_left
          (flat true 0 d.tables)).trans List.perm_middle).map Tab.row
        exact hp.trans (hi.rows.cons r)
      · exact ih (d, hb, round + 1) t placed ⟨hi.ddr, hi.hbm, hi.rows⟩ h

theorem alloc_inv {nD capD nH capH : Nat} (fuel : Nat) : ∀ rows s t placed,
    AllocInv nD capD nH capH s placed → alloc fuel rows s = some t →
    AllocInv nD capD nH capH t (rows.reverse ++ placed) := by
  intro rows
  induction rows with
  | nil => intro s t placed hi h; cases h; exact hi
  | cons r rs ih =>
    intro s t placed hi h
    unfold alloc at h
    split at h
    · cases h
    · rename_i s' hs
      have := ih s' t _ (allocOne_inv r fuel s s' placed hi hs) h
      rw [List.reverse_cons, List.append_assoc]
      exact this

theorem alloc_init (nD capD nH capH : Nat) :
    AllocInv nD capD nH capH (Bank.fresh nD capD, Bank.fresh nH capH, 1) [] := by
  refine ⟨⟨rfl, rfl, fun _ => Nat.zero_le _, ?_, List.Pairwise.nil⟩,
    ⟨rfl, rfl, fun _ => Nat.zero_le _, ?_, List.Pairwise.nil⟩, List.Perm.refl _⟩
  · intro t ht; cases ht
  · intro t ht; cases ht

/-! Termination: a DDR channel that can hold everything. -/

/-- What is known of the first DDR channel when rows of `w` words in all have been placed,
`m` of them. -/
structure Roomy (nD capD w m : Nat) (b : Bank) : Prop where
  numCh : b.numCh = nD
  cap : b.cap = capD
  used : ∀ c, b.used c ≤ w
  rounds : ∀ c, b.rounds c ≤ m

theorem allocOne_ends {nD capD : Nat} (r : Row) (hn : 0 < nD) : ∀ k fuel d hb round w m,
    Roomy nD capD w m d → w + r.words ≤ capD → m + 1 ≤ round + k → k < fuel →
    ∃ t, allocOne r fuel (d, hb, round) = some t ∧ Roomy nD capD (w + r.words) (m + 1) t.1 ∧
      round ≤ t.2.2 := by
  intro k
  induction k with
  | zero =>
    intro fuel d hb round w m hr hw hk hf
    obtain ⟨fuel, rfl⟩ : ∃ f, fuel = f + 1 := ⟨fuel - 1, by omega⟩
    unfold allocOne
    cases hfd : d.find round r.words with
    | none =>
      exfalso
      unfold Bank.find at hfd
      rw [List.find?_eq_none] at hfd
      have := hfd 0 (List.mem_range.mpr (by rw [hr.numCh]; exact hn))
      simp only [Bool.and_eq_true, decide_eq_true_eq] at this
      have h1 := hr.used 0
      have h2 := hr.rounds 0
      have h3 := hr.cap
      exact this ⟨⟨by omega, by omega⟩, by omega⟩
    | some c =>
      refine ⟨_, rfl, ⟨hr.numCh, hr.cap, ?_, ?_⟩, Nat.le_refl _⟩
      · intro x
        have := hr.used x
        have := hr.used c
        simp only [Bank.put, upd]
        split <;> omega
      · intro x
        have := hr.rounds x
        have := hr.rounds c
        simp only [Bank.put, upd]
        split <;> omega
  | succ k ih =>
    intro fuel d hb round w m hr hw hk hf
    obtain ⟨fuel, rfl⟩ : ∃ f, fuel = f + 1 := ⟨fuel - 1, by omega⟩
    unfold allocOne
    cases hfd : d.find round r.words with
    | some c =>
      refine ⟨_, rfl, ⟨hr.numCh, hr.cap, ?_, ?_⟩, Nat.le_refl _⟩
      · intro x
        have := hr.used x
        have := hr.used c
        simp only [Bank.put, upd]
        split <;> omega
      · intro x
        have := hr.rounds x
        have := hr.rounds c
        simp only [Bank.put, upd]
        split <;> omega
    | none =>
      cases hfh : hb.find round r.words with
      | some c =>
        refine ⟨_, rfl, ⟨hr.numCh, hr.cap, ?_, ?_⟩, Nat.le_refl _⟩
        · intro x; have := hr.used x; dsimp only; omega
        · intro x; have := hr.rounds x; dsimp only; omega
      | none =>
        obtain ⟨t, h1, h2, h3⟩ := ih fuel d hb (round + 1) w m hr hw (by omega) (by omega)
        exact ⟨t, h1, h2, by omega⟩

theorem alloc_ends {nD capD : Nat} (hn : 0 < nD) (fuel : Nat) : ∀ rows d hb round w m,
    Roomy nD capD w m d → w + (rows.map Row.words).sum ≤ capD → m + rows.length < fuel →
    ∃ t, alloc fuel rows (d, hb, round) = some t := by
  intro rows
  induction rows with
  | nil => intro d hb round w m _ _ _; exact ⟨_, rfl⟩
  | cons r rs ih =>
    intro d hb round w m hr hw hf
    rw [List.map_cons, List.sum_cons] at hw
    rw [List.length_cons] at hf
    obtain ⟨⟨d', hb', round'⟩, h1, h2, h3⟩ := allocOne_ends r hn (m + 1) fuel d hb round w m hr
      (by omega) (by omega) (by omega)
    unfold alloc
    rw [h1]
    exact ih d' hb' round' (w + r.words) (m + 1) h2 (by omega) (by omega)

end RadSim.Dlrm
