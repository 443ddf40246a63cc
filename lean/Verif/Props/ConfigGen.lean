import Verif.Lemmas.ConfigGen
import Verif.Props.AxiMm

/-!
# Properties of the configuration generator

C52 (virtual channel ranges), C53 (inter-RAD bandwidth), C76 (which configuration a RAD is given) and
C77 (the destination field).
-/

namespace RadSim.ConfigGen

/-! ## C52: virtual channel ranges -/

/-- The place of a type among the generated lines. -/
def pos : FlitType → Nat
  | .readRequest => 0
  | .writeRequest => 1
  | .writeData => 2
  | .readReply => 3
  | .writeReply => 4

theorem pos_inj {t u : FlitType} (h : pos t = pos u) : t = u := by
  cases t <;> cases u <;> simp [pos] at h <;> rfl

theorem mem_written {t : FlitType} {n : Nat} (hn : n ≤ 5) : t ∈ flitTypes.take n ↔ pos t < n := by
  have : n = 0 ∨ n = 1 ∨ n = 2 ∨ n = 3 ∨ n = 4 ∨ n = 5 := by omega
  rcases this with rfl | rfl | rfl | rfl | rfl | rfl <;> cases t <;> decide

theorem genRanges_ok {vcs types : Int} {file : List Line} (ht : 0 < types)
    (h : genRanges vcs types = .ok file) :
    types ≤ 5 ∧ types * (vcs / types) = vcs ∧
      file = lines (vcs / types) (flitTypes.take types.toNat) 0 := by
  unfold genRanges at h
  split at h
  · simp at h
  split at h
  · simp at h
  split at h
  · simp at h
  next h0 h1 h2 =>
    simp only [Except.ok.injEq] at h
    refine ⟨by omega, ?_, h.symm⟩
    have hd : types ∣ vcs := by
      rw [Int.dvd_iff_emod_eq_zero, ← Int.fmod_eq_emod_of_nonneg _ (by omega)]
      simpa using h1
    exact Int.mul_ediv_cancel' hd

theorem loaded_eq {vcs types per : Int} (hp : 0 < per) (ht : 0 < types) (h5 : types ≤ 5) {t : FlitType}
    (hw : pos t < types) :
    loaded vcs (lines per (flitTypes.take types.toNat) 0) t =
      (pos t * per, pos t * per + per - 1) := by
  have : types = 1 ∨ types = 2 ∨ types = 3 ∨ types = 4 ∨ types = 5 := by omega
  rcases this with rfl | rfl | rfl | rfl | rfl <;> cases t <;>
    first
    | (exfalso; simp only [pos] at hw; omega)
    | (simp [loaded, parsed, flitTypes, lines, pos]; first | (constructor <;> (try split) <;> omega) | omega)

/-- **C52**: for a positive number of channels and of types that the generator accepts, every range
that BookSim loads for a listed type is non-empty and inside the channels, and every channel is in the
range of exactly one listed type. Missing: numbers that are not positive, and the types that are not
listed (see the violations). -/
theorem C52_partition_partial {vcs types : Int} {file : List Line} (hv : 0 < vcs) (ht : 0 < types)
    (h : genRanges vcs types = .ok file) :
    (∀ t ∈ flitTypes.take types.toNat,
      0 ≤ (loaded vcs file t).1 ∧ (loaded vcs file t).1 ≤ (loaded vcs file t).2 ∧
        (loaded vcs file t).2 < vcs) ∧
    ∀ v, 0 ≤ v → v < vcs →
      ∃ t, (t ∈ flitTypes.take types.toNat ∧ (loaded vcs file t).1 ≤ v ∧ v ≤ (loaded vcs file t).2) ∧
        ∀ u, u ∈ flitTypes.take types.toNat → (loaded vcs file u).1 ≤ v →
          v ≤ (loaded vcs file u).2 → u = t := by
  obtain ⟨h5, hm, rfl⟩ := genRanges_ok ht h
  generalize hper : vcs / types = per at *
  have hp : 0 < per := by
    rcases Int.lt_trichotomy per 0 with hc | hc | hc
    · have := Int.mul_neg_of_pos_of_neg ht hc; omega
    · subst hc; omega
    · exact hc
  have hmem : ∀ t, t ∈ flitTypes.take types.toNat ↔ (pos t : Int) < types := by
    intro t
    rw [mem_written (by omega)]
    omega
  constructor
  · intro t hw
    rw [hmem] at hw
    rw [loaded_eq hp ht h5 hw]
    have h0 : (0 : Int) ≤ pos t * per := Int.mul_nonneg (by omega) (by omega)
    have h1 : ((pos t : Int) + 1) * per ≤ types * per := Int.mul_le_mul_of_nonneg_right (by omega) (by omega)
    rw [Int.add_mul] at h1
    refine ⟨h0, ?_, ?_⟩ <;> dsimp only <;> omega
  · intro v hv0 hv1
    have hq0 : 0 ≤ v / per := Int.ediv_nonneg hv0 (by omega)
    have hq1 : v / per < types := Int.ediv_lt_of_lt_mul hp (by omega)
    have hex : ∃ t, (pos t : Int) = v / per := by
      have : v / per = 0 ∨ v / per = 1 ∨ v / per = 2 ∨ v / per = 3 ∨ v / per = 4 := by omega
      rcases this with h | h | h | h | h
      · exact ⟨.readRequest, by rw [h]; rfl⟩
      · exact ⟨.writeRequest, by rw [h]; rfl⟩
      · exact ⟨.writeData, by rw [h]; rfl⟩
      · exact ⟨.readReply, by rw [h]; rfl⟩
      · exact ⟨.writeReply, by rw [h]; rfl⟩
    obtain ⟨t, htq⟩ := hex
    have hdm := Int.mul_ediv_add_emod v per
    have hr0 := Int.emod_nonneg v (show per ≠ 0 by omega)
    have hr1 := Int.emod_lt_of_pos v hp
    rw [Int.mul_comm] at hdm
    refine ⟨t, ⟨(hmem t).2 (by omega), ?_, ?_⟩, ?_⟩
    · rw [loaded_eq hp ht h5 (by omega), htq]; dsimp only; omega
    · rw [loaded_eq hp ht h5 (by omega), htq]; dsimp only; omega
    · intro u hu hu1 hu2
      have hw := (hmem u).1 hu
      rw [loaded_eq hp ht h5 hw] at hu1 hu2
      apply pos_inj
      have : v / per = pos u := by
        dsimp only at hu1 hu2
        have a1 : (pos u : Int) ≤ v / per := Int.le_ediv_of_mul_le hp hu1
        have a2 : v / per < pos u + 1 :=
          Int.ediv_lt_of_lt_mul hp (by rw [Int.add_mul]; omega)
        omega
      omega

/-- Six channels for three types. -/
example : ∃ file, genRanges 6 3 = .ok file ∧ file = [⟨.readRequest, 0, 1⟩, ⟨.writeRequest, 2, 3⟩,
    ⟨.writeData, 4, 5⟩] := ⟨_, rfl, rfl⟩

/-- **C52** with C23: with five types and at most eight channels, the adapters recover the type of
every flit of every transaction from its channel, with the ranges that the generator writes. -/
theorem C52_types_recovered {vcs : Int} {file : List Line} (hv : 0 < vcs) (h8 : vcs ≤ 8)
    (h : genRanges vcs 5 = .ok file) (dataw : Nat) (t : MmTxn) (f : BsFlit)
    (hf : f ∈ onWire (ranges vcs file).begins dataw t) :
    (t.type = .ar ∨ t.type = .aw ∨ t.type = .w → inverseReq (ranges vcs file) f.vc = some t.type) ∧
    (t.type = .r ∨ t.type = .b → inverseRsp (ranges vcs file) f.vc = some t.type) := by
  obtain ⟨h1, h2⟩ := C52_partition_partial hv (by omega) h
  have hall : ∀ t : FlitType, t ∈ flitTypes.take (5 : Int).toNat := by intro t; cases t <;> decide
  have hd : ∀ ts, DisjointRanges (ranges vcs file) ts := by
    intro ts t _ u _ v a1 a2 a3 a4
    simp only [ranges] at a1 a2 a3 a4
    have b1 := h1 t (hall t)
    have b2 := h1 u (hall u)
    obtain ⟨w, _, hu⟩ := h2 v (by omega) (by omega)
    rw [hu t (hall t) (by omega) (by omega), hu u (hall u) (by omega) (by omega)]
  have b := h1 t.type.flitType (hall _)
  have := C23_flit_type_recovered (ranges vcs file) dataw t (by simp only [ranges]; omega)
    (by simp only [ranges]; omega) f hf
  exact ⟨fun ht => this.1 ht (hd _), fun ht => this.2 ht (hd _)⟩

/-- The configuration of the examples: five channels for five types. -/
example : ∃ file, genRanges 5 5 = .ok file ∧ (ranges 5 file).first .readReply = 3 := ⟨_, rfl, rfl⟩

/-- **C52** fails for the types that are not listed: with at most three types and at most eight
channels, read replies are given channels that the routers do not have. -/
theorem C52_unlisted_violated {vcs types : Int} {file : List Line} (ht : 0 < types) (h3 : types ≤ 3)
    (h8 : vcs ≤ 8) (h : genRanges vcs types = .ok file) :
    vcs ≤ (loaded vcs file .readReply).1 := by
  obtain ⟨_, _, rfl⟩ := genRanges_ok ht h
  have : types = 1 ∨ types = 2 ∨ types = 3 := by omega
  have hl : loaded vcs (lines (vcs / types) (flitTypes.take types.toNat) 0) .readReply = (8, 13) := by
    rcases this with rfl | rfl | rfl <;> simp [loaded, parsed, flitTypes, lines, defaults]
  rw [hl]
  exact h8

example : ∃ file, genRanges 3 3 = .ok file := ⟨_, rfl⟩

/-- **C52** fails for the types that are not listed: with one listed type, a channel of it is also one
of the write requests. -/
theorem C52_overlap_violated {vcs : Int} {file : List Line} (h2 : 2 ≤ vcs)
    (h : genRanges vcs 1 = .ok file) :
    (loaded vcs file .readRequest).1 ≤ 1 ∧ 1 ≤ (loaded vcs file .readRequest).2 ∧
    (loaded vcs file .writeRequest).1 ≤ 1 ∧ 1 ≤ (loaded vcs file .writeRequest).2 := by
  obtain ⟨_, _, rfl⟩ := genRanges_ok (by omega) h
  have h1 : loaded vcs (lines (vcs / 1) (flitTypes.take (1 : Int).toNat) 0) .writeRequest = (1, 6) := by
    simp [loaded, parsed, flitTypes, lines, defaults]
  rw [h1, loaded_eq (by omega) (by omega) (by omega) (by decide)]
  simp only [pos, Int.ediv_one]
  omega

example : ∃ file, genRanges 4 1 = .ok file := ⟨_, rfl⟩

/-- **C52** fails without channels: the generator accepts it and writes empty ranges. -/
theorem C52_no_channels_violated {types : Int} (ht : 0 < types) (h5 : types ≤ 5) :
    ∃ file, genRanges 0 types = .ok file ∧
      (loaded 0 file .readRequest).2 < (loaded 0 file .readRequest).1 := by
  have : types = 1 ∨ types = 2 ∨ types = 3 ∨ types = 4 ∨ types = 5 := by omega
  rcases this with rfl | rfl | rfl | rfl | rfl <;> exact ⟨_, rfl, by decide⟩

/-- **C52** fails for a negative number of types, which the generator accepts and for which it writes no
range. -/
theorem C52_negative_types_violated {types : Int} (ht : types < 0) (k : Int) :
    genRanges (k * types) types = .ok [] := by
  have h1 : (k * types).fmod types = 0 := Int.mul_fmod_left k types
  have h2 : types.toNat = 0 := by omega
  have h3 : types ≠ 0 := by omega
  have h4 : ¬ types > 5 := by omega
  simp [genRanges, h1, h2, h3, lines]
  omega

/-! ## C53: the inter-RAD bandwidth -/

/-- **C53**, one decimal: if the request is nearest to a multiple of a tenth (up to thousandths), the
pair written is exactly that fraction. Missing: all other fractions. -/
theorem C53_tenths_partial {x j : Nat} (hx : x < one) (h : Near x (100 * j)) :
    ∃ accept total, bandwidth x = some (accept, total) ∧ 0 < total ∧ accept * 10 = j * total := by
  obtain ⟨p, hp, h0, _, h2⟩ := bwOf_table (100 * j) (by have := near_le hx h; omega)
  refine ⟨p.1, p.2, ?_, h0, ?_⟩
  · rw [bandwidth_eq hx, thousandths_of_near h, hp]
  · have := h2.2 (by omega)
    rw [Nat.mul_assoc] at this
    omega

/-- The request `0.3`: three of ten cycles. -/
example : Near (nearest (300 * one) 1000) (100 * 3) ∧ bandwidth (nearest (300 * one) 1000) = some (3, 10) := by
  unfold Near
  decide +kernel

/-- **C53** fails for every request that is not nearest to a multiple of a tenth: more bandwidth is
written than requested. -/
theorem C53_violated {x k : Nat} (hx : x < one) (h : Near x k) (hk : k % 100 ≠ 0) :
    ∃ accept total, bandwidth x = some (accept, total) ∧ 0 < total ∧ k * total < accept * 1000 := by
  obtain ⟨p, hp, h0, h1, h2⟩ := bwOf_table k (by have := near_le hx h; omega)
  refine ⟨p.1, p.2, ?_, h0, ?_⟩
  · rw [bandwidth_eq hx, thousandths_of_near h, hp]
  · have : p.1 * 1000 ≠ k * p.2 := fun he => hk (h2.1 he)
    omega

/-- The request `0.25`: the full bandwidth is written, four times as much. -/
example : Near (nearest (250 * one) 1000) 250 ∧ bandwidth (nearest (250 * one) 1000) = some (1, 1) := by
  unfold Near
  decide +kernel

/-! ## C76: which configuration a RAD is given -/

/-- RAD `r` is simulated with the NoC, the knobs and the design of section `s`. -/
def Given (secs : List Section) (configs : List Nat) (f : Files) (r : Nat) (s : Section) : Prop :=
  nocOf f r = some (side s) ∧ knobsOf secs configs r = .ok s ∧ designOf secs r = .ok s.design

theorem index_some {secs : List Section} {name i : Nat} (h : index secs name = some i) :
    ∃ s, secs[i]? = some s ∧ s.name = name := by
  unfold index at h
  rw [List.findIdx?_eq_some_iff_getElem] at h
  obtain ⟨hi, hn, _⟩ := h
  exact ⟨secs[i], by simp [hi], by simpa using hn⟩

theorem index_of {secs : List Section} (hd : (secs.map (·.name)).Nodup) {i : Nat} {s : Section}
    (h : secs[i]? = some s) : index secs s.name = some i := by
  obtain ⟨hi, hs⟩ := List.getElem?_eq_some_iff.1 h
  unfold index
  rw [List.findIdx?_eq_some_iff_getElem]
  refine ⟨hi, by simp [hs], ?_⟩
  intro j hj
  have hne := List.pairwise_iff_getElem.1 hd j i (by simp; omega) (by simpa using hi) hj
  simpa [hs] using hne

theorem lookup_filter {l : List (Nat × Nat)} {i r : Nat} (h : r ≠ i) :
    (l.filter fun e => e.1 ≠ i).lookup r = l.lookup r := by
  induction l with
  | nil => rfl
  | cons e l ih =>
    obtain ⟨a, b⟩ := e
    by_cases ha : a = i
    · subst ha
      have : (r == a) = false := by simpa using h
      rw [List.filter_cons_of_neg (by simp), ih]
      simp [List.lookup, this]
    · by_cases hr : r = a
      · subst hr; simp [ha, List.lookup]
      · have : (r == a) = false := by simpa using hr
        rw [List.filter_cons_of_pos (by simp [ha])]
        simp only [List.lookup, this, ih]

/-- What the generator leaves for a RAD number. -/
theorem genBooksim_noc {secs : List Section} (hd : (secs.map (·.name)).Nodup) :
    ∀ (configs : List Nat) (f g : Files), genBooksim secs configs f = .ok g →
      ∀ r, nocOf g r = match secs[r]? with
        | none => nocOf f r
        | some s => if s.name ∈ configs then some (side s) else nocOf f r := by
  intro configs
  induction configs with
  | nil =>
    intro f g h r
    simp only [genBooksim, Except.ok.injEq] at h
    subst h
    cases secs[r]? <;> simp
  | cons name rest ih =>
    intro f g h r
    unfold genBooksim at h
    cases hi : index secs name with
    | none => simp [hi] at h
    | some i =>
      obtain ⟨s, hs, hn⟩ := index_some hi
      simp only [hi, hs] at h
      have := ih _ _ h r
      rw [this]
      cases hr : secs[r]? with
      | none =>
        have : r ≠ i := by intro e; subst e; rw [hs] at hr; simp at hr
        simp only [nocOf]
        have hb : (r == i) = false := by simpa using this
        simp only [List.lookup, hb, lookup_filter this]
      | some t =>
        by_cases hri : r = i
        · subst hri
          rw [hs] at hr
          cases hr
          subst hn
          simp [nocOf]
        · have hb : (r == i) = false := by simpa using hri
          have hne : t.name ≠ name := by
            intro e
            have := index_of hd hr
            rw [e, hi] at this
            exact hri (by simpa using this.symm)
          simp only [nocOf, List.lookup, hb, lookup_filter hri, List.mem_cons, hne, false_or]

theorem genBooksim_ok {secs : List Section} :
    ∀ (configs : List Nat) (f : Files), (∀ n ∈ configs, ∃ s ∈ secs, s.name = n) →
      ∃ g, genBooksim secs configs f = .ok g := by
  intro configs
  induction configs with
  | nil => intro f _; exact ⟨f, rfl⟩
  | cons name rest ih =>
    intro f h
    obtain ⟨s, hs, hn⟩ := h name (by simp)
    unfold genBooksim
    cases hi : index secs name with
    | none =>
      exfalso
      unfold index at hi
      rw [List.findIdx?_eq_none_iff] at hi
      have := hi s hs
      simp [hn] at this
    | some i =>
      obtain ⟨t, ht, _⟩ := index_some hi
      simp only [ht]
      exact ih _ fun n hm => h n (by simp [hm])

/-- **C76**: if the cluster lists the sections in the order of the file, each once, every RAD is given
its section. Missing: any other list. -/
theorem C76_in_order_partial {secs : List Section} (hd : (secs.map (·.name)).Nodup) (f : Files) :
    ∃ g, genBooksim secs (secs.map (·.name)) f = .ok g ∧
      ∀ r s, secs[r]? = some s → Given secs (secs.map (·.name)) g r s := by
  obtain ⟨g, hg⟩ := genBooksim_ok (secs := secs) (secs.map (·.name)) f (by simp)
  refine ⟨g, hg, ?_⟩
  intro r s hs
  refine ⟨?_, ?_, ?_⟩
  · rw [genBooksim_noc hd _ _ _ hg r, hs]
    have : s.name ∈ secs.map (·.name) := List.mem_map_of_mem (List.mem_of_getElem? hs)
    simp only [this, if_true]
  · have hc : (secs.map (·.name))[r]? = some s.name := by simp [hs]
    simp only [knobsOf, hc, index_of hd hs, hs]
  · simp only [designOf, hs]

/-- **C76** in general: the NoC file and the design of a RAD are those of the section at its number in
the file, whatever the cluster lists for it, and the knobs those of the listed section. -/
theorem C76_by_position {secs : List Section} (hd : (secs.map (·.name)).Nodup) {configs : List Nat}
    {g : Files} (hg : genBooksim secs configs ⟨[], 0⟩ = .ok g) {r i : Nat} {s t : Section}
    (hs : secs[r]? = some s) (hc : configs[r]? = some t.name) (ht : secs[i]? = some t) :
    nocOf g r = (if s.name ∈ configs then some (side s) else none) ∧
    knobsOf secs configs r = .ok t ∧ designOf secs r = .ok s.design := by
  refine ⟨?_, ?_, ?_⟩
  · rw [genBooksim_noc hd _ _ _ hg r, hs]; rfl
  · simp only [knobsOf, hc, index_of hd ht, hs, ht]
  · simp only [designOf, hs]

/-- Two sections: a mesh of 4 by 3 with design 1, a mesh of 8 by 8 with design 2. -/
def demoSecs : List Section := [⟨10, 1, 4, 3⟩, ⟨20, 2, 8, 8⟩]

example : ∃ g, genBooksim demoSecs [10, 20] ⟨[], 0⟩ = .ok g ∧
    Given demoSecs [10, 20] g 0 ⟨10, 1, 4, 3⟩ ∧ Given demoSecs [10, 20] g 1 ⟨20, 2, 8, 8⟩ :=
  ⟨_, rfl, ⟨rfl, rfl, rfl⟩, ⟨rfl, rfl, rfl⟩⟩

/-- **C76** fails when the cluster lists two sections in the other order: RAD 0 has the knobs of the
section it was assigned, but the NoC and the design of the other. -/
theorem C76_swapped_violated (a b : Section) (h : a.name ≠ b.name) :
    ∃ g, genBooksim [a, b] [b.name, a.name] ⟨[], 0⟩ = .ok g ∧
      knobsOf [a, b] [b.name, a.name] 0 = .ok b ∧ nocOf g 0 = some (side a) ∧
      designOf [a, b] 0 = .ok a.design := by
  have hd : (([a, b] : List Section).map (·.name)).Nodup := by simp [h]
  obtain ⟨g, hg⟩ := genBooksim_ok (secs := [a, b]) [b.name, a.name] ⟨[], 0⟩ (by simp)
  obtain ⟨h1, h2, h3⟩ := C76_by_position hd hg (r := 0) (i := 1) (s := a) (t := b) rfl rfl rfl
  exact ⟨g, hg, h2, by simpa using h1, h3⟩

example : ∃ g, genBooksim demoSecs [20, 10] ⟨[], 0⟩ = .ok g ∧ nocOf g 0 = some 4 ∧
    ¬ Given demoSecs [20, 10] g 0 ⟨20, 2, 8, 8⟩ :=
  ⟨_, rfl, rfl, by simp [Given, nocOf, side, List.lookup]⟩

/-- **C76** fails when two RADs share one section: the generator stops, after having written no NoC file
for the second. -/
theorem C76_shared_violated (a : Section) :
    ∃ g, genBooksim [a] [a.name, a.name] ⟨[], 0⟩ = .ok g ∧ nocOf g 1 = none ∧
      knobsOf [a] [a.name, a.name] 1 = .error .missing := by
  have hd : (([a] : List Section).map (·.name)).Nodup := by simp
  obtain ⟨g, hg⟩ := genBooksim_ok (secs := [a]) [a.name, a.name] ⟨[], 0⟩ (by simp)
  refine ⟨g, hg, ?_, ?_⟩
  · rw [genBooksim_noc hd _ _ _ hg 1]; rfl
  · have : index [a] a.name = some 0 := index_of hd rfl
    simp [knobsOf, this]

/-! ## C77: the destination field -/

theorem le_two_pow_ceilLog2 (n : Nat) : n ≤ 2 ^ ceilLog2 n := by
  unfold ceilLog2
  split
  · simpa using by omega
  · have := @Nat.lt_log2_self (n - 1)
    omega

theorem ceilLog2_least {n w : Nat} (h : n ≤ 2 ^ w) : ceilLog2 n ≤ w := by
  unfold ceilLog2
  split
  · omega
  · have := (Nat.log2_lt (n := n - 1) (k := w) (by omega)).2 (by omega)
    omega

/-- The side of the least square mesh that holds the configured one. -/
def square (s : Section) : Nat := max s.dimX s.dimY

theorem side_eq (s : Section) : side s = square s := by unfold side square; split <;> omega

/-- The node count in the header is that of the last section processed. -/
theorem genBooksim_header {secs : List Section} (hd : (secs.map (·.name)).Nodup) :
    ∀ (configs : List Nat) (f g : Files), genBooksim secs configs f = .ok g →
      ∀ s ∈ secs, configs.getLast? = some s.name → g.headerNodes = square s * square s := by
  intro configs
  induction configs with
  | nil => intro f g _ s _ h; simp at h
  | cons name rest ih =>
    intro f g h s hs hl
    unfold genBooksim at h
    cases hi : index secs name with
    | none => simp [hi] at h
    | some i =>
      obtain ⟨t, ht, hn⟩ := index_some hi
      simp only [hi, ht] at h
      cases rest with
      | nil =>
        simp only [genBooksim, Except.ok.injEq] at h
        subst h
        simp only [List.getLast?_singleton, Option.some.injEq] at hl
        obtain ⟨j, hj, hjs⟩ := List.mem_iff_getElem.1 hs
        have hj' : secs[j]? = some s := by simp [hj, hjs]
        have := index_of hd hj'
        rw [← hl, hi] at this
        have hij : i = j := by simpa using this
        subst hij
        rw [ht] at hj'
        cases hj'
        rw [← side_eq]
      | cons n2 r2 => exact ih _ _ h s hs (by simpa using hl)

/-- **C77**: if no listed section has a larger mesh than the last one listed, and there are not more
RADs than it has nodes, the destination field holds every node of every RAD and every RAD number, and no
narrower field holds the nodes. Missing: other lists. -/
theorem C77_field_partial {secs : List Section} (hd : (secs.map (·.name)).Nodup) {configs : List Nat}
    {f g : Files} (hg : genBooksim secs configs f = .ok g) {l : Section} (hl : l ∈ secs)
    (hlast : configs.getLast? = some l.name)
    (hmax : ∀ s ∈ secs, s.name ∈ configs → square s ≤ square l)
    (hr : configs.length ≤ square l * square l) :
    (∀ s ∈ secs, s.name ∈ configs → ∀ node < square s * square s, node < 2 ^ destFieldWidth g) ∧
    (∀ r < configs.length, r < 2 ^ destFieldWidth g) ∧
    ∀ w, (∀ node < square l * square l, node < 2 ^ w) → destFieldWidth g ≤ w := by
  have hh := genBooksim_header hd _ _ _ hg l hl hlast
  have hw : square l * square l ≤ 2 ^ destFieldWidth g := by
    unfold destFieldWidth
    rw [hh]
    exact le_two_pow_ceilLog2 _
  refine ⟨?_, ?_, ?_⟩
  · intro s hs hm node hn
    have := Nat.mul_le_mul (hmax s hs hm) (hmax s hs hm)
    omega
  · intro r hr'
    omega
  · intro w hall
    unfold destFieldWidth
    rw [hh]
    apply ceilLog2_least
    rcases Nat.eq_zero_or_pos (square l * square l) with h0 | h0
    · rw [h0]; exact Nat.zero_le _
    · have := hall (square l * square l - 1) (by omega)
      omega

example : ∃ g, genBooksim demoSecs [10, 20] ⟨[], 0⟩ = .ok g ∧ destFieldWidth g = 6 := ⟨_, rfl, rfl⟩

/-- **C77** fails when the last section listed has too small a mesh: two nodes of another RAD have the
same destination field. -/
theorem C77_last_smaller_violated (a b : Section) (h : a.name ≠ b.name) {w : Nat}
    (hb : square b * square b = 2 ^ w) (ha : square b < square a) :
    ∃ g, genBooksim [a, b] [a.name, b.name] ⟨[], 0⟩ = .ok g ∧
      ∃ m < square a * square a, ∃ n < square a * square a, m ≠ n ∧
        BitVec.ofNat (destFieldWidth g) m = BitVec.ofNat (destFieldWidth g) n := by
  have hd : (([a, b] : List Section).map (·.name)).Nodup := by simp [h]
  obtain ⟨g, hg⟩ := genBooksim_ok (secs := [a, b]) [a.name, b.name] ⟨[], 0⟩ (by simp)
  have hh := genBooksim_header hd _ _ _ hg b (by simp) (by simp)
  have hw : destFieldWidth g ≤ w := by
    unfold destFieldWidth
    rw [hh]
    exact ceilLog2_least (by omega)
  have hlt := Nat.mul_lt_mul'' ha ha
  refine ⟨g, hg, 0, by omega, 2 ^ w, by omega, by have := Nat.two_pow_pos w; omega, ?_⟩
  apply BitVec.eq_of_toNat_eq
  simp only [BitVec.toNat_ofNat, Nat.zero_mod]
  exact (Nat.mod_eq_zero_of_dvd (Nat.pow_dvd_pow 2 hw)).symm

example : ∃ g, genBooksim [⟨10, 1, 8, 8⟩, ⟨20, 2, 2, 2⟩] [10, 20] ⟨[], 0⟩ = .ok g ∧
    destFieldWidth g = 2 := ⟨_, rfl, rfl⟩

/-- **C77** fails for the RAD number when there are more RADs than nodes: with meshes of 2 by 2 and five
RADs, RADs 0 and 4 have the same field. -/
theorem C77_many_rads_violated (s : Nat → Section) (hn : ∀ i < 5, (s i).name = i)
    (hs : ∀ i < 5, square (s i) = 2) :
    ∃ g, genBooksim [s 0, s 1, s 2, s 3, s 4] [0, 1, 2, 3, 4] ⟨[], 0⟩ = .ok g ∧
      BitVec.ofNat (destFieldWidth g) 0 = BitVec.ofNat (destFieldWidth g) 4 := by
  have n0 := hn 0 (by omega)
  have n1 := hn 1 (by omega)
  have n2 := hn 2 (by omega)
  have n3 := hn 3 (by omega)
  have n4 := hn 4 (by omega)
  obtain ⟨g, hg⟩ := genBooksim_ok (secs := [s 0, s 1, s 2, s 3, s 4]) [0, 1, 2, 3, 4] ⟨[], 0⟩
    (by simp [n0, n1, n2, n3, n4])
  have hh := genBooksim_header (by simp [n0, n1, n2, n3, n4]) _ _ _ hg (s 4) (by simp) (by simp [n4])
  refine ⟨g, hg, ?_⟩
  unfold destFieldWidth
  rw [hh, hs 4 (by omega)]
  decide

example : ∃ s : Nat → Section, (∀ i < 5, (s i).name = i) ∧ ∀ i < 5, square (s i) = 2 :=
  ⟨fun i => ⟨i, 0, 2, 2⟩, fun _ _ => rfl, fun _ _ => rfl⟩

end RadSim.ConfigGen
