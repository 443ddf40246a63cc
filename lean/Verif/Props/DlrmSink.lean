import Verif.Spec.DlrmSink

/-!
Properties of the check that the DLRM driver makes of the outputs.
-/
namespace RadSim.Dlrm

open Spec

theorem compare_ok : ∀ (o g : List Int) (m : Bool), o.length ≤ g.length → o ≠ [] →
    compareElems o g m = .ok (o[o.length - 1]? == g[o.length - 1]?) := by
  intro o
  induction o with
  | nil => intro _ _ _ h; exact absurd rfl h
  | cons x xs ih =>
    intro g m hl _
    cases g with
    | nil => simp at hl
    | cons y ys =>
      rw [compareElems]
      cases xs with
      | nil => simp [compareElems]
      | cons x' xs' =>
        rw [ih ys (x == y) (by simpa using hl) (by simp)]
        simp

/-- The outputs checked so far. -/
structure SinkInv (num : Nat) (golden : List (List Int)) (ins : Nat → SinkIn) (n : Nat)
    (s : SinkSt) : Prop where
  count : s.count = min num (shown ins n).length
  all : s.all = true ↔ ∀ i < s.count, ∀ o g : List Int, (shown ins n)[i]? = some o → golden[i]? = some g →
    o[o.length - 1]? = g[o.length - 1]?

theorem sink_inv (num : Nat) (golden : List (List Int)) (ins : Nat → SinkIn)
    (hnum : num ≤ golden.length) (hlen : NoLonger golden ins) :
    ∀ n, ∃ s, sinkAt num golden ins n = .ok s ∧ SinkInv num golden ins n s := by
  intro n
  induction n with
  | zero => exact ⟨_, rfl, ⟨by simp [shown], by simp⟩⟩
  | succ n ih =>
    obtain ⟨s, hs, hi⟩ := ih
    rw [sinkAt, hs]
    dsimp only
    unfold sinkTick
    have hkeep : ∀ i < s.count, (shown ins (n + 1))[i]? = (shown ins n)[i]? := by
      intro i hlt
      rw [shown, List.getElem?_append_left]
      have := hi.count
      omega
    by_cases hc : s.count < num
    · rw [if_pos hc]
      have hcount : s.count = (shown ins n).length := by
        have := hi.count
        omega
      by_cases hr : (ins n).rdy = true ∧ (ins n).data ≠ []
      · have hb : ((ins n).rdy && !(ins n).data.isEmpty) = true := by
          rw [hr.1]
          cases hd : (ins n).data with
          | nil => exact absurd hd hr.2
          | cons x xs => rfl
        rw [if_pos hb]
        have hnew : (shown ins (n + 1))[s.count]? = some (ins n).data := by
          rw [shown, if_pos hr, hcount]
          simp
        have hg : golden[s.count]? = some (golden[s.count]'(by omega)) :=
          List.getElem?_eq_getElem (by omega)
        rw [hg]
        dsimp only
        rw [compare_ok _ _ true (hlen (n + 1) s.count _ hnew _ hg) hr.2]
        refine ⟨_, rfl, ⟨?_, ?_⟩⟩
        · dsimp only
          rw [shown, if_pos hr, List.length_append, List.length_singleton]
          omega
        · dsimp only
          rw [Bool.and_eq_true, hi.all, beq_iff_eq]
          constructor
          · rintro ⟨h1, h2⟩ i hlt o g ho hgg
            rcases Nat.lt_or_ge i s.count with h | h
            · rw [hkeep i h] at ho
              exact h1 i h o g ho hgg
            · have : i = s.count := by omega
              subst this
              rw [hnew] at ho
              rw [hg] at hgg
              cases ho
              cases hgg
              exact h2
          · intro h
            refine ⟨fun i hlt o g ho hgg => h i (by omega) o g (by rw [hkeep i hlt]; exact ho) hgg,
              h s.count (by omega) _ _ hnew hg⟩
      · have hb : ¬ ((ins n).rdy && !(ins n).data.isEmpty) = true := by
          intro hb
          rw [Bool.and_eq_true] at hb
          refine hr ⟨hb.1, fun h0 => ?_⟩
          rw [h0] at hb
          exact absurd hb.2 (by decide)
        rw [if_neg hb]
        have : shown ins (n + 1) = shown ins n := by rw [shown, if_neg hr, List.append_nil]
        refine ⟨s, rfl, ?_⟩
        constructor
        · rw [this]; exact hi.count
        · rw [this]; exact hi.all
    · rw [if_neg hc]
      refine ⟨s, rfl, ⟨?_, ?_⟩⟩
      · have := hi.count
        rw [shown, List.length_append]
        omega
      · rw [hi.all]
        constructor
        · intro h i hlt o g ho hg
          rw [hkeep i hlt] at ho
          exact h i hlt o g ho hg
        · intro h i hlt o g ho hg
          exact h i hlt o g (by rw [hkeep i hlt]; exact ho) hg

/-- The check raises no false alarm, and it ends exactly when the expected number of
outputs has come: if these begin with what is expected, the driver reports success.

Partial: the converse does not hold (`C122_violated`); what a report of success says
is in `C122_means_partial`. -/
theorem C122_no_alarm_partial (num : Nat) (golden : List (List Int)) (ins : Nat → SinkIn)
    (hnum : num ≤ golden.length) (n : Nat)
    (hgood : ∀ (m i : Nat) (o g : List Int), (shown ins m)[i]? = some o → golden[i]? = some g → o <+: g) :
    ∃ s, sinkAt num golden ins n = .ok s ∧
      (num ≤ (shown ins n).length → verdict num s = some true) ∧
      ((shown ins n).length < num → verdict num s = none) := by
  obtain ⟨s, hs, hi⟩ := sink_inv num golden ins hnum
    (fun m i o ho g hg => (hgood m i o g ho hg).length_le) n
  refine ⟨s, hs, fun h => ?_, fun h => ?_⟩
  · have hc := hi.count
    unfold verdict
    rw [if_neg (by omega)]
    congr 1
    rw [hi.all]
    intro i _ o g ho hg
    have hm : o ≠ [] := by
      have hmem := List.mem_of_getElem? ho
      clear hs hi ho h hc
      induction n with
      | zero => cases hmem
      | succ n ih =>
        rw [shown] at hmem
        rcases List.mem_append.mp hmem with hmem | hmem
        · exact ih hmem
        · split at hmem
          · rename_i hr
            rw [List.mem_singleton.mp hmem]
            exact hr.2
          · cases hmem
    obtain ⟨t, rfl⟩ := hgood n i o g ho hg
    have : 0 < o.length := List.length_pos_iff.mpr hm
    rw [List.getElem?_append_left (by omega)]
  · have hc := hi.count
    unfold verdict
    rw [if_pos (by omega)]

/-- What a report of success says: of each of the first `num` outputs, the last element
is the expected one.  For outputs of one element this is all there is to say. -/
theorem C122_means_partial (num : Nat) (golden : List (List Int)) (ins : Nat → SinkIn)
    (hnum : num ≤ golden.length) (hlen : NoLonger golden ins) (n : Nat) (s : SinkSt)
    (hs : sinkAt num golden ins n = .ok s) (b : Bool) (hv : verdict num s = some b) :
    b = true ↔ ∀ i < num, ∃ o g : List Int, (shown ins n)[i]? = some o ∧ golden[i]? = some g ∧
      o[o.length - 1]? = g[o.length - 1]? := by
  obtain ⟨t, ht, hi⟩ := sink_inv num golden ins hnum hlen n
  rw [hs] at ht
  cases ht
  unfold verdict at hv
  split at hv
  · cases hv
  cases hv
  have hc := hi.count
  have hcn : s.count = num := by omega
  rw [hi.all, hcn]
  constructor
  · intro h i hlt
    have h1 : i < (shown ins n).length := by omega
    exact ⟨_, _, List.getElem?_eq_getElem h1, List.getElem?_eq_getElem (by omega : i < golden.length),
      h i hlt _ _ (List.getElem?_eq_getElem h1) (List.getElem?_eq_getElem (by omega))⟩
  · intro h i hlt o g ho hg
    obtain ⟨o', g', h1, h2, h3⟩ := h i hlt
    rw [ho] at h1
    rw [hg] at h2
    cases h1
    cases h2
    exact h3

namespace SinkExample

def golden : List (List Int) := [[1, 2, 3], [4, 5, 6]]

/-- The right outputs, in periods 1 and 3. -/
def good (n : Nat) : SinkIn :=
  if n = 1 then ⟨true, [1, 2, 3]⟩ else if n = 3 then ⟨true, [4, 5, 6]⟩ else ⟨false, [9]⟩

/-- Outputs of which only the last element is right. -/
def bad (n : Nat) : SinkIn :=
  if n = 1 then ⟨true, [7, 7, 3]⟩ else if n = 3 then ⟨true, [0, 0, 6]⟩ else ⟨false, [9]⟩

theorem shown_stop (f : Nat → SinkIn) (h : ∀ n, 4 ≤ n → (f n).rdy = false) :
    ∀ d, shown f (4 + d) = shown f 4 := by
  intro d
  induction d with
  | zero => rfl
  | succ d ih =>
    rw [show 4 + (d + 1) = 4 + d + 1 by omega, shown, ih, h (4 + d) (by omega)]
    simp

theorem good_quiet (n : Nat) (h : 4 ≤ n) : (good n).rdy = false := by
  unfold good
  rw [if_neg (by omega), if_neg (by omega)]

theorem good_prefix : ∀ (m i : Nat) (o g : List Int), (shown good m)[i]? = some o → golden[i]? = some g → o <+: g := by
  have hall : ∀ m < 5, ∀ i < 2, (shown good m)[i]? = none ∨ (shown good m)[i]? = golden[i]? := by
    decide +kernel
  have hshow : ∀ m, ∃ k < 5, shown good m = shown good k := by
    intro m
    rcases Nat.lt_or_ge m 5 with h | h
    · exact ⟨m, h, rfl⟩
    · refine ⟨4, by decide, ?_⟩
      have := shown_stop good good_quiet (m - 4)
      rwa [show 4 + (m - 4) = m by omega] at this
  intro m i o g ho hg
  obtain ⟨k, hk, he⟩ := hshow m
  rw [he] at ho
  have hi : i < 2 := (List.getElem?_eq_some_iff.mp hg).1
  rcases hall k hk i hi with h | h
  · rw [ho] at h; cases h
  · rw [ho, hg] at h
    cases h
    exact List.prefix_refl _

/-- The hypotheses of both theorems hold together, and the run ends in success. -/
example : (∃ s, sinkAt 2 golden good 5 = .ok s ∧ verdict 2 s = some true) ∧
    NoLonger golden good := by
  obtain ⟨s, h1, h2, -⟩ := C122_no_alarm_partial 2 golden good (by decide) 5 good_prefix
  exact ⟨⟨s, h1, h2 (by decide +kernel)⟩,
    fun m i o ho g hg => (good_prefix m i o g ho hg).length_le⟩

end SinkExample

/-- The driver reports "All outputs matching" for outputs that are wrong in all elements
but the last: the flag is overwritten by each comparison. -/
theorem C122_violated : ∃ s, sinkAt 2 SinkExample.golden SinkExample.bad 5 = .ok s ∧
    verdict 2 s = some true ∧
    shown SinkExample.bad 5 = [[7, 7, 3], [0, 0, 6]] ∧
    SinkExample.golden = [[1, 2, 3], [4, 5, 6]] :=
  ⟨⟨2, true⟩, by rfl, rfl, by decide +kernel, rfl⟩

end RadSim.Dlrm
