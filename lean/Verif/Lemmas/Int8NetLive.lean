import Verif.Lemmas.Int8Sys

/-! # All results of `mlp_int8` come out in the end -/

namespace RadSim.Int8

open Mlp (Along)

variable {D : Design} {c : Mvm} {t : Nat → Nat → Nat → Cycle}

theorem Ref.Reach.uses {p : List Inst} {w : Nat → BitVec 9 → Vec} {r r' : Ref} (h : Ref.Reach c p w r r') :
    r'.ins.length ≤ r.ins.length ∧ r'.reds.length ≤ r.reds.length := by
  induction h with
  | refl => exact ⟨Nat.le_refl _, Nat.le_refl _⟩
  | @tail a b _ hn ih =>
    have hi : ∀ (i : Inst) (v : Nat → BitVec 8) (rd : List Vec), (a.put c i v rd).ins.length ≤ a.ins.length := by
      intro i v rd
      show (if i.last then a.ins.tail else a.ins).length ≤ _
      split
      · rw [List.length_tail]; omega
      · exact Nat.le_refl _
    obtain ⟨i, x, xs, -, hx, ⟨-, y, ys, hy, rfl⟩ | ⟨-, rfl⟩⟩ := Ref.next_cases hn
    · refine ⟨(hi _ _ _).trans ih.1, ?_⟩
      have : ys.length ≤ a.reds.length := by rw [hy]; simp
      exact this.trans ih.2
    · exact ⟨(hi _ _ _).trans ih.1, ih.2⟩

theorem only_snoc {k : Nat} {bs : List Beat} {b : Beat} (hb : b.kind = k) : only k (bs ++ [b]) = only k bs ++ [b] := by
  rw [only_append]
  congr 1
  unfold only
  rw [List.filter_cons_of_pos (by simpa using hb)]
  rfl

theorem instBeats_length (h : D.Ok c) {l : Nat} (hl : l < D.layers) (m : Nat) : (D.instBeats l m).length = D.limx l * D.limy l := by
  unfold Design.instBeats
  rw [instFile_eq h hl]
  simp

/-- What is shown is taken. -/
theorem shown_taken (h : D.Ok c) (hw : Wired D c t) (hs : Small D c) {l m : Nat} (hl : l < D.layers) (hm : m < D.mvms l) (n : Nat) :
    (sigAt c (t l m) (n + 1)).2.taken = (sigAt c (t l m) n).2.shown (t l m n) := by
  show (sigAt c (t l m) n).2.taken ++ ((t l m n).rx.filter _).toList = (sigAt c (t l m) n).2.taken ++ (t l m n).rx.toList
  congr 2
  cases hb : (t l m n).rx with
  | none => rfl
  | some b =>
    rw [Option.filter_some, if_pos]
    have R := right_all h hw l hl m hm n
    have L := wired_loads h hw hl hm n
    have e : (sigAt c (t l m) n).2.shown (t l m n) = (sigAt c (t l m) n).2.taken ++ [b] := by
      unfold Seen.shown
      rw [hb]
      rfl
    rw [e] at R L
    obtain ⟨r, gone, q, f, -, F⟩ := follows_at h.fits (t l m) n (wired_ordered h hw hl hm n)
    have hu := Ref.Reach.uses F.reach
    unfold rxReady
    rw [tag_kind]
    have hk := beat_kind b
    split
    · rename_i h0
      rw [Bool.not_eq_true', Fifo.almostFull, decide_eq_false_iff_not]
      show ¬_ ≥ c.fifoDepth - 4
      have h1 := congrArg List.length F.ring
      rw [List.length_rotate, List.length_append] at h1
      have h2 := L.insts.length_le
      rw [only_snoc h0, List.length_append, instBeats_length h hl, List.length_singleton] at h2
      have h3 : (programOf (sigAt c (t l m) n).2.taken).length = (only 0 (sigAt c (t l m) n).2.taken).length := by
        unfold programOf only
        rw [List.length_map]
      have := h.room l hl
      omega
    · split
      · rename_i h0 h1
        rw [Bool.not_eq_true', Fifo.almostFull, decide_eq_false_iff_not]
        show ¬_ ≥ c.fifoDepth - 4
        have h2 := congrArg List.length F.reds
        rw [List.length_append] at h2
        have h3 := R.addsLen
        rw [addsOf_append, List.length_append] at h3
        have h4 : addsOf c [b] = [b.vec c] := by simp [addsOf, h1]
        have hm0 : m ≠ 0 := by
          intro hm0
          have := R.none hm0
          rw [addsOf_append, h4] at this
          simp at this
        rw [h4, List.length_singleton] at h3
        have h5 := hu.2
        have h6 : (Ref.start (inputsOf c (sigAt c (t l m) n).2.taken) (addsOf c (sigAt c (t l m) n).2.taken)).reds.length =
          (addsOf c (sigAt c (t l m) n).2.taken).length := rfl
        have := (hs l hl).2 (by omega)
        omega
      · split
        · rename_i h0 h1 h7
          rw [Bool.not_eq_true', Fifo.almostFull, decide_eq_false_iff_not]
          show ¬_ ≥ c.fifoDepth - 4
          have h2 := congrArg List.length F.ins
          rw [List.length_append] at h2
          have h3 := R.insLen
          rw [inputsOf_append, List.length_append] at h3
          have h4 : inputsOf c [b] = [b.vec c] := by simp [inputsOf, h7]
          rw [h4, List.length_singleton] at h3
          have h5 := hu.1
          have h6 : (Ref.start (inputsOf c (sigAt c (t l m) n).2.taken) (addsOf c (sigAt c (t l m) n).2.taken)).ins.length =
            (inputsOf c (sigAt c (t l m) n).2.taken).length := rfl
          have := (hs l hl).1
          omega
        · rfl

theorem kinds_length (bs : List Beat) : bs.length = (only 0 bs).length + (only 1 bs).length + (only 2 bs).length + (only 3 bs).length := by
  induction bs with
  | nil => rfl
  | cons b bs ih =>
    have hk := beat_kind b
    have e : ∀ k, (only k (b :: bs)).length = (only k bs).length + if b.kind = k then 1 else 0 := by
      intro k
      unfold only
      by_cases hb : b.kind = k
      · rw [List.filter_cons_of_pos (by simpa using hb), if_pos hb]; rfl
      · rw [List.filter_cons_of_neg (by simpa using hb), if_neg hb]; rfl
    rw [e, e, e, e, List.length_cons, ih]
    rcases (show b.kind = 0 ∨ b.kind = 1 ∨ b.kind = 2 ∨ b.kind = 3 by omega) with h | h | h | h <;> simp [h] <;> omega

/-- As long as beats come until a goal, the goal is reached. -/
theorem until_goal (h : D.Ok c) (hw : Wired D c t) (hs : Small D c) {l m : Nat} (hl : l < D.layers) (hm : m < D.mvms l)
    (goal : List Beat → Prop) (n0 : Nat) (hc : ∀ n ≥ n0, ¬goal (sigAt c (t l m) n).2.taken → Comes (t l m) n) :
    ∃ n ≥ n0, goal (sigAt c (t l m) n).2.taken := by
  by_contra hno
  have hno' : ∀ n ≥ n0, ¬goal (sigAt c (t l m) n).2.taken := fun n hn hg => hno ⟨n, hn, hg⟩
  have grow : ∀ k, ∃ n ≥ n0, k ≤ (sigAt c (t l m) n).2.taken.length := by
    intro k
    induction k with
    | zero => exact ⟨n0, Nat.le_refl _, Nat.zero_le _⟩
    | succ k ih =>
      obtain ⟨n, hn, hk⟩ := ih
      obtain ⟨n', hn', hsome⟩ := hc n hn (hno' n hn)
      refine ⟨n' + 1, by omega, ?_⟩
      obtain ⟨e, he⟩ := taken_prefix c (t l m) hn'
      obtain ⟨b, hb⟩ := Option.isSome_iff_exists.1 hsome
      rw [shown_taken h hw hs hl hm]
      unfold Seen.shown
      rw [hb, he]
      simp
      omega
  obtain ⟨n, -, hn⟩ := grow ((D.instBeats l m).length + D.tests * D.limy l + D.tests * D.limx l + (D.weightBeats l m).length + 1)
  have R := (right_all h hw l hl m hm n).of_prefix (shown_prefix _ _ _)
  have L := (wired_loads h hw hl hm n).of_prefix (shown_prefix _ _ _)
  have h1 := L.insts.length_le
  have h2 := L.weights.length_le
  have h3 := R.insLen
  have h4 := R.addsLen
  rw [inputs_only, List.length_map] at h3
  rw [adds_only, List.length_map] at h4
  have h5 := kinds_length (sigAt c (t l m) n).2.taken
  omega

theorem sent_prefix (c : Mvm) (t : Nat → Cycle) {n m : Nat} (h : n ≤ m) : (sigAt c t n).2.sent <+: (sigAt c t m).2.sent := by
  induction m, h using Nat.le_induction with
  | base => exact List.prefix_refl _
  | succ m _ ih => exact ih.trans (List.prefix_append _ _)

theorem toward_mono {a b : List TxBeat} (hab : a <+: b) (node k : Nat) : (toward node k a).length ≤ (toward node k b).length :=
  (hab.filterMap _).length_le

/-- A module that gets all it is to get. -/
def Gets (D : Design) (c : Mvm) (t : Nat → Nat → Nat → Cycle) (l m : Nat) : Prop :=
  ∃ n, only 0 (sigAt c (t l m) n).2.taken = D.instBeats l m ∧ only 3 (sigAt c (t l m) n).2.taken = D.weightBeats l m ∧
    (only 2 (sigAt c (t l m) n).2.taken).length = D.tests * D.limx l ∧
    (m ≠ 0 → (only 1 (sigAt c (t l m) n).2.taken).length = D.tests * D.limy l)

/-- A module that sends all it is to send. -/
def Sends (D : Design) (c : Mvm) (t : Nat → Nat → Nat → Cycle) (l m : Nat) : Prop :=
  ∃ n, (sigAt c (t l m) n).2.sent.length = D.tests * D.limy l

theorem gets_sends (h : D.Ok c) (hw : Wired D c t) (hd : ∀ l < D.layers, ∀ m < D.mvms l, Drains (t l m)) {l m : Nat} (hl : l < D.layers)
    (hm : m < D.mvms l) (G : Gets D c t l m) : Sends D c t l m := by
  obtain ⟨n, g0, g3, g2, g1⟩ := G
  obtain ⟨r, hr, hlen⟩ := (h.job (m := m) hl).reaches (c := c) (w := weights c (sigAt c (t l m) n).2.taken)
    (I := inputsOf c (sigAt c (t l m) n).2.taken) (R := addsOf c (sigAt c (t l m) n).2.taken) (K := D.tests)
    (by rw [inputs_only, List.length_map, g2])
    (fun h0 => by rw [adds_only, List.length_map, g1 (by simpa using h0)])
  rw [← program_of g0] at hr
  obtain ⟨n', -, h1⟩ := delivers h.fits (hd l hl m hm) (wired_ordered h hw hl hm) hr
  refine ⟨n', Nat.le_antisymm (sent_right h hw hl hm (right_all h hw l hl m hm n')).2 ?_⟩
  have := h1.length_eq
  rw [List.length_take] at this
  omega

theorem Sends.stays (h : D.Ok c) (hw : Wired D c t) {l m : Nat} (hl : l < D.layers) (hm : m < D.mvms l) (S : Sends D c t l m) :
    ∃ n0, ∀ n ≥ n0, (sigAt c (t l m) n).2.sent.length = D.tests * D.limy l := by
  obtain ⟨n0, h0⟩ := S
  refine ⟨n0, fun n hn => Nat.le_antisymm (sent_right h hw hl hm (right_all h hw l hl m hm n)).2 ?_⟩
  rw [← h0]
  exact (sent_prefix c (t l m) hn).length_le

theorem eq_of_prefix_length {α : Type} {a b : List α} (h : a <+: b) (hl : b.length ≤ a.length) : a = b :=
  h.eq_of_length (Nat.le_antisymm h.length_le hl)

theorem gets (h : D.Ok c) (hw : Wired D c t) (hv : Delivers D c t) (hs : Small D c) {l m : Nat} (hl : l < D.layers) (hm : m < D.mvms l)
    (hl' : l ≠ 0 → Sends D c t (l - 1) (D.mvms (l - 1) - 1)) (hm' : m ≠ 0 → Sends D c t l (m - 1)) : Gets D c t l m := by
  have hin : ∃ n0, ∀ n ≥ n0, (only 2 (sigAt c (t l m) n).2.taken).length < D.tests * D.limx l → Comes (t l m) n := by
    cases l with
    | zero =>
      refine ⟨0, fun n _ hlt => hv.first m hm n _ _ (run_at h.fits _ n) ?_⟩
      rw [(inputBeats_right h hm).2]
      exact hlt
    | succ l =>
      have hM := h.mvms l (by omega)
      obtain ⟨n0, h0⟩ := (hl' (by omega)).stays h hw (l := l) (by omega) (m := D.mvms l - 1) (by omega)
      refine ⟨n0, fun n hn hlt => hv.input l hl m hm n _ _ _ _ (run_at h.fits _ n) (run_at h.fits _ n) ?_⟩
      obtain ⟨s1, s2⟩ := sent_right h hw (l := l) (by omega) (m := D.mvms l - 1) (by omega)
        (right_all h hw l (by omega) (D.mvms l - 1) (by omega) n)
      rw [(toward_next h hl hm s1 s2).2.2 (h0 n hn)]
      exact hlt
  have had : m ≠ 0 → ∃ n0, ∀ n ≥ n0, (only 1 (sigAt c (t l m) n).2.taken).length < D.tests * D.limy l → Comes (t l m) n := by
    intro h0
    cases m with
    | zero => exact absurd rfl h0
    | succ m =>
      obtain ⟨n0, hn0⟩ := (hm' (by omega)).stays h hw hl (m := m) (by omega)
      refine ⟨n0, fun n hn hlt => hv.add l hl m hm n _ _ _ _ (run_at h.fits _ n) (run_at h.fits _ n) ?_⟩
      obtain ⟨s1, s2⟩ := sent_right h hw hl (m := m) (by omega) (right_all h hw l hl m (by omega) n)
      have h1 := (toward_beside hm s1).2
      have h2 : (sigAt c (t l m) n).2.sent.length = D.tests * D.limy l := hn0 n hn
      omega
  obtain ⟨n1, hn1⟩ := hin
  obtain ⟨n2, hn2⟩ : ∃ n2, m ≠ 0 → ∀ n ≥ n2, (only 1 (sigAt c (t l m) n).2.taken).length < D.tests * D.limy l → Comes (t l m) n := by
    by_cases h0 : m = 0
    · exact ⟨0, fun h1 => absurd h0 h1⟩
    · obtain ⟨n2, hn2⟩ := had h0
      exact ⟨n2, fun _ => hn2⟩
  obtain ⟨n, hn, hg⟩ := until_goal h hw hs hl hm (fun bs => (D.instBeats l m).length ≤ (only 0 bs).length ∧
    (D.weightBeats l m).length ≤ (only 3 bs).length ∧ D.tests * D.limx l ≤ (only 2 bs).length ∧
    (m ≠ 0 → D.tests * D.limy l ≤ (only 1 bs).length)) (n1 + n2) (by
      intro n hn hg
      by_cases a0 : (D.instBeats l m).length ≤ (only 0 (sigAt c (t l m) n).2.taken).length
      · by_cases a3 : (D.weightBeats l m).length ≤ (only 3 (sigAt c (t l m) n).2.taken).length
        · by_cases a2 : D.tests * D.limx l ≤ (only 2 (sigAt c (t l m) n).2.taken).length
          · by_cases a1 : m ≠ 0 → D.tests * D.limy l ≤ (only 1 (sigAt c (t l m) n).2.taken).length
            · exact absurd ⟨a0, a3, a2, a1⟩ hg
            · rw [Classical.not_imp] at a1
              exact hn2 a1.1 n (by omega) (by omega)
          · exact hn1 n (by omega) (by omega)
        · exact hv.weights l hl m hm n _ _ (run_at h.fits _ n) (by omega)
      · exact hv.insts l hl m hm n _ _ (run_at h.fits _ n) (by omega))
  obtain ⟨a0, a3, a2, a1⟩ := hg
  have R := (right_all h hw l hl m hm n).of_prefix (shown_prefix _ _ _)
  have L := (wired_loads h hw hl hm n).of_prefix (shown_prefix _ _ _)
  have h3 := R.insLen
  have h4 := R.addsLen
  rw [inputs_only, List.length_map] at h3
  rw [adds_only, List.length_map] at h4
  exact ⟨n, eq_of_prefix_length L.insts a0, eq_of_prefix_length L.weights a3, Nat.le_antisymm h3 a2, fun h0 => Nat.le_antisymm h4 (a1 h0)⟩

theorem all_send (h : D.Ok c) (hw : Wired D c t) (hv : Delivers D c t) (hs : Small D c)
    (hd : ∀ l < D.layers, ∀ m < D.mvms l, Drains (t l m)) (l : Nat) : l < D.layers → ∀ m < D.mvms l, Sends D c t l m := by
  induction l with
  | zero =>
    intro hl m
    induction m with
    | zero => exact fun hm => gets_sends h hw hd hl hm (gets h hw hv hs hl hm (fun h0 => absurd rfl h0) (fun h0 => absurd rfl h0))
    | succ m ih =>
      exact fun hm => gets_sends h hw hd hl hm (gets h hw hv hs hl hm (fun h0 => absurd rfl h0) (fun _ => ih (by omega)))
  | succ l ihl =>
    intro hl m
    have hM := h.mvms l (by omega)
    have hp := ihl (by omega) (D.mvms l - 1) (by omega)
    induction m with
    | zero => exact fun hm => gets_sends h hw hd hl hm (gets h hw hv hs hl hm (fun _ => hp) (fun h0 => absurd rfl h0))
    | succ m ih =>
      exact fun hm => gets_sends h hw hd hl hm (gets h hw hv hs hl hm (fun _ => hp) (fun _ => ih (by omega)))

end RadSim.Int8
