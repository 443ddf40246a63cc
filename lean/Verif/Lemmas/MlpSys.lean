import Verif.Lemmas.MlpNet
import Verif.Lemmas.MvmLive

/-! # All modules of the example design `mlp` together -/

namespace RadSim.Mlp

variable {D : Design} {q : Consts}

/-- Result `t` of a module. -/
def idealOut (D : Design) (l m t : Nat) : Out :=
  ⟨partSum D l m t, BitVec.ofNat 5 (D.dest l m (t % D.limy l)).1, BitVec.ofNat 5 (D.dest l m (t % D.limy l)).2⟩

/-- The vectors of a module are the right ones, and not too many. -/
structure Right (D : Design) (l m : Nat) (I R : List Vec) : Prop where
  ins : Along (feed D l m) I
  reds : m ≠ 0 → Along (partSum D l (m - 1)) R
  few : I.length ≤ D.tests * D.limx l
  fewReds : R.length ≤ D.tests * D.limy l
  noReds : m = 0 → R = []

/-- So are its results. -/
theorem Right.out (h : D.Ok q) {l m : Nat} (hl : l < D.layers) (hm : m < D.mvms l) {I R : List Vec} (H : Right D l m I R) {r : Ref}
    (hr : Ref.Reach (D.mvm q l m) (Ref.start I R) r) :
    Along (idealOut D l m) r.out ∧ r.out.length ≤ D.tests * D.limy l := by
  have hX := (h.x hl).1
  have hY := (h.y hl).1
  obtain ⟨h1, h2⟩ := (h.job (m := m) hl).along (xs := feed D l m) (rs := partSum D l (m - 1)) H.ins
    (fun hm => H.reds (by simpa using hm)) hr
  constructor
  · intro i a ha
    rw [h1 i a ha]
    unfold idealOut
    rw [← blockOut_vec h hl hm (fun j => BitVec.ofNat 5 (D.dest l m j).1) (fun j => BitVec.ofNat 5 (D.dest l m j).2)]
    rfl
  · by_contra hlt
    have := h2 (D.tests * D.limy l) (by omega)
    rw [Nat.mul_div_cancel _ hY] at this
    have := this.trans H.few
    have := Nat.le_of_mul_le_mul_right this hX
    omega

theorem toInt_small {n : Nat} (hn : n < 16) : (BitVec.ofNat 5 n).toInt = n := by
  rw [BitVec.toInt_eq_toNat_of_lt] <;> rw [BitVec.toNat_ofNat, Nat.mod_eq_of_lt] <;> omega

theorem toNat_small {n : Nat} (hn : n < 32) : (BitVec.ofNat 5 n).toNat = n := by
  rw [BitVec.toNat_ofNat, Nat.mod_eq_of_lt (by omega)]

theorem Along.map {α β : Type} {f : Nat → α} {l : List α} (h : Along f l) (g : α → β) : Along (fun i => g (f i)) (l.map g) := by
  intro i a hi
  rw [List.getElem?_map, Option.map_eq_some_iff] at hi
  obtain ⟨b, hb, rfl⟩ := hi
  rw [h i b hb]

/-- What the last module of a layer sends to a module of the next one. -/
theorem toward_next (h : D.Ok q) {l m : Nat} (hl : l + 1 < D.layers) (hm : m < D.mvms (l + 1)) {sent : List (Out × Nat)} {out : List Out}
    (hs : sent <+: out.map (D.mvm q l (D.mvms l - 1)).wire) (ho : Along (idealOut D l (D.mvms l - 1)) out)
    (hlen : out.length ≤ D.tests * D.limy l) :
    Along (feed D (l + 1) m) (toward (l + 2) m 3 sent) ∧ (toward (l + 2) m 3 sent).length ≤ D.tests * D.limx (l + 1) ∧
    (sent.length = D.tests * D.limy l → (toward (l + 2) m 3 sent).length = D.tests * D.limx (l + 1)) := by
  have hM := h.mvms l (by omega)
  have hM' := h.mvms (l + 1) hl
  have hX := (h.x hl).1
  have hY := (h.y (l := l) (by omega)).1
  have hsh := (h.shape hl).2
  obtain ⟨hb1, hb2⟩ := h.bounds
  have hb := hb2 (l + 1) hl
  have hA : Along (fun i => (D.mvm q l (D.mvms l - 1)).wire (idealOut D l (D.mvms l - 1) i)) sent := (ho.map _).of_prefix hs
  have hlen' : sent.length ≤ D.tests * D.limy l := by
    have := hs.length_le
    rw [List.length_map] at this
    omega
  obtain ⟨h1, h2, h3⟩ := hA.turn hm (fun b => if b.1.layer.toNat = l + 2 ∧ b.1.mvm.toNat = m ∧ b.2 = 3 * 2 ^ 13 then some b.1.vec else none)
    (feed D (l + 1) m) (by
      intro i
      have hd : D.dest l (D.mvms l - 1) (i % D.limy l) = (l + 2, i % D.mvms (l + 1)) := by
        unfold Design.dest
        rw [if_neg (by omega), if_pos rfl, hsh, Nat.mod_mul_left_mod]
      have hmod := Nat.mod_lt i hM'
      unfold idealOut Mvm.wire
      simp only [hd, toInt_small (show l + 2 < 16 by omega), toNat_small (show l + 2 < 32 by omega),
        toNat_small (show i % D.mvms (l + 1) < 32 by omega), true_and]
      have hly : (D.mvm q l (D.mvms l - 1)).layer = l := rfl
      have hne : ¬ ((l + 2 : Nat) : Int) = (l : Int) + 1 := by omega
      simp only [hly, if_neg hne, and_true]
      by_cases he : i % D.mvms (l + 1) = m
      · rw [if_pos he, if_pos he, partSum_last h (by omega)]
        unfold feed
        congr 2
        · rw [hsh, Nat.mul_comm, Nat.div_div_eq_div_mul]
        · rw [hsh, Nat.mul_comm (D.limx (l + 1)), Nat.mod_mul, he, Nat.mul_comm, Nat.add_comm]
      · rw [if_neg he, if_neg he])
  have hle : (toward (l + 2) m 3 sent).length ≤ D.tests * D.limx (l + 1) := by
    by_contra hlt
    have := h2 (D.tests * D.limx (l + 1)) (by unfold toward at hlt; omega)
    rw [hsh, ← Nat.mul_assoc] at hlen'
    omega
  refine ⟨h1, hle, fun hall => Nat.le_antisymm hle ?_⟩
  change sent.length ≤ (toward (l + 2) m 3 sent).length * D.mvms (l + 1) + m at h3
  rw [hall, hsh, ← Nat.mul_assoc] at h3
  by_contra hlt
  have : ((toward (l + 2) m 3 sent).length + 1) * D.mvms (l + 1) ≤ D.tests * D.limx (l + 1) * D.mvms (l + 1) :=
    Nat.mul_le_mul_right _ (by omega)
  rw [Nat.add_mul, Nat.one_mul] at this
  omega

/-- What a module sends to the next one of its layer. -/
theorem toward_beside (h : D.Ok q) {l m : Nat} (hl : l < D.layers) (hm : m + 1 < D.mvms l) {sent : List (Out × Nat)} {out : List Out}
    (hs : sent <+: out.map (D.mvm q l m).wire) (ho : Along (idealOut D l m) out) :
    Along (partSum D l m) (toward (l + 1) (m + 1) 2 sent) ∧ (toward (l + 1) (m + 1) 2 sent).length = sent.length := by
  obtain ⟨hb1, hb2⟩ := h.bounds
  have hb := hb2 l hl
  have hA : Along (fun i => (D.mvm q l m).wire (idealOut D l m i)) sent := (ho.map _).of_prefix hs
  have H := hA.turn (M := 1) (m := 0) (by omega)
    (fun b => if b.1.layer.toNat = l + 1 ∧ b.1.mvm.toNat = m + 1 ∧ b.2 = 2 * 2 ^ 13 then some b.1.vec else none) (partSum D l m) ?_
  · refine ⟨H.1, Nat.le_antisymm (List.length_filterMap_le _ _) ?_⟩
    have := H.2.2
    rw [Nat.mul_one, Nat.add_zero] at this
    exact this
  intro i
  have hd : D.dest l m (i % D.limy l) = (l + 1, m + 1) := by
    unfold Design.dest
    rw [if_neg (by omega), if_neg (by omega)]
  unfold idealOut Mvm.wire
  have hly : (D.mvm q l m).layer = l := rfl
  simp only [hd, toInt_small (show l + 1 < 16 by omega), toNat_small (show l + 1 < 32 by omega),
    toNat_small (show m + 1 < 32 by omega), true_and, hly]
  have he : ((l + 1 : Nat) : Int) = (l : Int) + 1 := by omega
  simp only [if_pos he]
  simp [Nat.mod_one]

/-- No result is one of those that cannot be told from an empty FIFO. -/
theorem Right.shows (h : D.Ok q) (hz : ∀ line ∈ D.goldenFile, parse line ≠ List.replicate D.dim 0) {l m : Nat} (hl : l < D.layers)
    (hm : m < D.mvms l) {I R : List Vec} (H : Right D l m I R) {r : Ref}
    (hr : Ref.Reach (D.mvm q l m) (Ref.start I R) r) : (D.mvm q l m).null ∉ r.out := by
  intro hnull
  obtain ⟨ho, hlen⟩ := H.out h hl hm hr
  obtain ⟨i, hi⟩ := List.getElem?_of_mem hnull
  have hlt : i < r.out.length := by
    by_contra hge
    rw [List.getElem?_eq_none (by omega)] at hi
    simp at hi
  have he := ho i _ hi
  obtain ⟨hb1, hb2⟩ := h.bounds
  unfold Mvm.null idealOut at he
  rw [Out.mk.injEq] at he
  obtain ⟨he1, he2, he3⟩ := he
  unfold Design.dest at he2
  by_cases hlast : l = D.layers - 1 ∧ m = D.mvms l - 1
  · obtain ⟨hl1, rfl⟩ := hlast
    rw [partSum_last h hl] at he1
    refine hz ((List.range D.dim).map fun e => D.testOutput D.layers (i / D.limy (D.layers - 1)) (i % D.limy (D.layers - 1) * D.dim + e)) ?_ ?_
    · rw [goldenFile_eq h, List.mem_map]
      refine ⟨i, List.mem_range.2 ?_, rfl⟩
      rw [← hl1]
      omega
    · have : (D.mvm q l (D.mvms l - 1)).lanes = D.dim := rfl
      rw [this] at he1
      rw [he1]
      unfold blockOf parse
      rw [List.map_map, ← hl1, show D.layers = l + 1 by omega]
      rfl
  · rw [if_neg hlast] at he2
    split at he2
    · have := congrArg BitVec.toNat he2
      rw [toNat_small (show l + 2 < 32 by omega)] at this
      simp at this
    · have := congrArg BitVec.toNat he2
      rw [toNat_small (show l + 1 < 32 by omega)] at this
      simp at this

/-- The cycle after one where all is right. -/
theorem At.next {c : Mvm} (hc : c.Fits) {t : Nat → Cycle} {n : Nat} {s : Sig} {h : Seen} {r : Ref}
    {d p f : List Out} (A : At c t n s h r d p f) (hs : Sound c (h.add s (t n)).ins (h.add s (t n)).reds)
    (hz : ∀ r, Ref.Reach c (Ref.start (h.add s (t n)).ins (h.add s (t n)).reds) r → c.null ∉ r.out) :
    ∃ s' r' d' p' f', At c t (n + 1) s' (h.add s (t n)) r' d' p' f' := by
  obtain ⟨s', r', f', hcy, hF, -⟩ := cycle_follows hc A.follows (t n) hs hz
  refine ⟨s', r', _, _, f', ?_, hF⟩
  simp only [Mlp.run, A.run, hcy]

theorem At.sent {c : Mvm} {t : Nat → Cycle} {n : Nat} {s : Sig} {h : Seen} {r : Ref}
    {d p f : List Out} (A : At c t n s h r d p f) : h.sent <+: r.out.map c.wire := by
  rw [A.follows.sent]
  exact A.prefix.map _

/-- All modules after `n` cycles. -/
def System (D : Design) (q : Consts) (t : Nat → Nat → Nat → Cycle) (n : Nat) : Prop :=
  ∀ l < D.layers, ∀ m < D.mvms l, ∃ s h r d p f, At (D.mvm q l m) (t l m) n s h r d p f ∧ Right D l m h.ins h.reds

theorem inputFile_right (h : D.Ok q) {m : Nat} (hm : m < D.mvms 0) :
    Along (feed D 0 m) ((D.inputFile m).map parse) ∧ ((D.inputFile m).map parse).length = D.tests * D.limx 0 := by
  rw [inputFile_eq h hm]
  constructor
  · rw [List.map_map]
    intro i a hi
    rw [along_range _ _ i a hi]
    unfold feed blockOf parse
    simp only [Function.comp_apply, List.map_map]
    rfl
  · simp

/-- What a module takes in the next cycle is right. -/
theorem System.right (h : D.Ok q) {t : Nat → Nat → Nat → Cycle} (hw : Wired D q t) {n : Nat} (S : System D q t n) {l m : Nat}
    (hl : l < D.layers) (hm : m < D.mvms l) {s : Sig} {h1 : Seen} (hr : run (D.mvm q l m) (t l m) n = .ok (s, h1)) :
    Right D l m (h1.add s (t l m n)).ins (h1.add s (t l m n)).reds := by
  have hin : ∃ g, (h1.add s (t l m n)).ins <+: g ∧ Along (feed D l m) g ∧ g.length ≤ D.tests * D.limx l := by
    cases l with
    | zero =>
      obtain ⟨ha, hb⟩ := inputFile_right h hm
      exact ⟨_, hw.first m hm n s h1 hr, ha, hb.le⟩
    | succ l =>
      have hM := h.mvms l (by omega)
      obtain ⟨s', h', r', d', p', f', A', R'⟩ := S l (by omega) (D.mvms l - 1) (by omega)
      obtain ⟨ho, hlen⟩ := R'.out h (by omega) (by omega) A'.follows.reach
      obtain ⟨ha, hb, -⟩ := toward_next h hl hm A'.sent ho hlen
      exact ⟨_, hw.input l hl m hm n s h1 s' h' hr A'.run, ha, hb⟩
  obtain ⟨g, hg1, hg2, hg3⟩ := hin
  cases m with
  | zero =>
    refine ⟨hg2.of_prefix hg1, fun h0 => absurd rfl h0, hg1.length_le.trans hg3, ?_, fun _ => hw.none l hl n s h1 hr⟩
    rw [hw.none l hl n s h1 hr]
    exact Nat.zero_le _
  | succ m =>
    obtain ⟨s', h', r', d', p', f', A', R'⟩ := S l hl m (by omega)
    obtain ⟨ho, hlen⟩ := R'.out h hl (by omega) A'.follows.reach
    obtain ⟨ha, hb⟩ := toward_beside h hl hm A'.sent ho
    have hp := hw.add l hl m hm n s h1 s' h' hr A'.run
    refine ⟨hg2.of_prefix hg1, fun _ => ha.of_prefix hp, hg1.length_le.trans hg3, ?_, fun h0 => absurd h0 (by omega)⟩
    have h2 := A'.sent.length_le
    rw [List.length_map] at h2
    have := hp.length_le
    omega

theorem system_all (h : D.Ok q) {t : Nat → Nat → Nat → Cycle} (hw : Wired D q t)
    (hz : ∀ line ∈ D.goldenFile, parse line ≠ List.replicate D.dim 0) (n : Nat) : System D q t n := by
  induction n with
  | zero =>
    intro l hl m hm
    refine ⟨_, _, _, _, _, _, ⟨rfl, init_follows (h.fits hl hm)⟩, ?_, ?_, Nat.zero_le _, Nat.zero_le _, fun _ => rfl⟩
    · intro i a hi
      simp at hi
    · intro _ i a hi
      simp at hi
  | succ n ih =>
    intro l hl m hm
    obtain ⟨s, h1, r, d, p, f, A, R⟩ := ih l hl m hm
    have R' := ih.right h hw hl hm A.run
    obtain ⟨s', r', d', p', f', A'⟩ := A.next (h.fits hl hm) ((h.job hl).sound _ _) (fun r hr => R'.shows h hz hl hm hr)
    exact ⟨_, _, _, _, _, _, A', R'⟩

end RadSim.Mlp
