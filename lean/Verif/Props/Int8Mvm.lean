import Verif.Lemmas.Int8Live

/-! # The matrix vector multiplier of the example design `mlp_int8`

C123: it does what its program says; C124: it does so in the end; C125: no FIFO over- or underflows, whatever arrives; C126: how
many instructions it holds. -/

namespace RadSim.Int8

/-- The module does what its program says: with instructions and weights before the input vectors, whatever the timing of its
inputs and of the adapter, the beats handed over carry the first results of the program on the vectors taken, in arithmetic on
8 bits.
Partial: instructions and weights come before the input vectors (see `C123_lost_violated`), and the destination is as it should
be only if it is less than 128 (see `C123_dest_violated`). -/
theorem C123_int8_mvm_partial {c : Mvm} (hc : c.Fits) {t : Nat → Cycle} {n : Nat} {s : Sig} {h : Seen}
    (hr : run c t n = .ok (s, h)) (ho : Ordered h.taken) :
    ∃ r, Ref.After c h.taken r ∧ List.Forall₂ (Carries c) h.sent (r.out.take h.sent.length) :=
  computes hc hr ho

/-- With an adapter that has room again and again, all results of the program on the vectors taken are handed over.
Partial as `C123_int8_mvm_partial`. -/
theorem C124_int8_mvm_sends_partial {c : Mvm} (hc : c.Fits) {t : Nat → Cycle} (hd : Drains t)
    (ho : ∀ n s h, run c t n = .ok (s, h) → Ordered h.taken) {n : Nat} {s : Sig} {h : Seen} (hr : run c t n = .ok (s, h)) {r : Ref}
    (hreach : Ref.After c h.taken r) :
    ∃ m s' h', n ≤ m ∧ run c t m = .ok (s', h') ∧ List.Forall₂ (Carries c) (h'.sent.take r.out.length) r.out := by
  rw [run_at hc, Except.ok.injEq] at hr
  have he : h = (sigAt c t n).2 := by rw [hr]
  subst he
  obtain ⟨m, hm, h1⟩ := delivers hc hd (fun k => ho k _ _ (run_at hc t k)) hreach
  exact ⟨m, _, _, hm, run_at hc t m, h1⟩

/-- Whatever arrives, in whatever order, and whatever the adapter does: no FIFO over- or underflows, and no vector is too short
for the datapaths. -/
theorem C125_int8_mvm_never_fails {c : Mvm} (hc : c.Fits) (t : Nat → Cycle) (n : Nat) : ∃ y, run c t n = .ok y :=
  ⟨_, run_at hc t n⟩

/-- A program of up to `FIFOD - 4` instructions is always taken, and none of more than `FIFOD - 3` ever is. -/
theorem C126_int8_capacity {c : Mvm} (hc : c.Fits) {t : Nat → Cycle} {n : Nat} {s : Sig} {h : Seen}
    (hr : run c t n = .ok (s, h)) (ho : Ordered h.taken) :
    (programOf h.taken).length ≤ c.fifoDepth - 3 ∧
      ∀ b : Beat, b.kind = 0 → (programOf h.taken).length < c.fifoDepth - 4 → rxReady c s b.user = true := by
  rw [run_at hc, Except.ok.injEq] at hr
  have he : h = (sigAt c t n).2 := by rw [hr]
  have hs : s = (sigAt c t n).1 := by rw [hr]
  subst he hs
  obtain ⟨r, gone, q, f, -, F⟩ := follows_at hc t n ho
  have B := base_at hc t n
  have h1 := congrArg List.length F.ring
  have h2 := B.instRoom
  rw [List.length_rotate, List.length_append] at h1
  have h3 : (pendI (sigAt c t n).1).length = if (sigAt c t n).1.instPush then 1 else 0 := by unfold pendI; split <;> rfl
  constructor
  · omega
  · intro b hb hl
    unfold rxReady
    rw [tag_kind, if_pos hb]
    rw [Bool.not_eq_true', Fifo.almostFull, decide_eq_false_iff_not]
    show ¬(sigAt c t n).1.inst.mem.length ≥ c.fifoDepth - 4
    omega

/-- The constants of `rad-sim/example-designs/mlp_int8/modules/config.hpp:6-12`. -/
def actual : Mvm := ⟨64, 64, 12, 2, 2⟩

theorem actual_fits : actual.Fits := ⟨by decide, by decide, by decide, by decide, rfl, by decide⟩

/-- With the constants of the source: a 62nd instruction is never taken. -/
theorem C126_int8_no_62 {t : Nat → Cycle} {n : Nat} {s : Sig} {h : Seen} (hr : run actual t n = .ok (s, h))
    (ho : Ordered h.taken) : (programOf h.taken).length ≤ 61 :=
  (C126_int8_capacity actual_fits hr ho).1

/-! ## examples -/

/-- Two lanes. -/
def two : Mvm := ⟨2, 8, 2, 1, 1⟩

theorem two_fits : two.Fits := ⟨by decide, by decide, by decide, by decide, rfl, by decide⟩

/-- An instruction for address 0 that releases. -/
def releasing (dest : Nat) (last : Bool) : Beat := ⟨(Inst.mk false (BitVec.ofNat 9 dest) 0 0 last true false false).toBv, 0⟩

/-- Weights of engine `d` at address 0. -/
def weightBeat (d x y : Nat) : Beat := ⟨x + 2 ^ 8 * y, 3 <<< 9 + 1 <<< (11 + d)⟩

/-- An input vector. -/
def inputBeat (x y : Nat) : Beat := ⟨x + 2 ^ 8 * y, 2 <<< 9⟩

/-- One beat a cycle, and an adapter that has room every other cycle. -/
def feed (bs : List Beat) (n : Nat) : Cycle := ⟨bs[n]?, n % 2 == 0⟩

theorem feed_drains (bs : List Beat) : Drains (feed bs) := by
  intro n
  refine ⟨2 * n, by omega, ?_⟩
  simp [feed]

/-- Weights, a program of one instruction and two input vectors. -/
def small : List Beat := [weightBeat 0 1 2, weightBeat 1 3 4, releasing 5 true, inputBeat 10 20, inputBeat 1 255]

/-- The beats a run has taken and handed over. -/
def seen (y : Except Err (Sig × Seen)) : Option (List Beat × List TxBeat) :=
  match y with
  | .ok (_, h) => some (h.taken, h.sent)
  | .error _ => none

/-- (1 2; 3 4) · (10, 20) = (50, 110) and (1 2; 3 4) · (1, −1) = (−1, −1). -/
example : seen (run two (feed small) 30) =
    some (small, [⟨50 + 2 ^ 8 * 110, 1 <<< 9, 5⟩, ⟨255 + 2 ^ 8 * 255, 1 <<< 9, 5⟩]) := by
  decide +kernel

example : Ordered small ∧ Drains (feed small) ∧ two.Fits :=
  ⟨⟨small.take 3, small.drop 3, rfl, by decide, by decide⟩, feed_drains _, two_fits⟩

/-- Nothing is taken of an order that is not that of `small`, so all that is ever taken is in order. -/
theorem small_ordered (n : Nat) (s : Sig) (h : Seen) (hr : run two (feed small) n = .ok (s, h)) : Ordered h.taken := by
  rw [run_at two_fits, Except.ok.injEq] at hr
  have he : h = (sigAt two (feed small) n).2 := by rw [hr]
  subst he
  have h5 : (sigAt two (feed small) 5).2.taken = small := by decide +kernel
  have hle : ∀ m, 5 ≤ m → (sigAt two (feed small) m).2.taken = small := by
    intro m hm
    induction m, hm using Nat.le_induction with
    | base => exact h5
    | succ m hm ih =>
      show (sigAt two (feed small) m).2.taken ++ (((feed small m).rx).filter _).toList = small
      have : (feed small m).rx = none := by
        show small[m]? = none
        exact List.getElem?_eq_none (by show 5 ≤ m; exact hm)
      rw [this, ih]
      rfl
  have hos : Ordered small := ⟨small.take 3, small.drop 3, rfl, by decide, by decide⟩
  by_cases hn : 5 ≤ n
  · rw [hle n hn]; exact hos
  · obtain ⟨l, hl⟩ := taken_prefix two (feed small) (show n ≤ 5 by omega)
    rw [h5] at hl
    rw [hl] at hos
    exact hos.prefix

/-- `C124_int8_mvm_sends_partial` on it. -/
example {n : Nat} {s : Sig} {h : Seen} (hr : run two (feed small) n = .ok (s, h)) {r : Ref} (hreach : Ref.After two h.taken r) :
    ∃ m s' h', n ≤ m ∧ run two (feed small) m = .ok (s', h') ∧ List.Forall₂ (Carries two) (h'.sent.take r.out.length) r.out :=
  C124_int8_mvm_sends_partial two_fits (feed_drains _) small_ordered hr hreach

/-- A destination of 200 becomes −56: nine bits of `release_dest` are kept in an `sc_int<8>`. -/
theorem C123_dest_violated : ∃ (c : Mvm) (t : Nat → Cycle) (b : TxBeat), c.Fits ∧ Drains t ∧
    seen (run c t 30) = some ([releasing 200 true, inputBeat 0 0], [b]) ∧ b.dest = -56 :=
  ⟨two, feed [releasing 200 true, inputBeat 0 0], ⟨0, 1 <<< 9, -56⟩, two_fits, feed_drains _, by decide +kernel, rfl⟩

/-- An instruction that comes when one is popped takes its place: of the program of two instructions, for destinations 1 and 2,
only the second is left, and all results from then on go to destination 2. -/
theorem C123_lost_violated : ∃ (c : Mvm) (t : Nat → Cycle) (l : List TxBeat), c.Fits ∧ Drains t ∧
    seen (run c t 60) = some ([releasing 1 false, inputBeat 0 0, inputBeat 0 0, releasing 2 true, inputBeat 0 0, inputBeat 0 0], l) ∧
    l.map (·.dest) = [1, 2, 2, 2, 2] :=
  ⟨two, feed [releasing 1 false, inputBeat 0 0, inputBeat 0 0, releasing 2 true, inputBeat 0 0, inputBeat 0 0],
    [⟨0, 1 <<< 9, 1⟩, ⟨0, 1 <<< 9, 2⟩, ⟨0, 1 <<< 9, 2⟩, ⟨0, 1 <<< 9, 2⟩, ⟨0, 1 <<< 9, 2⟩], two_fits, feed_drains _,
    by decide +kernel, rfl⟩

/-- The capacity is reached: five instructions in a row are taken with `FIFOD` 8, and the sixth is not. -/
example : (seen (run two (feed (List.replicate 9 (releasing 1 true))) 20)).map (·.1) = some (List.replicate 5 (releasing 1 true)) := by
  decide +kernel

end RadSim.Int8
