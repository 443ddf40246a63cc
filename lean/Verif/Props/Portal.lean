import Verif.Model.Portal

/-! # Properties of the portal module (C29) -/

namespace RadSim.Portal

open RadSim

/-- The part of a beat that passes the portal: everything except strobe, keep and id, which come out
as zero. -/
def passed (f : Fields) : Fields := { f with tstrb := 0, tkeep := 0, tid := 0 }

/-- Beats taken in, in order. -/
def taken (os : List Obs) : List Fields := os.filterMap Obs.taken

/-- Beats handed out, in order. -/
def given (os : List Obs) : List Fields := os.filterMap Obs.given

/-- Between edges the output shows the front of the queue. -/
structure Inv (s : Chan) : Prop where
  valid : s.tvalid = !s.q.isEmpty
  front : ∀ f, s.q.head? = some f → s.out = passed f
  zero : s.out.tstrb = 0 ∧ s.out.tkeep = 0 ∧ s.out.tid = 0

theorem inv_init : Inv init := ⟨rfl, by simp [init], ⟨rfl, rfl, rfl⟩⟩

theorem inv_drive (s : Chan) (h : s.out.tstrb = 0 ∧ s.out.tkeep = 0 ∧ s.out.tid = 0) :
    Inv (drive s) ∧ (drive s).q = s.q := by
  unfold drive
  split
  · next f fs hq =>
    refine ⟨⟨by simp [hq], ?_, h⟩, rfl⟩
    intro g hg
    simp only [hq, List.head?_cons, Option.some.injEq] at hg
    subst hg
    simp [passed, h]
  · next hq => exact ⟨⟨by simp [hq], by simp [hq], h⟩, rfl⟩

/-- One edge without reset: the queue gains the beat taken in and loses the beat handed out. -/
theorem tick_spec (d : Dir) (s : Chan) (p : PortIn) (hr : p.rst = false) (h : Inv s) :
    Inv (tick d s p).1 ∧ (tick d s p).2 = false ∧
    (tick d s p).1.q = (s.q ++ (if p.inValid then [p.inBeat] else [])).drop
      (if s.tvalid && p.outReady then 1 else 0) := by
  unfold tick
  rw [if_neg (by simp [hr])]
  have hir : inReady p = true := by simp [inReady, hr]
  simp only [hir, Bool.and_true]
  have hz := h.zero
  have hv := h.valid
  cases hin : p.inValid <;> cases hov : s.tvalid <;> cases hor : p.outReady <;>
    simp only [Bool.false_eq_true, if_false, if_true, Bool.and_false, Bool.and_true,
      Bool.false_and, List.append_nil, List.drop_zero, List.drop_one, hov] <;>
    refine ⟨(inv_drive _ (by exact hz)).1, ?_, (inv_drive _ (by exact hz)).2⟩ <;>
    first
    | (simp; done)
    | (rw [hov] at hv
       cases hq : s.q with
       | nil => rw [hq] at hv; simp at hv
       | cons f fs => simp)

theorem run_spec (d : Dir) : ∀ (ps : List PortIn) (s : Chan), (∀ p ∈ ps, p.rst = false) → Inv s →
    Inv (run d s ps).1 ∧
    given (run d s ps).2 ++ (run d s ps).1.q.map passed =
      s.q.map passed ++ (taken (run d s ps).2).map passed ∧
    (∀ o ∈ (run d s ps).2, o.oops = false) := by
  intro ps
  induction ps with
  | nil => intro s _ h; exact ⟨h, by simp [run, given, taken], by simp [run]⟩
  | cons p ps ih =>
    intro s hr h
    obtain ⟨h1, h2, h3⟩ := tick_spec d s p (hr p (by simp)) h
    obtain ⟨i1, i2, i3⟩ := ih (tick d s p).1 (fun q hq => hr q (by simp [hq])) h1
    have hir : inReady p = true := by simp [inReady, hr p (by simp)]
    refine ⟨i1, ?_, ?_⟩
    · simp only [run, given, taken, List.filterMap_cons, hir, Bool.and_true] at *
      rw [h3] at i2
      have hv := h.valid
      have hf := h.front
      cases hin : p.inValid <;> cases hov : s.tvalid <;> cases hor : p.outReady <;>
        simp only [hin, hov, hor, Bool.false_eq_true, if_false, if_true, Bool.and_false,
          Bool.and_true, Bool.false_and, List.append_nil, List.drop_zero, List.drop_one,
          List.map_append, List.map_cons, List.map_nil, List.append_assoc, List.cons_append,
          List.nil_append] at i2 ⊢ <;>
        first
        | exact i2
        | (rw [hov] at hv
           cases hq : s.q with
           | nil => rw [hq] at hv; simp at hv
           | cons f fs =>
             have := hf f (by rw [hq]; rfl)
             rw [hq] at i2
             rw [this, i2]
             simp)
    · intro o ho
      simp only [run, List.mem_cons] at ho
      rcases ho with rfl | ho
      · exact h2
      · exact i3 o ho

/-- **C29.** In both directions, for every valid and ready waveform without a reset, the beats handed
out are the beats taken in, in order and each once (a suffix may still be queued), with unchanged
data, destination, user and last fields; the "reached here but why" line is never printed. -/
theorem C29_lossless_queue (d : Dir) (ps : List PortIn) (hr : ∀ p ∈ ps, p.rst = false) :
    ∃ queued, (taken (run d init ps).2).map passed = given (run d init ps).2 ++ queued ∧
      (∀ o ∈ (run d init ps).2, o.oops = false) := by
  obtain ⟨-, h2, h3⟩ := run_spec d ps init hr inv_init
  exact ⟨_, by rw [h2]; simp [init], h3⟩

/-- **C29**, stability: an offered beat that is not accepted is offered again unchanged. -/
theorem C29_stable_until_accepted (d : Dir) (ps : List PortIn) (hr : ∀ p ∈ ps, p.rst = false) :
    ∀ o ∈ (run d init ps).2, o.before.1 = true → o.before.2.1 = false →
      o.after = (true, o.before.2.2) := by
  have gen : ∀ (ps : List PortIn) (s : Chan), (∀ p ∈ ps, p.rst = false) → Inv s →
      ∀ o ∈ (run d s ps).2, o.before.1 = true → o.before.2.1 = false →
        o.after = (true, o.before.2.2) := by
    intro ps
    induction ps with
    | nil => intro s _ _ o ho; simp [run] at ho
    | cons p ps ih =>
      intro s hr h o ho hv hn
      obtain ⟨h1, h2, h3⟩ := tick_spec d s p (hr p (by simp)) h
      simp only [run, List.mem_cons] at ho
      rcases ho with rfl | ho
      · simp only at hv hn ⊢
        rw [hv, hn] at h3
        have hvv := h.valid
        rw [hv] at hvv
        cases hq : s.q with
        | nil => rw [hq] at hvv; simp at hvv
        | cons f fs =>
          rw [hq] at h3
          have e1 := h1.valid
          have e2 := h1.front f (by rw [h3]; simp)
          rw [h3] at e1
          rw [e1, e2, h.front f (by rw [hq]; rfl)]
          simp
      · exact ih _ (fun q hq => hr q (by simp [hq])) h1 o ho hv hn
  exact gen ps init hr inv_init

/-- **C29**, progress: a queued beat is on offer at every edge and every accepted offer removes one,
so as many further ready cycles as there are queued beats empty the portal. -/
theorem C29_drains (d : Dir) (ps : List PortIn) (hr : ∀ p ∈ ps, p.rst = false) (n : Nat)
    (hn : (run d init ps).1.q.length ≤ n) :
    (run d (run d init ps).1 (List.replicate n ⟨false, false, default, true⟩)).1.q = [] := by
  obtain ⟨h1, -, -⟩ := run_spec d ps init hr inv_init
  have gen : ∀ (n : Nat) (s : Chan), Inv s → s.q.length ≤ n →
      (run d s (List.replicate n ⟨false, false, default, true⟩)).1.q = [] := by
    intro n
    induction n with
    | zero => intro s _ hl; exact List.length_eq_zero_iff.mp (Nat.le_zero.mp hl)
    | succ n ih =>
      intro s h hl
      obtain ⟨i1, -, i3⟩ := tick_spec d s ⟨false, false, default, true⟩ rfl h
      rw [List.replicate_succ]
      simp only [run]
      apply ih _ i1
      rw [i3]
      have := h.valid
      cases hq : s.q with
      | nil => simp [hq] at this ⊢
      | cons f fs => rw [hq] at this hl; simp [this] at hl ⊢; exact hl
  exact gen n _ h1 hn

/-- A beat with a distinguishing id. -/
def sample (n : Nat) : Fields := ⟨BitVec.ofNat 512 n, 1, 1, true, 4, 0x4083, 9⟩

set_option exponentiation.threshold 1024 in
set_option maxRecDepth 4000 in
/-- Two beats in, the receiver stalls once, both come out. -/
example :
    (given (run .toNoc init [⟨false, true, sample 1, false⟩, ⟨false, true, sample 2, false⟩,
      ⟨false, false, default, true⟩, ⟨false, false, default, true⟩]).2).map (·.tdata.toNat) = [1, 2] := by
  decide

set_option exponentiation.threshold 1024 in
set_option maxRecDepth 4000 in
/-- **C29**, contents: the transfer identifier (with strobe and keep) does not pass the portal, so a
receiver cannot tell which interface of the destination node the beat was meant for. -/
theorem C29_id_dropped_violated :
    ∃ ps : List PortIn, (∀ p ∈ ps, p.rst = false) ∧
      (taken (run .toNoc init ps).2).map (·.tid) = [4] ∧
      (given (run .toNoc init ps).2).map (·.tid) = [0] :=
  ⟨[⟨false, true, sample 1, false⟩, ⟨false, false, default, true⟩], by decide, by decide, by decide⟩

set_option exponentiation.threshold 1024 in
set_option maxRecDepth 4000 in
/-- **C29**, reset: the output towards the NoC is not withdrawn during a reset and the queue is not
emptied, so a receiver that stays ready takes the same beat once per reset cycle. -/
theorem C29_reset_duplicates_violated :
    ∃ ps : List PortIn, (taken (run .toNoc init ps).2).length = 1 ∧
      (given (run .toNoc init ps).2).map (·.tdata.toNat) = [1, 1, 1] :=
  ⟨[⟨false, true, sample 1, false⟩, ⟨true, false, default, true⟩, ⟨true, false, default, true⟩,
    ⟨false, false, default, true⟩], by decide, by decide⟩

/-- **C29**, reset, other direction: towards the bridge nothing is lost or duplicated across resets
either, because the output is withdrawn and offered again. The first reset edge may still
complete a handshake, so the receiver must not be ready at edges with reset. -/
theorem C29_reset_to_bridge_lossless (ps : List PortIn)
    (hr : ∀ p ∈ ps, p.rst = true → p.outReady = false) :
    ∃ queued, (taken (run .toBridge init ps).2).map passed = given (run .toBridge init ps).2 ++ queued := by
  have gen : ∀ (ps : List PortIn) (s : Chan), (∀ p ∈ ps, p.rst = true → p.outReady = false) →
      (s.tvalid = true → s.q ≠ []) → (s.tvalid = true → ∀ f, s.q.head? = some f → s.out = passed f) →
      (s.out.tstrb = 0 ∧ s.out.tkeep = 0 ∧ s.out.tid = 0) →
      given (run .toBridge s ps).2 ++ (run .toBridge s ps).1.q.map passed =
        s.q.map passed ++ (taken (run .toBridge s ps).2).map passed := by
    intro ps
    induction ps with
    | nil => intro s _ _ _ _; simp [run, given, taken]
    | cons p ps ih =>
      intro s hr hne hf hz
      cases hrst : p.rst with
      | true =>
        have hor := hr p (by simp) hrst
        have e : (tick .toBridge s p).1 = { s with tvalid := false } := by simp [tick, hrst]
        have := ih { s with tvalid := false } (fun q hq => hr q (by simp [hq])) (by simp) (by simp) hz
        simp only [run, given, taken, List.filterMap_cons, hrst, hor, inReady, Bool.not_true,
          Bool.and_false, Bool.false_eq_true, if_false, e] at this ⊢
        exact this
      | false =>
        have hir : inReady p = true := by simp [inReady, hrst]
        cases hov : s.tvalid with
        | false =>
          have e : (tick .toBridge s p).1 =
              drive (if p.inValid then { s with q := s.q ++ [p.inBeat] } else s) := by
            unfold tick
            rw [if_neg (by simp [hrst])]
            cases hin : p.inValid <;> simp [hir, hov]
          have hd : Inv (drive (if p.inValid then { s with q := s.q ++ [p.inBeat] } else s)) ∧
              (drive (if p.inValid then { s with q := s.q ++ [p.inBeat] } else s)).q =
                s.q ++ (if p.inValid then [p.inBeat] else []) := by
            cases hin : p.inValid
            · simpa using inv_drive s hz
            · simpa using inv_drive { s with q := s.q ++ [p.inBeat] } hz
          have := ih _ (fun q hq => hr q (by simp [hq]))
            (by rw [hd.1.valid]; intro h; simpa using h) (fun _ => hd.1.front) hd.1.zero
          rw [hd.2] at this
          simp only [run, given, taken, List.filterMap_cons, hov, hir, Bool.and_true,
            Bool.false_and, Bool.false_eq_true, if_false, e] at this ⊢
          cases hin : p.inValid <;> simp_all
        | true =>
          have hinv : Inv s := ⟨by
            rw [hov]
            cases hq : s.q with
            | nil => exact absurd hq (hne hov)
            | cons _ _ => rfl, hf hov, hz⟩
          obtain ⟨h1, h2, h3⟩ := tick_spec .toBridge s p hrst hinv
          have := ih _ (fun q hq => hr q (by simp [hq]))
            (by rw [h1.valid]; intro h; simpa using h) (fun _ => h1.front) h1.zero
          rw [h3] at this
          simp only [run, given, taken, List.filterMap_cons, hov, hir, Bool.and_true,
            Bool.true_and] at this ⊢
          cases hq : s.q with
          | nil => exact absurd hq (hne hov)
          | cons f fs =>
            have ho := hf hov f (by rw [hq]; rfl)
            cases hin : p.inValid <;> cases hor : p.outReady <;>
              simp only [hin, hor, hq, hov, Bool.false_eq_true, if_false, if_true, Bool.and_false,
                Bool.and_true, Bool.true_and, List.append_nil, List.drop_zero, List.drop_one,
                List.map_append, List.map_cons, List.map_nil, List.append_assoc, List.cons_append,
                List.nil_append, List.tail_cons] at this ⊢ <;>
              simp [this, ho]
  have := gen ps init hr (by simp [init]) (by simp [init]) ⟨rfl, rfl, rfl⟩
  exact ⟨_, by rw [this]; simp [init]⟩

end RadSim.Portal
