import Verif.Lemmas.MemCtrl

/-! # Properties of the memory controller (C34 - C37, C59, C60) -/

namespace RadSim.MemCtrl

variable {δ : Type}

/-! ## A sample configuration -/

/-- Default queue sizes, words of 64 bytes. -/
def cfg64 : Cfg := ⟨64, 64, 64, id⟩

/-- An idle cycle in which responses are accepted. -/
def idle : In Nat := { wdata := 0, bready := true, rready := true }

/-- Two single-word writes to addresses 0 and 64, then two reads of the same addresses in the opposite
order, completed by the DRAM in the order 0, 64. -/
def sampleRun : List (In Nat × Env) :=
  [({ idle with awvalid := true, awaddr := 0, awsize := 6 }, {}),
   ({ idle with awvalid := true, awaddr := 64, awsize := 6, wvalid := true, wdata := 11, wuser := 1 }, {}),
   ({ idle with wvalid := true, wdata := 22, wuser := 2 }, {}),
   ({ idle with arvalid := true, araddr := 64, arsize := 6, aruser := 3 }, {}),
   ({ idle with arvalid := true, araddr := 0, arsize := 6, aruser := 4 }, { cbs := [.write 0] }),
   (idle, { cbs := [.write 64] }), (idle, {}), (idle, { cbs := [.read 0] }), (idle, { cbs := [.read 64] }),
   (idle, {}), (idle, {}), (idle, {}), (idle, {})]

theorem run_witness {α β : Type} (x : Option (α × β)) (P : α → β → Prop) [∀ a b, Decidable (P a b)]
    (h : x.any (fun p => decide (P p.1 p.2)) = true) : ∃ a b, x = some (a, b) ∧ P a b := by
  cases x with
  | none => cases h
  | some p => exact ⟨p.1, p.2, rfl, by simpa using h⟩

def sampleEnd : Option (State Nat × List (Out Nat)) := run cfg64 0 (start cfg64 fun _ => none) sampleRun

/-- Checks `PoliteRun` by running. -/
def checkPolite (c : Cfg) (zero : δ) : Hist δ → State δ → List (In δ × Env) → Bool
  | _, _, [] => true
  | h, s, (i, e) :: es =>
    ((h.doneR ++ readsOf e.cbs).all fun a => decide ((h.doneR ++ readsOf e.cbs).count a ≤ h.issuedR.count a)) &&
    decide (h.doneW.length + (writesOf e.cbs).length ≤ h.issuedW.length) &&
    (!i.wvalid || decide (h.w.length < h.aw.length)) &&
    match step c zero s i e with
    | none => true
    | some (s', o) => checkPolite c zero (h.next c i e o) s' es

theorem polite_of_check (c : Cfg) (zero : δ) : ∀ (es : List (In δ × Env)) (h : Hist δ) (s : State δ),
    checkPolite c zero h s es = true → PoliteRun c zero h s es := by
  intro es
  induction es with
  | nil => intro h s _; trivial
  | cons x es ih =>
    obtain ⟨i, e⟩ := x
    intro h s hc
    unfold checkPolite at hc
    simp only [Bool.and_eq_true, List.all_eq_true, decide_eq_true_eq, Bool.or_eq_true] at hc
    obtain ⟨⟨⟨h1, h2⟩, h3⟩, h4⟩ := hc
    refine ⟨⟨fun a => ?_, h2, fun hv => ?_⟩, ?_⟩
    · by_cases ha : a ∈ h.doneR ++ readsOf e.cbs
      · exact h1 a ha
      · rw [List.count_eq_zero_of_not_mem ha]; exact Nat.zero_le _
    · rcases h3 with h3 | h3
      · rw [hv] at h3; cases h3
      · exact h3
    · intro s' o hs
      rw [hs] at h4
      exact ih _ _ h4

/-! ## C34: reads return in order, each once -/

/-- What a read response must carry apart from the data. -/
def tag (r : Nat × Option δ × Bool) : Nat × Bool := (r.1, r.2.2)

/-- What a read request asks for. -/
def reqTag (r : Req) : Nat × Bool := (r.resp, r.last)

theorem answers_tags (log : List (Ev δ)) : (answers log).map tag = (answered log).map reqTag := by
  induction log with
  | nil => rfl
  | cons e log ih =>
    cases e with
    | wrote a d => exact ih
    | answered a r d l =>
      have e1 : answers (Ev.answered a r d l :: log) = (r, some d, l) :: answers log := rfl
      have e2 : answered (Ev.answered a r d l :: log) = ⟨a, r, l⟩ :: answered log := rfl
      rw [e1, e2, List.map_cons, List.map_cons, ih]; rfl

/-- **C34.** Whatever the DRAM does, the responses handed over are a prefix of the requests taken, in
order: no response is duplicated, reordered or invented. Every response carries data. -/
theorem C34_responses_in_request_order (c : Cfg) (zero : δ) (mem0 : Nat → Option δ) (es : List (In δ × Env))
    (s : State δ) (os : List (Out δ)) (hr : run c zero (start c mem0) es = some (s, os)) :
    (Hist.ofRun c {} es os).given.map tag <+: (Hist.ofRun c {} es os).taken.map reqTag ∧
    ∀ r ∈ (Hist.ofRun c {} es os).given, r.2.1 ≠ none := by
  obtain ⟨-, bq, i, -⟩ := inv_run c zero mem0 es {} _ s os (inv_start c zero mem0) hr
  generalize Hist.ofRun c {} es os = h at *
  constructor
  · have e1 := congrArg (List.map tag) i.r.outs
    rw [answers_tags, List.map_append] at e1
    rw [i.r.reads, List.append_assoc, List.map_append, e1]
    rw [List.append_assoc]
    exact List.prefix_append ..
  · intro r hr
    have : r ∈ answers s.q.log := by rw [i.r.outs]; exact List.mem_append_left _ hr
    simp only [answers, List.mem_filterMap] at this
    obtain ⟨e, -, he⟩ := this
    cases e with
    | wrote a d => cases he
    | answered a r' d l => cases he; simp

/-- **C34.** Under a DRAM that completes only what it was given: once every read was completed and the
queues are empty, every request taken has been answered. -/
theorem C34_every_read_answered (c : Cfg) (zero : δ) (mem0 : Nat → Option δ) (es : List (In δ × Env))
    (s : State δ) (os : List (Out δ)) (hr : run c zero (start c mem0) es = some (s, os))
    (hp : PoliteRun c zero {} (start c mem0) es)
    (hdone : ∀ a, (Hist.ofRun c {} es os).doneR.count a = (Hist.ofRun c {} es os).issuedR.count a)
    (hin : s.q.ra = []) (hout : s.q.outR = []) :
    (Hist.ofRun c {} es os).given.map tag = (Hist.ofRun c {} es os).taken.map reqTag := by
  obtain ⟨-, bq, i, -⟩ := inv_run c zero mem0 es {} _ s os (inv_start c zero mem0) hr
  obtain ⟨s', os', hr', f⟩ := run_ok c zero mem0 es {} _ (inv_start c zero mem0) (by intro r rest e; cases e)
    (Nat.le_refl _) hp
  rw [hr] at hr'
  cases hr'
  generalize Hist.ofRun c {} es os = h at *
  have hrd : s.q.rd = [] := by
    cases hrd : s.q.rd with
    | nil => rfl
    | cons r rest =>
      exfalso
      have h1 := hdone r.addr
      rw [i.r.done, i.r.iss, List.map_append, List.count_append, f r rest hrd, hrd] at h1
      simp at h1
  have e1 := congrArg (List.map tag) i.r.outs
  rw [answers_tags, hout] at e1
  rw [i.r.reads, hin, hrd]
  simpa using e1.symm

example : ∃ s os, sampleEnd = some (s, os) ∧
    (Hist.ofRun cfg64 {} sampleRun os).given = [(3, some 22, true), (4, some 11, true)] ∧
    (Hist.ofRun cfg64 {} sampleRun os).taken = [⟨64, 3, true⟩, ⟨0, 4, true⟩] ∧
    (Hist.ofRun cfg64 {} sampleRun os).doneR = [0, 64] ∧ (Hist.ofRun cfg64 {} sampleRun os).issuedR = [64, 0] ∧
    s.q.ra = [] ∧ s.q.outR = [] := by
  refine ⟨_, _, rfl, ?_⟩
  decide

example : PoliteRun cfg64 0 {} (start cfg64 fun _ => none) sampleRun :=
  polite_of_check _ _ _ _ _ (by decide)

/-! ### No deadlock -/

/-- The cycle chosen to make progress: no new requests, responses accepted, the oldest read completes. -/
def calm (zero : δ) (s : State δ) : In δ × Env :=
  ({ wdata := zero, rready := true },
   { cbs := (s.q.rd.take 1).map fun r => .read r.addr, accW := false, tickFirst := true })

/-- Work left before all reads are answered. -/
def left (s : State δ) : Nat :=
  4 * (3 * s.q.ra.length + 2 * s.q.rd.length + s.q.outR.length) + (if s.ports.rvalid then 0 else 2) +
    (if s.readFirst then 0 else 1)

theorem calm_tick (c : Cfg) (zero : δ) (s : State δ) (q' : Queues δ) (o' : Occ) (p' : Ports δ) (out : Out δ)
    (ht : tick c (calm zero s).1 s.occ s.ports s.q s.occ = some (q', o', p', out)) :
    q'.ra = s.q.ra ∧ q'.rd = s.q.rd ∧ q'.ooo = s.q.ooo ∧
      q'.outR = (if s.ports.rvalid then s.q.outR.tail else s.q.outR) ∧ p'.rvalid = decide (q'.outR.length > 0) := by
  unfold tick at ht
  simp only [calm] at ht
  have e1 (q : Queues δ) : giveB (calm zero s).1 s.ports q = some q := by
    unfold giveB; simp [calm]
  have e2 : takeAr c (calm zero s).1 (arFlag c s.q) (takeW (calm zero s).1 (wFlag c s.occ s.q)
      (takeAw c (calm zero s).1 (awFlag c s.occ) s.q)) = s.q := by
    simp [takeAr, takeW, takeAw, calm]
  simp only [calm] at e1 e2
  rw [e2, e1] at ht
  simp only at ht
  have hd (q : Queues δ) (p : Ports δ) : (drivePorts q p).rvalid = decide (q.outR.length > 0) := by
    unfold drivePorts
    split <;> rfl
  cases hv : s.ports.rvalid with
  | true =>
    cases he : s.q.outR with
    | nil =>
      have : giveR { wdata := zero, rready := true } s.ports s.q = none := by
        unfold giveR; simp [hv, he]
      rw [this] at ht; cases ht
    | cons r rest =>
      have : giveR { wdata := zero, rready := true } s.ports s.q = some { s.q with outR := rest } := by
        unfold giveR; simp [hv, he]
      rw [this] at ht
      cases ht
      exact ⟨rfl, rfl, rfl, by simp, hd _ _⟩
  | false =>
    have : giveR { wdata := zero, rready := true } s.ports s.q = some s.q := by
      unfold giveR; simp [hv]
    rw [this] at ht
    cases ht
    exact ⟨rfl, rfl, rfl, by simp, hd _ _⟩

theorem drain_work (zero : δ) (garbage : Nat) : ∀ (l : List Req) (q q' : Queues δ), q.rd = l →
    drain zero garbage l q = some q' →
    2 * q'.rd.length + q'.outR.length ≤ 2 * q.rd.length + q.outR.length ∧ q'.ra = q.ra := by
  intro l
  induction l with
  | nil =>
    intro q q' _ hd
    unfold drain at hd
    split at hd
    · cases hd; exact ⟨Nat.le_refl _, rfl⟩
    · cases hd
  | cons r rest ih =>
    intro q q' hl hd
    unfold drain at hd
    split at hd
    · obtain ⟨h1, h2⟩ := ih _ _ rfl hd
      refine ⟨Nat.le_trans h1 ?_, h2⟩
      simp only [answer, hl, List.length_append, List.length_cons, List.length_nil]; omega
    · cases hd; exact ⟨Nat.le_refl _, rfl⟩

theorem calm_memTick (zero : δ) (s : State δ) (q q' : Queues δ) (o o' : Occ) (ir : Option Nat)
    (iw : Option (Nat × δ)) (hq : q.rd = s.q.rd)
    (hm : memTick zero (calm zero s).2 s.readFirst q o = some (q', o', ir, iw)) :
    (3 * q'.ra.length + 2 * q'.rd.length + q'.outR.length ≤ 3 * q.ra.length + 2 * q.rd.length + q.outR.length) ∧
    (q.rd ≠ [] → 3 * q'.ra.length + 2 * q'.rd.length + q'.outR.length <
      3 * q.ra.length + 2 * q.rd.length + q.outR.length) ∧
    (q.ra ≠ [] → s.readFirst = true → 3 * q'.ra.length + 2 * q'.rd.length + q'.outR.length <
      3 * q.ra.length + 2 * q.rd.length + q.outR.length) := by
  have hcb : ∃ q1, callbacks zero (calm zero s).2.garbage q (calm zero s).2.cbs = some q1 ∧
      q1.ra = q.ra ∧ 2 * q1.rd.length + q1.outR.length ≤ 2 * q.rd.length + q.outR.length ∧
      (q.rd ≠ [] → 2 * q1.rd.length + q1.outR.length < 2 * q.rd.length + q.outR.length) := by
    unfold memTick at hm
    cases h1 : callbacks zero (calm zero s).2.garbage q (calm zero s).2.cbs with
    | none => simp only [h1] at hm; cases hm
    | some q1 =>
      refine ⟨q1, rfl, ?_⟩
      cases hrd : s.q.rd with
      | nil =>
        simp only [calm, hrd, List.take_nil, List.map_nil, callbacks, List.foldlM_nil] at h1
        cases h1
        rw [hq, hrd]
        exact ⟨rfl, Nat.le_refl _, fun h => absurd rfl h⟩
      | cons r rest =>
        simp only [calm, hrd, List.take_succ_cons, List.take_zero, List.map_cons, List.map_nil, callbacks,
          List.foldlM_cons, List.foldlM_nil, callback] at h1
        cases h2 : readCallback zero 0 q r.addr with
        | none => simp only [h2] at h1; cases h1
        | some q2 =>
          simp only [h2] at h1
          cases h1
          unfold readCallback at h2
          rw [hq, hrd] at h2
          simp only [ne_eq, not_true_eq_false, if_false] at h2
          obtain ⟨h3, h4⟩ := drain_work zero 0 rest _ _ rfl h2
          simp only [answer, List.length_append, List.length_cons, List.length_nil] at h3
          rw [hq, hrd]
          simp only [List.length_cons]
          exact ⟨h4, by omega, fun _ => by omega⟩
  obtain ⟨q1, h1, e1, h2, h3⟩ := hcb
  unfold memTick at hm
  simp only [h1] at hm
  have hir : (3 * (issueRead (calm zero s).2 q1).1.ra.length + 2 * (issueRead (calm zero s).2 q1).1.rd.length +
      (issueRead (calm zero s).2 q1).1.outR.length) + (if q1.ra = [] then 0 else 1) ≤
      3 * q1.ra.length + 2 * q1.rd.length + q1.outR.length := by
    unfold issueRead
    cases hra : q1.ra with
    | nil => simp [hra]
    | cons r rest =>
      have : (calm zero s).2.accR = true := rfl
      simp only [this, if_true, List.length_append, List.length_cons, List.length_nil]
      split
      · next h => cases h
      · omega
  have hiw : ∀ x, issueWrite (calm zero s).2 q1 = some x → x.1 = q1 := by
    intro x hx
    unfold issueWrite at hx
    split at hx
    · cases hx; rfl
    · split at hx
      · cases hx
      · have : (calm zero s).2.accW = false := rfl
        rw [this] at hx
        cases hx; rfl
  cases hrf : s.readFirst with
  | true =>
    rw [hrf] at hm
    simp only [if_true] at hm
    by_cases hra : q1.ra = []
    · rw [if_neg (fun h => h hra)] at hm
      cases hx : issueWrite (calm zero s).2 q1 with
      | none => simp only [hx] at hm; cases hm
      | some x =>
        obtain ⟨q2, i2⟩ := x
        simp only [hx] at hm
        cases hm
        have : q' = q1 := hiw _ hx
        subst this
        rw [e1] at hra ⊢
        exact ⟨by omega, fun h => by have := h3 h; omega, fun h => absurd hra h⟩
    · rw [if_pos hra] at hm
      cases hm
      rw [if_neg hra, e1] at hir
      refine ⟨by omega, fun h => by have := h3 h; omega, fun _ _ => by omega⟩
  | false =>
    rw [hrf] at hm
    simp only [Bool.false_eq_true, if_false] at hm
    have hsimple : (3 * q'.ra.length + 2 * q'.rd.length + q'.outR.length ≤
        3 * q1.ra.length + 2 * q1.rd.length + q1.outR.length) := by
      split at hm
      · cases hx : issueWrite (calm zero s).2 q1 with
        | none => simp only [hx] at hm; cases hm
        | some x =>
          obtain ⟨q2, i2⟩ := x
          simp only [hx] at hm
          cases hm
          have : q' = q1 := hiw _ hx
          subst this
          exact Nat.le_refl _
      · split at hm
        · cases hm; split at hir <;> omega
        · cases hm; exact Nat.le_refl _
    rw [e1] at hsimple
    exact ⟨by omega, fun h => by have := h3 h; omega, fun _ h => by cases h⟩

theorem calm_polite (zero : δ) (mem0 : Nat → Option δ) (h : Hist δ) (s : State δ) (hi : Inv zero mem0 h s)
    (f : Front s.q) (hl : ∀ a, h.doneR.count a ≤ h.issuedR.count a) : Polite h (calm zero s).1 (calm zero s).2 := by
  obtain ⟨-, bq, i, -⟩ := hi
  refine ⟨?_, ?_, fun h => by cases h⟩
  · intro a
    cases hrd : s.q.rd with
    | nil =>
      simp only [calm, hrd, List.take_nil, List.map_nil]
      have e : readsOf [] = [] := rfl
      rw [e, List.append_nil]; exact hl a
    | cons r rest =>
      simp only [calm, hrd, List.take_succ_cons, List.take_zero, List.map_cons, List.map_nil]
      have e : readsOf [Cb.read r.addr] = [r.addr] := rfl
      have h0 := f r rest hrd
      have h1 := hl a
      rw [i.r.done a, i.r.iss, List.map_append, List.count_append, hrd] at h1
      rw [e, List.count_append, i.r.done a, i.r.iss, List.map_append, List.count_append, hrd]
      simp only [List.map_cons, List.count_cons, List.count_nil] at h1 ⊢
      by_cases e2 : r.addr = a
      · subst e2; simp at h1 ⊢; omega
      · simp [e2] at h1 ⊢; omega
  · have e : writesOf (calm zero s).2.cbs = [] := by
      simp only [calm]
      cases s.q.rd with
      | nil => rfl
      | cons r rest => rfl
    rw [e]; exact i.w.kn

theorem calm_step (c : Cfg) (zero : δ) (mem0 : Nat → Option δ) (h : Hist δ) (s : State δ)
    (hi : Inv zero mem0 h s) (f : Front s.q) (hd : h.w.length ≤ h.aw.length)
    (hl : ∀ a, h.doneR.count a ≤ h.issuedR.count a) (hne : s.q.ra ≠ [] ∨ s.q.rd ≠ [] ∨ s.q.outR ≠ []) :
    ∃ s' o, step c zero s (calm zero s).1 (calm zero s).2 = some (s', o) ∧ left s' < left s := by
  obtain ⟨ip, bq, iq, hb⟩ := hi
  obtain ⟨s', o, hs, -, -⟩ := step_ok c zero mem0 h s _ _ ⟨ip, bq, iq, hb⟩ f hd
    (calm_polite zero mem0 h s ⟨ip, bq, iq, hb⟩ f hl)
  refine ⟨s', o, hs, ?_⟩
  unfold step at hs
  have htf : (calm zero s).2.tickFirst = true := rfl
  simp only [htf, if_true] at hs
  cases h1 : tick c (calm zero s).1 s.occ s.ports s.q s.occ with
  | none => simp only [h1] at hs; cases hs
  | some x =>
    obtain ⟨q1, o1, p1, out⟩ := x
    simp only [h1] at hs
    cases h2 : memTick zero (calm zero s).2 s.readFirst q1 o1 with
    | none => simp only [h2] at hs; cases hs
    | some y =>
      obtain ⟨q2, o2, ir, iw⟩ := y
      simp only [h2, Option.some.injEq, Prod.mk.injEq] at hs
      obtain ⟨rfl, rfl⟩ := hs
      obtain ⟨t1, t2, t3, t4, t5⟩ := calm_tick c zero s q1 o1 p1 out h1
      obtain ⟨m1, m2, m3⟩ := calm_memTick zero s q1 q2 o1 o2 ir iw t2 h2
      have hrv : (if o2 ≠ s.occ then assign c o2 q2 p1 else p1).rvalid = p1.rvalid := by
        split
        · simp only [assign]
        · rfl
      rw [t1, t2, t4] at m1 m2 m3
      unfold left
      simp only [hrv, t5, t4]
      cases hv : s.ports.rvalid with
      | true =>
        obtain ⟨r, rest, er, -⟩ := ip.r hv
        simp only [hv, er, if_true, List.tail_cons, List.length_cons] at m1 m2 m3 ⊢
        split <;> split <;> split <;> omega
      | false =>
        simp only [hv, Bool.false_eq_true, if_false] at m1 m2 m3 ⊢
        by_cases hrd : s.q.rd = []
        · by_cases ho : s.q.outR = []
          · have hra : s.q.ra ≠ [] := by
              rcases hne with h | h | h
              · exact h
              · exact absurd hrd h
              · exact absurd ho h
            rw [ho] at m1 m3 ⊢
            cases hrf : s.readFirst with
            | true =>
              have := m3 hra hrf
              simp only [List.length_nil] at this ⊢
              simp
              omega
            | false =>
              simp only [List.length_nil] at m1 ⊢
              simp
              omega
          · have : s.q.outR.length > 0 := List.length_pos_iff.mpr ho
            simp only [this, decide_true, if_true]
            split <;> split <;> omega
        · have := m2 hrd
          split <;> split <;> split <;> omega

theorem run_length (c : Cfg) (zero : δ) : ∀ (es : List (In δ × Env)) (s s' : State δ) (os : List (Out δ)),
    run c zero s es = some (s', os) → os.length = es.length := by
  intro es
  induction es with
  | nil => intro s s' os h; cases h; rfl
  | cons x es ih =>
    obtain ⟨i, e⟩ := x
    intro s s' os h
    unfold run at h
    cases h1 : step c zero s i e with
    | none => rw [h1] at h; cases h
    | some y =>
      obtain ⟨s1, o⟩ := y
      rw [h1] at h
      simp only at h
      cases h2 : run c zero s1 es with
      | none => rw [h2] at h; cases h
      | some z =>
        obtain ⟨s2, os'⟩ := z
        rw [h2] at h
        cases h
        simp [ih _ _ _ h2]

theorem run_append (c : Cfg) (zero : δ) (es' : List (In δ × Env)) (s2 : State δ) (os2 : List (Out δ)) :
    ∀ (es : List (In δ × Env)) (s s1 : State δ) (os1 : List (Out δ)), run c zero s es = some (s1, os1) →
    run c zero s1 es' = some (s2, os2) → run c zero s (es ++ es') = some (s2, os1 ++ os2) := by
  intro es
  induction es with
  | nil => intro s s1 os1 h h'; cases h; exact h'
  | cons x es ih =>
    obtain ⟨i, e⟩ := x
    intro s s1 os1 h h'
    unfold run at h
    cases h1 : step c zero s i e with
    | none => rw [h1] at h; cases h
    | some y =>
      obtain ⟨t, o⟩ := y
      rw [h1] at h
      simp only at h
      cases h2 : run c zero t es with
      | none => rw [h2] at h; cases h
      | some z =>
        obtain ⟨t2, os'⟩ := z
        rw [h2] at h
        cases h
        rw [List.cons_append, run, h1]
        simp only
        rw [ih t _ os' h2 h']
        rfl

theorem ofRun_append (c : Cfg) (es' : List (In δ × Env)) (os' : List (Out δ)) : ∀ (es : List (In δ × Env))
    (os : List (Out δ)) (h : Hist δ), os.length = es.length →
    Hist.ofRun c h (es ++ es') (os ++ os') = Hist.ofRun c (Hist.ofRun c h es os) es' os' := by
  intro es
  induction es with
  | nil => intro os h hl; cases os with
    | nil => rfl
    | cons o os => cases hl
  | cons x es ih =>
    intro os h hl
    cases os with
    | nil => cases hl
    | cons o os => exact ih os _ (by simpa using hl)

theorem polite_append (c : Cfg) (zero : δ) (es' : List (In δ × Env)) : ∀ (es : List (In δ × Env)) (h : Hist δ)
    (s : State δ), PoliteRun c zero h s es →
    (∀ s1 os1, run c zero s es = some (s1, os1) → PoliteRun c zero (Hist.ofRun c h es os1) s1 es') →
    PoliteRun c zero h s (es ++ es') := by
  intro es
  induction es with
  | nil => intro h s _ h2; exact h2 s [] rfl
  | cons x es ih =>
    obtain ⟨i, e⟩ := x
    intro h s h1 h2
    refine ⟨h1.1, fun s' o hs => ih _ s' (h1.2 s' o hs) fun s1 os1 hr => ?_⟩
    refine h2 s1 (o :: os1) ?_
    unfold run
    rw [hs]
    simp only [hr]

theorem polite_counts (c : Cfg) (zero : δ) (mem0 : Nat → Option δ) : ∀ (es : List (In δ × Env)) (h : Hist δ)
    (s s' : State δ) (os : List (Out δ)), PoliteRun c zero h s es → Inv zero mem0 h s → Front s.q →
    h.w.length ≤ h.aw.length → (∀ a, h.doneR.count a ≤ h.issuedR.count a) → run c zero s es = some (s', os) →
    (Hist.ofRun c h es os).w.length ≤ (Hist.ofRun c h es os).aw.length ∧
    ∀ a, (Hist.ofRun c h es os).doneR.count a ≤ (Hist.ofRun c h es os).issuedR.count a := by
  intro es
  induction es with
  | nil => intro h s s' os _ _ _ hw hl hr; cases hr; exact ⟨hw, hl⟩
  | cons x es ih =>
    obtain ⟨i, e⟩ := x
    intro h s s' os hp hi f hw hl hr
    obtain ⟨s1, o, h1, f1, hd1⟩ := step_ok c zero mem0 h s i e hi f hw hp.1
    unfold run at hr
    rw [h1] at hr
    simp only at hr
    cases h2 : run c zero s1 es with
    | none => rw [h2] at hr; cases hr
    | some z =>
      obtain ⟨s2, os'⟩ := z
      rw [h2] at hr
      cases hr
      refine ih _ s1 _ os' (hp.2 s1 o h1) (inv_step c zero mem0 h s s1 i e o hi h1) f1 hd1 ?_ h2
      intro a
      have := hp.1.reads a
      simp only [Hist.next, List.count_append] at this ⊢
      omega

theorem calm_finish (c : Cfg) (zero : δ) (mem0 : Nat → Option δ) : ∀ (n : Nat) (h : Hist δ) (s : State δ),
    left s ≤ n → Inv zero mem0 h s → Front s.q → h.w.length ≤ h.aw.length →
    (∀ a, h.doneR.count a ≤ h.issuedR.count a) →
    ∃ es s' os, run c zero s es = some (s', os) ∧ PoliteRun c zero h s es ∧ (∀ x ∈ es, x.1.arvalid = false) ∧
      s'.q.ra = [] ∧ s'.q.rd = [] ∧ s'.q.outR = [] := by
  intro n
  induction n with
  | zero =>
    intro h s hn hi f hd hl
    by_cases hne : s.q.ra ≠ [] ∨ s.q.rd ≠ [] ∨ s.q.outR ≠ []
    · obtain ⟨s', o, -, hlt⟩ := calm_step c zero mem0 h s hi f hd hl hne
      omega
    · simp only [not_or, ne_eq, Classical.not_not] at hne
      exact ⟨[], s, [], rfl, trivial, by simp, hne.1, hne.2.1, hne.2.2⟩
  | succ n ih =>
    intro h s hn hi f hd hl
    by_cases hne : s.q.ra ≠ [] ∨ s.q.rd ≠ [] ∨ s.q.outR ≠ []
    · obtain ⟨s', o, hs, hlt⟩ := calm_step c zero mem0 h s hi f hd hl hne
      have hp := calm_polite zero mem0 h s hi f hl
      obtain ⟨s1, o1, h1, f1, hd1⟩ := step_ok c zero mem0 h s _ _ hi f hd hp
      rw [hs] at h1
      cases h1
      obtain ⟨es, s2, os, hr, hpr, ha, hq⟩ := ih (h.next c (calm zero s).1 (calm zero s).2 o) s' (by omega)
        (inv_step c zero mem0 h s s' _ _ o hi hs) f1 hd1 (by
          intro a
          have := hp.reads a
          simp only [Hist.next, List.count_append] at this ⊢
          omega)
      refine ⟨calm zero s :: es, s2, o :: os, ?_, ⟨hp, ?_⟩, ?_, hq⟩
      · unfold run
        simp only [hs, hr]
      · intro s3 o3 h3
        have h4 := hs.symm.trans h3
        cases h4
        exact hpr
      · intro x hx
        rcases List.mem_cons.mp hx with rfl | hx
        · rfl
        · exact ha x hx
    · simp only [not_or, ne_eq, Classical.not_not] at hne
      exact ⟨[], s, [], rfl, trivial, by simp, hne.1, hne.2.1, hne.2.2⟩

/-- **C34.** No deadlock: after every run with a well-behaved environment there is a well-behaved
continuation, without new requests, after which every read taken has been answered and handed over. -/
theorem C34_every_read_can_finish (c : Cfg) (zero : δ) (mem0 : Nat → Option δ) (es : List (In δ × Env))
    (hp : PoliteRun c zero {} (start c mem0) es) :
    ∃ es' s os, run c zero (start c mem0) (es ++ es') = some (s, os) ∧
      PoliteRun c zero {} (start c mem0) (es ++ es') ∧ (∀ x ∈ es', x.1.arvalid = false) ∧
      (Hist.ofRun c {} (es ++ es') os).given.map tag = (Hist.ofRun c {} (es ++ es') os).taken.map reqTag := by
  have f0 : Front (start c mem0).q := by intro r rest e; cases e
  obtain ⟨s1, os1, hr1, f1⟩ := run_ok c zero mem0 es {} _ (inv_start c zero mem0) f0 (Nat.le_refl _) hp
  have i1 := inv_run c zero mem0 es {} _ s1 os1 (inv_start c zero mem0) hr1
  obtain ⟨hw1, hl1⟩ := polite_counts c zero mem0 es {} _ s1 os1 hp (inv_start c zero mem0) f0 (Nat.le_refl _)
    (fun _ => Nat.le_refl _) hr1
  obtain ⟨es', s2, os2, hr2, hp2, ha, q1, q2, q3⟩ := calm_finish c zero mem0 (left s1) _ s1 (Nat.le_refl _) i1 f1 hw1 hl1
  have hr := run_append c zero es' s2 os2 es _ s1 os1 hr1 hr2
  refine ⟨es', s2, os1 ++ os2, hr, ?_, ha, ?_⟩
  · refine polite_append c zero es' es {} _ hp fun s3 os3 h3 => ?_
    rw [hr1] at h3
    cases h3
    exact hp2
  · obtain ⟨-, bq, i, -⟩ := inv_run c zero mem0 _ {} _ s2 _ (inv_start c zero mem0) hr
    generalize Hist.ofRun c {} (es ++ es') (os1 ++ os2) = h at *
    have e1 := congrArg (List.map tag) i.r.outs
    rw [answers_tags, q3] at e1
    rw [i.r.reads, q1, q2]
    simpa using e1.symm

/-- **C34**, reset: a reset while a read is in the DRAM makes its completion hit an empty queue, which
stops the simulation. The DRAM completed only what it was given. -/
theorem C34_reset_violated : ∃ s os,
    run cfg64 0 (start cfg64 fun _ => none)
      [({ idle with arvalid := true, araddr := 0, arsize := 6, aruser := 3 }, {})] = some (s, os) ∧
    os.map (·.issuedR) = [some 0] ∧
    (step cfg64 0 (reset s) idle { cbs := [.read 0] }).isNone = true := by
  refine ⟨_, _, rfl, ?_⟩
  decide

/-! ## C35: reads see completed writes -/

/-- The value last written to `a` in a list of writes. -/
def lastTo (a : Nat) (ws : List (Nat × δ)) : Option δ := ((ws.filter fun w => w.1 = a).getLast?).map (·.2)

theorem contentsAfter_eq (mem : Nat → Option δ) (log : List (Ev δ)) (a : Nat) :
    contentsAfter mem log a = (lastTo a (wrote log)).or (mem a) := by
  unfold contentsAfter lastTo
  cases ((wrote log).filter fun w => w.1 = a).getLast? <;> rfl

theorem log_grows_drain (zero : δ) (garbage : Nat) : ∀ (l : List Req) (q q' : Queues δ),
    drain zero garbage l q = some q' → q.log <+: q'.log := by
  intro l
  induction l with
  | nil =>
    intro q q' hd
    unfold drain at hd
    split at hd
    · cases hd; exact List.prefix_refl _
    · cases hd
  | cons r rest ih =>
    intro q q' hd
    unfold drain at hd
    split at hd
    · exact (List.prefix_append _ _).trans (ih _ _ hd)
    · cases hd; exact List.prefix_refl _

theorem log_grows_callbacks (zero : δ) (garbage : Nat) : ∀ (cbs : List Cb) (q q' : Queues δ),
    callbacks zero garbage q cbs = some q' → q.log <+: q'.log := by
  intro cbs
  induction cbs with
  | nil =>
    intro q q' hc
    have : q = q' := by simpa [callbacks] using hc
    subst this; exact List.prefix_refl _
  | cons cb cbs ih =>
    intro q q' hc
    unfold callbacks at hc
    rw [List.foldlM_cons] at hc
    cases h1 : callback zero garbage q cb with
    | none => rw [h1] at hc; cases hc
    | some q1 =>
      rw [h1] at hc
      refine List.IsPrefix.trans ?_ (ih q1 q' hc)
      cases cb with
      | read a =>
        simp only [callback, readCallback] at h1
        split at h1
        · cases h1
        · split at h1
          · cases h1; exact List.prefix_refl _
          · exact (List.prefix_append _ _).trans (log_grows_drain zero garbage _ _ _ h1)
      | write a =>
        simp only [callback, writeCallback] at h1
        split at h1
        · cases h1
        · cases h1; exact List.prefix_append _ _

theorem log_memTick (zero : δ) (e : Env) (rf : Bool) (q q' : Queues δ) (o o' : Occ) (ir : Option Nat)
    (iw : Option (Nat × δ)) (h : memTick zero e rf q o = some (q', o', ir, iw)) : q.log <+: q'.log := by
  obtain ⟨q1, h1, h2⟩ := memTick_cases zero e rf q q' o o' ir iw h
  refine (log_grows_callbacks zero e.garbage e.cbs q q1 h1).trans ?_
  rcases h2 with ⟨rfl, -, -, -⟩ | ⟨h2, -⟩ | ⟨rfl, -, -⟩
  · unfold issueRead
    split
    · exact List.prefix_refl _
    · split <;> exact List.prefix_refl _
  · unfold issueWrite at h2
    split at h2
    · cases h2; exact List.prefix_refl _
    · split at h2
      · cases h2
      · split at h2 <;> cases h2 <;> exact List.prefix_refl _
  · exact List.prefix_refl _

theorem log_tick (c : Cfg) (inp : In δ) (old : Occ) (p p' : Ports δ) (q q' : Queues δ) (o o' : Occ) (out : Out δ)
    (h : tick c inp old p q o = some (q', o', p', out)) : q'.log = q.log := by
  unfold tick at h
  simp only at h
  have e : (takeAr c inp (arFlag c q) (takeW inp (wFlag c old q) (takeAw c inp (awFlag c old) q))).log = q.log := by
    unfold takeAr takeW takeAw; (repeat' split) <;> rfl
  generalize takeAr c inp (arFlag c q) (takeW inp (wFlag c old q) (takeAw c inp (awFlag c old) q)) = q1 at *
  cases hb : giveB inp p q1 with
  | none => rw [hb] at h; cases h
  | some q2 =>
    rw [hb] at h
    simp only at h
    cases hr : giveR inp p q2 with
    | none => rw [hr] at h; cases h
    | some q3 =>
      rw [hr] at h
      cases h
      have e2 : q2.log = q1.log := by
        unfold giveB at hb
        split at hb
        · split at hb <;> cases hb; rfl
        · cases hb; rfl
      have e3 : q'.log = q2.log := by
        unfold giveR at hr
        split at hr
        · split at hr <;> cases hr; rfl
        · cases hr; rfl
      rw [e3, e2, e]

theorem log_step (c : Cfg) (zero : δ) (s s' : State δ) (i : In δ) (e : Env) (o : Out δ)
    (hs : step c zero s i e = some (s', o)) : s.q.log <+: s'.q.log := by
  unfold step at hs
  simp only at hs
  split at hs
  · cases h1 : tick c i s.occ s.ports s.q s.occ with
    | none => rw [h1] at hs; cases hs
    | some x =>
      obtain ⟨q1, o1, p1, out⟩ := x
      rw [h1] at hs
      simp only at hs
      cases h2 : memTick zero e s.readFirst q1 o1 with
      | none => rw [h2] at hs; cases hs
      | some y =>
        obtain ⟨q2, o2, ir, iw⟩ := y
        rw [h2] at hs
        simp only [Option.some.injEq, Prod.mk.injEq] at hs
        obtain ⟨rfl, rfl⟩ := hs
        rw [← log_tick _ _ _ _ _ _ _ _ _ _ h1]
        exact log_memTick _ _ _ _ _ _ _ _ _ h2
  · cases h1 : memTick zero e s.readFirst s.q s.occ with
    | none => rw [h1] at hs; cases hs
    | some x =>
      obtain ⟨q1, o1, ir, iw⟩ := x
      rw [h1] at hs
      simp only at hs
      cases h2 : tick c i s.occ s.ports q1 o1 with
      | none => rw [h2] at hs; cases hs
      | some y =>
        obtain ⟨q2, o2, p2, out⟩ := y
        rw [h2] at hs
        simp only [Option.some.injEq, Prod.mk.injEq] at hs
        obtain ⟨rfl, rfl⟩ := hs
        show s.q.log <+: q2.log
        rw [log_tick _ _ _ _ _ _ _ _ _ _ h2]
        exact log_memTick _ _ _ _ _ _ _ _ _ h1

theorem log_run (c : Cfg) (zero : δ) : ∀ (es : List (In δ × Env)) (s s' : State δ) (os : List (Out δ)),
    run c zero s es = some (s', os) → s.q.log <+: s'.q.log := by
  intro es
  induction es with
  | nil => intro s s' os h; cases h; exact List.prefix_refl _
  | cons x es ih =>
    obtain ⟨i, e⟩ := x
    intro s s' os h
    unfold run at h
    cases h1 : step c zero s i e with
    | none => rw [h1] at h; cases h
    | some y =>
      obtain ⟨s1, o⟩ := y
      rw [h1] at h
      simp only at h
      cases h2 : run c zero s1 es with
      | none => rw [h2] at h; cases h
      | some z =>
        obtain ⟨s2, os'⟩ := z
        rw [h2] at h
        cases h
        exact (log_step c zero s s1 i e o h1).trans (ih _ _ _ h2)

/-- The writes in the order taken: the `k`-th address of the bursts with the `k`-th data beat. -/
def pairs (h : Hist δ) : List (Nat × δ) := List.zipWith (fun a w => (a.1, w.2)) h.aw h.w

theorem pairs_eq (h : Hist δ) : pairs h = h.writes.map fun p => (p.addr, p.data) := by
  unfold pairs Hist.writes
  rw [List.map_zipWith]
  rfl

/-- **C35.** There is one order of events - completed writes and answered reads - in which every read
answer carries the data last written to its address before (or the initial contents). The answers of
this order are the responses (given or waiting), the answered reads are the first requests taken. When
the DRAM completes writes in the order they were issued, the writes of this order are the first writes
taken, `k`-th address with `k`-th data. -/
theorem C35_read_returns_latest_write_partial (c : Cfg) (zero : δ) (mem0 : Nat → Option δ)
    (es : List (In δ × Env)) (s : State δ) (os : List (Out δ))
    (hr : run c zero (start c mem0) es = some (s, os)) :
    ∃ log : List (Ev δ),
      (Hist.ofRun c {} es os).given <+: answers log ∧
      answered log <+: (Hist.ofRun c {} es os).taken ∧
      (wrote log).map (·.1) = (Hist.ofRun c {} es os).doneW ∧
      ((Hist.ofRun c {} es os).doneW <+: (Hist.ofRun c {} es os).issuedW.map (·.1) →
        wrote log <+: pairs (Hist.ofRun c {} es os)) ∧
      ∀ pre post a r d l, log = pre ++ .answered a r d l :: post →
        d = ((lastTo a (wrote pre)).or (mem0 a)).getD zero := by
  obtain ⟨-, bq, i, -⟩ := inv_run c zero mem0 es {} _ s os (inv_start c zero mem0) hr
  generalize Hist.ofRun c {} es os = h at *
  have hZ : h.issuedW.length ≤ h.writes.length := by
    have := congrArg List.length i.w.iss
    simp only [List.length_map, List.length_take] at this
    omega
  have hk := i.w.kn
  refine ⟨s.q.log, ?_, ?_, ?_, ?_, ?_⟩
  · rw [i.r.outs]; exact List.prefix_append ..
  · rw [i.r.reads, List.append_assoc]; exact List.prefix_append ..
  · rw [← i.w.log, List.map_fst_zip]
    simp only [List.length_map, List.length_take]; omega
  · intro hpre
    have e1 : h.doneW = ((h.writes.take h.doneW.length).map PW.addr) := by
      rw [List.prefix_iff_eq_take] at hpre
      have e2 := congrArg (fun l => (List.map Prod.fst l).take h.doneW.length) i.w.iss
      simp only [List.map_map] at e2
      rw [← hpre] at e2
      refine e2.symm.trans ?_
      rw [← List.map_take, List.take_take, Nat.min_eq_left hk]
      rfl
    rw [← i.w.log, pairs_eq]
    have : List.zip h.doneW ((h.writes.take h.doneW.length).map PW.data) =
        (h.writes.take h.doneW.length).map fun p => (p.addr, p.data) := by
      have e3 : List.zip ((h.writes.take h.doneW.length).map PW.addr) ((h.writes.take h.doneW.length).map PW.data) =
        (h.writes.take h.doneW.length).map fun p => (p.addr, p.data) := by
        rw [List.zip_map, List.zip_eq_zipWith, List.zipWith_self, List.map_map]
        rfl
      rw [← e1] at e3
      exact e3
    rw [this]
    exact (List.take_prefix _ _).map _
  · intro pre post a r d l e
    rw [← contentsAfter_eq]
    exact i.m.ans pre post a r d l e

/-- **C35.** What a master sees: a read taken after some point returns data at least as recent as all
writes completed up to that point, and the number of write responses handed over never exceeds the
number of bursts completed. -/
theorem C35_read_sees_acknowledged_writes (c : Cfg) (zero : δ) (mem0 : Nat → Option δ)
    (es1 es2 : List (In δ × Env)) (s1 s2 : State δ) (os1 os2 : List (Out δ))
    (h1 : run c zero (start c mem0) es1 = some (s1, os1)) (h2 : run c zero s1 es2 = some (s2, os2))
    (j : Nat) (hj : (Hist.ofRun c {} es1 os1).taken.length ≤ j) (u : Nat) (d : Option δ) (l : Bool)
    (hg : (Hist.ofRun c {} (es1 ++ es2) (os1 ++ os2)).given[j]? = some (u, d, l)) :
    ∃ ws a, (Hist.ofRun c {} (es1 ++ es2) (os1 ++ os2)).taken[j]? = some ⟨a, u, l⟩ ∧
      wrote s1.q.log <+: ws ∧ d = some (((lastTo a ws).or (mem0 a)).getD zero) := by
  obtain ⟨-, bq1, i1, -⟩ := inv_run c zero mem0 es1 {} _ s1 os1 (inv_start c zero mem0) h1
  have hr := run_append c zero es2 s2 os2 es1 _ s1 os1 h1 h2
  obtain ⟨-, bq2, i2, -⟩ := inv_run c zero mem0 _ {} _ s2 _ (inv_start c zero mem0) hr
  generalize Hist.ofRun c {} (es1 ++ es2) (os1 ++ os2) = h at *
  obtain ⟨L2, hL⟩ := log_run c zero es2 s1 s2 os2 h2
  have hans : (answers s2.q.log)[j]? = some (u, d, l) := by
    rw [i2.r.outs]
    have : j < h.given.length := by
      apply Classical.byContradiction
      intro hc
      rw [List.getElem?_eq_none (by omega)] at hg
      cases hg
    rw [List.getElem?_append_left this]
    exact hg
  -- the event of this answer lies in the second part of the log
  have split (log : List (Ev δ)) : ∀ (k : Nat) x, (answers log)[k]? = some x →
      ∃ pre post a r e l, log = pre ++ .answered a r e l :: post ∧ (answers pre).length = k ∧
        x = (r, some e, l) ∧ (answered log)[k]? = some ⟨a, r, l⟩ := by
    induction log with
    | nil => intro k x h; simp [answers] at h
    | cons ev log ih =>
      intro k x h
      cases ev with
      | wrote a e =>
        obtain ⟨pre, post, a', r, e', l, hl, hk, hx, ha⟩ := ih k x h
        exact ⟨.wrote a e :: pre, post, a', r, e', l, by rw [hl]; rfl, hk, hx, ha⟩
      | answered a r e l =>
        have e1 : answers (Ev.answered a r e l :: log) = (r, some e, l) :: answers log := rfl
        have e2 : answered (Ev.answered a r e l :: log) = ⟨a, r, l⟩ :: answered log := rfl
        rw [e1] at h
        cases k with
        | zero =>
          simp only [List.getElem?_cons_zero, Option.some.injEq] at h
          exact ⟨[], log, a, r, e, l, rfl, rfl, h.symm, by rw [e2]; rfl⟩
        | succ k =>
          rw [List.getElem?_cons_succ] at h
          obtain ⟨pre, post, a', r', e', l', hl, hk, hx, ha⟩ := ih k x h
          refine ⟨.answered a r e l :: pre, post, a', r', e', l', by rw [hl]; rfl, ?_, hx, by rw [e2]; exact ha⟩
          have : answers (Ev.answered a r e l :: pre) = (r, some e, l) :: answers pre := rfl
          rw [this, List.length_cons, hk]
  obtain ⟨pre, post, a, r, e, l', hl, hk, hx, ha⟩ := split _ j _ hans
  cases hx
  refine ⟨wrote pre, a, ?_, ?_, ?_⟩
  · rw [i2.r.reads, List.append_assoc]
    rw [List.getElem?_append_left]
    · exact ha
    · apply Classical.byContradiction
      intro hc
      rw [List.getElem?_eq_none (by omega)] at ha
      cases ha
  · -- all of the first log precedes
    have hle : s1.q.log.length ≤ pre.length := by
      apply Classical.byContradiction
      intro hc
      have hlt : pre.length < s1.q.log.length := by omega
      have e3 : s1.q.log = pre ++ (.answered a u e l :: (s1.q.log.drop (pre.length + 1))) := by
        have e4 := congrArg (fun l => List.take s1.q.log.length l) (hL.trans hl)
        simp only [List.take_left'] at e4
        rw [List.take_append, List.take_of_length_le (show pre.length ≤ s1.q.log.length by omega)] at e4
        obtain ⟨m, hm⟩ : ∃ m, s1.q.log.length - pre.length = m + 1 :=
          ⟨s1.q.log.length - pre.length - 1, by omega⟩
        rw [hm, List.take_succ_cons] at e4
        have e5 : s1.q.log.drop (pre.length + 1) = post.take m := by
          rw [e4, List.drop_append, List.drop_eq_nil_of_le (show pre.length ≤ pre.length + 1 by omega)]
          simp
        rw [e5]; exact e4
      have e6 : (answers s1.q.log).length ≥ j + 1 := by
        rw [e3, answers_append, List.length_append, hk]
        have : answers (Ev.answered a u e l :: s1.q.log.drop (pre.length + 1)) =
          (u, some e, l) :: answers (s1.q.log.drop (pre.length + 1)) := rfl
        rw [this, List.length_cons]; omega
      have e7 : (answers s1.q.log).length ≤ (Hist.ofRun c {} es1 os1).taken.length := by
        have := congrArg List.length (answers_tags s1.q.log)
        simp only [List.length_map] at this
        rw [this, i1.r.reads]
        simp
      omega
    obtain ⟨t, ht⟩ : s1.q.log <+: pre := by
      have p1 : s1.q.log <+: s2.q.log := ⟨L2, hL⟩
      have p2 : pre <+: s2.q.log := ⟨_, hl.symm⟩
      exact List.prefix_of_prefix_length_le p1 p2 hle
    exact ⟨wrote t, by rw [← ht, wrote_append]⟩
  · rw [← contentsAfter_eq, ← i2.m.ans pre post a u e l hl]

/-- The sample run: writes of 11 and 22 completed, then read back in the order of the requests. -/
example : ∃ s os, sampleEnd = some (s, os) ∧
    (Hist.ofRun cfg64 {} sampleRun os).doneW <+: (Hist.ofRun cfg64 {} sampleRun os).issuedW.map (·.1) ∧
    (Hist.ofRun cfg64 {} sampleRun os).doneW = [0, 64] ∧
    pairs (Hist.ofRun cfg64 {} sampleRun os) = [(0, 11), (64, 22)] ∧
    (Hist.ofRun cfg64 {} sampleRun os).given[0]? = some (3, some 22, true) ∧
    (Hist.ofRun cfg64 {} (sampleRun.take 3) (os.take 3)).taken.length = 0 := by
  refine ⟨_, _, rfl, ?_⟩
  decide

/-- **C35**, write completions out of issue order: the data of the oldest write goes to the address that
completes first, so both addresses end with the wrong data. -/
theorem C35_out_of_order_writes_violated : ∃ s os,
    run cfg64 0 (start cfg64 fun _ => none)
      [({ idle with awvalid := true, awaddr := 0, awsize := 6 }, {}),
       ({ idle with awvalid := true, awaddr := 64, awsize := 6, wvalid := true, wdata := 11 }, {}),
       ({ idle with wvalid := true, wdata := 22 }, {}), (idle, {}),
       (idle, { cbs := [.write 64, .write 0] })] = some (s, os) ∧
    os.map (·.issuedW) = [none, some (0, 11), some (64, 22), none, none] ∧
    s.q.mem 0 = some 22 ∧ s.q.mem 64 = some 11 := by
  refine ⟨_, _, rfl, ?_⟩
  decide

/-- Words of 32 bytes, half of a 64-byte beat. -/
def cfg32 : Cfg := ⟨32, 64, 64, id⟩

/-- **C35**, beats wider than a word: a write of one 64-byte beat takes two word addresses but one piece of
data. The second write, to address 1024, is stored in the second half of the first one and address 1024 is
not written. -/
theorem C35_wide_beats_violated : ∃ s os,
    run cfg32 0 (start cfg32 fun _ => none)
      [({ idle with awvalid := true, awaddr := 0, awsize := 6 }, {}),
       ({ idle with awvalid := true, awaddr := 1024, awsize := 6, wvalid := true, wdata := 11 }, {}),
       ({ idle with wvalid := true, wdata := 22 }, {}), (idle, {}),
       (idle, { cbs := [.write 0, .write 32] })] = some (s, os) ∧
    os.map (·.aw) = [true, true, false, false, false] ∧
    os.map (·.issuedW) = [none, some (0, 11), some (32, 22), none, none] ∧
    s.q.mem 32 = some 22 ∧ s.q.mem 1024 = none := by
  refine ⟨_, _, rfl, ?_⟩
  decide

/-! ## C36: queues -/

/-- **C36.** With a well-behaved environment no queue is popped when empty and no assertion fails, in
every run, whatever the order of the two processes. -/
theorem C36_no_underflow_partial (c : Cfg) (zero : δ) (mem0 : Nat → Option δ) (es : List (In δ × Env))
    (hp : PoliteRun c zero {} (start c mem0) es) : run c zero (start c mem0) es ≠ none := by
  obtain ⟨s, os, h, -⟩ := run_ok c zero mem0 es {} _ (inv_start c zero mem0) (by intro r rest e; cases e)
    (Nat.le_refl _) hp
  rw [h]
  exact fun h => by cases h

example : sampleEnd ≠ none := C36_no_underflow_partial _ _ _ _ (polite_of_check _ _ _ _ _ (by decide))

/-- **C36.** Bounds in terms of the queue sizes and the largest burst `B`. -/
theorem C36_queues_bounded_partial (c : Cfg) (zero : δ) (mem0 : Nat → Option δ) (es : List (In δ × Env))
    (s : State δ) (os : List (Out δ)) (B : Nat)
    (hB : ∀ x ∈ es, burstSize c x.1.awsize x.1.awlen ≤ B ∧ burstSize c x.1.arsize x.1.arlen ≤ B)
    (hr : run c zero (start c mem0) es = some (s, os)) :
    s.q.wa.length ≤ c.inSize - 1 + B ∧ s.q.wd.length ≤ c.inSize ∧ s.q.ra.length ≤ c.inSize - 1 + B ∧
    s.q.rd.length + s.q.outR.length ≤ (c.outSize - 1) + (c.inSize - 1) + B ∧
    s.q.ow.length + s.q.outW.length ≤ (c.outSize - 1) + c.inSize := by
  obtain ⟨b, -, -⟩ := binv_run c zero B es _ s os hB (binv_start c B mem0) hr
  refine ⟨b.wa, b.wd, b.ra, ?_, ?_⟩
  · have := b.r; omega
  · have := b.w; omega

/-- With single-word requests the input queues stay within their size. -/
theorem C36_single_word_capacity (c : Cfg) (zero : δ) (mem0 : Nat → Option δ) (es : List (In δ × Env))
    (s : State δ) (os : List (Out δ)) (hc : 1 ≤ c.inSize)
    (hB : ∀ x ∈ es, burstSize c x.1.awsize x.1.awlen ≤ 1 ∧ burstSize c x.1.arsize x.1.arlen ≤ 1)
    (hr : run c zero (start c mem0) es = some (s, os)) :
    s.q.wa.length ≤ c.inSize ∧ s.q.wd.length ≤ c.inSize ∧ s.q.ra.length ≤ c.inSize := by
  obtain ⟨h1, h2, h3, -, -⟩ := C36_queues_bounded_partial c zero mem0 es s os 1 hB hr
  exact ⟨by omega, h2, by omega⟩

example : ∀ x ∈ sampleRun, burstSize cfg64 x.1.awsize x.1.awlen ≤ 1 ∧ burstSize cfg64 x.1.arsize x.1.arlen ≤ 1 := by
  decide

/-- **C36**, bursts: one burst of 100 words fills the 64-entry address queue beyond its size. -/
theorem C36_burst_overflow_violated : ∃ s os,
    run cfg64 0 (start cfg64 fun _ => none)
      [({ idle with awvalid := true, awaddr := 0, awsize := 6, awlen := 99 }, {})] = some (s, os) ∧
    s.q.wa.length > cfg64.inSize := by
  refine ⟨_, _, rfl, ?_⟩
  decide

/-- **C36**, more data than addresses: the controller accepts a second data beat after a single-word
address and then takes the front of the empty address queue. -/
theorem C36_data_without_address_violated :
    (run cfg64 0 (start cfg64 fun _ => none)
      [({ idle with awvalid := true, awaddr := 0, awsize := 6 }, { accW := false }),
       ({ idle with wvalid := true, wdata := 11 }, { accW := false }),
       ({ idle with wvalid := true, wdata := 22 }, {}), (idle, {})]).isNone = true := by
  decide

/-- **C36**, every read that empties the queue of outstanding reads makes the loop look at the front of
the empty queue (line 202), here a single read. -/
theorem C36_front_of_empty_violated : ∃ s os,
    run cfg64 0 (start cfg64 fun _ => none)
      [({ idle with arvalid := true, araddr := 0, arsize := 6, aruser := 3 }, {}),
       (idle, { cbs := [.read 0] })] = some (s, os) ∧ s.q.stale = 1 := by
  refine ⟨_, _, rfl, ?_⟩
  decide

/-! ## C37: burst expansion -/

/-- **C37.** When the bytes of a beat are a multiple of the word, the requests of a burst are for
consecutive words, which cover exactly the bytes of the burst, once each, and only the final one carries
the last flag. -/
theorem C37_burst_covers_exactly_partial (c : Cfg) (base size len : Nat) (hw : 0 < c.wordBytes)
    (hd : c.wordBytes ∣ 2 ^ size) (hmax : base + 2 ^ size * (len + 1) ≤ 2 ^ 64) :
    ∃ ws : List Nat, (expand c base size len).map (·.1) = ws.map c.translate ∧
      ws.Pairwise (fun v w => v + c.wordBytes ≤ w) ∧
      (∀ x, (base ≤ x ∧ x < base + 2 ^ size * (len + 1)) ↔ ∃ w ∈ ws, w ≤ x ∧ x < w + c.wordBytes) ∧
      (expand c base size len).map (·.2) = List.replicate (ws.length - 1) false ++ [true] := by
  obtain ⟨m, hm⟩ := hd
  have hmpos : 0 < m := by
    rcases Nat.eq_zero_or_pos m with h | h
    · rw [h, Nat.mul_zero] at hm
      have := Nat.two_pow_pos size
      omega
    · exact h
  have hq : (2 ^ size + c.wordBytes - 1) / c.wordBytes = m := by
    rw [hm]
    have : c.wordBytes * m + c.wordBytes - 1 = c.wordBytes - 1 + c.wordBytes * m := by omega
    rw [this, Nat.add_mul_div_left _ _ hw, Nat.div_eq_of_lt (by omega), Nat.zero_add]
  have hb : burstSize c size len = m * (len + 1) := by unfold burstSize; rw [hq]
  have hn : 0 < m * (len + 1) := Nat.mul_pos hmpos (Nat.succ_pos _)
  have htot : 2 ^ size * (len + 1) = m * (len + 1) * c.wordBytes := by
    rw [hm, Nat.mul_comm c.wordBytes m, Nat.mul_assoc, Nat.mul_comm c.wordBytes, Nat.mul_assoc]
  generalize hN : m * (len + 1) = N at *
  have hlt (b : Nat) (h : b < N) : base + b * c.wordBytes < 2 ^ 64 := by
    have : (b + 1) * c.wordBytes ≤ N * c.wordBytes := Nat.mul_le_mul_right _ h
    rw [Nat.add_mul, Nat.one_mul] at this
    omega
  refine ⟨(List.range N).map fun b => base + b * c.wordBytes, ?_, ?_, ?_, ?_⟩
  · unfold expand
    rw [hb, List.map_map, List.map_map]
    apply List.map_congr_left
    intro b hb'
    rw [List.mem_range] at hb'
    simp only [Function.comp]
    rw [Nat.mod_eq_of_lt (hlt b hb')]
  · rw [List.pairwise_map]
    refine List.Pairwise.imp ?_ List.pairwise_lt_range
    intro a b h
    have : (a + 1) * c.wordBytes ≤ b * c.wordBytes := Nat.mul_le_mul_right _ h
    rw [Nat.add_mul, Nat.one_mul] at this
    omega
  · intro x
    rw [htot]
    constructor
    · rintro ⟨h1, h2⟩
      refine ⟨base + (x - base) / c.wordBytes * c.wordBytes, ?_, ?_, ?_⟩
      · refine List.mem_map.mpr ⟨(x - base) / c.wordBytes, ?_, rfl⟩
        rw [List.mem_range, Nat.div_lt_iff_lt_mul hw]
        omega
      · have := Nat.div_mul_le_self (x - base) c.wordBytes
        omega
      · have := Nat.lt_div_mul_add (a := x - base) hw
        omega
    · rintro ⟨w, hwm, h1, h2⟩
      obtain ⟨b, hb', rfl⟩ := List.mem_map.mp hwm
      rw [List.mem_range] at hb'
      have : (b + 1) * c.wordBytes ≤ N * c.wordBytes := Nat.mul_le_mul_right _ hb'
      rw [Nat.add_mul, Nat.one_mul] at this
      omega
  · unfold expand
    rw [hb, List.map_map]
    obtain ⟨k, rfl⟩ : ∃ k, N = k + 1 := ⟨N - 1, by omega⟩
    simp only [List.length_map, List.length_range, Nat.add_sub_cancel]
    rw [List.range_succ, List.map_append]
    congr 1
    · rw [List.eq_replicate_iff]
      refine ⟨by simp, ?_⟩
      intro y hy
      obtain ⟨b, hb', rfl⟩ := List.mem_map.mp hy
      rw [List.mem_range] at hb'
      simp only [Function.comp, beq_eq_false_iff_ne]
      omega
    · simp

example : ∃ ws : List Nat, (expand cfg32 64 6 1).map (·.1) = ws ∧ ws = [64, 96, 128, 160] ∧
    (expand cfg32 64 6 1).map (·.2) = [false, false, false, true] ∧ 0 < cfg32.wordBytes ∧
    cfg32.wordBytes ∣ 2 ^ 6 ∧ 64 + 2 ^ 6 * (1 + 1) ≤ 2 ^ 64 := by
  refine ⟨_, rfl, ?_⟩
  decide

/-- **C37**, narrow transfers: two beats of one byte at address 0 become two whole words, so byte 64 is
accessed although the burst ends at byte 2. -/
theorem C37_narrow_transfer_violated : (expand cfg64 0 0 1).map (·.1) = [0, 64] ∧
    ¬ (64 < 0 + 2 ^ 0 * (1 + 1)) := by decide

/-! ## C59: the ready signals -/

/-- The ready ports are those `Assign` computes from the current occupancy signals. -/
def ReadyInv (c : Cfg) (s : State δ) : Prop :=
  s.ports.awready = decide (s.occ.wa < minus16 c.inSize) ∧
  s.ports.wready = (decide (s.occ.wa > 0) && decide (s.occ.wd < minus16 c.inSize) &&
    decide (s.occ.nOutW + s.occ.outW < minus16 c.outSize)) ∧
  s.ports.arready = (decide (s.occ.ra < minus16 c.inSize) && decide (s.occ.nOutR + s.occ.outR < minus16 c.outSize))

theorem drive_ready (q : Queues δ) (p : Ports δ) : (drivePorts q p).awready = p.awready ∧
    (drivePorts q p).wready = p.wready ∧ (drivePorts q p).arready = p.arready := by
  unfold drivePorts
  split <;> exact ⟨rfl, rfl, rfl⟩

theorem tick_ready (c : Cfg) (inp : In δ) (old : Occ) (p p' : Ports δ) (q q' : Queues δ) (o o' : Occ) (out : Out δ)
    (h : tick c inp old p q o = some (q', o', p', out)) :
    (p'.awready = p.awready ∧ p'.wready = p.wready ∧ p'.arready = p.arready) ∧
    out.aw = (inp.awvalid && awFlag c old) := by
  unfold tick at h
  simp only at h
  cases hb : giveB inp p (takeAr c inp (arFlag c q) (takeW inp (wFlag c old q) (takeAw c inp (awFlag c old) q))) with
  | none => rw [hb] at h; cases h
  | some q2 =>
    rw [hb] at h
    simp only at h
    cases hr : giveR inp p q2 with
    | none => rw [hr] at h; cases h
    | some q3 =>
      rw [hr] at h
      cases h
      exact ⟨drive_ready _ _, rfl⟩

theorem ready_step (c : Cfg) (zero : δ) (s s' : State δ) (i : In δ) (e : Env) (o : Out δ) (h : ReadyInv c s)
    (hs : step c zero s i e = some (s', o)) : ReadyInv c s' ∧ o.aw = (i.awvalid && awFlag c s.occ) := by
  have fin (q : Queues δ) (oc : Occ) (p : Ports δ) (hp : p.awready = s.ports.awready ∧ p.wready = s.ports.wready ∧
      p.arready = s.ports.arready) :
      ReadyInv c ⟨q, oc, if oc ≠ s.occ then assign c oc q p else p, !s.readFirst⟩ := by
    unfold ReadyInv
    by_cases e : oc = s.occ
    · simp only [e, ne_eq, not_true_eq_false, if_false]
      rw [hp.1, hp.2.1, hp.2.2]
      exact h
    · simp only [ne_eq, e, not_false_eq_true, if_true, assign]
      exact ⟨trivial, trivial, trivial⟩
  unfold step at hs
  simp only at hs
  split at hs
  · cases h1 : tick c i s.occ s.ports s.q s.occ with
    | none => rw [h1] at hs; cases hs
    | some x =>
      obtain ⟨q1, o1, p1, out⟩ := x
      rw [h1] at hs
      simp only at hs
      cases h2 : memTick zero e s.readFirst q1 o1 with
      | none => rw [h2] at hs; cases hs
      | some y =>
        obtain ⟨q2, o2, ir, iw⟩ := y
        rw [h2] at hs
        simp only [Option.some.injEq, Prod.mk.injEq] at hs
        obtain ⟨rfl, rfl⟩ := hs
        obtain ⟨r1, r2⟩ := tick_ready _ _ _ _ _ _ _ _ _ _ h1
        exact ⟨fin _ _ _ r1, r2⟩
  · cases h1 : memTick zero e s.readFirst s.q s.occ with
    | none => rw [h1] at hs; cases hs
    | some x =>
      obtain ⟨q1, o1, ir, iw⟩ := x
      rw [h1] at hs
      simp only at hs
      cases h2 : tick c i s.occ s.ports q1 o1 with
      | none => rw [h2] at hs; cases hs
      | some y =>
        obtain ⟨q2, o2, p2, out⟩ := y
        rw [h2] at hs
        simp only [Option.some.injEq, Prod.mk.injEq] at hs
        obtain ⟨rfl, rfl⟩ := hs
        obtain ⟨r1, r2⟩ := tick_ready _ _ _ _ _ _ _ _ _ _ h2
        exact ⟨fin _ _ _ r1, r2⟩

theorem ready_run (c : Cfg) (zero : δ) : ∀ (es : List (In δ × Env)) (s s' : State δ) (os : List (Out δ)),
    ReadyInv c s → run c zero s es = some (s', os) → ReadyInv c s' := by
  intro es
  induction es with
  | nil => intro s s' os h hr; cases hr; exact h
  | cons x es ih =>
    obtain ⟨i, e⟩ := x
    intro s s' os h hr
    unfold run at hr
    cases h1 : step c zero s i e with
    | none => rw [h1] at hr; cases hr
    | some y =>
      obtain ⟨s1, o⟩ := y
      rw [h1] at hr
      simp only at hr
      cases h2 : run c zero s1 es with
      | none => rw [h2] at hr; cases hr
      | some z =>
        obtain ⟨s2, os'⟩ := z
        rw [h2] at hr
        cases hr
        exact ih s1 _ os' (ready_step c zero s s1 i e o h h1).1 h2

/-- **C59.** With input queues of at least 16 entries, a write address offered while `awready` is high is
taken. -/
theorem C59_ready_write_address_taken_partial (c : Cfg) (zero : δ) (mem0 : Nat → Option δ)
    (es : List (In δ × Env)) (s s' : State δ) (os : List (Out δ)) (i : In δ) (e : Env) (o : Out δ)
    (hc : 16 ≤ c.inSize) (hr : run c zero (start c mem0) es = some (s, os))
    (hs : step c zero s i e = some (s', o)) (hv : i.awvalid = true) (ha : s.ports.awready = true) : o.aw = true := by
  have h0 : ReadyInv c (start c mem0) := by
    unfold ReadyInv start
    simp only [assign]
    exact ⟨trivial, trivial, trivial⟩
  have h1 := ready_run c zero es _ s os h0 hr
  rw [(ready_step c zero s s' i e o h1 hs).2, hv, Bool.true_and, awFlag, decide_eq_true_eq]
  rw [h1.1, decide_eq_true_eq] at ha
  unfold minus16 at ha
  rw [if_neg (by omega)] at ha
  omega

example : (step cfg64 0 (start cfg64 fun _ => none) { idle with awvalid := true, awsize := 6 } {}).isSome = true ∧
    (start cfg64 (fun _ => (none : Option Nat))).ports.awready = true ∧ 16 ≤ cfg64.inSize := by decide

/-- **C59**, taken without ready: behind a burst of 50 words `awready` is low, but a held request is taken
in every cycle, here twice. -/
theorem C59_taken_while_not_ready_violated : ∃ s1 os1 s2 os2,
    run cfg64 0 (start cfg64 fun _ => none)
      [({ idle with awvalid := true, awaddr := 0, awsize := 6, awlen := 49 }, {})] = some (s1, os1) ∧
    s1.ports.awready = false ∧
    run cfg64 0 s1 [({ idle with awvalid := true, awaddr := 8192, awsize := 6 }, {}),
                    ({ idle with awvalid := true, awaddr := 8192, awsize := 6 }, {})] = some (s2, os2) ∧
    os2.map (·.aw) = [true, true] ∧ s2.q.wa.drop 50 = [(8192, true), (8192, true)] := by
  refine ⟨_, _, _, _, rfl, ?_, rfl, ?_⟩ <;> decide

/-- Input queues of eight entries. -/
def cfg8 : Cfg := ⟨64, 8, 64, id⟩

/-- **C59**, queues of fewer than 16 entries: the subtraction in the ready condition wraps, `awready` stays
high on a full queue and the request is lost. -/
theorem C59_small_queue_lost_violated : ∃ s1 os1 s2 os2,
    run cfg8 0 (start cfg8 fun _ => none)
      [({ idle with awvalid := true, awaddr := 0, awsize := 6, awlen := 7 }, {})] = some (s1, os1) ∧
    s1.ports.awready = true ∧
    run cfg8 0 s1 [({ idle with awvalid := true, awaddr := 8192, awsize := 6 }, {})] = some (s2, os2) ∧
    os2.map (·.aw) = [false] ∧ s2.q.wa = s1.q.wa := by
  refine ⟨_, _, _, _, rfl, ?_, rfl, ?_⟩ <;> decide

/-- Queues of 17 entries. -/
def cfg17 : Cfg := ⟨64, 17, 17, id⟩

/-- A burst of 20 reads, all given to the DRAM; all but the oldest complete, then the oldest. -/
def burst20 : List (In Nat × Env) :=
  [({ wdata := 0, arvalid := true, araddr := 0, arsize := 6, arlen := 19 }, ({} : Env))] ++
  List.replicate 20 (({ wdata := 0 } : In Nat), ({} : Env)) ++
  [({ wdata := 0 }, { cbs := (List.range 19).map fun k => .read (64 * (k + 1)) }),
   ({ wdata := 0 }, { cbs := [.read 0] })]

/-- **C59**, reads: when one completion releases many held-back reads, `arready` is raised for a cycle while
the responses exceed the output queue; a request offered then is lost. -/
theorem C59_ready_read_lost_violated : ∃ s1 os1,
    run cfg17 0 (start cfg17 fun _ => none) burst20 = some (s1, os1) ∧ s1.ports.arready = true ∧
    ∃ s2 os2, run cfg17 0 s1 [({ wdata := 0, arvalid := true, araddr := 8192, arsize := 6 }, {})] = some (s2, os2) ∧
      os2.map (·.ar) = [false] ∧ s2.q.ra = [] := by
  obtain ⟨s1, os1, h1, h2, h3⟩ := run_witness (run cfg17 0 (start cfg17 fun _ => none) burst20)
    (fun s1 _ => s1.ports.arready = true ∧
      (run cfg17 0 s1 [({ wdata := 0, arvalid := true, araddr := 8192, arsize := 6 }, {})]).any
        (fun p => decide (p.2.map (·.ar) = [false] ∧ p.1.q.ra = [])) = true) (by decide +kernel)
  exact ⟨s1, os1, h1, h2, run_witness _ _ h3⟩

/-! ## C60: write responses -/

/-- **C60.** One write response per completed burst: responses handed over and waiting add up to the number
of completed final beats. -/
theorem C60_one_response_per_burst_partial (c : Cfg) (zero : δ) (mem0 : Nat → Option δ) (es : List (In δ × Env))
    (s : State δ) (os : List (Out δ)) (hr : run c zero (start c mem0) es = some (s, os)) :
    (Hist.ofRun c {} es os).b.length + s.q.outW.length =
      (((Hist.ofRun c {} es os).aw.take (Hist.ofRun c {} es os).doneW.length).map (·.2)).count true := by
  obtain ⟨-, bq, i, hl⟩ := inv_run c zero mem0 es {} _ s os (inv_start c zero mem0) hr
  generalize Hist.ofRun c {} es os = h at *
  have h1 := congrArg List.length i.w.outW
  simp only [List.length_map, List.length_append] at h1
  rw [← hl, ← h1]
  have h2 : (h.aw.take h.doneW.length).map (·.2) = (h.writes.take h.doneW.length).map PW.last := by
    have hk := i.w.kn
    have ha := i.w.nAw
    have hw := i.w.nW
    apply List.ext_getElem
    · simp only [List.length_map, List.length_take, Hist.writes, List.length_zipWith]; omega
    · intro n h1 h2
      simp [Hist.writes, pairW]
  rw [h2, List.count, List.countP_map, List.countP_eq_length_filter]
  congr 2
  funext p
  simp [Function.comp]

example : ∃ s os, sampleEnd = some (s, os) ∧ (Hist.ofRun cfg64 {} sampleRun os).b.length = 2 ∧ s.q.outW = [] := by
  refine ⟨_, _, rfl, ?_⟩
  decide

/-- Two single-beat writes, completed in consecutive cycles. `tf` is the
order of the two processes; responses are accepted always or from cycle 11 on. -/
def twoWrites (tf : Bool) : List (In Nat × Env) :=
  (List.range 14).map fun k =>
    ({ wdata := 11 * k, awvalid := k < 2, awaddr := 64 * k, awsize := 6, wvalid := k = 1 || k = 2, wuser := k,
       bready := tf || decide (11 ≤ k) },
     { cbs := (if k = 7 then [.write 0] else []) ++ (if k = 8 then [.write 64] else []), tickFirst := tf })

/-- **C60**, users: `buser` is only refreshed when an occupancy signal changes, so the second response is
handed over with the user of the first, in either order of the processes. -/
theorem C60_response_user_violated (tf : Bool) : ∃ s os,
    run cfg64 0 (start cfg64 fun _ => none) (twoWrites tf) = some (s, os) ∧
    (Hist.ofRun cfg64 {} (twoWrites tf) os).w = [(1, 11), (2, 22)] ∧
    (Hist.ofRun cfg64 {} (twoWrites tf) os).b = [1, 1] ∧
    PoliteRun cfg64 0 {} (start cfg64 fun _ => none) (twoWrites tf) := by
  have h : ∃ s os, run cfg64 0 (start cfg64 fun _ => none) (twoWrites tf) = some (s, os) ∧
    (Hist.ofRun cfg64 {} (twoWrites tf) os).w = [(1, 11), (2, 22)] ∧
    (Hist.ofRun cfg64 {} (twoWrites tf) os).b = [1, 1] := by
    cases tf
    · exact run_witness _ _ (by decide +kernel)
    · exact run_witness _ _ (by decide +kernel)
  obtain ⟨s, os, h1, h2, h3⟩ := h
  refine ⟨s, os, h1, h2, h3, polite_of_check _ _ _ _ _ ?_⟩
  cases tf
  · decide +kernel
  · decide +kernel

end RadSim.MemCtrl
