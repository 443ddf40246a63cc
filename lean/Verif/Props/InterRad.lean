import Verif.Lemmas.InterRad
import Mathlib.Data.Nat.Periodic
import Mathlib.Data.List.Forall2

/-!
# Properties of the bridge between RADs (C26, C27, C28)

Everything is said in terms of what is visible on the ports: the `tready` and input signals before
each clock edge and the driven signals after it.
-/

namespace RadSim.InterRad

open RadSim

/-! ## Specification -/

/-- What the receiving RAD should see of a beat: same data, user and last fields, the remote node
becomes the local node, the RAD number stays. -/
def carried (p : PortIn) : Beat where
  tvalid := true
  tdata := p.tdata
  tlast := p.tlast
  tdest := mkDest (destRad p.tdest) 0 (destRemote p.tdest)
  tuser := p.tuser

/-- The beats for RAD `d` that complete a handshake in one cycle, by source number. -/
def handovers (n d : Nat) (o : Obs) : List Beat :=
  ((List.range n).filter fun i =>
    (o.inp i).tvalid && o.ready i && (destRad (o.inp i).tdest).toNat == d).map
    fun i => carried (o.inp i)

/-- A bookkeeper for one destination: time, accepted, refused and delivered beats, each with the
cycle in which it happened. -/
structure Ledger where
  now : Nat
  acc : List (Nat × Beat)
  lost : List (Nat × Beat)
  del : List (Nat × Beat)

/-- One cycle: handovers are accepted while fewer than `slots` beats are under way, the others are
refused; a beat driven with `tvalid` is delivered. -/
def Ledger.note (c : Config) (d : Nat) (l : Ledger) (o : Obs) : Ledger :=
  let room := c.slots - (l.acc.length - l.del.length)
  let hs := (handovers c.numRads d o).map fun b => (l.now, b)
  { now := l.now + 1
    acc := l.acc ++ hs.take room
    lost := l.lost ++ hs.drop room
    del := if (o.out d).tvalid then l.del ++ [(l.now, (o.out d).beat)] else l.del }

/-- The books after a list of observations. -/
def ledger (c : Config) (d : Nat) (os : List Obs) : Ledger :=
  os.foldl (Ledger.note c d) ⟨0, [], [], []⟩

/-- Delivery cycles `D` of a link with latency `L` for beats accepted in cycles `A`, at time `now`;
no delivery is possible before `free`. A beat sampled by the receiver one edge after it is driven
has spent at least `L` cycles under way and at least two; it is driven as soon as `L` cycles (at
least one) have passed and the link is free. -/
def OnTime (L now : Nat) : Nat → List Nat → List Nat → Prop
  | _, [], [] => True
  | _, [], _ :: _ => False
  | free, a :: _, [] => now ≤ max (a + max L 1) free
  | free, a :: A, e :: D =>
    a + L ≤ e + 1 ∧ a + 2 ≤ e + 1 ∧ e ≤ max (a + max L 1) free ∧ OnTime L now (e + 1) A D

/-! ## Helper lemmas -/

theorem bridgeDest_eq (d : BitVec 21) : bridgeDest d = mkDest (destRad d) 0 (destRemote d) := by
  have h := C04_bridge_rewrites_dest d
  have g := C04_dest_fields_recovered (destRad d) 0 (destRemote d)
  have e : ∀ x : BitVec 21, x.toNat = (destRad x).toNat * 16384 + (destRemote x).toNat * 128 +
      (destLocal x).toNat := by
    intro x
    simp only [destRad, destRemote, destLocal, getRange, BitVec.extractLsb'_toNat,
      Nat.shiftRight_eq_div_pow]
    have := x.isLt
    omega
  apply BitVec.eq_of_toNat_eq
  rw [g.2.2.2, e (bridgeDest d), h.1, h.2.1, h.2.2]

theorem arr_eq_handovers (n d : Nat) (ready : Nat → Bool) (inp : Nat → PortIn) (out : Nat → Out) :
    arr inp ready d (List.range n) = handovers n d ⟨ready, inp, out⟩ := by
  unfold arr handovers
  generalize List.range n = l
  induction l with
  | nil => rfl
  | cons i l ih =>
    rw [List.filterMap_cons, List.filter_cons]
    by_cases h : ((inp i).tvalid && ready i && decide ((destRad (inp i).tdest).toNat = d)) = true
    · have h' : ((inp i).tvalid && ready i && (destRad (inp i).tdest).toNat == d) = true := by
        simpa using h
      simp only [h, h', if_true, List.map_cons, ih]
      have hv : (inp i).tvalid = true := by
        simp only [Bool.and_eq_true] at h; exact h.1.1
      congr 1
      simp only [current, carried, hv, bridgeDest_eq]
    · have h' : ¬ ((inp i).tvalid && ready i && (destRad (inp i).tdest).toNat == d) = true := by
        simpa using h
      simp only [h, h', if_false, ih, Bool.false_eq_true]

theorem onTime_step (L n k : Nat) : ∀ (A D : List Nat) (free : Nat), OnTime L n free A D →
    (∀ a, A[D.length]? = some a → n < a + L → OnTime L (n + 1) free (A ++ List.replicate k n) D) ∧
    (∀ a, A[D.length]? = some a → a + 1 ≤ n → a + L ≤ n + 1 →
      OnTime L (n + 1) free (A ++ List.replicate k n) (D ++ [n])) ∧
    (A.length ≤ D.length → OnTime L (n + 1) free (A ++ List.replicate k n) D) := by
  intro A
  induction A with
  | nil =>
    intro D free h
    cases D with
    | nil =>
      refine ⟨by simp, by simp, fun _ => ?_⟩
      cases k with
      | zero => exact trivial
      | succ k => rw [List.nil_append, List.replicate_succ]; simp only [OnTime]; omega
    | cons e D => exact absurd h (by simp [OnTime])
  | cons a A ih =>
    intro D free h
    cases D with
    | nil =>
      simp only [OnTime] at h
      refine ⟨?_, ?_, by simp⟩
      · intro a' ha' hn
        simp at ha'
        subst ha'
        simp only [List.cons_append, OnTime]
        omega
      · intro a' ha' h1 h2
        simp at ha'
        subst ha'
        simp only [List.cons_append, List.nil_append, OnTime]
        refine ⟨h2, by omega, h, ?_⟩
        cases A with
        | nil =>
          cases k with
          | zero => exact trivial
          | succ k => rw [List.nil_append, List.replicate_succ]; simp only [OnTime]; omega
        | cons b A => simp only [List.cons_append, OnTime]; omega
    | cons e D =>
      simp only [OnTime] at h
      obtain ⟨h1, h2, h3, h4⟩ := h
      obtain ⟨i1, i2, i3⟩ := ih D (e + 1) h4
      refine ⟨?_, ?_, ?_⟩
      · intro a' ha' hn
        exact ⟨h1, h2, h3, i1 a' (by simpa using ha') hn⟩
      · intro a' ha' hn hm
        exact ⟨h1, h2, h3, i2 a' (by simpa using ha') hn hm⟩
      · intro hl
        exact ⟨h1, h2, h3, i3 (by simpa using hl)⟩

/-- Books and state agree. -/
structure Agree (c : Config) (d : Nat) (s : State) (l : Ledger) : Prop where
  queue : l.acc.map Prod.snd = l.del.map Prod.snd ++ s.fifo d
  ages : List.Forall₂ (fun a k => a < l.now ∧ l.now ≤ a + 1 + k ∧ a + k ≤ l.now)
    ((l.acc.map Prod.fst).drop l.del.length) (s.cnt d)
  times : OnTime c.latency l.now 0 (l.acc.map Prod.fst) (l.del.map Prod.fst)

theorem agree_init (c : Config) (d : Nat) : Agree c d init ⟨0, [], [], []⟩ :=
  ⟨rfl, List.Forall₂.nil, trivial⟩

theorem Agree.len {c : Config} {d : Nat} {s : State} {l : Ledger} (h : Agree c d s l) :
    l.acc.length = l.del.length + (s.fifo d).length := by
  have := congrArg List.length h.queue
  simpa using this

theorem pops_iff (c : Config) (b : Beat) (bs : List Beat) (t : Nat) (ts : List Nat) :
    pops c (b :: bs) (t :: ts) = decide (c.latency ≤ t + 1) := by simp [pops]

theorem agree_step (c : Config) (d : Nat) (hd : d < c.numRads) (wf : Bool) (inp : Nat → PortIn)
    (s s' : State) (l : Ledger) (hi : Inv c s) (ha : Agree c d s l)
    (h : step c wf inp s = some s') :
    Agree c d s' (l.note c d ⟨s.ready, inp, s'.out⟩) := by
  by_cases hr : InRange c inp s.ready (List.range c.numRads)
  swap
  · rw [step_none c wf inp s hi hr] at h; cases h
  obtain ⟨t, e, -, -, h3⟩ := step_spec c wf inp s hi hr
  rw [e] at h
  cases h
  obtain ⟨f1, f2, f3⟩ := h3 d hd
  have hroom : c.slots - (l.acc.length - l.del.length) = c.slots - (s.fifo d).length := by
    rw [ha.len]; omega
  have hk : (((handovers c.numRads d ⟨s.ready, inp, s'.out⟩).map fun b => (l.now, b)).take
      (c.slots - (l.acc.length - l.del.length))) = (kept c s inp d).map fun b => (l.now, b) := by
    rw [hroom, ← List.map_take, ← arr_eq_handovers]; rfl
  have hks : ((kept c s inp d).map fun b => (l.now, b)).map Prod.snd = kept c s inp d := by
    rw [List.map_map]; exact List.map_id' _
  have hkf : ((kept c s inp d).map fun b => (l.now, b)).map Prod.fst =
      List.replicate (kept c s inp d).length l.now := by
    rw [List.map_map]; exact List.map_const'
  have hrep : ∀ m, List.Forall₂ (fun a k => a < l.now + 1 ∧ l.now + 1 ≤ a + 1 + k ∧ a + k ≤ l.now + 1)
      (List.replicate m l.now) (List.replicate m (if wf then 1 else 0)) := by
    intro m
    induction m with
    | zero => exact List.Forall₂.nil
    | succ m ih =>
      rw [List.replicate_succ, List.replicate_succ]
      refine List.Forall₂.cons ?_ ih
      cases wf <;> simp
  have hage : ∀ (P : List Nat) (C : List Nat),
      List.Forall₂ (fun a k => a < l.now ∧ l.now ≤ a + 1 + k ∧ a + k ≤ l.now) P C →
      List.Forall₂ (fun a k => a < l.now + 1 ∧ l.now + 1 ≤ a + 1 + k ∧ a + k ≤ l.now + 1)
        P (C.map (· + 1)) := by
    intro P C hP
    induction hP with
    | nil => exact List.Forall₂.nil
    | cons hx _ ih => exact List.Forall₂.cons (by show _ ∧ _ ≤ _ + 1 + (_ + 1) ∧ _ + (_ + 1) ≤ _; omega) ih
  have hAlen : ∀ x, (l.acc.map Prod.fst).drop l.del.length = x → x.length = (s.fifo d).length := by
    intro x hx
    rw [← hx, List.length_drop, List.length_map, ha.len]; omega
  have hot := onTime_step c.latency l.now (kept c s inp d).length _ _ _ ha.times
  rw [List.length_map] at hot
  have hfc := hi.cnt d hd
  cases hF : s.fifo d with
  | nil =>
    have hC : s.cnt d = [] := by
      rw [hF] at hfc; exact List.length_eq_zero_iff.mp hfc
    have hp : pops c (s.fifo d) (s.cnt d) = false := by rw [hF]; rfl
    rw [hp] at f1 f2 f3
    simp only [Bool.false_eq_true, if_false, List.drop_zero] at f1 f2 f3
    have hov : (s'.out d).tvalid = false := by rw [f3]
    unfold Ledger.note
    simp only [hov, hk, Bool.false_eq_true, if_false]
    refine ⟨?_, ?_, ?_⟩
    · simp only [List.map_append, ha.queue, hks, f1, List.append_assoc]
    · simp only [List.map_append, hkf]
      rw [List.drop_append_of_le_length (by rw [List.length_map, ha.len]; omega), f2]
      exact List.rel_append (hage _ _ ha.ages) (hrep _)
    · simp only [List.map_append, hkf]
      exact hot.2.2 (by rw [List.length_map, ha.len, hF]; simp)
  | cons b bs =>
    cases hC : s.cnt d with
    | nil => rw [hF, hC] at hfc; simp at hfc
    | cons t0 ts =>
      have hages := ha.ages
      rw [hC] at hages
      cases hP : (l.acc.map Prod.fst).drop l.del.length with
      | nil => rw [hP] at hages; cases hages
      | cons a P =>
        rw [hP] at hages
        cases hages with
        | cons hx hxs =>
        have hget : (l.acc.map Prod.fst)[l.del.length]? = some a := by
          have := congrArg (fun x => x[0]?) hP
          simpa using this
        by_cases hp : pops c (s.fifo d) (s.cnt d) = true
        · rw [hp] at f1 f2 f3
          simp only [if_true, hF, hC, List.drop_one, List.tail_cons, List.map_cons,
            List.headD_cons] at f1 f2 f3
          rw [hF, hC, pops_iff, decide_eq_true_eq] at hp
          have hov : (s'.out d).tvalid = true := by rw [f3]
          have hob : (s'.out d).beat = b := by rw [f3]
          unfold Ledger.note
          simp only [hov, hob, hk, if_true]
          refine ⟨?_, ?_, ?_⟩
          · simp only [List.map_append, ha.queue, hks, f1, hF, List.append_assoc, List.map_cons,
              List.map_nil, List.cons_append, List.nil_append]
          · simp only [List.map_append, hkf, List.length_append, List.length_singleton]
            rw [List.drop_append_of_le_length (by rw [List.length_map, ha.len, hF]; simp), f2]
            refine List.rel_append ?_ (hrep _)
            rw [← List.drop_drop, hP]
            exact hage _ _ hxs
          · simp only [List.map_append, hkf, List.map_cons, List.map_nil]
            exact hot.2.1 a hget (by omega) (by omega)
        · rw [Bool.not_eq_true] at hp
          rw [hp] at f1 f2 f3
          simp only [Bool.false_eq_true, if_false, List.drop_zero] at f1 f2 f3
          rw [hF, hC, pops_iff, decide_eq_false_iff_not] at hp
          have hov : (s'.out d).tvalid = false := by rw [f3]
          unfold Ledger.note
          simp only [hov, hk, Bool.false_eq_true, if_false]
          refine ⟨?_, ?_, ?_⟩
          · simp only [List.map_append, ha.queue, hks, f1, List.append_assoc]
          · simp only [List.map_append, hkf]
            rw [List.drop_append_of_le_length (by rw [List.length_map, ha.len]; omega), f2]
            exact List.rel_append (hage _ _ ha.ages) (hrep _)
          · simp only [List.map_append, hkf]
            exact hot.1 a hget (by omega)

theorem agree_run (c : Config) (d : Nat) (hd : d < c.numRads) :
    ∀ (es : List (Bool × (Nat → PortIn))) (s t : State) (os : List Obs) (l : Ledger),
    Inv c s → Agree c d s l → run c s es = some (t, os) →
    Inv c t ∧ Agree c d t (os.foldl (Ledger.note c d) l) := by
  intro es
  induction es with
  | nil => intro s t os l hi ha h; cases h; exact ⟨hi, ha⟩
  | cons e es ih =>
    intro s t os l hi ha h
    obtain ⟨wf, inp⟩ := e
    unfold run at h
    cases hs : step c wf inp s with
    | none => rw [hs] at h; cases h
    | some s' =>
      rw [hs] at h
      simp only at h
      cases hr : run c s' es with
      | none => rw [hr] at h; cases h
      | some x =>
        rw [hr] at h
        cases h
        exact ih s' x.1 x.2 _ (inv_step c wf inp s s' hi hs) (agree_step c d hd wf inp s s' l hi ha hs) hr

theorem run_append (c : Config) : ∀ (es fs : List (Bool × (Nat → PortIn))) (s : State),
    run c s (es ++ fs) = (run c s es).bind fun x =>
      (run c x.1 fs).map fun y => (y.1, x.2 ++ y.2) := by
  intro es
  induction es with
  | nil => intro fs s; simp only [run, List.nil_append, Option.bind_some]; cases run c s fs <;> rfl
  | cons e es ih =>
    intro fs s
    obtain ⟨wf, inp⟩ := e
    simp only [List.cons_append, run]
    cases step c wf inp s with
    | none => rfl
    | some s' =>
      simp only
      rw [ih fs s']
      cases run c s' es with
      | none => rfl
      | some x =>
        obtain ⟨t, os⟩ := x
        simp only [Option.bind_some]
        cases run c t fs <;> rfl

/-- Number of cycles in which something is driven towards `d`. -/
def driven (d : Nat) (os : List Obs) : Nat := os.countP fun o => (o.out d).tvalid

theorem drain (c : Config) (d : Nat) (hd : d < c.numRads) :
    ∀ (es : List (Bool × (Nat → PortIn))) (s t : State) (os : List Obs) (m q : Nat), Inv c s →
    run c s es = some (t, os) → m ≤ (s.fifo d).length →
    (∀ j, j < m → ∀ x, (s.cnt d)[j]? = some x → q ≤ x) →
    c.latency - 1 - q + m ≤ es.length → m ≤ driven d os := by
  intro es
  induction es with
  | nil => intro s t os m q _ _ _ _ h; simp at h; omega
  | cons e es ih =>
    intro s t os m q hi h hm hq hlen
    cases m with
    | zero => exact Nat.zero_le _
    | succ m =>
    obtain ⟨wf, inp⟩ := e
    unfold run at h
    cases hs : step c wf inp s with
    | none => rw [hs] at h; cases h
    | some s' =>
    rw [hs] at h
    simp only at h
    cases hr : run c s' es with
    | none => rw [hr] at h; cases h
    | some x =>
    rw [hr] at h
    cases h
    by_cases hin : InRange c inp s.ready (List.range c.numRads)
    swap
    · rw [step_none c wf inp s hi hin] at hs; cases hs
    obtain ⟨t', e', -, -, h3⟩ := step_spec c wf inp s hi hin
    rw [e'] at hs
    cases hs
    obtain ⟨f1, f2, f3⟩ := h3 d hd
    have hfc := hi.cnt d hd
    have hi' := inv_step c wf inp s s' hi e'
    rw [List.length_cons] at hlen
    cases hF : s.fifo d with
    | nil => rw [hF] at hm; simp at hm
    | cons b bs =>
    cases hC : s.cnt d with
    | nil => rw [hF, hC] at hfc; simp at hfc
    | cons t0 ts =>
    rw [hF, hC] at hfc
    rw [hF] at hm
    simp only [List.length_cons] at hfc hm
    have hq0 := hq 0 (by omega) t0 (by rw [hC]; rfl)
    unfold driven
    rw [List.countP_cons]
    by_cases hp : pops c (s.fifo d) (s.cnt d) = true
    · rw [hp] at f1 f2 f3
      simp only [if_true, hF, hC, List.drop_one, List.tail_cons, List.map_cons,
        List.headD_cons] at f1 f2 f3
      have hov : (s'.out d).tvalid = true := by rw [f3]
      have := ih s' x.1 x.2 m (q + 1) hi' hr (by rw [f1, List.length_append]; omega) (by
        intro j hj y hy
        rw [f2, List.getElem?_append_left (by rw [List.length_map]; omega), List.getElem?_map] at hy
        cases hz : ts[j]? with
        | none => rw [hz] at hy; cases hy
        | some z =>
          rw [hz] at hy
          cases hy
          have := hq (j + 1) (by omega) z (by rw [hC]; simpa using hz)
          exact Nat.succ_le_succ this) (by omega)
      unfold driven at this
      simp only [hov, if_true]
      omega
    · rw [Bool.not_eq_true] at hp
      rw [hp] at f1 f2 f3
      simp only [Bool.false_eq_true, if_false, List.drop_zero] at f1 f2 f3
      rw [hF, hC, pops_iff, decide_eq_false_iff_not] at hp
      have := ih s' x.1 x.2 (m + 1) (q + 1) hi' hr
        (by rw [f1, List.length_append, hF, List.length_cons]; omega) (by
        intro j hj y hy
        rw [f2, List.getElem?_append_left (by rw [List.length_map, hC, List.length_cons]; omega),
          List.getElem?_map] at hy
        cases hz : (s.cnt d)[j]? with
        | none => rw [hz] at hy; cases hy
        | some z =>
          rw [hz] at hy
          cases hy
          have := hq j hj z hz
          exact Nat.succ_le_succ this) (by omega)
      unfold driven at this
      omega

theorem del_length (c : Config) (d : Nat) : ∀ (os : List Obs) (l : Ledger),
    (os.foldl (Ledger.note c d) l).del.length = l.del.length + driven d os := by
  intro os
  induction os with
  | nil => intro l; rfl
  | cons o os ih =>
    intro l
    rw [List.foldl_cons, ih]
    unfold driven
    rw [List.countP_cons]
    unfold Ledger.note
    simp only
    split <;> simp
    omega

theorem acc_prefix (c : Config) (d : Nat) : ∀ (os : List Obs) (l : Ledger),
    l.acc <+: (os.foldl (Ledger.note c d) l).acc := by
  intro os
  induction os with
  | nil => intro l; exact List.prefix_refl _
  | cons o os ih =>
    intro l
    rw [List.foldl_cons]
    exact List.IsPrefix.trans (l₂ := (Ledger.note c d l o).acc) (List.prefix_append _ _) (ih _)

/-! ## C26 -/

/-- **C26.** For every traffic pattern and every order of the two processes in every cycle, the beats
delivered to RAD `d` are the accepted ones, in order, each once and with the expected contents, and
at most `slots` accepted ones are still under way. A handed-over beat is accepted unless `slots`
beats are under way at the start of its cycle or fill up before it. -/
theorem C26_in_order_no_loss (c : Config) (d : Nat) (hd : d < c.numRads)
    (es : List (Bool × (Nat → PortIn))) (t : State) (os : List Obs)
    (h : run c init es = some (t, os)) :
    ∃ under, (ledger c d os).acc.map Prod.snd = (ledger c d os).del.map Prod.snd ++ under ∧
      under.length ≤ c.slots := by
  obtain ⟨hi, ha⟩ := agree_run c d hd es init t os _ (inv_init c) (agree_init c d) h
  exact ⟨t.fifo d, ha.queue, hi.room d hd⟩

/-- **C26**, progress: every accepted beat is delivered within `latency + slots` further cycles, so
none stays in the bridge. -/
theorem C26_every_beat_arrives (c : Config) (d : Nat) (hd : d < c.numRads)
    (es fs : List (Bool × (Nat → PortIn))) (s t : State) (os ps : List Obs)
    (h1 : run c init es = some (s, os)) (h2 : run c s fs = some (t, ps))
    (hlen : c.latency + c.slots ≤ fs.length) :
    (ledger c d os).acc.map Prod.snd <+: (ledger c d (os ++ ps)).del.map Prod.snd := by
  obtain ⟨hi, ha⟩ := agree_run c d hd es init s os _ (inv_init c) (agree_init c d) h1
  obtain ⟨-, hb⟩ := agree_run c d hd fs s t ps _ hi ha h2
  have hm := drain c d hd fs s t ps (s.fifo d).length 0 hi h2 (Nat.le_refl _)
    (fun _ _ _ _ => Nat.zero_le _) (by have := hi.room d hd; omega)
  have hl := ha.len
  have hdl := del_length c d ps (os.foldl (Ledger.note c d) ⟨0, [], [], []⟩)
  have hpre := acc_prefix c d ps (os.foldl (Ledger.note c d) ⟨0, [], [], []⟩)
  have e : ledger c d (os ++ ps) =
      ps.foldl (Ledger.note c d) (os.foldl (Ledger.note c d) ⟨0, [], [], []⟩) := by
    unfold ledger; rw [List.foldl_append]
  rw [e]
  have q := hb.queue
  obtain ⟨x, hx⟩ := hpre
  unfold ledger
  refine List.prefix_of_prefix_length_le (l₃ := (List.foldl (Ledger.note c d)
    (os.foldl (Ledger.note c d) ⟨0, [], [], []⟩) ps).acc.map Prod.snd) ?_ ?_ ?_
  · rw [← hx, List.map_append]; exact List.prefix_append _ _
  · rw [q]; exact List.prefix_append _ _
  · rw [List.length_map, List.length_map, hdl, hl]; omega

/-- **C26**, no crash: the bridge fails only when a beat that completes a handshake names a RAD that
does not exist; no counter vector is ever read while empty. -/
theorem C26_fails_only_for_unknown_rad (c : Config) (es : List (Bool × (Nat → PortIn)))
    (h : ∀ e ∈ es, ∀ i, i < c.numRads → (e.2 i).tvalid = true →
      (destRad (e.2 i).tdest).toNat < c.numRads) :
    ∃ x, run c init es = some x := by
  have gen : ∀ (es : List (Bool × (Nat → PortIn))) (s : State), Inv c s →
      (∀ e ∈ es, ∀ i, i < c.numRads → (e.2 i).tvalid = true →
        (destRad (e.2 i).tdest).toNat < c.numRads) → ∃ x, run c s es = some x := by
    intro es
    induction es with
    | nil => intro s _ _; exact ⟨_, rfl⟩
    | cons e es ih =>
      intro s hi h
      obtain ⟨wf, inp⟩ := e
      have hr : InRange c inp s.ready (List.range c.numRads) :=
        fun i him hv _ => h (wf, inp) (by simp) i (List.mem_range.mp him) hv
      obtain ⟨s', e', -⟩ := step_spec c wf inp s hi hr
      obtain ⟨x, hx⟩ := ih s' (inv_step c wf inp s s' hi e') (fun e he => h e (by simp [he]))
      exact ⟨(x.1, ⟨s.ready, inp, s'.out⟩ :: x.2), by simp only [run, e', hx]⟩
  exact gen es init (inv_init c) h

/-- An idle port. -/
def quiet : PortIn := ⟨false, 0, false, 0, 0, 0⟩

/-- A beat of RAD `src` for node 9 of RAD `dst`. -/
def mail (dst data : Nat) : PortIn :=
  ⟨true, BitVec.ofNat 512 data, true, 5, BitVec.ofNat 21 (dst * 16384 + 9 * 128 + 3), 7⟩

/-- Two RADs, three cycles latency, one slot per FIFO, full bandwidth. -/
def tiny : Config := ⟨2, 3, 2, 2, 1⟩

/-- RAD 0 sends two beats to RAD 1 in successive cycles, then silence. -/
def twoBeats : List (Bool × (Nat → PortIn)) :=
  [(true, fun i => if i = 0 then mail 1 11 else quiet),
   (true, fun i => if i = 0 then mail 1 22 else quiet),
   (false, fun _ => quiet), (true, fun _ => quiet), (true, fun _ => quiet)]

/-- **C26**, unknown RAD: a beat for RAD 2 of two is an out-of-range access. -/
theorem C26_unknown_rad_violated :
    ∃ (c : Config) (es : List (Bool × (Nat → PortIn))), c.numRads = 2 ∧ run c init es = none :=
  ⟨tiny, [(true, fun i => if i = 0 then mail 2 1 else quiet)], rfl, rfl⟩

set_option maxRecDepth 8000 in
set_option exponentiation.threshold 1024 in
/-- The example run exists; the second beat is refused, the first one delivered in cycle 2. -/
example : ∃ x, run tiny init twoBeats = some x ∧
    (ledger tiny 1 x.2).del.map (fun p => (p.1, p.2.tdata.toNat, (destLocal p.2.tdest).toNat))
      = [(2, 11, 9)] ∧
    (ledger tiny 1 x.2).lost.map (fun p => (p.1, p.2.tdata.toNat)) = [(1, 22)] := by
  refine ⟨_, rfl, ?_, ?_⟩ <;> decide

/-! ## C27 -/

/-- **C27.** Beats spend at least the configured number of cycles between the edge at which the bridge
accepts them and the edge at which the receiver samples them, in every process order; the bridge is
also not slower than one cycle beyond that unless the link is busy with earlier beats. -/
theorem C27_latency (c : Config) (d : Nat) (hd : d < c.numRads)
    (es : List (Bool × (Nat → PortIn))) (t : State) (os : List Obs)
    (h : run c init es = some (t, os)) :
    OnTime c.latency os.length 0 ((ledger c d os).acc.map Prod.fst)
      ((ledger c d os).del.map Prod.fst) := by
  obtain ⟨-, ha⟩ := agree_run c d hd es init t os _ (inv_init c) (agree_init c d) h
  have hn : ∀ (os : List Obs) (l : Ledger), (os.foldl (Ledger.note c d) l).now = l.now + os.length := by
    intro os
    induction os with
    | nil => intro l; rfl
    | cons o os ih => intro l; rw [List.foldl_cons, ih]; simp only [Ledger.note, List.length_cons]; omega
  have := ha.times
  rw [hn, Nat.zero_add] at this
  exact this

/-- The lower bound alone, beat by beat. -/
theorem C27_never_early (c : Config) (d : Nat) (hd : d < c.numRads)
    (es : List (Bool × (Nat → PortIn))) (t : State) (os : List Obs)
    (h : run c init es = some (t, os)) (k : Nat) (e : Nat × Beat)
    (he : (ledger c d os).del[k]? = some e) :
    ∃ a, (ledger c d os).acc[k]? = some a ∧ a.2 = e.2 ∧ a.1 + c.latency ≤ e.1 + 1 ∧
      a.1 + 2 ≤ e.1 + 1 := by
  have ht := C27_latency c d hd es t os h
  obtain ⟨u, hq, -⟩ := C26_in_order_no_loss c d hd es t os h
  have gen : ∀ (A D : List Nat) (f k e : Nat), OnTime c.latency os.length f A D → D[k]? = some e →
      ∃ a, A[k]? = some a ∧ a + c.latency ≤ e + 1 ∧ a + 2 ≤ e + 1 := by
    intro A
    induction A with
    | nil => intro D f k e h he; cases D with
      | nil => simp at he
      | cons x D => simp [OnTime] at h
    | cons a A ih => intro D f k e h he; cases D with
      | nil => simp at he
      | cons x D =>
        simp only [OnTime] at h
        cases k with
        | zero => simp at he; subst he; exact ⟨a, rfl, h.1, h.2.1⟩
        | succ k => simp at he; simpa using ih D (x + 1) k e h.2.2.2 he
  obtain ⟨a, h1, h2, h3⟩ := gen _ _ 0 k e.1 ht (by rw [List.getElem?_map, he]; rfl)
  rw [List.getElem?_map] at h1
  cases hA : (ledger c d os).acc[k]? with
  | none => rw [hA] at h1; cases h1
  | some p =>
    rw [hA] at h1
    cases h1
    refine ⟨p, rfl, ?_, h2, h3⟩
    have hlt : k < ((ledger c d os).del.map Prod.snd).length := by
      rw [List.length_map]
      exact (List.getElem?_eq_some_iff.mp he).1
    have := congrArg (fun x => x[k]?) hq
    simp only [List.getElem?_append_left hlt, List.getElem?_map, hA, he, Option.map_some,
      Option.some.injEq] at this
    exact this

/-- The bound is met: the example's first beat is accepted in cycle 0 and driven in cycle 2, to be
sampled in cycle 3. -/
example : ∃ x, run tiny init twoBeats = some x ∧ ∃ e, (ledger tiny 1 x.2).del[0]? = some e ∧ e.1 = 2 :=
  ⟨_, rfl, _, rfl, rfl⟩

/-! ## C28 -/

theorem run_ready (c : Config) (ht : 0 < c.total) (i : Nat) (hi : i < c.numRads) :
    ∀ (es : List (Bool × (Nat → PortIn))) (s t : State) (os : List Obs) (n : Nat), Inv c s →
    s.bw = n % c.total → run c s es = some (t, os) →
    ∀ k o, os[k]? = some o → k ≠ 0 → o.ready i = decide ((n + k - 1) % c.total < c.accept) := by
  intro es
  induction es with
  | nil => intro s t os n _ _ h k o ho; cases h; simp at ho
  | cons e es ih =>
    intro s t os n hinv hbw h k o ho hk
    obtain ⟨wf, inp⟩ := e
    unfold run at h
    cases hs : step c wf inp s with
    | none => rw [hs] at h; cases h
    | some s' =>
    rw [hs] at h
    simp only at h
    cases hr : run c s' es with
    | none => rw [hr] at h; cases h
    | some x =>
    rw [hr] at h
    cases h
    by_cases hin : InRange c inp s.ready (List.range c.numRads)
    swap
    · rw [step_none c wf inp s hinv hin] at hs; cases hs
    obtain ⟨t', e', h1, h2, -⟩ := step_spec c wf inp s hinv hin
    rw [e'] at hs
    cases hs
    have hlt : n % c.total < c.total := Nat.mod_lt _ ht
    have hbw' : s'.bw = (n + 1) % c.total := by
      rw [h1, hbw, Nat.add_mod n 1]
      by_cases hc : c.total = 1
      · rw [hc]; simp [Nat.mod_one]
      · rw [Nat.mod_eq_of_lt (a := 1) (by omega)]
        split
        · rw [show n % c.total + 1 = c.total by omega, Nat.mod_self]
        · rw [Nat.mod_eq_of_lt (a := n % c.total + 1) (by omega)]
    cases k with
    | zero => exact absurd rfl hk
    | succ k =>
      simp only [List.getElem?_cons_succ] at ho
      cases k with
      | zero =>
        have hready : o.ready = s'.ready := by
          cases es with
          | nil => simp only [run] at hr; cases hr; simp at ho
          | cons e2 es2 =>
            obtain ⟨wf2, inp2⟩ := e2
            unfold run at hr
            cases hs2 : step c wf2 inp2 s' with
            | none => rw [hs2] at hr; cases hr
            | some s2 =>
              rw [hs2] at hr
              simp only at hr
              cases hr2 : run c s2 es2 with
              | none => rw [hr2] at hr; cases hr
              | some y => rw [hr2] at hr; cases hr; simp at ho; rw [← ho]
        rw [hready, h2 i hi, hbw]
        simp
      | succ k =>
        have := ih s' x.1 x.2 (n + 1) (inv_step c wf inp s s' hinv e') hbw' hr (k + 1) o ho (by omega)
        rw [this]
        congr 3
        omega

/-- Number of cycles among `w` starting at `from` in which source `i` is offered `tready`. -/
def readyCycles (i : Nat) (os : List Obs) (start w : Nat) : Nat :=
  ((os.drop start).take w).countP fun o => o.ready i

theorem count_mod_lt (a b : Nat) : Nat.count (fun x => x % b < a) b = min a b := by
  have gen : ∀ n, n ≤ b → Nat.count (fun x => x % b < a) n = min a n := by
    intro n
    induction n with
    | zero => intro _; simp
    | succ n ih =>
      intro hn
      rw [Nat.count_succ, ih (by omega)]
      have : n % b = n := Nat.mod_eq_of_lt (by omega)
      rw [this]
      split <;> omega
  exact gen b (Nat.le_refl _)

theorem countP_window (i n : Nat) (os : List Obs) (p : Nat → Bool) :
    ∀ (w start : Nat), start + w ≤ os.length →
    (∀ k o, os[k]? = some o → start ≤ k → o.ready i = p (k + n)) →
    ((os.drop start).take w).countP (fun o => o.ready i) =
      ((List.range' (start + n) w).countP p) := by
  intro w
  induction w with
  | zero => intro start _ _; simp
  | succ w ih =>
    intro start hlen h
    have hlt : start < os.length := by omega
    rw [List.drop_eq_getElem_cons hlt, List.take_succ_cons, List.countP_cons,
      ih (start + 1) (by omega) (fun k o hk hs => h k o hk (by omega)), List.range'_succ,
      List.countP_cons, h start _ (List.getElem?_eq_getElem hlt) (Nat.le_refl _)]
    congr 3
    omega

/-- **C28.** From the second cycle on, every window of `total` consecutive cycles, aligned or not,
offers each source exactly `min accept total` ready cycles. -/
theorem C28_ready_cycles_per_window_partial (c : Config) (ht : 0 < c.total) (i : Nat)
    (hi : i < c.numRads) (es : List (Bool × (Nat → PortIn))) (t : State) (os : List Obs)
    (h : run c init es = some (t, os)) (start : Nat) (h1 : 1 ≤ start)
    (hlen : start + c.total ≤ os.length) :
    readyCycles i os start c.total = min c.accept c.total := by
  have hr := run_ready c ht i hi es init t os 0 (inv_init c) (by simp [init]) h
  obtain ⟨m, rfl⟩ : ∃ m, start = m + 1 := ⟨start - 1, by omega⟩
  unfold readyCycles
  rw [← count_mod_lt c.accept c.total,
    ← Nat.filter_Ico_card_eq_of_periodic m c.total (fun x => x % c.total < c.accept) (by
      intro x; simp)]
  have hos : ∀ k o, (os.drop 1)[k]? = some o → m ≤ k →
      o.ready i = decide ((k + 0) % c.total < c.accept) := by
    intro k o ho _
    rw [List.getElem?_drop] at ho
    have := hr (1 + k) o ho (by omega)
    rw [this]
    congr 3
    omega
  have hw := countP_window i 0 (os.drop 1) (fun x => decide (x % c.total < c.accept)) c.total m
    (by rw [List.length_drop]; omega) hos
  rw [List.drop_drop, Nat.add_comm 1 m] at hw
  rw [hw, Nat.add_zero]
  have : ∀ (w a : Nat) (p : Nat → Prop) [DecidablePred p],
      (List.range' a w).countP (fun x => decide (p x)) = ((Finset.Ico a (a + w)).filter p).card := by
    intro w a p _
    rw [List.countP_eq_length_filter, Finset.card_def, Finset.filter_val]
    show _ = Multiset.card (Multiset.filter p (↑(List.range' a (a + w - a))))
    rw [Multiset.filter_coe, Multiset.coe_card, Nat.add_sub_cancel_left]
  rw [this]

/-- **C28**, consequence: never more than `accept` beats are taken from one source in such a window. -/
theorem C28_beats_per_window_partial (c : Config) (ht : 0 < c.total) (i : Nat)
    (hi : i < c.numRads) (es : List (Bool × (Nat → PortIn))) (t : State) (os : List Obs)
    (h : run c init es = some (t, os)) (start : Nat) (h1 : 1 ≤ start)
    (hlen : start + c.total ≤ os.length) :
    ((os.drop start).take c.total).countP (fun o => (o.inp i).tvalid && o.ready i) ≤ c.accept := by
  have := C28_ready_cycles_per_window_partial c ht i hi es t os h start h1 hlen
  refine Nat.le_trans (List.countP_mono_left ?_) (this.trans_le (Nat.min_le_left _ _))
  intro o _ ho
  simp only [Bool.and_eq_true] at ho
  exact ho.2

/-- Two RADs, one beat in four cycles. -/
def slow : Config := ⟨2, 1, 1, 4, 8⟩

/-- **C28**, first window: `tready` starts high before the counter does, so the first window of four
cycles offers two ready cycles although one is configured. -/
theorem C28_first_window_violated :
    ∃ x, run slow init (List.replicate 4 (true, fun i => if i = 0 then mail 1 1 else quiet)) = some x ∧
      readyCycles 0 x.2 0 slow.total = 2 ∧ slow.accept = 1 := by
  refine ⟨_, rfl, ?_, rfl⟩
  decide

example : ∃ x, run slow init (List.replicate 9 (false, fun i => if i = 0 then mail 1 1 else quiet)) = some x ∧
    readyCycles 0 x.2 3 slow.total = 1 := by
  refine ⟨_, rfl, ?_⟩
  decide

end RadSim.InterRad
