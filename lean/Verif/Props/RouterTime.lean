import Verif.Props.Router
import Verif.Model.Channel

/-! # The simulation time and the router -/

namespace RadSim.Router

open Alloc (Holds Valid asked islip Islip)

variable {δ σ τ ρ ρ' : Type} {VA : Alloc.Cls σ ρ} {SA : Alloc.Cls τ ρ'} {c : Cfg}

/-- The state before tick `n` when `e` comes in. -/
def exec (VA : Alloc.Cls σ ρ) (SA : Alloc.Cls τ ρ') (c : Cfg) (va : σ) (sa : τ) (e : Nat → In δ ρ ρ') :
    Nat → Except Err (R δ σ τ)
  | 0 => .ok (.init va sa)
  | n + 1 => (exec VA SA c va sa e n).bind fun s => (tick VA SA c (e n) s).map Prod.fst

/-- One packet waits for its route until time `t`, and nothing else happens. -/
structure Held (c : Cfg) (s : R δ σ τ) (t : Int) (i v : Nat) (f : Flit δ) : Prop where
  i_lt : i < c.inputs
  v_lt : v < c.vcs
  rq : s.routeQ = [⟨t, i, v, .pending⟩]
  va : s.vaQ = []
  sa : s.saQ = []
  xb : s.xbQ = []
  cr : s.credQ = []
  q : (s.vcs i v).q = [f]
  st : (s.vcs i v).st = .routing
  act : s.active = true

theorem round_nil {σ ρ : Type} (C : Alloc.Cls σ ρ) (s : σ) (x : ρ) :
    Alloc.round C s [] false x = some (C.clear s, (C.base (C.clear s)).m) := by
  simp [Alloc.round, Alloc.putAll]

theorem vaEval_nil {s : R δ σ τ} (h : s.vaQ = []) (now : Int) (x : ρ) :
    vaEval VA c now x s = .ok { s with va := VA.clear s.va } := by
  obtain ⟨⟩ := s
  simp only at h
  subst h
  simp [vaEval, require, round_nil, pairs]

theorem saEval_nil {s : R δ σ τ} (h : s.saQ = []) (now : Int) (x : ρ') :
    saEval SA c now x s = .ok { s with sa := SA.clear s.sa } := by
  obtain ⟨⟩ := s
  simp only at h
  subst h
  simp [saEval, require, round_nil, saAsks, rrUpd]

/-- The common part of a tick in which nothing is due: `s` is the state after the input queues. -/
theorem step_held {s : R δ σ τ} {e : In δ ρ ρ'} {inq : List (Nat × Flit δ)} {s0 : R δ σ τ} {t : Int} {i v : Nat} {f : Flit δ}
    (he : enqueueAll c s0 inq = .ok s) (hr : (routeEval c e.now s) = .ok { s with routeQ := [⟨t, i, v, .pending⟩] })
    (hi : i < c.inputs) (hv : v < c.vcs) (h1 : s.vaQ = []) (h2 : s.saQ = []) (h3 : s.xbQ = []) (h4 : s.credQ = [])
    (h5 : (s.vcs i v).q = [f]) (h6 : (s.vcs i v).st = .routing) (ht : 0 ≤ t) :
    (e.now < t → ∃ s', internalStep VA SA c e inq s0 = .ok s' ∧ Held c s' t i v f) ∧
    (t < e.now → internalStep VA SA c e inq s0 = .error .assertion) := by
  have hcr : credits c e.now s s.credQ = .ok s := by
    obtain ⟨⟩ := s
    simp only at h4
    subst h4
    rfl
  refine ⟨fun hlt => ?_, fun hlt => ?_⟩
  · have hstep : internalStep VA SA c e inq s0 = .ok (creditOut { s with
        routeQ := [⟨t, i, v, .pending⟩]
        va := VA.clear s.va
        sa := SA.clear s.sa
        active := true }) := by
      obtain ⟨⟩ := s
      simp only at h1 h2 h3 h4 h5 h6
      subst h1 h2 h3 h4
      unfold internalStep
      simp only [he, hcr, hr, bind, Except.bind]
      rw [vaEval_nil rfl]
      simp only []
      rw [saEval_nil rfl]
      simp only [xbEval, List.takeWhile_nil, List.dropWhile_nil, List.map_nil, List.append_nil]
      simp only [routeUpd]
      rw [if_pos (.inr hlt)]
      simp [vaUpd, saUpd, xbUpd]
    exact ⟨_, hstep, hi, hv, rfl, h1, h2, h3, h4, h5, h6, rfl⟩
  · obtain ⟨⟩ := s
    simp only at h1 h2 h3 h4 h5 h6
    subst h1 h2 h3 h4
    unfold internalStep
    simp only [he, hcr, hr, bind, Except.bind]
    rw [vaEval_nil rfl]
    simp only []
    rw [saEval_nil rfl]
    simp only [xbEval, List.takeWhile_nil, List.dropWhile_nil, List.map_nil, List.append_nil]
    simp only [routeUpd]
    rw [if_neg (by omega), require, if_neg (by simp; omega)]

theorem held_tick {s : R δ σ τ} {e : In δ ρ ρ'} {t : Int} {i v : Nat} {f : Flit δ} (h : Held c s t i v f) (ht : 0 ≤ t)
    (hf : ∀ i, e.flit i = none) (hc : ∀ o, e.credit o = none) :
    (e.now < t → ∃ s' out, tick VA SA c e s = .ok (s', out) ∧ Held c s' t i v f) ∧
    (t < e.now → tick VA SA c e s = .error .assertion) := by
  have ha : arrivals c e = [] := by
    simp only [arrivals, List.filterMap_eq_nil_iff]
    intro i _; rw [hf]; rfl
  have hca : creditArrivals c e = [] := by
    simp only [creditArrivals, List.filterMap_eq_nil_iff]
    intro i _; rw [hc]; rfl
  have hs : tick VA SA c e s = match internalStep VA SA c e [] s with
      | .error e => .error e
      | .ok s => .ok (send c s) := by
    have h1 := h.act
    obtain ⟨⟩ := s
    simp only at h1
    subst h1
    simp [tick, ha, hca]
    rfl
  have key := step_held (VA := VA) (SA := SA) (c := c) (e := e) (inq := []) (s0 := s) (s := s) (t := t) (i := i) (v := v) (f := f) rfl
    (by
      unfold routeEval
      have : Wait.fresh ⟨t, i, v, .pending⟩ = false := by simp [Wait.fresh, ht]
      simp [h.rq, this, require])
    h.i_lt h.v_lt h.va h.sa h.xb h.cr h.q h.st ht
  rw [hs]
  refine ⟨fun hlt => ?_, fun hlt => ?_⟩
  · obtain ⟨s', e1, h1⟩ := key.1 hlt
    rw [e1]
    exact ⟨_, _, rfl, h1.i_lt, h1.v_lt, h1.rq, h1.va, h1.sa, h1.xb, h1.cr, h1.q, h1.st, h1.act⟩
  · rw [key.2 hlt]

/-- C69 is false for the routing delay: when the clock period `p` does not divide `d - 1`, a router with a routing delay of
`d` stops with a failed assertion after the first packet that it receives, because a time in picoseconds is compared with
a number of cycles. -/
theorem C69_routing_delay_violated {va : σ} {sa : τ} {p d : Nat} (hp : 0 < p) (hd : c.routeDelay = d)
    (hpd : ¬ p ∣ d - 1) {i : Nat} {f : Flit δ} (hi : i < c.inputs) (hv : f.vc < c.vcs) (hh : f.head = true) (hb : 0 < c.buf.size)
    {e : Nat → In δ ρ ρ'} (hnow : ∀ n, (e n).now = p * n)
    (hf : ∀ n j, (e n).flit j = if n = 0 ∧ j = i then some f else none) (hcr : ∀ n o, (e n).credit o = none) :
    ∃ n, exec VA SA c va sa e n = .error .assertion := by
  have hd1 : 1 < d := by
    by_contra h
    apply hpd
    rw [show d - 1 = 0 by omega]
    exact Nat.dvd_zero p
  have harr : arrivals c (e 0) = [(i, f)] := by
    simp only [arrivals]
    have : ∀ n, ((List.range n).filterMap fun j => ((e 0).flit j).map (Prod.mk j)) = if i < n then [(i, f)] else [] := by
      intro n
      induction n with
      | zero => rfl
      | succ n ih =>
        rw [List.range_succ, List.filterMap_append, ih]
        by_cases h1 : i < n
        · rw [if_pos h1, if_pos (by omega)]
          simp [hf, show n ≠ i by omega]
        · rw [if_neg h1]
          by_cases h2 : n = i
          · subst h2; simp [hf]
          · rw [if_neg (by omega)]; simp [hf, h2]
    rw [this, if_pos hi]
  have hca : creditArrivals c (e 0) = [] := by
    simp only [creditArrivals, List.filterMap_eq_nil_iff]
    intro i _; rw [hcr]; rfl
  have h1 : ∃ s, exec VA SA c va sa e 1 = .ok s ∧ Held c s (d - 1 : Nat) i f.vc f := by
    have key := step_held (VA := VA) (SA := SA) (c := c) (e := e 0) (inq := [(i, f)]) (t := (d - 1 : Nat)) (i := i) (v := f.vc) (f := f)
      (s0 := { (R.init va sa : R δ σ τ) with active := true })
      (s := { (R.init va sa : R δ σ τ).setVc i f.vc ⟨.routing, [f], [], none, if f.tail then -1 else f.pid⟩ with
          occ := upd (fun _ => 0) i 1
          routeQ := [⟨-1, i, f.vc, .pending⟩]
          active := true })
      (by
        simp only [enqueueAll, enqueue, R.init, require, Vc.add, Vc.init]
        simp [hi, hv, hh, hb, R.setVc])
      (by
        simp only [routeEval, List.takeWhile_cons, Wait.fresh, List.dropWhile_cons]
        simp [require, frontOk, hi, hv, hh, R.setVc, hnow, hd]
        omega)
      hi hv rfl rfl rfl rfl (by simp [R.setVc]) (by simp [R.setVc]) (by omega)
    obtain ⟨s', e1, h1⟩ := key.1 (by rw [hnow]; push_cast; omega)
    simp only [exec, Except.bind, tick, harr, hca]
    simp only [List.append_nil, List.isEmpty_cons, List.isEmpty_nil, Bool.not_false, Bool.or_true, Bool.not_true, Bool.or_false, if_true]
    have h0 : (R.init va sa : R δ σ τ).credQ = [] := rfl
    change ∃ s, Except.map Prod.fst (match internalStep VA SA c (e 0) [(i, f)] { (R.init va sa : R δ σ τ) with active := true } with
      | .error e => .error e | .ok s => .ok (send c s)) = .ok s ∧ _
    rw [e1]
    exact ⟨_, rfl, h1.i_lt, h1.v_lt, h1.rq, h1.va, h1.sa, h1.xb, h1.cr, h1.q, h1.st, h1.act⟩
  have h2 : ∀ n, p * n < d - 1 → ∃ s, exec VA SA c va sa e (n + 1) = .ok s ∧ Held c s (d - 1 : Nat) i f.vc f := by
    intro n
    induction n with
    | zero => intro _; exact h1
    | succ n ih =>
      intro hn
      obtain ⟨s, e1, hs⟩ := ih (by rw [Nat.mul_succ] at hn; omega)
      obtain ⟨s', out, e2, hs'⟩ := (held_tick (VA := VA) (SA := SA) (e := e (n + 1)) hs (by omega) (by intro j; rw [hf]; simp) (hcr _)).1
        (by rw [hnow]; exact_mod_cast hn)
      refine ⟨s', ?_, hs'⟩
      rw [exec, e1]
      simp only [Except.bind, e2, Except.map]
  -- the last tick before the delay is over
  have hq : p * ((d - 1) / p) < d - 1 := by
    rcases Nat.lt_or_ge (p * ((d - 1) / p)) (d - 1) with h | h
    · exact h
    · exact absurd ⟨_, Nat.le_antisymm h (Nat.mul_div_le _ _)⟩ hpd
  obtain ⟨s, e1, hs⟩ := h2 _ hq
  refine ⟨(d - 1) / p + 1 + 1, ?_⟩
  have h3 := (held_tick (VA := VA) (SA := SA) (e := e ((d - 1) / p + 1)) hs (by omega) (by intro j; rw [hf]; simp) (hcr _)).2
    (by
      rw [hnow]
      have : d - 1 < p * ((d - 1) / p + 1) := Nat.lt_mul_div_succ _ hp
      exact_mod_cast this)
  rw [exec, e1]
  simp only [Except.bind, h3, Except.map]

/-! ## Times above 2^31 ps -/

/-- All the entries of the queues have a negative time and nothing is about to leave. -/
structure Frozen (s : R δ σ τ) : Prop where
  rq : ∀ w ∈ s.routeQ, w.time < 0
  vq : ∀ w ∈ s.vaQ, w.time < 0
  sq : ∀ w ∈ s.saQ, w.time < 0
  xb : ∀ w ∈ s.xbQ, w.time < 0
  ob : ∀ o, s.outBuf o = []
  oc : ∀ i, s.outCred i = []
  cb : ∀ i, s.credBuf i = []

/-- Some packet waits for an allocator that has answered. -/
def Answered (s : R δ σ τ) : Prop :=
  (∃ w l, s.vaQ = w :: l ∧ w.res ≠ .pending) ∨ ∃ w l, s.saQ = w :: l ∧ w.res ≠ .pending

theorem takeWhile_all {α : Type} {p : α → Bool} : ∀ {l : List α}, (∀ x ∈ l, p x = true) → l.takeWhile p = l ∧ l.dropWhile p = []
  | [], _ => ⟨rfl, rfl⟩
  | x :: l, h => by
    have h1 := takeWhile_all (l := l) fun y hy => h y (by simp [hy])
    rw [List.takeWhile_cons_of_pos (h x (by simp)), List.dropWhile_cons_of_pos (h x (by simp)), h1.1]
    exact ⟨rfl, h1.2⟩

theorem takeWhile_neg {l : List Wait} (h : ∀ w ∈ l, w.time < 0) : l.takeWhile Wait.fresh = l ∧ l.dropWhile Wait.fresh = [] := by
  exact takeWhile_all fun w hw => by simp [Wait.fresh, h w hw]

theorem require_ok {α : Type} {b : Bool} {e : Err} {k : Except Err α} {x : α} (h : require b e k = .ok x) : b = true ∧ k = .ok x := by
  unfold require at h
  split at h
  · exact ⟨by assumption, h⟩
  · cases h

theorem frozen_enqueue {s s' : R δ σ τ} {i : Nat} {f : Flit δ} (h : enqueue c s i f = .ok s') (hs : Frozen s) :
    Frozen s' ∧ (Answered s → Answered s') ∧ s'.vaQ = s.vaQ ∧ s.saQ <+: s'.saQ := by
  unfold enqueue at h
  replace h := (require_ok (require_ok (require_ok h).2).2).2
  split at h
  · cases h
  · simp only at h
    split at h
    · replace h := (require_ok (require_ok h).2).2
      cases h
      refine ⟨⟨?_, hs.vq, hs.sq, hs.xb, hs.ob, hs.oc, hs.cb⟩, id, rfl, List.prefix_refl _⟩
      intro w hw
      rcases List.mem_append.1 hw with hw | hw
      · exact hs.rq w hw
      · rw [List.mem_singleton.1 hw]; exact Int.negSucc_lt_zero 0
    · split at h
      · cases h
        refine ⟨⟨hs.rq, hs.vq, ?_, hs.xb, hs.ob, hs.oc, hs.cb⟩, ?_, rfl, List.prefix_append _ _⟩
        · intro w hw
          rcases List.mem_append.1 hw with hw | hw
          · exact hs.sq w hw
          · rw [List.mem_singleton.1 hw]; exact Int.negSucc_lt_zero 0
        · rintro (h | ⟨w, l, h1, h2⟩)
          · exact .inl h
          · refine .inr ⟨w, l ++ [⟨-1, i, f.vc, .pending⟩], ?_, h2⟩
            change s.saQ ++ _ = _
            rw [h1]
            rfl
      · cases h
        exact ⟨⟨hs.rq, hs.vq, hs.sq, hs.xb, hs.ob, hs.oc, hs.cb⟩, id, rfl, List.prefix_refl _⟩

theorem frozen_enqueueAll {inq : List (Nat × Flit δ)} : ∀ {s s' : R δ σ τ}, enqueueAll c s inq = .ok s' → Frozen s →
    Frozen s' ∧ (Answered s → Answered s') ∧ s'.vaQ = s.vaQ ∧ s.saQ <+: s'.saQ := by
  induction inq with
  | nil => intro s s' h hs; cases h; exact ⟨hs, id, rfl, List.prefix_refl _⟩
  | cons x l ih =>
    intro s s' h hs
    unfold enqueueAll at h
    split at h
    · cases h
    · rename_i s1 h1
      obtain ⟨a1, a2, a3, a4⟩ := frozen_enqueue h1 hs
      obtain ⟨b1, b2, b3, b4⟩ := ih h a1
      exact ⟨b1, b2 ∘ a2, b3.trans a3, a4.trans b4⟩

theorem frozen_credits {now : Int} {l : List Cred} : ∀ {s s' : R δ σ τ}, credits c now s l = .ok s' →
    ∃ n q, s' = { s with
      next := n
      credQ := q } := by
  induction l with
  | nil => intro s s' h; cases h; exact ⟨_, _, rfl⟩
  | cons x l ih =>
    intro s s' h
    unfold credits at h
    split at h
    · cases h; exact ⟨_, _, rfl⟩
    · replace h := (require_ok h).2
      split at h
      · cases h
      · obtain ⟨n, q, h1⟩ := ih h
        exact ⟨n, q, h1⟩

theorem frozen_routeUpd {now : Int} {rf : Nat → Flit δ → List Hop} {s : R δ σ τ} {l : List Wait} (h : ∀ w ∈ l, w.time < 0) :
    routeUpd c now rf s l = .ok { s with routeQ := l } := by
  cases l with
  | nil => rfl
  | cons w l => rw [routeUpd, if_pos (.inl (h w (by simp)))]

theorem frozen_vaUpd {now : Int} {s : R δ σ τ} {l : List Wait} (h : ∀ w ∈ l, w.time < 0) :
    vaUpd c now s l = .ok { s with vaQ := l ++ s.vaQ } := by
  cases l with
  | nil => rfl
  | cons w l => rw [vaUpd, if_pos (.inl (h w (by simp)))]

theorem frozen_saUpd {now : Int} {s : R δ σ τ} {l : List Wait} (h : ∀ w ∈ l, w.time < 0) :
    saUpd c now s l = .ok { s with saQ := l ++ s.saQ } := by
  cases l with
  | nil => rfl
  | cons w l => rw [saUpd, if_pos (.inl (h w (by simp)))]

theorem frozen_xbEval {now : Int} {s : R δ σ τ} (h : ∀ w ∈ s.xbQ, w.time < 0) :
    xbEval c now s = { s with xbQ := s.xbQ.map fun w => { w with time := now + c.xbDelay - 1 } } := by
  unfold xbEval
  have h9 := takeWhile_all (p := fun w : Cross δ => decide (w.time < 0)) (l := s.xbQ) fun w hw => by simp [h w hw]
  rw [h9.1, h9.2, List.append_nil]

theorem frozen_xbUpd {now : Int} {s : R δ σ τ} {l : List (Cross δ)} (h : ∀ w ∈ l, w.time < 0) :
    xbUpd c now s l = .ok { s with xbQ := l } := by
  cases l with
  | nil => rfl
  | cons w l => rw [xbUpd, if_pos (.inl (h w (by simp)))]

theorem vaRes_ne {s : R δ σ τ} {m : Alloc.Match} {i v : Nat} : vaRes c s m i v ≠ .pending := by
  unfold vaRes
  split
  · simp
  · split <;> simp

theorem saRes_ne {s : R δ σ τ} {a : List Alloc.Ask} {m : Alloc.Match} {i v : Nat} : saRes c s a m i v ≠ .pending := by
  unfold saRes
  repeat' split
  all_goals simp

theorem frozen_vaEval {now : Int} {x : ρ} {s s' : R δ σ τ} (hd : c.vaDelay = 1) (hn : now < 0)
    (h : vaEval VA c now x s = .ok s') (hs : ∀ w ∈ s.vaQ, w.time < 0) :
    (∀ w l, s.vaQ = w :: l → w.res = .pending) ∧
    ∃ va q, s' = { s with
      va := va
      vaQ := q } ∧ (∀ w ∈ q, w.time < 0 ∧ w.res ≠ .pending) ∧ (s.vaQ ≠ [] → q ≠ []) := by
  unfold vaEval at h
  simp only [takeWhile_neg hs] at h
  obtain ⟨h1, h⟩ := require_ok h
  replace h := (require_ok h).2
  refine ⟨?_, ?_⟩
  · intro w l hw
    rw [hw] at h1
    simp only [List.all_cons, Bool.and_eq_true, decide_eq_true_eq] at h1
    exact h1.1.1.2
  · split at h
    · cases h
    · cases h
      refine ⟨_, _, rfl, ?_, ?_⟩
      · rw [if_pos (by omega)]
        intro w hw
        simp only [List.append_nil, List.mem_map] at hw
        obtain ⟨w', -, rfl⟩ := hw
        exact ⟨by simp only; omega, vaRes_ne⟩
      · intro h2
        rw [if_pos (by omega)]
        simpa using h2

theorem frozen_saEval {now : Int} {x : ρ'} {s s' : R δ σ τ} (hd : c.saDelay = 1) (hn : now < 0)
    (h : saEval SA c now x s = .ok s') (hs : ∀ w ∈ s.saQ, w.time < 0) :
    (∀ w l, s.saQ = w :: l → w.res = .pending) ∧
    ∃ sa rr q, s' = { s with
      sa := sa
      rr := rr
      saQ := q } ∧ (∀ w ∈ q, w.time < 0 ∧ w.res ≠ .pending) ∧ (s.saQ ≠ [] → q ≠ []) := by
  unfold saEval at h
  simp only [takeWhile_neg hs] at h
  obtain ⟨h1, h⟩ := require_ok h
  refine ⟨?_, ?_⟩
  · intro w l hw
    rw [hw] at h1
    simp only [List.all_cons, Bool.and_eq_true, decide_eq_true_eq] at h1
    exact h1.1.1.2
  · split at h
    · cases h
    · cases h
      refine ⟨_, _, _, rfl, ?_, ?_⟩
      · rw [if_pos (by omega)]
        intro w hw
        simp only [List.append_nil, List.mem_map] at hw
        obtain ⟨w', -, rfl⟩ := hw
        exact ⟨by simp only; omega, saRes_ne⟩
      · intro h2
        rw [if_pos (by omega)]
        simpa using h2

theorem frozen_step {e : In δ ρ ρ'} {inq : List (Nat × Flit δ)} {s s' : R δ σ τ} (hc : c.Ok) (hn : e.now < 0)
    (h : internalStep VA SA c e inq s = .ok s') (hs : Frozen s) :
    Frozen s' ∧ ¬ Answered s ∧ (s.vaQ ≠ [] ∨ s.saQ ≠ [] → Answered s' ∧ s'.active = true) := by
  unfold internalStep at h
  simp only [bind, Except.bind] at h
  split at h
  · cases h
  rename_i s1 e1
  obtain ⟨f1, a1, v1, p1⟩ := frozen_enqueueAll e1 hs
  split at h
  · cases h
  rename_i s2 e2
  obtain ⟨n, cq, rfl⟩ := frozen_credits e2
  split at h
  · cases h
  rename_i s3 e3
  unfold routeEval at e3
  obtain ⟨-, e3⟩ := require_ok e3
  simp only [takeWhile_neg f1.rq] at e3
  cases e3
  split at h
  · cases h
  rename_i s4 e4
  obtain ⟨g4, va, q4, rfl, k4, l4⟩ := frozen_vaEval hc.va hn e4 f1.vq
  split at h
  · cases h
  rename_i s5 e5
  obtain ⟨g5, sa, rr, q5, rfl, k5, l5⟩ := frozen_saEval hc.sa hn e5 f1.sq
  have hrt : ∀ w ∈ s1.routeQ.map (fun w => { w with time := e.now + c.routeDelay - 1 }) ++ [], w.time < 0 := by
    intro w hw
    simp only [List.append_nil, List.mem_map] at hw
    obtain ⟨w', -, rfl⟩ := hw
    have := hc.route
    simp only
    omega
  have hxt : ∀ w ∈ s1.xbQ.map (fun w => { w with time := e.now + c.xbDelay - 1 }), w.time < 0 := by
    intro w hw
    simp only [List.mem_map] at hw
    obtain ⟨w', -, rfl⟩ := hw
    have := hc.xb
    simp only
    omega
  rw [frozen_xbEval (by exact f1.xb)] at h
  simp only at h
  rw [frozen_routeUpd hrt] at h
  simp only at h
  rw [frozen_vaUpd (fun w hw => (k4 w hw).1)] at h
  simp only at h
  rw [frozen_saUpd (fun w hw => (k5 w hw).1)] at h
  simp only at h
  rw [frozen_xbUpd hxt] at h
  cases h
  refine ⟨⟨hrt, ?_, ?_, hxt, f1.ob, fun _ => rfl, ?_⟩, ?_, ?_⟩
  · intro w hw
    simp only [creditOut, List.append_nil] at hw
    exact (k4 w hw).1
  · intro w hw
    simp only [creditOut, List.append_nil] at hw
    exact (k5 w hw).1
  · intro i
    simp [creditOut, f1.oc, f1.cb]
  · intro ha
    rcases a1 ha with ⟨w, l, h1, h2⟩ | ⟨w, l, h1, h2⟩
    · exact h2 (g4 w l h1)
    · exact h2 (g5 w l h1)
  · intro hq
    rcases hq with hq | hq
    · have := l4 (by simp only; rw [v1]; exact hq)
      cases q4 with
      | nil => exact absurd rfl this
      | cons w l => exact ⟨.inl ⟨w, l, by simp [creditOut], (k4 w (by simp)).2⟩, by simp [creditOut]⟩
    · have h6 : s1.saQ ≠ [] := by
        intro h6
        rw [h6] at p1
        exact hq (List.prefix_nil.1 p1)
      have := l5 h6
      cases q5 with
      | nil => exact absurd rfl this
      | cons w l => exact ⟨.inr ⟨w, l, by simp [creditOut], (k5 w (by simp)).2⟩, by simp [creditOut]⟩

theorem frozen_send {s : R δ σ τ} (hs : Frozen s) :
    Frozen (send c s).1 ∧ (∀ o, (send c s).2.flit o = none) ∧ ∀ i, (send c s).2.credit i = none := by
  refine ⟨⟨hs.rq, hs.vq, hs.sq, hs.xb, ?_, hs.oc, ?_⟩, ?_, ?_⟩
  · intro o; simp [send, hs.ob]
  · intro o; simp [send, hs.cb]
  · intro o; simp [send, hs.ob]
  · intro o; simp [send, hs.cb]

theorem frozen_tick {e : In δ ρ ρ'} {s s' : R δ σ τ} {out : Out δ} (hc : c.Ok) (hn : e.now < 0)
    (h : tick VA SA c e s = .ok (s', out)) (hs : Frozen s) :
    Frozen s' ∧ (∀ o, out.flit o = none) ∧ (∀ i, out.credit i = none) ∧
      (s.active = true → ¬ Answered s ∧ (s.vaQ ≠ [] ∨ s.saQ ≠ [] → Answered s' ∧ s'.active = true)) := by
  unfold tick at h
  simp only at h
  have hs1 : Frozen { s with credQ := s.credQ ++ creditArrivals c e, active := s.active || !(arrivals c e).isEmpty || !(creditArrivals c e).isEmpty } :=
    ⟨hs.rq, hs.vq, hs.sq, hs.xb, hs.ob, hs.oc, hs.cb⟩
  split at h
  · split at h
    · cases h
    · rename_i s2 e2
      obtain ⟨f2, a2, b2⟩ := frozen_step hc hn e2 hs1
      cases h
      obtain ⟨f3, o3, c3⟩ := frozen_send (c := c) f2
      refine ⟨f3, o3, c3, fun _ => ⟨a2, b2⟩⟩
  · rename_i hact
    cases h
    obtain ⟨f3, o3, c3⟩ := frozen_send (c := c) hs1
    refine ⟨f3, o3, c3, fun ha => ?_⟩
    simp [ha] at hact

/-- Further ticks from a state on. -/
inductive Goes (VA : Alloc.Cls σ ρ) (SA : Alloc.Cls τ ρ') (c : Cfg) : R δ σ τ → List (In δ ρ ρ') → List (Out δ) → Prop
  | nil {s} : Goes VA SA c s [] []
  | cons {s e s' out es outs} (h : tick VA SA c e s = .ok (s', out)) (t : Goes VA SA c s' es outs) :
      Goes VA SA c s (e :: es) (out :: outs)

theorem frozen_of_run (hc : c.Ok) {va : σ} {sa : τ}
    (hva : Holds VA (c.inputs * c.vcs) (c.outputs * c.vcs) va fun l m => Valid (asked l) m)
    (hsa : Holds SA c.inputs c.outputs sa fun l m => Valid (asked l) m)
    {ins : List (In δ ρ ρ')} {outs : List (Out δ)} {s : R δ σ τ} (h : Run VA SA c va sa ins outs s) :
    Frozen s ∧ (s.vaQ ≠ [] ∨ s.saQ ≠ [] → s.active = true) := by
  obtain ⟨l, hl⟩ := run_inv hc (serves_false hva) (serves_false' hsa) h
  refine ⟨⟨?_, ?_, ?_, ?_, hl.ob, hl.oc, hl.cb⟩, ?_⟩
  · intro w hw; rw [(hl.rq w hw).1]; decide
  · intro w hw; rw [(hl.vq w hw).1]; decide
  · intro w hw; rw [(hl.sq w hw).1]; decide
  · intro w hw; rw [(hl.xb.time w hw)]; decide
  · intro hq
    by_contra h1
    obtain ⟨-, h2, h3, -⟩ := hl.idle (by simpa using h1)
    rcases hq with hq | hq
    · exact hq h2
    · exact hq h3

/-- C70 is false: after any run, while the simulation time converted to `int` is negative, no flit and no credit leaves
a router, whatever comes in. -/
theorem C70_negative_time_violated (hc : c.Ok) {va : σ} {sa : τ}
    (hva : Holds VA (c.inputs * c.vcs) (c.outputs * c.vcs) va fun l m => Valid (asked l) m)
    (hsa : Holds SA c.inputs c.outputs sa fun l m => Valid (asked l) m)
    {ins : List (In δ ρ ρ')} {outs : List (Out δ)} {s : R δ σ τ} (h : Run VA SA c va sa ins outs s)
    {es : List (In δ ρ ρ')} {os : List (Out δ)} (hg : Goes VA SA c s es os) (hn : ∀ e ∈ es, e.now < 0) :
    ∀ x ∈ os, (∀ o, x.flit o = none) ∧ ∀ i, x.credit i = none := by
  have hf := (frozen_of_run hc hva hsa h).1
  clear h
  induction hg with
  | nil => intro x hx; cases hx
  | cons ht _ ih =>
    obtain ⟨f1, o1, c1, -⟩ := frozen_tick hc (hn _ (by simp)) ht hf
    intro x hx
    rcases List.mem_cons.1 hx with rfl | hx
    · exact ⟨o1, c1⟩
    · exact ih (fun e he => hn e (by simp [he])) f1 x hx

/-- C70 is false: when a packet waits for an output virtual channel or for the switch at the moment where the simulation
time becomes negative, the program stops in the second tick after it, if not in the first. -/
theorem C70_wrap_violated (hc : c.Ok) {va : σ} {sa : τ}
    (hva : Holds VA (c.inputs * c.vcs) (c.outputs * c.vcs) va fun l m => Valid (asked l) m)
    (hsa : Holds SA c.inputs c.outputs sa fun l m => Valid (asked l) m)
    {ins : List (In δ ρ ρ')} {outs : List (Out δ)} {s : R δ σ τ} (h : Run VA SA c va sa ins outs s)
    (hw : s.vaQ ≠ [] ∨ s.saQ ≠ []) {e e' : In δ ρ ρ'} (hn : e.now < 0) (hn' : e'.now < 0) :
    ∀ es os, ¬ Goes VA SA c s (e :: e' :: es) os := by
  intro es os hg
  obtain ⟨hf, ha⟩ := frozen_of_run hc hva hsa h
  cases hg with
  | cons h1 t =>
    cases t with
    | cons h2 _ =>
      obtain ⟨f1, -, -, k1⟩ := frozen_tick hc hn h1 hf
      obtain ⟨a2, b2⟩ := (k1 (ha hw)).2 hw
      obtain ⟨-, -, -, k2⟩ := frozen_tick hc hn' h2 f1
      exact (k2 b2).1 a2

/-! ## Examples -/

namespace Example

/-- C69: a routing delay of 2 with a clock period of 571 ps. -/
example : ∃ n, exec islip islip { cfg with routeDelay := 2 } (Islip.init 4 4 1) (Islip.init 2 2 1)
    (fun n => { env n with
      now := 571 * n
      flit := fun j => if n = 0 ∧ j = 1 then some b0 else none
      credit := fun _ => none }) n = .error .assertion :=
  C69_routing_delay_violated (p := 571) (d := 2) (i := 1) (f := b0) (by decide) rfl (by decide) (by decide) (by decide) rfl
    (by decide) (fun _ => by simp) (fun _ _ => rfl) (fun _ _ => rfl)

/-- With a period of 571 ps, the time becomes negative at tick 3760918, after about 2.1 ms, and stays so for as long. -/
theorem wraps (n : Nat) (h1 : 3760918 ≤ n) (h2 : n < 7521835) : Channel.simTime (571 * n) < 0 := by
  unfold Channel.simTime
  rw [Nat.mod_eq_of_lt (by omega), if_neg (by omega)]
  omega

/-- Two ticks with a negative time from the state where both packets wait for an output virtual channel. -/
example : ∀ es os, ¬ Goes islip islip cfg (st 1).1
    ({ env 1 with now := Channel.simTime (571 * 3760918) } :: { env 2 with now := Channel.simTime (571 * 3760919) } :: es) os :=
  C70_wrap_violated cfg_ok va_ok sa_ok (run 1) (by decide +kernel) (wraps 3760918 (by decide) (by decide))
    (wraps 3760919 (by decide) (by decide))

/-- The first of them succeeds. -/
example : ∃ o, Goes islip islip cfg (st 1).1 [{ env 1 with now := Channel.simTime (571 * 3760918) }] [o] ∧
    ∀ i, o.flit i = none := by
  have h : ∃ x, tick islip islip cfg { env 1 with now := Channel.simTime (571 * 3760918) } (st 1).1 = .ok x := by
    have : (tick islip islip cfg { env 1 with now := Channel.simTime (571 * 3760918) } (st 1).1).isOk = true := by decide +kernel
    cases hh : tick islip islip cfg { env 1 with now := Channel.simTime (571 * 3760918) } (st 1).1 with
    | error _ => rw [hh] at this; cases this
    | ok x => exact ⟨x, rfl⟩
  obtain ⟨⟨s', o⟩, h⟩ := h
  have hg : Goes islip islip cfg (st 1).1 [{ env 1 with now := Channel.simTime (571 * 3760918) }] [o] := .cons h .nil
  refine ⟨o, hg, (C70_negative_time_violated cfg_ok va_ok sa_ok (run 1) hg ?_ o (by simp)).1⟩
  intro e he
  rw [List.mem_singleton.1 he]
  exact wraps 3760918 (by decide) (by decide)

end Example

end RadSim.Router
