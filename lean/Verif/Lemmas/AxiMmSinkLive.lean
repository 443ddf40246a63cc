import Verif.Lemmas.AxiMmSink

/-! # The sink side of the AXI memory-mapped adapters: long packets, and progress -/

namespace RadSim.MmSink

/-! ## a packet is reassembled only when all of it is in the FIFO -/

/-- The packets made so far fit the FIFO, and so does the one being made. -/
structure Cap (c : Cfg) (s : State) (made : List (MmType × List ScFlit)) : Prop where
  made : ∀ x ∈ made, x.2.length ≤ c.depth
  pkt : ∀ k ks, s.prio = k :: ks → s.pkt ≠ [] → ∃ pre t post, s.fifos k = pre ++ t :: post ∧ t.tail = true ∧
    (∀ f ∈ pre, f.tail = false) ∧ s.pkt.length + pre.length + 1 ≤ c.depth

theorem first_tail (l : List ScFlit) (h : 0 < l.countP fun f => f.tail) :
    ∃ pre t post, l = pre ++ t :: post ∧ t.tail = true ∧ ∀ f ∈ pre, f.tail = false := by
  induction l with
  | nil => simp at h
  | cons x l ih =>
    cases hx : x.tail with
    | true => exact ⟨[], x, l, rfl, hx, by simp⟩
    | false =>
      rw [List.countP_cons, hx, if_neg (by simp), Nat.add_zero] at h
      obtain ⟨pre, t, post, h1, h2, h3⟩ := ih h
      refine ⟨x :: pre, t, post, by rw [h1]; rfl, h2, ?_⟩
      intro f hf
      rcases List.mem_cons.1 hf with rfl | hf
      · exact hx
      · exact h3 f hf

theorem Cap.eject {c : Cfg} {s s' : State} {made : List (MmType × List ScFlit)} (hc : Cap c s made)
    {arrive : Option BsFlit} (h : ejectStep c s arrive = .ok s') : Cap c s' made := by
  rw [ejectStep_eq] at h
  split at h
  · cases h; exact ⟨hc.made, hc.pkt⟩
  · split at h
    · cases h
    · rename_i f _ _ k _
      split at h
      · cases h
        refine ⟨hc.made, ?_⟩
        intro j ks hp hne
        obtain ⟨pre, t, post, h1, h2, h3, h4⟩ := hc.pkt j ks hp hne
        by_cases hjk : j = k
        · subst hjk
          exact ⟨pre, t, post ++ [mmEject f], by simp [h1], h2, h3, h4⟩
        · exact ⟨pre, t, post, by simp [put_ne _ _ hjk, h1], h2, h3, h4⟩
      · cases h; exact ⟨hc.made, hc.pkt⟩

/-- What one step of reassembly does to the packets. -/
theorem Cap.pop {c : Cfg} {s s' : State} {v : List Nat} {acc : List BsFlit} {made : List (MmType × List ScFlit)}
    (hi : FInv c s acc made) (hc : Cap c s made) (h : popPhase s = .ok (s', v)) :
    ∃ made', s'.outq = s.outq ++ made'.map (·.2) ∧ FInv c s' acc (made ++ made') ∧ Cap c s' (made ++ made') := by
  obtain ⟨t, w, made', h1, h2, h3, -⟩ := popPhase_inv hi
  have : t = s' ∧ w = v := by
    rw [h] at h1
    cases h1
    exact ⟨rfl, rfl⟩
  obtain ⟨rfl, rfl⟩ := this
  refine ⟨made', h3, h2, ?_⟩
  have hm : made'.map (·.2) = t.outq.drop s.outq.length := by rw [h3]; simp
  unfold popPhase at h
  cases hp : s.prio with
  | nil =>
    rw [hp] at h
    cases h
    have : made' = [] := by simpa using hm
    subst this
    rw [List.append_nil]
    exact hc
  | cons k ks =>
    rw [hp] at h
    dsimp only at h
    by_cases hlt : s.pop k < s.push k
    · rw [if_pos hlt] at h
      by_cases hout : s.outq.length < 2
      · rw [if_pos hout] at h
        -- the first tail of the FIFO
        have hcnt := hi.cnt k
        have hle := hi.le k
        have hlen : ∃ pre t post, s.fifos k = pre ++ t :: post ∧ t.tail = true ∧ (∀ f ∈ pre, f.tail = false) ∧
            s.pkt.length + pre.length + 1 ≤ c.depth := by
          by_cases hne : s.pkt = []
          · obtain ⟨pre, t, post, e1, e2, e3⟩ := first_tail (s.fifos k) (by omega)
            refine ⟨pre, t, post, e1, e2, e3, ?_⟩
            have := hi.fifoLen k
            rw [e1] at this
            simp only [List.length_append, List.length_cons] at this
            rw [hne, List.length_nil]
            omega
          · exact hc.pkt k ks hp hne
        obtain ⟨pre, t', post, e1, e2, e3, e4⟩ := hlen
        cases hf : s.fifos k with
        | nil => rw [hf] at h; cases h
        | cons f rest =>
          rw [hf] at h e1
          dsimp only at h
          cases ht : f.tail with
          | true =>
            rw [ht, if_pos rfl] at h
            have hpre : pre = [] := by
              cases pre with
              | nil => rfl
              | cons g pre =>
                have : g = f := (List.cons.inj e1).1.symm
                have h0 := e3 g (by simp)
                rw [this, ht] at h0
                cases h0
            split at h
            · cases h
              have hlast : made'.map (·.2) = [s.pkt ++ [f]] := by simpa using hm
              refine ⟨?_, by simp⟩
              intro x hx
              rcases List.mem_append.1 hx with hx | hx
              · exact hc.made x hx
              · have : x.2 ∈ made'.map (·.2) := List.mem_map_of_mem hx
                rw [hlast, List.mem_singleton] at this
                rw [this]
                rw [hpre] at e4
                simpa using e4
            · cases h
          | false =>
            rw [ht, if_neg (by simp)] at h
            cases h
            have : made' = [] := by simpa using hm
            subst this
            rw [List.append_nil]
            refine ⟨hc.made, ?_⟩
            intro j js hj _
            have hjk : k = j := (List.cons.inj hj).1
            subst hjk
            cases pre with
            | nil =>
              have : f = t' := (List.cons.inj e1).1
              rw [← this, ht] at e2
              exact absurd e2 (by simp)
            | cons g pre =>
              refine ⟨pre, t', post, ?_, e2, fun x hx => e3 x (by simp [hx]), ?_⟩
              · simp only [put_same]
                exact (List.cons.inj e1).2
              · simp only [List.length_append, List.length_cons, List.length_nil] at e4 ⊢
                omega
      · rw [if_neg hout] at h
        cases h
        have : made' = [] := by simpa using hm
        subst this
        rw [List.append_nil]
        refine ⟨hc.made, ?_⟩
        intro j js hj hne
        exact hc.pkt j js (hp.trans hj) hne
    · rw [if_neg hlt] at h
      cases h
      have : made' = [] := by simpa using hm
      subst this
      rw [List.append_nil]
      exact hc

/-! ## everything together -/

/-- All invariants. -/
def All (c : Cfg) (s : State) (h : Hist) (made : List (MmType × List ScFlit)) (pres : List (List ScFlit)) : Prop :=
  Inv c s h made pres ∧ Cap c s made

theorem All.init (c : Cfg) : All c (State.init c) Hist.empty [] [] :=
  ⟨⟨FInv.init c, PInv.init c⟩, ⟨by simp, by simp [State.init]⟩⟩

/-- The number of flits in the ejection FIFOs. -/
def stored (s : State) : Nat :=
  (s.fifos .ar).length + (s.fifos .aw).length + (s.fifos .w).length + (s.fifos .r).length + (s.fifos .b).length

/-- What is still to be done. -/
def load (s : State) : Nat := 4 * s.held.toList.length + 3 * stored s + 2 * s.outq.length + s.cur.toList.length

theorem stored_put (f : MmType → List ScFlit) (k : MmType) (x : List ScFlit) :
    (put f k x .ar).length + (put f k x .aw).length + (put f k x .w).length + (put f k x .r).length +
      (put f k x .b).length + (f k).length =
    (f .ar).length + (f .aw).length + (f .w).length + (f .r).length + (f .b).length + x.length := by
  cases k <;> simp [put] <;> omega

/-- Nothing has moved. -/
structure Same (s t : State) : Prop where
  held : t.held = s.held
  fifos : t.fifos = s.fifos
  outq : t.outq = s.outq
  cur : t.cur = s.cur
  next : t.pushNext = s.pushNext
  push : s.push = s.pushNext → t.push = t.pushNext

theorem Same.refl (s : State) : Same s s := ⟨rfl, rfl, rfl, rfl, rfl, id⟩

theorem Same.trans {s t u : State} (h : Same s t) (g : Same t u) : Same s u :=
  ⟨g.held.trans h.held, g.fifos.trans h.fifos, g.outq.trans h.outq, g.cur.trans h.cur, g.next.trans h.next,
    fun e => g.push (h.push e)⟩

theorem load_eject {c : Cfg} {s s' : State} {a : Option BsFlit} (h : ejectStep c s a = .ok s') :
    load s' ≤ load s + 4 * (match s.held with | none => a.toList | some _ => []).length ∧
    (a = none → load s' < load s ∨ (Same s s' ∧ s'.push = s'.pushNext)) := by
  rw [ejectStep_eq] at h
  cases hh : s.held with
  | none =>
    rw [inHand, hh] at h
    dsimp only at h
    cases ha : a with
    | none =>
      rw [ha] at h
      cases h
      refine ⟨by simp [load, stored, hh], fun _ => .inr ⟨⟨hh.symm, rfl, rfl, rfl, rfl, fun _ => rfl⟩, rfl⟩⟩
    | some f =>
      rw [ha] at h
      dsimp only at h
      refine ⟨?_, by simp⟩
      split at h
      · cases h
      · rename_i k _
        split at h
        · cases h
          have := stored_put s.fifos k (s.fifos k ++ [mmEject f])
          simp only [List.length_append, List.length_cons, List.length_nil] at this
          simp [load, stored, hh]
          omega
        · cases h
          simp [load, stored, hh]
          omega
  | some f =>
    rw [inHand, hh] at h
    dsimp only at h
    split at h
    · cases h
    · rename_i k _
      split at h
      · cases h
        have := stored_put s.fifos k (s.fifos k ++ [mmEject f])
        simp only [List.length_append, List.length_cons, List.length_nil] at this
        constructor
        · simp [load, stored, hh]; omega
        · intro _; left; simp [load, stored, hh]; omega
      · cases h
        exact ⟨by simp [load, stored, hh], fun _ => .inr ⟨⟨hh.symm, rfl, rfl, rfl, rfl, fun _ => rfl⟩, rfl⟩⟩

theorem load_pop {s s' : State} {v : List Nat} (h : popPhase s = .ok (s', v)) : load s' < load s ∨ Same s s' := by
  unfold popPhase at h
  split at h
  · cases h; exact .inr (Same.refl _)
  · rename_i k ks hp
    split at h
    · split at h
      · split at h
        · cases h
        · rename_i f rest hf
          have := stored_put s.fifos k rest
          rw [hf, List.length_cons] at this
          dsimp only at h
          split at h
          · split at h
            · cases h
              left
              simp [load, stored]
              omega
            · cases h
          · cases h
            left
            simp [load, stored]
            omega
      · cases h; exact .inr ⟨rfl, rfl, rfl, rfl, rfl, id⟩
    · cases h; exact .inr (Same.refl _)

theorem load_depack {c : Cfg} {s s' : State} {v : List Nat} {b : Bool} (h : depackStep c s b = .ok (s', v)) :
    load s' < load s ∨ Same s s' := by
  have key : ∀ t : State, load t = load s → Same s t →
      (if t.depack then popPhase t else popPhase { t with prio := search t c.types.length t.prio }) = .ok (s', v) →
      load s' < load s ∨ Same s s' := by
    intro t hl hs ht
    split at ht
    · rcases load_pop ht with g | g
      · exact .inl (hl ▸ g)
      · exact .inr (hs.trans g)
    · rcases load_pop ht with g | g
      · exact .inl (hl ▸ g)
      · exact .inr (hs.trans ⟨g.held, g.fifos, g.outq, g.cur, g.next, g.push⟩)
  cases b with
  | false => exact key s rfl (Same.refl _) h
  | true => exact key { s with push := s.pushNext } rfl ⟨rfl, rfl, rfl, rfl, rfl, fun _ => rfl⟩ h

theorem load_taken (s : State) : 2 * (taken s).2.length + (taken s).1.toList.length ≤
    2 * s.outq.length + s.cur.toList.length ∧
    (s.cur ≠ none ∨ s.outq ≠ [] → (taken s).1 ≠ none) ∧
    (2 * (taken s).2.length + (taken s).1.toList.length = 2 * s.outq.length + s.cur.toList.length →
      (taken s).1 = s.cur ∧ (taken s).2 = s.outq) := by
  unfold taken
  cases h1 : s.cur <;> cases h2 : s.outq <;> simp
  omega

theorem load_out {c : Cfg} {s s' : State} {r : MmType → Bool} (h : outStep c s r = .ok s') :
    load s' < load s ∨ Same s s' := by
  rw [outStep_eq] at h
  obtain ⟨h1, -, h2⟩ := load_taken s
  by_cases he : 2 * (taken s).2.length + (taken s).1.toList.length = 2 * s.outq.length + s.cur.toList.length
  · obtain ⟨g1, g2⟩ := h2 he
    split at h
    · rename_i q hq
      rw [hq] at g1 g2
      cases h
      exact .inr ⟨rfl, rfl, g2, g1, rfl, id⟩
    · cases h
    · rename_i p q hp hq
      rw [hq] at g1 g2 h1
      split at h
      · cases h; exact .inr ⟨rfl, rfl, g2, g1, rfl, id⟩
      · split at h
        · cases h
          left
          simp [load, stored] at h1 ⊢
          omega
        · cases h; exact .inr ⟨rfl, rfl, g2, g1, rfl, id⟩
  · have hlt : 2 * (taken s).2.length + (taken s).1.toList.length < 2 * s.outq.length + s.cur.toList.length := by omega
    left
    split at h
    · rename_i q hq
      rw [hq] at hlt
      cases h
      simp [load, stored] at hlt ⊢
      omega
    · cases h
    · rename_i p q hp hq
      rw [hq] at hlt
      split at h
      · cases h; simp [load, stored] at hlt ⊢; omega
      · split at h
        · cases h; simp [load, stored] at hlt ⊢; omega
        · cases h; simp [load, stored] at hlt ⊢; omega

/-- One event: the invariants, and what is left to do. -/
theorem step_all {c : Cfg} {s : State} {h : Hist} {made : List (MmType × List ScFlit)} {pres : List (List ScFlit)}
    (hi : All c s h made pres) (e : Event) (hm : Mapped c (step c s h e).1.accepted) :
    ∃ s' made' pres', step c s h e = ((step c s h e).1, .ok s') ∧ All c s' (step c s h e).1 made' pres' ∧
      load s' + 4 * h.accepted.length ≤ load s + 4 * (step c s h e).1.accepted.length := by
  obtain ⟨⟨hf, hp⟩, hc⟩ := hi
  cases e with
  | noc a =>
    obtain ⟨s', made', more, h1, h2⟩ := step_inv ⟨hf, hp⟩ (.noc a) hm
    have h1' : ejectStep c s a = .ok s' := h1
    obtain ⟨hl, -⟩ := load_eject h1'
    -- no packet is made
    have hm' : made' = [] := by
      have o1 := h2.2.order
      have o2 := hp.order
      rw [List.map_append, o2] at o1
      obtain ⟨t, e1, -, e3, e4, -⟩ := ejectStep_inv hf a (by
        intro f hs ha
        apply hm f
        unfold step
        dsimp only
        rw [hs, ha]
        simp)
      rw [h1'] at e1
      cases e1
      rw [e3, e4] at o1
      have := congrArg List.length o1
      simp only [List.length_append, List.length_map] at this
      have hb1 := congrArg List.length h2.2.beats
      have hb2 := congrArg List.length hp.beats
      have hsh : (step c s h (.noc a)).1.shown = h.shown := by
        unfold step
        dsimp only
        cases s.held <;> rfl
      obtain ⟨t, e1, -, -, -, e5, -⟩ := ejectStep_inv hf a (by
        intro f hs ha
        apply hm f
        unfold step
        dsimp only
        rw [hs, ha]
        simp)
      rw [h1'] at e1
      cases e1
      rw [hsh, e5] at hb1
      simp only [List.length_append, List.length_map] at hb1 hb2
      exact List.eq_nil_of_length_eq_zero (by omega)
    refine ⟨s', made ++ made', pres ++ more, by rw [← h1], ⟨h2, ?_⟩, ?_⟩
    · rw [hm', List.append_nil]
      exact hc.eject h1'
    · have : (step c s h (.noc a)).1.accepted.length =
          h.accepted.length + (match s.held with | none => a.toList | some _ => []).length := by
        unfold step
        dsimp only
        cases s.held <;> simp
      rw [this]
      omega
  | adapter b =>
    have key : ∀ t : State, FInv c t h.accepted made → Cap c t made → t.outq = s.outq → t.cur = s.cur → t.port = s.port →
        ∃ s' v made', (if t.depack then popPhase t else popPhase { t with prio := search t c.types.length t.prio }) =
          .ok (s', v) ∧ FInv c s' h.accepted made' ∧ PInv c s' (h.shown.map (·.1)) made' pres ∧ Cap c s' made' := by
      intro t ht hct e1 e2 e3
      have fin : ∀ u : State, FInv c u h.accepted made → Cap c u made → u.outq = s.outq → u.cur = s.cur → u.port = s.port →
          ∃ s' v made', popPhase u = .ok (s', v) ∧ FInv c s' h.accepted made' ∧
            PInv c s' (h.shown.map (·.1)) made' pres ∧ Cap c s' made' := by
        intro u hu hcu f1 f2 f3
        obtain ⟨s', v, _, g1, -, -, g4, g5, -⟩ := popPhase_inv hu
        obtain ⟨made', g2, g3, g6⟩ := hcu.pop hu g1
        refine ⟨s', v, made ++ made', g1, g3, ⟨?_, ?_⟩, g6⟩
        · rw [List.map_append, hp.order, g2, g4, f1, f2]
          simp
        · rw [g5, f3]; exact hp.beats
      by_cases hd : t.depack = true
      · rw [if_pos hd]
        exact fin t ht hct e1 e2 e3
      · rw [if_neg hd]
        have hd' := Bool.eq_false_iff.2 hd
        refine fin _ (ht.reprio hd' _ (search_perm t _ t.prio)) ⟨hct.made, ?_⟩ e1 e2 e3
        intro k ks _ hne
        exact absurd (ht.idle hd') hne
    have : ∃ s' v made', depackStep c s b = .ok (s', v) ∧ FInv c s' h.accepted made' ∧
        PInv c s' (h.shown.map (·.1)) made' pres ∧ Cap c s' made' := by
      cases b with
      | false => exact key s hf hc rfl rfl rfl
      | true => exact key _ hf.commit ⟨hc.made, hc.pkt⟩ rfl rfl rfl
    obtain ⟨s', v, made', h1, h2, h3, h4⟩ := this
    have hst : step c s h (.adapter b) = ({ h with pops := h.pops ++ v }, .ok s') := by
      unfold step
      dsimp only
      rw [h1]
    refine ⟨s', made', pres, by rw [hst], by rw [hst]; exact ⟨⟨h2, h3⟩, h4⟩, ?_⟩
    rw [hst]
    rcases load_depack h1 with g | g
    · dsimp only; omega
    · have : load s' = load s := by simp [load, stored, g.held, g.fifos, g.outq, g.cur]
      dsimp only; omega
  | node r =>
    obtain ⟨s', made', more, h1, h2⟩ := step_inv ⟨hf, hp⟩ (.node r) hm
    have h1' : outStep c s r = .ok s' := h1
    obtain ⟨t, more', g1, g2, g3, g4, -⟩ := outStep_inv hf hp r
    rw [h1'] at g1
    cases g1
    have hsh : (step c s h (.node r)).1.shown.map (·.1) = h.shown.map (·.1) ++ s.port.toList := by
      unfold step
      cases s.port <;> simp
    refine ⟨s', made, pres ++ more', by rw [← h1], ⟨⟨g2, by rw [hsh]; exact g3⟩, ⟨hc.made, ?_⟩⟩, ?_⟩
    · intro k ks hk hne
      have e : s'.prio = s.prio ∧ s'.pkt = s.pkt := by
        rw [outStep_eq] at h1'
        split at h1'
        · cases h1'; exact ⟨rfl, rfl⟩
        · cases h1'
        · split at h1'
          · cases h1'; exact ⟨rfl, rfl⟩
          · split at h1' <;> (cases h1'; exact ⟨rfl, rfl⟩)
      rw [e.1] at hk
      rw [e.2] at hne ⊢
      rw [g4]
      exact hc.pkt k ks hk hne
    · have : (step c s h (.node r)).1.accepted = h.accepted := rfl
      rw [this]
      rcases load_out h1' with g | g
      · omega
      · have : load s' = load s := by simp [load, stored, g.held, g.fifos, g.outq, g.cur]
        omega
  | tick =>
    obtain ⟨s', made', more, h1, h2⟩ := step_inv ⟨hf, hp⟩ .tick hm
    cases h1
    refine ⟨_, made, pres, rfl, ⟨⟨?_, hp.order, hp.beats⟩, hc.made, hc.pkt⟩, Nat.le_refl _⟩
    exact ⟨hf.prio, hf.stream, hf.closed, hf.idle, hf.busy, hf.open_, hf.cnt, hf.le, hf.fifoLen, hf.outLen, hf.heldVc⟩

theorem run_cons {c : Cfg} {s s' : State} {h h' : Hist} {e : Event} (es : List Event)
    (he : step c s h e = (h', .ok s')) : run c s h (e :: es) = run c s' h' es := by
  rw [run, he]

theorem run_append (c : Cfg) (es fs : List Event) : ∀ {s s' : State} {h h' : Hist},
    run c s h es = (h', .ok s') → run c s h (es ++ fs) = run c s' h' fs := by
  induction es with
  | nil => intro s s' h h' hr; cases hr; rfl
  | cons e es ih =>
    intro s s' h h' hr
    rw [List.cons_append]
    rcases he : step c s h e with ⟨h1, err | t⟩
    · rw [run, he] at hr
      cases hr
    · rw [run_cons es he] at hr
      rw [run_cons _ he]
      exact ih hr

theorem mapped_step {c : Cfg} {s : State} {h : Hist} {e : Event} {es : List Event}
    (hm : Mapped c (run c s h (e :: es)).1.accepted) : Mapped c (step c s h e).1.accepted := by
  intro f hf
  apply hm f
  unfold run
  split
  · rename_i h' err he
    rw [he] at hf
    exact hf
  · rename_i h' s' he
    rw [he] at hf
    obtain ⟨l, hl⟩ := run_accepted c es s' h'
    rw [hl]
    exact List.mem_append_left _ hf

/-- All invariants hold after a run. -/
theorem run_all {c : Cfg} (es : List Event) : ∀ {s : State} {h : Hist} {made : List (MmType × List ScFlit)}
    {pres : List (List ScFlit)}, All c s h made pres → Mapped c (run c s h es).1.accepted →
    ∃ s' made' pres', run c s h es = ((run c s h es).1, .ok s') ∧ All c s' (run c s h es).1 made' pres' ∧
      load s' + 4 * h.accepted.length ≤ load s + 4 * (run c s h es).1.accepted.length := by
  induction es with
  | nil =>
    intro s h made pres hi _
    exact ⟨s, made, pres, rfl, hi, Nat.le_refl _⟩
  | cons e es ih =>
    intro s h made pres hi hm
    obtain ⟨s', made', pres', h1, h2, h3⟩ := step_all hi e (mapped_step hm)
    have hr := run_cons es h1
    rw [hr] at hm ⊢
    obtain ⟨t, m, p, g1, g2, g3⟩ := ih h2 hm
    exact ⟨t, m, p, g1, g2, by omega⟩

/-! ## credits -/

/-- How many flits of a virtual channel wait in a list of flits. -/
def vcCount (v : Nat) (l : List ScFlit) : Nat := l.countP fun f => f.vc.toNat = v

/-- How many flits of a virtual channel have been read from the router and not yet been taken for reassembly. -/
def waiting (v : Nat) (s : State) : Nat :=
  (s.held.toList.countP fun f => (BitVec.ofNat 3 f.vc).toNat = v) + (vcCount v (s.fifos .ar) + vcCount v (s.fifos .aw) +
    vcCount v (s.fifos .w) + vcCount v (s.fifos .r) + vcCount v (s.fifos .b))

theorem fifos_put (v : Nat) (g : MmType → List ScFlit) (k : MmType) (l : List ScFlit) :
    vcCount v (put g k l .ar) + vcCount v (put g k l .aw) + vcCount v (put g k l .w) + vcCount v (put g k l .r) +
        vcCount v (put g k l .b) + vcCount v (g k) =
      vcCount v (g .ar) + vcCount v (g .aw) + vcCount v (g .w) + vcCount v (g .r) + vcCount v (g .b) + vcCount v l := by
  cases k <;> simp [put] <;> omega

/-- Every flit read is waiting or has been taken. -/
def Counted (s : State) (h : Hist) : Prop :=
  ∀ v, (h.accepted.countP fun f => (BitVec.ofNat 3 f.vc).toNat = v) = h.pops.count v + waiting v s

theorem pop_counted {s s' : State} {w : List Nat} (h : popPhase s = .ok (s', w)) (v : Nat) :
    waiting v s = w.count v + waiting v s' ∧ s'.held = s.held ∧
    (w = [] ∧ s'.credit = s.credit ∨ ∃ x, w = [x] ∧ s'.credit = some (s.credit.getD x)) := by
  unfold popPhase at h
  split at h
  · cases h; exact ⟨by simp, rfl, .inl ⟨rfl, rfl⟩⟩
  · rename_i k ks hk
    split at h
    · split at h
      · cases hf : s.fifos k with
        | nil => rw [hf] at h; cases h
        | cons f rest =>
          rw [hf] at h
          have hp := fifos_put v s.fifos k rest
          have hc : vcCount v (s.fifos k) = [f.vc.toNat].count v + vcCount v rest := by
            rw [hf, vcCount, List.countP_cons, vcCount, List.count_singleton]
            by_cases hv : f.vc.toNat = v <;> simp [hv]; omega
          have hcr : (match s.credit with | some v => some v | none => some f.vc.toNat) =
              some (s.credit.getD f.vc.toNat) := by cases s.credit <;> rfl
          dsimp only at h
          split at h
          · split at h
            · cases h
              refine ⟨?_, rfl, .inr ⟨_, rfl, hcr⟩⟩
              simp only [waiting]
              omega
            · cases h
          · cases h
            refine ⟨?_, rfl, .inr ⟨_, rfl, hcr⟩⟩
            simp only [waiting]
            omega
      · cases h; exact ⟨by simp [waiting], rfl, .inl ⟨rfl, rfl⟩⟩
    · cases h; exact ⟨by simp, rfl, .inl ⟨rfl, rfl⟩⟩

theorem depack_counted {c : Cfg} {s s' : State} {b : Bool} {w : List Nat} (h : depackStep c s b = .ok (s', w)) (v : Nat) :
    waiting v s = w.count v + waiting v s' ∧
    (w = [] ∧ s'.credit = s.credit ∨ ∃ x, w = [x] ∧ s'.credit = some (s.credit.getD x)) := by
  have key : ∀ t : State, waiting v t = waiting v s → t.credit = s.credit →
      (if t.depack then popPhase t else popPhase { t with prio := search t c.types.length t.prio }) = .ok (s', w) →
      waiting v s = w.count v + waiting v s' ∧
      (w = [] ∧ s'.credit = s.credit ∨ ∃ x, w = [x] ∧ s'.credit = some (s.credit.getD x)) := by
    intro t h1 h2 ht
    rw [← h1, ← h2]
    split at ht
    · obtain ⟨g1, -, g2⟩ := pop_counted ht v
      exact ⟨g1, g2⟩
    · obtain ⟨g1, -, g2⟩ := pop_counted ht v
      exact ⟨g1, g2⟩
  cases b with
  | false => exact key s rfl rfl h
  | true => exact key { s with push := s.pushNext } rfl rfl h

/-- The flits read from the router at an edge. -/
def fresh (s : State) (a : Option BsFlit) : List BsFlit :=
  match s.held with
  | none => a.toList
  | some _ => []

theorem eject_counted {c : Cfg} {s s' : State} {a : Option BsFlit} (h : ejectStep c s a = .ok s') (v : Nat) :
    waiting v s' = waiting v s +
      ((fresh s a).countP fun f => (BitVec.ofNat 3 f.vc).toNat = v) ∧
    s'.credit = s.credit := by
  rw [ejectStep_eq] at h
  cases hh : inHand s a with
  | none =>
    rw [hh] at h
    cases h
    unfold inHand at hh
    cases hs : s.held with
    | none =>
      rw [hs] at hh
      have : a = none := hh
      subst this
      simp [waiting, hs, fresh]
    | some f => rw [hs] at hh; cases hh
  | some f =>
    rw [hh] at h
    dsimp only at h
    have hf : s.held.toList ++ fresh s a = [f] := by
      unfold inHand at hh
      cases hs : s.held with
      | none =>
        rw [hs] at hh
        have : a = some f := hh
        subst this
        rw [fresh, hs]
        rfl
      | some g =>
        rw [hs] at hh
        have : g = f := by simpa using hh
        subst this
        rw [fresh, hs]
        rfl
    have hcnt : (s.held.toList.countP fun f => (BitVec.ofNat 3 f.vc).toNat = v) +
        ((fresh s a).countP fun f => (BitVec.ofNat 3 f.vc).toNat = v) =
        [f].countP fun f => (BitVec.ofNat 3 f.vc).toNat = v := by
      rw [← List.countP_append, hf]
    split at h
    · cases h
    · rename_i k _
      split at h
      · cases h
        refine ⟨?_, rfl⟩
        have hp := fifos_put v s.fifos k (s.fifos k ++ [mmEject f])
        have hl : vcCount v (s.fifos k ++ [mmEject f]) = vcCount v (s.fifos k) +
            [f].countP fun f => (BitVec.ofNat 3 f.vc).toNat = v := by
          rw [vcCount, List.countP_append]
          rfl
        simp only [waiting, Option.toList_none, List.countP_nil]
        omega
      · cases h
        refine ⟨?_, rfl⟩
        simp only [waiting, Option.toList_some]
        omega

/-! ## progress -/

/-- Nothing arrives and the ports are ready. -/
def Quiet : Event → Prop
  | .noc a => a = none
  | .node r => ∀ k, r k = true
  | _ => True

/-- The flits of a class have its type. -/
def Typed (c : Cfg) (l : List BsFlit) : Prop := ∀ f ∈ l, ∀ k, c.classOf f.vc = some k → f.type = k.flitType

/-- In the flits of a class there are never `depth` in a row without a tail. -/
def Short (c : Cfg) (l : List BsFlit) : Prop := ∀ k ∈ c.types, ∀ pre mid post, ofClass c k l = pre ++ mid ++ post →
  (∀ f ∈ mid, f.tail = false) → mid.length < c.depth

/-- Everything that can be shown has been. -/
structure Final (c : Cfg) (s : State) : Prop where
  held : s.held = none
  tails : ∀ k ∈ c.types, ∀ f ∈ s.fifos k, f.tail = false
  outq : s.outq = []
  cur : s.cur = none

theorem Final.same {c : Cfg} {s t : State} (h : Final c s) (g : Same s t) : Final c t :=
  ⟨g.held.trans h.held, by rw [g.fifos]; exact h.tails, g.outq.trans h.outq, g.cur.trans h.cur⟩

theorem load_same {s t : State} (g : Same s t) : load t = load s := by
  simp [load, stored, g.held, g.fifos, g.outq, g.cur]

theorem mem_types_flitType {k : MmType} {master : Bool} {f : ScFlit} {fs : List ScFlit}
    (hk : k ∈ Cfg.types ⟨master, v, d⟩) (hf : f.type = k.flitType) : ∃ b, beatOf master (f :: fs) = some b ∧ b.type = k := by
  unfold beatOf
  unfold Cfg.types at hk
  cases master <;> cases k <;> simp at hk <;> dsimp only <;> rw [hf] <;> exact ⟨_, rfl, rfl⟩

/-- Every packet made can be shown on the channel of its class. -/
theorem made_beat {c : Cfg} {s : State} {acc : List BsFlit} {made : List (MmType × List ScFlit)} (hi : FInv c s acc made)
    (ht : Typed c acc) {x : MmType × List ScFlit} (hx : x ∈ made) :
    ∃ b, beatOf c.master x.2 = some b ∧ b.type = x.1 := by
  obtain ⟨⟨ini, last, h1, h2, h3⟩, h4⟩ := hi.closed x hx
  have hmem : ∀ f ∈ x.2, f.type = x.1.flitType := by
    intro f hf
    have : f ∈ ofClass c x.1 acc := by
      rw [hi.stream x.1 h4]
      refine List.mem_append_left _ (List.mem_flatten.2 ⟨x.2, ?_, hf⟩)
      exact List.mem_map.2 ⟨x, List.mem_filter.2 ⟨hx, by simp⟩, rfl⟩
    obtain ⟨g, hg, rfl⟩ := List.mem_map.1 this
    obtain ⟨hg1, hg2⟩ := List.mem_filter.1 hg
    exact ht g hg1 x.1 (by simpa using hg2)
  cases hp : x.2 with
  | nil => rw [h1] at hp; simp at hp
  | cons f fs =>
    rw [hp] at hmem
    obtain ⟨m, v, d⟩ := c
    exact mem_types_flitType h4 (hmem f (by simp))

/-- A quiet event. -/
theorem quiet_step {c : Cfg} {s : State} {h : Hist} {made : List (MmType × List ScFlit)} {pres : List (List ScFlit)}
    (hi : All c s h made pres) (hm : Mapped c h.accepted) (e : Event) (hq : Quiet e) :
    ∃ s' h' made' pres', step c s h e = (h', .ok s') ∧ h'.accepted = h.accepted ∧ All c s' h' made' pres' ∧
      (load s' < load s ∨ Same s s') := by
  have hacc : (step c s h e).1.accepted = h.accepted := by
    cases e with
    | noc a =>
      have : a = none := hq
      subst this
      unfold step
      dsimp only
      cases s.held <;> simp
    | adapter b =>
      unfold step
      dsimp only
      split <;> rfl
    | node r => rfl
    | tick => rfl
  obtain ⟨s', made', pres', h1, h2, -⟩ := step_all hi e (by rw [hacc]; exact hm)
  refine ⟨s', _, made', pres', h1, hacc, h2, ?_⟩
  have h1' : (step c s h e).2 = .ok s' := by rw [h1]
  cases e with
  | noc a =>
    have : a = none := hq
    rcases (load_eject (show ejectStep c s a = .ok s' from h1')).2 this with g | g
    · exact .inl g
    · exact .inr g.1
  | adapter b =>
    unfold step at h1'
    dsimp only at h1'
    split at h1'
    · cases h1'
    · rename_i hd
      cases h1'
      exact load_depack hd
  | node r => exact load_out (show outStep c s r = .ok s' from h1')
  | tick =>
    cases h1'
    exact .inr ⟨rfl, rfl, rfl, rfl, rfl, id⟩

/-- A quiet run. -/
theorem quiet_run {c : Cfg} (es : List Event) : ∀ {s : State} {h : Hist} {made : List (MmType × List ScFlit)}
    {pres : List (List ScFlit)}, All c s h made pres → Mapped c h.accepted → (∀ e ∈ es, Quiet e) →
    ∃ s' h' made' pres', run c s h es = (h', .ok s') ∧ h'.accepted = h.accepted ∧ All c s' h' made' pres' ∧
      (load s' < load s ∨ Same s s') := by
  induction es with
  | nil =>
    intro s h made pres hi _ _
    exact ⟨s, h, made, pres, rfl, rfl, hi, .inr (Same.refl s)⟩
  | cons e es ih =>
    intro s h made pres hi hm hq
    obtain ⟨s1, h1, m1, p1, g1, g2, g3, g4⟩ := quiet_step hi hm e (hq e (by simp))
    obtain ⟨s2, h2, m2, p2, k1, k2, k3, k4⟩ := ih g3 (g2 ▸ hm) (fun x hx => hq x (by simp [hx]))
    refine ⟨s2, h2, m2, p2, (run_cons es g1).trans k1, k2.trans g2, k3, ?_⟩
    rcases g4 with g | g
    · rcases k4 with k | k
      · exact .inl (Nat.lt_trans k g)
      · left; rw [load_same k]; exact g
    · rcases k4 with k | k
      · left; rw [load_same g] at k; exact k
      · exact .inr (g.trans k)

/-- The search finds a FIFO with a packet. -/
theorem search_finds (s : State) (n : Nat) : ∀ (l : List MmType), (∃ i < n + 1, ∃ h : i < l.length, s.pop l[i] < s.push l[i]) →
    complete s (search s n l) = true := by
  induction n with
  | zero =>
    rintro l ⟨i, hi, hl, h⟩
    have : i = 0 := by omega
    subst this
    cases l with
    | nil => simp at hl
    | cons x l => simpa [search, complete] using h
  | succ n ih =>
    rintro l ⟨i, hi, hl, h⟩
    unfold search
    split
    · assumption
    · rename_i hc
      apply ih
      cases l with
      | nil => simp at hl
      | cons x l =>
        cases i with
        | zero => exact absurd (by simpa [complete] using h) hc
        | succ i =>
          simp only [List.length_cons] at hl
          refine ⟨i, by omega, by simp [rot]; omega, ?_⟩
          have : (rot (x :: l))[i]'(by simp [rot]; omega) = l[i] := by
            simp only [rot]
            rw [List.getElem_append_left (by omega)]
          rw [this]
          simpa using h

/-- An adapter edge takes a flit when there is a packet and room. -/
theorem adapter_progress {c : Cfg} {s s' : State} {v : List Nat} {acc : List BsFlit}
    {made : List (MmType × List ScFlit)} {b : Bool} (hi : FInv c s acc made) (hpush : s.push = s.pushNext)
    (hout : s.outq = []) {k : MmType} {f : ScFlit} (hf : f ∈ s.fifos k) (ht : f.tail = true) (hk : k ∈ c.types)
    (h : depackStep c s b = .ok (s', v)) : load s' < load s := by
  have key : ∀ t : State, load t = load s → t.outq = [] → FInv c t acc made → t.pop = s.pop → t.push = s.pushNext →
      (if t.depack then popPhase t else popPhase { t with prio := search t c.types.length t.prio }) = .ok (s', v) →
      load s' < load s := by
    intro t hl ho hit hpop hpu ht'
    have fin : ∀ u : State, load u = load s → u.outq = [] → complete u u.prio = true → popPhase u = .ok (s', v) →
        load s' < load s := by
      intro u hlu hou hcu hu
      rw [← hlu]
      unfold popPhase at hu
      cases hp : u.prio with
      | nil => rw [hp] at hcu; simp [complete] at hcu
      | cons j js =>
        rw [hp] at hu hcu
        dsimp only at hu
        rw [if_pos (by simpa [complete] using hcu), if_pos (by rw [hou]; decide)] at hu
        cases hfj : u.fifos j with
        | nil => rw [hfj] at hu; cases hu
        | cons g rest =>
          rw [hfj] at hu
          have := stored_put u.fifos j rest
          rw [hfj, List.length_cons] at this
          dsimp only at hu
          split at hu
          · split at hu
            · cases hu; simp [load, stored]; omega
            · cases hu
          · cases hu; simp [load, stored]; omega
    by_cases hd : t.depack = true
    · rw [if_pos hd] at ht'
      obtain ⟨j, js, h1, h2⟩ := hit.busy hd
      exact fin t hl ho (by rw [h1]; simpa [complete] using h2) ht'
    · rw [if_neg hd] at ht'
      refine fin { t with prio := search t c.types.length t.prio } hl ho ?_ ht'
      show complete t (search t c.types.length t.prio) = true
      apply search_finds
      have hlt : t.pop k < t.push k := by
        rw [hpop, hpu, hi.cnt k]
        have : 0 < (s.fifos k).countP fun f => f.tail := List.countP_pos_iff.2 ⟨f, hf, ht⟩
        omega
      have hkm : k ∈ t.prio := hit.prio.symm.subset hk
      obtain ⟨i, hi', he⟩ := List.getElem_of_mem hkm
      refine ⟨i, ?_, hi', by rw [he]; exact hlt⟩
      have := hit.prio.length_eq
      omega
  cases b with
  | false => exact key s rfl hout hi rfl hpush h
  | true => exact key { s with push := s.pushNext } rfl hout hi.commit rfl rfl h

/-- A node edge takes a packet. -/
theorem node_progress {c : Cfg} {s s' : State} {h : Hist} {made : List (MmType × List ScFlit)} {pres : List (List ScFlit)}
    (hi : All c s h made pres) (hty : Typed c h.accepted) {r : MmType → Bool} (hr : ∀ k, r k = true)
    (hne : s.cur ≠ none ∨ s.outq ≠ []) (ho : outStep c s r = .ok s') : load s' < load s := by
  obtain ⟨h1, h2, -⟩ := load_taken s
  have hord := hi.1.2.order
  rw [List.append_assoc, ← taken_eq, ← List.append_assoc] at hord
  rw [outStep_eq] at ho
  rcases ht : taken s with ⟨_ | p, q⟩
  · have := h2 hne
    rw [ht] at this
    exact absurd rfl this
  · rw [ht] at ho hord h1
    have hmem : p ∈ made.map (·.2) := by rw [hord]; simp
    obtain ⟨x, hx, rfl⟩ := List.mem_map.1 hmem
    obtain ⟨b, hb, -⟩ := made_beat hi.1.1 hty hx
    cases hx2 : x.2 with
    | nil => rw [hx2] at hb; simp [beatOf] at hb
    | cons f fs =>
      rw [hx2] at ho hb
      dsimp only at ho
      rw [hb] at ho
      dsimp only at ho
      rw [if_pos (hr _)] at ho
      cases ho
      simp [load, stored] at h1 ⊢
      omega

/-- A NoC edge, then an adapter edge, then a node edge, and any quiet events around them. -/
def Round (es : List Event) : Prop := (∀ e ∈ es, Quiet e) ∧
  ∃ a b d e x r, es = a ++ .noc none :: (b ++ .adapter x :: (d ++ .node r :: e))

/-- A round gets something done. -/
theorem round_progress {c : Cfg} {s : State} {h : Hist} {made : List (MmType × List ScFlit)} {pres : List (List ScFlit)}
    (hi : All c s h made pres) (hm : Mapped c h.accepted) (hty : Typed c h.accepted) (hsh : Short c h.accepted)
    {es : List Event} (hr : Round es) :
    ∃ s' h' made' pres', run c s h es = (h', .ok s') ∧ h'.accepted = h.accepted ∧ All c s' h' made' pres' ∧
      (load s' < load s ∨ (Final c s ∧ Same s s')) := by
  obtain ⟨hq, a, b, d, e, x, r, rfl⟩ := hr
  have q1 : ∀ y ∈ a, Quiet y := fun y hy => hq y (by simp [hy])
  have q2 : ∀ y ∈ b, Quiet y := fun y hy => hq y (by simp [hy])
  have q3 : ∀ y ∈ d, Quiet y := fun y hy => hq y (by simp [hy])
  have q4 : ∀ y ∈ e, Quiet y := fun y hy => hq y (by simp [hy])
  have qr : Quiet (.node r) := hq _ (by simp)
  -- the stages
  obtain ⟨s1, h1, m1, p1, a1, b1, c1, d1⟩ := quiet_run a hi hm q1
  have hm1 := b1 ▸ hm
  obtain ⟨s2, h2, m2, p2, a2, b2, c2, d2⟩ := quiet_step c1 hm1 (.noc none) rfl
  have hm2 := b2 ▸ hm1
  obtain ⟨s3, h3, m3, p3, a3, b3, c3, d3⟩ := quiet_run b c2 hm2 q2
  have hm3 := b3 ▸ hm2
  obtain ⟨s4, h4, m4, p4, a4, b4, c4, d4⟩ := quiet_step c3 hm3 (.adapter x) trivial
  have hm4 := b4 ▸ hm3
  obtain ⟨s5, h5, m5, p5, a5, b5, c5, d5⟩ := quiet_run d c4 hm4 q3
  have hm5 := b5 ▸ hm4
  obtain ⟨s6, h6, m6, p6, a6, b6, c6, d6⟩ := quiet_step c5 hm5 (.node r) qr
  have hm6 := b6 ▸ hm5
  obtain ⟨s7, h7, m7, p7, a7, b7, c7, d7⟩ := quiet_run e c6 hm6 q4
  have hacc5 : h5.accepted = h.accepted := by rw [b5, b4, b3, b2, b1]
  refine ⟨s7, h7, m7, p7, ?_, ?_, c7, ?_⟩
  · rw [run_append c a _ a1, run_cons _ a2, run_append c b _ a3, run_cons _ a4, run_append c d _ a5, run_cons _ a6, a7]
  · rw [b7, b6, hacc5]
  -- progress in a stage is progress
  have le : ∀ {s t : State}, (load t < load s ∨ Same s t) → load t ≤ load s := by
    intro s t hd
    rcases hd with hd | hd
    · exact Nat.le_of_lt hd
    · exact Nat.le_of_eq (load_same hd)
  have l1 := le d1
  have l2 := le d2
  have l3 := le d3
  have l4 := le d4
  have l5 := le d5
  have l6 := le d6
  have l7 := le d7
  by_cases hno : load s7 < load s
  · exact .inl hno
  · right
    have e1 := d1.resolve_left (by omega)
    have e2 := d2.resolve_left (by omega)
    have e3 := d3.resolve_left (by omega)
    have e4 := d4.resolve_left (by omega)
    have e5 := d5.resolve_left (by omega)
    have e6 := d6.resolve_left (by omega)
    have e7 := d7.resolve_left (by omega)
    refine ⟨?_, ((((((e1.trans e2).trans e3).trans e4).trans e5).trans e6).trans e7)⟩
    -- nothing is left at the port
    have hport : s.outq = [] ∧ s.cur = none := by
      by_cases hne : s.cur ≠ none ∨ s.outq ≠ []
      · exfalso
        have e := (((e1.trans e2).trans e3).trans e4).trans e5
        have ho : outStep c s5 r = .ok s6 := by
          have := congrArg Prod.snd a6
          exact this
        have := node_progress c5 (hacc5 ▸ hty) qr (by rw [e.cur, e.outq]; exact hne) ho
        omega
      · simp only [ne_eq, not_or, Classical.not_not] at hne
        exact ⟨hne.2, hne.1⟩
    -- no packet is in a FIFO
    have hpush : s2.push = s2.pushNext := by
      have he : ejectStep c s1 none = .ok s2 := congrArg Prod.snd a2
      rcases (load_eject he).2 rfl with g | g
      · omega
      · exact g.2
    have htail : ∀ k ∈ c.types, ∀ f ∈ s.fifos k, f.tail = false := by
      intro k hk f hf
      cases hft : f.tail with
      | false => rfl
      | true =>
        exfalso
        have e := (e1.trans e2).trans e3
        have hd : ∃ v, depackStep c s3 x = .ok (s4, v) := by
          have := a4
          unfold step at this
          dsimp only at this
          split at this
          · cases this
          · rename_i t v ht
            cases this
            exact ⟨v, ht⟩
        obtain ⟨v, hd⟩ := hd
        have := adapter_progress c3.1.1 (e3.push hpush) (by rw [e.outq]; exact hport.1)
          (k := k) (f := f) (by rw [e.fifos]; exact hf) hft hk hd
        omega
    refine ⟨?_, htail, hport.1, hport.2⟩
    -- nothing is held
    cases hh : s.held with
    | none => rfl
    | some f =>
      exfalso
      obtain ⟨k, hk⟩ := Option.isSome_iff_exists.1 (hi.1.1.heldVc f hh)
      have hkt := classOf_mem hk
      have hst := hi.1.1.stream k hkt
      have hlen : (s.fifos k).length < c.depth := by
        refine hsh k hkt ((madeOf k made).flatten ++ (if s.prio.head? = some k then s.pkt else [])) (s.fifos k)
          (ofClass c k s.held.toList) ?_ (htail k hkt)
        rw [hst]
        simp only [inside, List.append_assoc]
      have he : ejectStep c s1 none = .ok s2 := congrArg Prod.snd a2
      rw [ejectStep_eq, inHand, e1.held, hh] at he
      dsimp only at he
      rw [hk] at he
      dsimp only at he
      rw [e1.fifos, if_pos hlen] at he
      cases he
      have := e2.held
      rw [e1.held, hh] at this
      cases this

/-! ## the end -/

/-- With nothing left, quiet events change nothing, and a node edge ends the last beat. -/
theorem final_step {c : Cfg} {s s' : State} {h h' : Hist} {acc : List BsFlit} {made : List (MmType × List ScFlit)}
    (hi : FInv c s acc made) (hf : Final c s) {e : Event} (hq : Quiet e) (he : step c s h e = (h', .ok s')) :
    Final c s' ∧ (s.port = none ∨ (∃ r, e = .node r) → s'.port = none) := by
  cases e with
  | noc a =>
    have : a = none := hq
    subst this
    have he : ejectStep c s none = .ok s' := congrArg Prod.snd he
    rw [ejectStep_eq, inHand, hf.held] at he
    cases he
    exact ⟨⟨rfl, hf.tails, hf.outq, hf.cur⟩, by rintro (h | ⟨r, h⟩); exacts [h, by cases h]⟩
  | adapter b =>
    have hz : ∀ k ∈ c.types, ¬ s.pop k < s.pushNext k := by
      intro k hk
      have : (s.fifos k).countP (fun f => f.tail) = 0 :=
        List.countP_eq_zero.2 fun f hf' => by simp [hf.tails k hk f hf']
      rw [hi.cnt k, this]
      omega
    have key : ∀ t : State, Final c t → t.port = s.port → t.prio.Perm c.types → (∀ k ∈ c.types, ¬ t.pop k < t.push k) →
        ∀ v, (if t.depack then popPhase t else popPhase { t with prio := search t c.types.length t.prio }) = .ok (s', v) →
        Final c s' ∧ s'.port = s.port := by
      intro t hft hpt hperm hzt v ht
      have fin : ∀ u : State, Final c u → u.port = s.port → u.prio.Perm c.types → (∀ k ∈ c.types, ¬ u.pop k < u.push k) →
          popPhase u = .ok (s', v) → Final c s' ∧ s'.port = s.port := by
        intro u hu hpu hpe hzu ho
        unfold popPhase at ho
        split at ho
        · cases ho; exact ⟨hu, hpu⟩
        · rename_i k ks hp
          rw [if_neg (hzu k (hpe.subset (by rw [hp]; simp)))] at ho
          cases ho; exact ⟨hu, hpu⟩
      by_cases hd : t.depack = true
      · rw [if_pos hd] at ht
        exact fin t hft hpt hperm hzt ht
      · rw [if_neg hd] at ht
        exact fin { t with prio := search t c.types.length t.prio } ⟨hft.held, hft.tails, hft.outq, hft.cur⟩ hpt
          ((search_perm _ _ _).trans hperm) hzt ht
    have hd : ∃ v, depackStep c s b = .ok (s', v) := by
      unfold step at he
      dsimp only at he
      split at he
      · cases he
      · rename_i t v ht
        cases he
        exact ⟨v, ht⟩
    obtain ⟨v, hd⟩ := hd
    have : Final c s' ∧ s'.port = s.port := by
      cases b with
      | false => exact key s hf rfl hi.prio (fun k hk h' => hz k hk (Nat.lt_of_lt_of_le h' (hi.le k))) v hd
      | true => exact key { s with push := s.pushNext } ⟨hf.held, hf.tails, hf.outq, hf.cur⟩ rfl hi.prio hz v hd
    exact ⟨this.1, by rintro (h | ⟨r, h⟩); exacts [this.2.trans h, by cases h]⟩
  | node r =>
    have he : outStep c s r = .ok s' := congrArg Prod.snd he
    rw [outStep_eq, taken, hf.cur, hf.outq] at he
    cases he
    exact ⟨⟨hf.held, hf.tails, rfl, rfl⟩, fun _ => rfl⟩
  | tick =>
    have he : Except.ok { s with credit := none } = Except.ok s' := congrArg Prod.snd he
    cases he
    exact ⟨⟨hf.held, hf.tails, hf.outq, hf.cur⟩, by rintro (h | ⟨r, h⟩); exacts [h, by cases h]⟩

theorem final_run {c : Cfg} (es : List Event) : ∀ {s : State} {h : Hist} {made : List (MmType × List ScFlit)}
    {pres : List (List ScFlit)}, All c s h made pres → Mapped c h.accepted → Final c s → (∀ e ∈ es, Quiet e) →
    ∃ s' h' made' pres', run c s h es = (h', .ok s') ∧ h'.accepted = h.accepted ∧ All c s' h' made' pres' ∧ Final c s' ∧
      (s.port = none ∨ (∃ r, Event.node r ∈ es) → s'.port = none) := by
  induction es with
  | nil =>
    intro s h made pres hi _ hf _
    exact ⟨s, h, made, pres, rfl, rfl, hi, hf, by rintro (h | ⟨r, h⟩); exacts [h, by cases h]⟩
  | cons e es ih =>
    intro s h made pres hi hm hf hq
    obtain ⟨s1, h1, m1, p1, g1, g2, g3, -⟩ := quiet_step hi hm e (hq e (by simp))
    obtain ⟨f1, f2⟩ := final_step hi.1.1 hf (hq e (by simp)) g1
    obtain ⟨s2, h2, m2, p2, k1, k2, k3, k4, k5⟩ := ih g3 (g2 ▸ hm) f1 (fun x hx => hq x (by simp [hx]))
    refine ⟨s2, h2, m2, p2, (run_cons es g1).trans k1, k2.trans g2, k3, k4, ?_⟩
    rintro (hp | ⟨r, hr⟩)
    · exact k5 (.inl (f2 (.inl hp)))
    · rcases List.mem_cons.1 hr with hr | hr
      · exact k5 (.inl (f2 (.inr ⟨r, hr.symm⟩)))
      · exact k5 (.inr ⟨r, hr⟩)

/-- Enough rounds. -/
theorem drain {c : Cfg} (rs : List (List Event)) : ∀ {s : State} {h : Hist} {made : List (MmType × List ScFlit)}
    {pres : List (List ScFlit)}, All c s h made pres → Mapped c h.accepted → Typed c h.accepted → Short c h.accepted →
    (∀ r ∈ rs, Round r) → load s < rs.length →
    ∃ s' h' made' pres', run c s h rs.flatten = (h', .ok s') ∧ h'.accepted = h.accepted ∧ All c s' h' made' pres' ∧
      Final c s' ∧ s'.port = none := by
  induction rs with
  | nil => intro s h made pres _ _ _ _ _ hl; simp at hl
  | cons r rs ih =>
    intro s h made pres hi hm hty hsh hr hl
    have hround := hr r (by simp)
    by_cases hf : Final c s
    · obtain ⟨s', h', made', pres', a1, a2, a3, a4, a5⟩ := final_run (r :: rs).flatten hi hm hf (by
        intro e he
        obtain ⟨l, hl1, hl2⟩ := List.mem_flatten.1 he
        exact (hr l hl1).1 e hl2)
      refine ⟨s', h', made', pres', a1, a2, a3, a4, a5 (.inr ?_)⟩
      obtain ⟨-, a, b, d, e, x, y, rfl⟩ := hround
      exact ⟨y, by simp⟩
    · obtain ⟨s1, h1, m1, p1, a1, a2, a3, a4⟩ := round_progress hi hm hty hsh hround
      have hlt := a4.resolve_right (fun g => hf g.1)
      obtain ⟨s', h', made', pres', b1, b2, b3, b4⟩ := ih a3 (a2 ▸ hm) (a2 ▸ hty) (a2 ▸ hsh)
        (fun x hx => hr x (by simp [hx])) (by simp at hl; omega)
      refine ⟨s', h', made', pres', ?_, b2.trans a2, b3, b4⟩
      rw [List.flatten_cons, run_append c r _ a1, b1]

/-- In the end every complete packet has been shown. -/
theorem final_shown {c : Cfg} {s : State} {h : Hist} {made : List (MmType × List ScFlit)} {pres : List (List ScFlit)}
    (hi : All c s h made pres) (hf : Final c s) (hp : s.port = none) :
    (∀ k ∈ c.types, whole (·.tail) (ofClass c k h.accepted) = madeOf k made) ∧
    made.map (fun x => beatOf c.master x.2) = h.shown.map fun x => some x.1 := by
  constructor
  · intro k hk
    have hst := hi.1.1.stream k hk
    rw [hst]
    apply whole_closed
    · intro p hp'
      obtain ⟨x, hx, rfl⟩ := List.mem_map.1 hp'
      exact (hi.1.1.closed x (List.mem_of_mem_filter hx)).1
    · intro f hf'
      rw [inside, hf.held] at hf'
      simp only [ofClass, Option.toList_none, List.filter_nil, List.map_nil, List.append_nil, List.mem_append] at hf'
      rcases hf' with hf' | hf'
      · split at hf'
        · exact hi.1.1.open_ f hf'
        · cases hf'
      · exact hf.tails k hk f hf'
  · have h1 := hi.1.2.order
    rw [hf.cur, hf.outq] at h1
    have h2 := hi.1.2.beats
    rw [hp] at h2
    simp only [Option.toList_none, List.append_nil, List.map_map] at h1 h2
    rw [← h1] at h2
    simpa [List.map_map, Function.comp_def] using h2

end RadSim.MmSink
