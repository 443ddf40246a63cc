import Verif.Lemmas.RouterIn

/-! # The second phase of a tick: evaluation -/

namespace RadSim.Router

variable {δ σ τ ρ ρ' : Type}

theorem Fresh.takeWhile {l : List Wait} (h : Fresh l) : l.takeWhile Wait.fresh = l := by
  induction l with
  | nil => rfl
  | cons w l ih =>
    have hw : w.fresh = true := by simp [Wait.fresh, (h w (by simp)).1]
    rw [List.takeWhile_cons_of_pos hw, ih fun w hw => h w (by simp [hw])]

theorem Fresh.dropWhile {l : List Wait} (h : Fresh l) : l.dropWhile Wait.fresh = [] := by
  induction l with
  | nil => rfl
  | cons w l ih =>
    have hw : w.fresh = true := by simp [Wait.fresh, (h w (by simp)).1]
    rw [List.dropWhile_cons_of_pos hw, ih fun w hw => h w (by simp [hw])]

theorem done_map {l : List (Pass δ)} (h : Done l) : Closed Flit.tail (l.map Pass.f) := by
  intro a ha
  rw [List.getLast?_map] at ha
  obtain ⟨b, hb, rfl⟩ := Option.map_eq_some_iff.1 ha
  exact h b hb

theorem VcInv.front_head {c : Cfg} {s : R δ σ τ} {g : G δ} {i v : Nat} (h : VcInv c s g i v) {f : Flit δ}
    {q : List (Flit δ)} (hq : (s.vcs i v).q = f :: q) (hd : Done (passedFrom g.log i v)) : f.head = true := by
  have hp := h.pk
  rw [← h.recv, hq] at hp
  exact Fits.head_of_closed (done_map hd) (packets_fits hp)

theorem VcInv.front_vc {c : Cfg} {s : R δ σ τ} {g : G δ} {i v : Nat} (h : VcInv c s g i v) {f : Flit δ}
    (hq : f ∈ (s.vcs i v).q) : f.vc = v := by
  apply h.vc
  rw [← h.recv]
  simp [hq]

theorem VcInv.frontOk {c : Cfg} {s : R δ σ τ} {g : G δ} {i v : Nat} {st : St} (h : VcInv c s g i v)
    (hs : (s.vcs i v).st = st) (hst : st = .routing ∨ st = .vcAlloc ∨ st = .active ∧ (s.vcs i v).q ≠ []) :
    frontOk c s i v st = true := by
  have hr := h.range (by rw [hs]; rcases hst with rfl | rfl | ⟨rfl, _⟩ <;> simp)
  have hne : (s.vcs i v).q ≠ [] := by
    rcases hst with rfl | rfl | hst
    · exact (h.pre (.inl hs)).1
    · exact (h.pre (.inr hs)).1
    · exact hst.2
  unfold Router.frontOk
  cases hq : (s.vcs i v).q with
  | nil => exact absurd hq hne
  | cons f q =>
    have hvc := h.front_vc (f := f) (by simp [hq])
    simp only [hr.1, hr.2, hs, hvc, decide_true, Bool.true_and]
    rcases hst with rfl | rfl | hst
    · rw [h.front_head hq (h.pre (.inl hs)).2]; rfl
    · rw [h.front_head hq (h.pre (.inr hs)).2]; rfl
    · simp [hst.1]

theorem Inv.mem_rq {c : Cfg} {s : R δ σ τ} {g : G δ} {rq va sa : List (Nat × Nat)} (h : Inv c s g rq va sa) {i v : Nat}
    (hm : (i, v) ∈ rq) : Router.frontOk c s i v .routing = true :=
  (h.vc i v).frontOk ((h.q.rqM i v).1 hm) (.inl rfl)

theorem Inv.mem_va {c : Cfg} {s : R δ σ τ} {g : G δ} {rq va sa : List (Nat × Nat)} (h : Inv c s g rq va sa) {i v : Nat}
    (hm : (i, v) ∈ va) : Router.frontOk c s i v .vcAlloc = true :=
  (h.vc i v).frontOk ((h.q.vaM i v).1 hm) (.inr (.inl rfl))

theorem Inv.mem_sa {c : Cfg} {s : R δ σ τ} {g : G δ} {rq va sa : List (Nat × Nat)} (h : Inv c s g rq va sa) {i v : Nat}
    (hm : (i, v) ∈ sa) : Router.frontOk c s i v .active = true :=
  (h.vc i v).frontOk ((h.q.saM i v).1 hm).1 (.inr (.inr ⟨rfl, ((h.q.saM i v).1 hm).2⟩))

theorem mem_key {l : List Wait} {w : Wait} (h : w ∈ l) : (w.i, w.v) ∈ l.map Wait.key :=
  List.mem_map.2 ⟨w, h, rfl⟩

/-- The invariant does not look at the queues, the allocators and the round robin pointers. -/
theorem Inv.frame {c : Cfg} {s : R δ σ τ} {g : G δ} {rq va sa : List (Nat × Nat)} (h : Inv c s g rq va sa)
    (q1 q2 q3 : List Wait) (a : σ) (b : τ) (rr : Nat → Nat) (act : Bool) :
    Inv c { s with routeQ := q1, vaQ := q2, saQ := q3, va := a, sa := b, rr := rr, active := act } g rq va sa := by
  refine ⟨?_, ?_, ?_, ?_⟩
  · intro i v
    have h' := h.vc i v
    refine ⟨h'.range, h'.recv, h'.vc, h'.pk, h'.expC, h'.expO, h'.fromPk, h'.idle, h'.pre, h'.hops, ?_, h'.len⟩
    intro e
    obtain ⟨o, u, e1, h3⟩ := h'.act e
    exact ⟨o, u, e1, ⟨h3.o_lt, h3.u_lt, h3.use, h3.link⟩⟩
  · intro o u
    have h' := h.out o u
    exact ⟨h'.toPk, h'.free, h'.own, h'.occ, h'.le⟩
  · have h' := h.port
    exact ⟨h'.routed, h'.stream, h'.buf, h'.cred, h'.occ, h'.xb, h'.pendOk, h'.logOk, h'.crN⟩
  · exact ⟨h.q.rqN, h.q.rqM, h.q.vaN, h.q.vaM, h.q.saN, h.q.saM⟩

/-- The queue with the time of the tick. -/
def stamp (now : Int) (l : List Wait) : List Wait := l.map fun w => { w with time := now }

theorem stamp_key (now : Int) (l : List Wait) : (stamp now l).map Wait.key = l.map Wait.key := by
  simp only [stamp, List.map_map]; rfl

theorem routeEval_ok {c : Cfg} (hc : c.Ok) (now : Int) {s : R δ σ τ} {g : G δ} {va sa : List (Nat × Nat)}
    (h : Inv c s g (s.routeQ.map Wait.key) va sa) (hf : Fresh s.routeQ) :
    routeEval c now s = .ok { s with routeQ := stamp now s.routeQ } := by
  unfold routeEval
  simp only [hf.takeWhile, hf.dropWhile, List.append_nil]
  rw [require_pos]
  · simp only [stamp, hc.route, Int.add_sub_cancel]
  · rw [List.all_eq_true]
    intro w hw
    exact h.mem_rq (mem_key hw)

/-! ## Allocation of virtual channels -/

open Alloc in
theorem holds_round {C : Alloc.Cls σ ρ} {I O : Nat} {a : σ} {P : List Ask → Match → Prop} (h : Holds C I O a P)
    {l : List Ask} (hl : Asks I O l) (call : Bool) (x : ρ) :
    ∃ a' m, round C a l call x = some (a', m) ∧ P l m ∧ Holds C I O a' P := by
  obtain ⟨s', ms, h1, h2⟩ := h [(l, call, x)] (by simpa using hl)
  simp only [rounds] at h1
  cases hr : round C a l call x with
  | none => simp [hr] at h1
  | some y =>
    obtain ⟨a', m⟩ := y
    simp only [hr, Option.map_some, Option.some.injEq, Prod.mk.injEq] at h1
    obtain ⟨rfl, rfl⟩ := h1
    cases h2 with
    | cons hp _ =>
      refine ⟨a', m, rfl, hp, ?_⟩
      intro hist hh
      obtain ⟨s'', ms, k1, k2⟩ := h ((l, call, x) :: hist) (by
        intro y hy
        rcases List.mem_cons.1 hy with rfl | hy
        · exact hl
        · exact hh y hy)
      simp only [rounds, hr] at k1
      cases hr2 : rounds C a' hist with
      | none => simp [hr2] at k1
      | some z =>
        obtain ⟨b, ms'⟩ := z
        simp only [hr2, Option.map_some, Option.some.injEq, Prod.mk.injEq] at k1
        obtain ⟨rfl, rfl⟩ := k1
        cases k2 with
        | cons _ k2 => exact ⟨b, ms', rfl, k2⟩

/-- What holds for entries of the queue of VC allocation after evaluation. -/
structure VaGrants (c : Cfg) (s : R δ σ τ) (g : G δ) (now : Int) (l : List Wait) : Prop where
  time : ∀ w ∈ l, w.time = now
  res : ∀ w ∈ l, w.res ≠ .pending
  got : ∀ w ∈ l, ∀ ow, w.res = .got ow → ow / c.vcs < c.outputs ∧
    (s.next (ow / c.vcs)).inUse (ow % c.vcs) < 0 ∧
    ∀ f, (s.vcs w.i w.v).q.head? = some f → g.may w.i f (ow / c.vcs) (ow % c.vcs)
  distinct : l.Pairwise fun a b => ∀ x y, a.res = .got x → b.res = .got y → x ≠ y

/-- The numbers of a port and a virtual channel. -/
theorem number_div {V o u : Nat} (h : u < V) : (o * V + u) / V = o ∧ (o * V + u) % V = u := by
  refine ⟨?_, ?_⟩
  · rw [Nat.add_comm, Nat.add_mul_div_right _ _ (by omega), Nat.div_eq_of_lt h]; omega
  · rw [Nat.add_comm, Nat.add_mul_mod_self_right, Nat.mod_eq_of_lt h]

theorem number_lt {V P o u : Nat} (h1 : o < P) (h2 : u < V) : o * V + u < P * V := by
  have : (o + 1) * V ≤ P * V := Nat.mul_le_mul_right V h1
  rw [Nat.add_mul] at this
  omega

theorem mem_outVcs {h : Hop} {u : Nat} (hle : h.vcStart ≤ h.vcEnd) : u ∈ outVcs h ↔ h.vcStart ≤ u ∧ u ≤ h.vcEnd := by
  simp only [outVcs, List.mem_range'_1]
  omega

theorem mem_vaAsks {c : Cfg} {s : R δ σ τ} {i v : Nat} {a : Alloc.Ask} (h : a ∈ vaAsks c s i v) :
    a.i = i * c.vcs + v ∧ ∃ p ∈ (s.vcs i v).route, ∃ u ∈ outVcs p, a.o = p.port * c.vcs + u ∧
      (s.next p.port).inUse u < 0 := by
  simp only [vaAsks, List.mem_flatMap, List.mem_map, List.mem_filter] at h
  obtain ⟨p, hp, u, ⟨hu, hav⟩, rfl⟩ := h
  exact ⟨rfl, p, hp, u, hu, rfl, by simpa [BufState.isAvailableFor] using hav⟩

theorem vaAsks_nodup {c : Cfg} {s : R δ σ τ} {g : G δ} {i v : Nat} (h : RouteOk c g i (s.vcs i v)) :
    (pairs (vaAsks c s i v)).Nodup := by
  have h1 : (pairs (vaAsks c s i v)).Sublist ((routePairs (s.vcs i v).route).map fun x =>
      (i * c.vcs + v, x.1 * c.vcs + x.2)) := by
    simp only [pairs, vaAsks, routePairs, List.map_flatMap]
    generalize (s.vcs i v).route = l
    induction l with
    | nil => simp
    | cons p l ih =>
      simp only [List.flatMap_cons]
      refine List.Sublist.append ?_ ih
      simp only [List.map_map]
      exact List.Sublist.map _ List.filter_sublist
  refine List.Nodup.sublist h1 ?_
  refine List.Nodup.map_on ?_ h.once
  rintro ⟨o1, u1⟩ hx ⟨o2, u2⟩ hy e
  have hlt : ∀ o u, (o, u) ∈ routePairs (s.vcs i v).route → u < c.vcs := by
    intro o u hm
    simp only [routePairs, List.mem_flatMap, List.mem_map, Prod.mk.injEq] at hm
    obtain ⟨p, hp, w, hw, _, rfl⟩ := hm
    have h1 := h.hop p hp
    have h2 := (mem_outVcs h1.2.1).1 hw
    omega
  simp only [Prod.mk.injEq, true_and] at e
  obtain ⟨rfl, rfl⟩ := number_inj (hlt _ _ hx) (hlt _ _ hy) e
  rfl

theorem pairs_append (l l' : List Alloc.Ask) : pairs (l ++ l') = pairs l ++ pairs l' := by simp [pairs]

theorem pairs_flatMap_nodup {c : Cfg} {s : R δ σ τ} {l : List Wait}
    (hk : (l.map Wait.key).Nodup) (hv : ∀ w ∈ l, w.v < c.vcs)
    (h : ∀ w ∈ l, (pairs (vaAsks c s w.i w.v)).Nodup) : (pairs (l.flatMap fun w => vaAsks c s w.i w.v)).Nodup := by
  induction l with
  | nil => simp [pairs]
  | cons w l ih =>
    simp only [List.flatMap_cons, pairs_append]
    simp only [List.map_cons, List.nodup_cons] at hk
    rw [List.nodup_append]
    refine ⟨h w (by simp), ih hk.2 (fun w hw => hv w (by simp [hw])) fun w hw => h w (by simp [hw]), ?_⟩
    intro x hx y hy
    simp only [pairs, List.mem_map, List.mem_flatMap] at hx hy
    obtain ⟨a, ha, rfl⟩ := hx
    obtain ⟨b, ⟨w', hw', hb⟩, rfl⟩ := hy
    intro e
    simp only [Prod.mk.injEq] at e
    rw [(mem_vaAsks ha).1, (mem_vaAsks hb).1] at e
    obtain ⟨e1, e2⟩ := number_inj (hv w (by simp)) (hv w' (by simp [hw'])) e.1
    apply hk.1
    have : w.key = w'.key := by simp [Wait.key, e1, e2]
    rw [this]
    exact List.mem_map.2 ⟨w', hw', rfl⟩

theorem vaEval_ok {k : Bool} {VA : Alloc.Cls σ ρ} {c : Cfg} (hc : c.Ok) (now : Int) (x : ρ) {s : R δ σ τ} {g : G δ}
    {rq sa : List (Nat × Nat)} (h : Inv c s g rq (s.vaQ.map Wait.key) sa) (hf : Fresh s.vaQ)
    (ha : Serves k VA (c.inputs * c.vcs) (c.outputs * c.vcs) s.va) :
    ∃ a q, vaEval VA c now x s = .ok { s with va := a, vaQ := q } ∧ q.map Wait.key = s.vaQ.map Wait.key ∧
      VaGrants c s g now q ∧
      Serves k VA (c.inputs * c.vcs) (c.outputs * c.vcs) a ∧
      (k = true → (∃ w ∈ s.vaQ, vaAsks c s w.i w.v ≠ []) → ∃ w ∈ q, ∃ o, w.res = .got o) := by
  have hst : ∀ w ∈ s.vaQ, (s.vcs w.i w.v).st = .vcAlloc := fun w hw => (h.q.vaM w.i w.v).1 (mem_key hw)
  have hr : ∀ w ∈ s.vaQ, w.i < c.inputs ∧ w.v < c.vcs := fun w hw =>
    (h.vc w.i w.v).range (by rw [hst w hw]; simp)
  have hro : ∀ w ∈ s.vaQ, RouteOk c g w.i (s.vcs w.i w.v) := fun w hw => (h.vc w.i w.v).hops (hst w hw)
  unfold vaEval
  simp only [hf.takeWhile, hf.dropWhile, List.append_nil, hc.va, Int.add_sub_cancel, if_pos (Int.le_refl 1)]
  rw [require_pos, require_pos]
  rotate_left
  · simp only [decide_eq_true_eq]
    exact pairs_flatMap_nodup h.q.vaN (fun w hw => (hr w hw).2) fun w hw => vaAsks_nodup (hro w hw)
  · rw [List.all_eq_true]
    intro w hw
    simp only [Bool.and_eq_true, decide_eq_true_eq, List.all_eq_true, hopOk]
    refine ⟨⟨h.mem_va (mem_key hw), (hf w hw).2⟩, ?_⟩
    intro p hp
    have := (hro w hw).hop p hp
    exact ⟨⟨⟨this.1, by omega⟩, this.2.2⟩, this.2.1⟩
  have hasks : Alloc.Asks (c.inputs * c.vcs) (c.outputs * c.vcs) (s.vaQ.flatMap fun w => vaAsks c s w.i w.v) := by
    intro a ham
    obtain ⟨w, hw, ham⟩ := List.mem_flatMap.1 ham
    obtain ⟨e1, p, hp, u, hu, e2, _⟩ := mem_vaAsks ham
    have hhop := (hro w hw).hop p hp
    have hu' := (mem_outVcs hhop.2.1).1 hu
    rw [e1, e2]
    exact ⟨number_lt (hr w hw).1 (hr w hw).2, number_lt hhop.1 (by omega)⟩
  obtain ⟨a', m, e, hv, ha'⟩ := holds_round ha hasks (!s.vaQ.isEmpty) x
  simp only [e]
  refine ⟨a', _, rfl, ?_, ?_, ha', ?_⟩
  rotate_right
  · rintro rfl ⟨w, hw, hne⟩
    have hasks0 : (s.vaQ.flatMap fun w => vaAsks c s w.i w.v) ≠ [] := by
      intro h0
      exact hne (List.flatMap_eq_nil_iff.1 h0 w hw)
    obtain ⟨i, o, hm⟩ := hv.2 rfl hasks0
    cases hs : Alloc.asked (s.vaQ.flatMap fun w => vaAsks c s w.i w.v) i o with
    | none => exact absurd hs (hv.1.2 _ _ hm)
    | some r =>
      obtain ⟨w2, hw2, hmem⟩ := List.mem_flatMap.1 (Alloc.asked_mem hs)
      have e1 := (mem_vaAsks hmem).1
      simp only at e1
      refine ⟨_, List.mem_map.2 ⟨w2, hw2, rfl⟩, o, ?_⟩
      simp only [vaRes]
      rw [if_neg (List.ne_nil_of_mem hmem), ← e1, hm]
  · simp only [List.map_map]; rfl
  · have hgot : ∀ w ∈ s.vaQ, ∀ ow, vaRes c s m w.i w.v = .got ow → m.inm (w.i * c.vcs + w.v) = some ow := by
      intro w hw ow e
      unfold vaRes at e
      split at e
      · cases e
      · cases hm : m.inm (w.i * c.vcs + w.v) <;> rw [hm] at e <;> simp_all
    refine ⟨?_, ?_, ?_, ?_⟩
    · intro w hw
      obtain ⟨w', _, rfl⟩ := List.mem_map.1 hw
      rfl
    · intro w hw
      obtain ⟨w', _, rfl⟩ := List.mem_map.1 hw
      simp only [vaRes]
      split
      · simp
      · split <;> simp
    · intro w hw ow e
      obtain ⟨w', hw', rfl⟩ := List.mem_map.1 hw
      have hm := hgot w' hw' ow e
      have hne := hv.1.2 _ _ hm
      cases hs : Alloc.asked (s.vaQ.flatMap fun w => vaAsks c s w.i w.v) (w'.i * c.vcs + w'.v) ow with
      | none => exact absurd hs hne
      | some r =>
        have hmem := Alloc.asked_mem hs
        obtain ⟨w2, hw2, hmem⟩ := List.mem_flatMap.1 hmem
        obtain ⟨e1, p, hp, u, hu, e2, hav⟩ := mem_vaAsks hmem
        simp only at e1 e2
        obtain ⟨e3, e4⟩ := number_inj (hr w' hw').2 (hr w2 hw2).2 e1
        have hhop := (hro w2 hw2).hop p hp
        have hu' := (mem_outVcs hhop.2.1).1 hu
        have hd := number_div (V := c.vcs) (o := p.port) (u := u) (by omega)
        rw [← e2] at hd
        rw [hd.1, hd.2]
        refine ⟨hhop.1, hav, ?_⟩
        intro f hfr
        simp only [e3, e4] at hfr ⊢
        exact (hro w2 hw2).may f hfr p hp u hu'.1 hu'.2
    · rw [List.pairwise_map]
      have hk := h.q.vaN
      rw [List.Nodup, List.pairwise_map] at hk
      refine List.Pairwise.imp_of_mem ?_ hk
      intro a b hma hmb hne x y e1 e2 hxy
      subst hxy
      have k1 := hgot a hma x e1
      have k2 := hgot b hmb x e2
      have k3 : (a.i * c.vcs + a.v) = (b.i * c.vcs + b.v) := by
        have := (hv.1.1 _ _).1 k1
        rw [(hv.1.1 _ _).1 k2] at this
        exact (Option.some.inj this).symm
      obtain ⟨e3, e4⟩ := number_inj (hr a hma).2 (hr b hmb).2 k3
      exact hne (by simp [Wait.key, e3, e4])

/-! ## Switch allocation -/

/-- What holds for entries of the queue of switch allocation after evaluation. -/
structure SaGrants (c : Cfg) (s : R δ σ τ) (now : Int) (l : List Wait) : Prop where
  time : ∀ w ∈ l, w.time = now
  got : ∀ w ∈ l, ∀ o, w.res = .got o → ∃ u, (s.vcs w.i w.v).out = some (o, u) ∧ (s.next o).vcOcc u < c.buf.perVc
  distinct : l.Pairwise fun a b => ∀ x y, a.res = .got x → b.res = .got y → x ≠ y

theorem mem_saAsk {c : Cfg} {rr : Nat → Nat} {l : List Alloc.Ask} {i v o : Nat} {a : Alloc.Ask}
    (h : a ∈ saAsk c rr l i v o) : a ∈ l ∨ a = ⟨i, o, ⟨v, 0, 0⟩⟩ := by
  unfold saAsk at h
  split at h
  · simpa using h
  · split at h
    · simpa using h
    · exact .inl h

theorem mem_saAsks {c : Cfg} {s : R δ σ τ} {t : List Wait} {l : List Alloc.Ask} {a : Alloc.Ask}
    (h : a ∈ saAsks c s l t) : a ∈ l ∨ ∃ w ∈ t, a.i = w.i ∧ a.rq.label = w.v ∧ ∃ u, (s.vcs w.i w.v).out = some (a.o, u) ∧
      blocked c s a.o u = false := by
  induction t generalizing l with
  | nil => exact .inl h
  | cons w t ih =>
    unfold saAsks at h
    cases ho : (s.vcs w.i w.v).out with
    | none =>
      rw [ho] at h
      rcases ih h with h | ⟨w', hw', h⟩
      · exact .inl h
      · exact .inr ⟨w', by simp [hw'], h⟩
    | some ou =>
      obtain ⟨o, u⟩ := ou
      rw [ho] at h
      rcases ih h with h | ⟨w', hw', h⟩
      · by_cases hb : blocked c s o u
        · rw [if_pos hb] at h; exact .inl h
        · rw [if_neg hb] at h
          rcases mem_saAsk h with h | rfl
          · exact .inl h
          · exact .inr ⟨w, by simp, rfl, rfl, u, ho, by simpa using hb⟩
      · exact .inr ⟨w', by simp [hw'], h⟩

theorem saAsks_sub {c : Cfg} {s : R δ σ τ} {t : List Wait} {l : List Alloc.Ask} (h : l ≠ []) : saAsks c s l t ≠ [] := by
  induction t generalizing l with
  | nil => exact h
  | cons w t ih =>
    unfold saAsks
    split
    · exact ih h
    · apply ih
      split
      · exact h
      · unfold saAsk
        split
        · simp
        · split
          · simp
          · exact h

theorem saAsks_ne_nil {c : Cfg} {s : R δ σ τ} {t : List Wait} {l : List Alloc.Ask} {w : Wait} {o u : Nat} (hw : w ∈ t)
    (ho : (s.vcs w.i w.v).out = some (o, u)) (hb : blocked c s o u = false) : saAsks c s l t ≠ [] := by
  induction t generalizing l with
  | nil => cases hw
  | cons w' t ih =>
    unfold saAsks
    rcases List.mem_cons.1 hw with rfl | hw
    · simp only [ho, hb]
      apply saAsks_sub
      unfold saAsk
      cases hs : Alloc.asked l w.i o with
      | none => simp
      | some r =>
        simp only [Bool.false_eq_true, if_false]
        split
        · simp
        · exact List.ne_nil_of_mem (Alloc.asked_mem hs)
    · split
      · exact ih hw
      · exact ih hw

theorem saEval_ok {k : Bool} {SA : Alloc.Cls τ ρ} {c : Cfg} (hc : c.Ok) (now : Int) (x : ρ) {s : R δ σ τ} {g : G δ}
    {rq va : List (Nat × Nat)} (h : Inv c s g rq va (s.saQ.map Wait.key)) (hf : Fresh s.saQ)
    (ha : Serves k SA c.inputs c.outputs s.sa) :
    ∃ a rr q, saEval SA c now x s = .ok { s with sa := a, rr := rr, saQ := q } ∧ q.map Wait.key = s.saQ.map Wait.key ∧
      SaGrants c s now q ∧
      Serves k SA c.inputs c.outputs a ∧
      (k = true → (∃ w ∈ s.saQ, ∃ o u, (s.vcs w.i w.v).out = some (o, u) ∧ blocked c s o u = false) →
        ∃ w ∈ q, ∃ o, w.res = .got o) := by
  have hst : ∀ w ∈ s.saQ, (s.vcs w.i w.v).st = .active := fun w hw => ((h.q.saM w.i w.v).1 (mem_key hw)).1
  have hr : ∀ w ∈ s.saQ, w.i < c.inputs ∧ w.v < c.vcs := fun w hw =>
    (h.vc w.i w.v).range (by rw [hst w hw]; simp)
  unfold saEval
  simp only [hf.takeWhile, hf.dropWhile, List.append_nil, hc.sa, Int.add_sub_cancel, if_pos (Int.le_refl 1)]
  rw [require_pos]
  rotate_left
  · rw [List.all_eq_true]
    intro w hw
    simp only [Bool.and_eq_true, decide_eq_true_eq, outOk]
    refine ⟨⟨h.mem_sa (mem_key hw), (hf w hw).2⟩, ?_⟩
    obtain ⟨o, u, e, ho⟩ := (h.vc w.i w.v).act (hst w hw)
    rw [e]
    simp [ho.o_lt, ho.u_lt]
  have hasks : Alloc.Asks c.inputs c.outputs (saAsks c s [] s.saQ) := by
    intro a ham
    rcases mem_saAsks ham with ham | ⟨w, hw, e1, _, u, e2, _⟩
    · cases ham
    · rw [e1]
      refine ⟨(hr w hw).1, ?_⟩
      obtain ⟨o, u', e, ho⟩ := (h.vc w.i w.v).act (hst w hw)
      rw [e2] at e
      cases e
      exact ho.o_lt
  obtain ⟨a', m, e, hv, ha'⟩ := holds_round ha hasks (!s.saQ.isEmpty) x
  simp only [e]
  refine ⟨a', _, _, rfl, ?_, ?_, ha', ?_⟩
  rotate_right
  · rintro rfl ⟨w, hw, o, u, ho, hb⟩
    obtain ⟨i, o, hm⟩ := hv.2 rfl (saAsks_ne_nil hw ho hb)
    cases hs : Alloc.asked (saAsks c s [] s.saQ) i o with
    | none => exact absurd hs (hv.1.2 _ _ hm)
    | some r =>
      rcases mem_saAsks (Alloc.asked_mem hs) with hx | ⟨w2, hw2, e1, e2, u, e3, e4⟩
      · cases hx
      · simp only at e1 e2 e3 e4
        refine ⟨_, List.mem_map.2 ⟨w2, hw2, rfl⟩, o, ?_⟩
        subst e1
        simp only [saRes, e3, e4, hm, hs, e2, if_true]
        simp
  · simp only [List.map_map]; rfl
  · have hgot : ∀ w ∈ s.saQ, ∀ o, saRes c s (saAsks c s [] s.saQ) m w.i w.v = .got o → m.inm w.i = some o ∧
        ∃ r, Alloc.asked (saAsks c s [] s.saQ) w.i o = some r ∧ r.label = w.v := by
      intro w hw o e
      unfold saRes at e
      split at e
      · cases e
      · split at e
        · cases e
        · split at e
          · cases e
          · rename_i hm
            split at e
            · cases e
            · rename_i hr'
              split at e
              · cases e
                exact ⟨hm, _, hr', by assumption⟩
              · cases e
    refine ⟨?_, ?_, ?_⟩
    · intro w hw
      obtain ⟨w', _, rfl⟩ := List.mem_map.1 hw
      rfl
    · intro w hw o e
      obtain ⟨w', hw', rfl⟩ := List.mem_map.1 hw
      obtain ⟨_, r, hr', hlab⟩ := hgot w' hw' o e
      rcases mem_saAsks (Alloc.asked_mem hr') with hx | ⟨w2, hw2, e1, e2, u, e3, e4⟩
      · cases hx
      · simp only at e1 e2 e3 e4
        refine ⟨u, ?_, ?_⟩
        · simp only
          rw [e1, ← hlab, e2]; exact e3
        · simp only [blocked, Bool.or_eq_false_iff, BufState.isFullFor, decide_eq_false_iff_not] at e4
          omega
    · rw [List.pairwise_map]
      have hk := h.q.saN
      rw [List.Nodup, List.pairwise_map] at hk
      refine List.Pairwise.imp_of_mem ?_ hk
      intro a b hma hmb hne x y e1 e2 hxy
      subst hxy
      obtain ⟨k1, r1, k2, k3⟩ := hgot a hma x e1
      obtain ⟨l1, r2, l2, l3⟩ := hgot b hmb x e2
      have k4 : a.i = b.i := by
        have := (hv.1.1 _ _).1 k1
        rw [(hv.1.1 _ _).1 l1] at this
        exact (Option.some.inj this).symm
      rw [k4, l2] at k2
      cases k2
      exact hne (by simp [Wait.key, k4, ← k3, ← l3])

end RadSim.Router
