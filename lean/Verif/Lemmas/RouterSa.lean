import Verif.Lemmas.RouterUpd

/-! # The third phase of a tick: the switch -/

namespace RadSim.Router

variable {δ σ τ ρ ρ' : Type}

theorem sendingFlit_eq {b : BufCfg} (hok : b.Ok) (hw : b.waitTail = false) {x : BufState} (hi : BufInv b x) {u : Nat}
    {t : Bool} (hu : u < b.vcs) (hav : 0 ≤ x.inUse u) (hf : x.vcOcc u < b.perVc) :
    ∃ y, x.sendingFlit b u t = .ok y ∧ BufInv b y ∧ y.vcOcc = upd x.vcOcc u (x.vcOcc u + 1) ∧
      y.inUse = if t then upd x.inUse u (-1) else x.inUse := by
  have hle : ∀ v, v < b.vcs → 0 ≤ upd x.vcOcc u (x.vcOcc u + 1) v ∧ upd x.vcOcc u (x.vcOcc u + 1) v ≤ b.perVc := by
    intro v hv
    have := hi.bound v hv
    rw [upd_apply]; split
    · rename_i e; subst e; omega
    · exact this
  have hsum : x.occ + 1 = sumTo b.vcs (upd x.vcOcc u (x.vcOcc u + 1)) := by
    rw [sumTo_upd _ _ _ hu, hi.total]; omega
  have hsz : x.occ + 1 ≤ b.size := by
    rw [hsum]
    exact Int.le_trans (sumTo_le fun v hv => (hle v hv).2) (perVc_mul_le_size b hok)
  unfold BufState.sendingFlit
  rw [if_neg (by omega), if_neg (by omega), if_neg (by omega)]
  cases t with
  | true =>
    simp only [if_true, hw]
    rw [if_neg (by simp), if_neg (by omega)]
    exact ⟨_, rfl, ⟨hle, hsum, by simp [hw]⟩, rfl, by simp⟩
  | false =>
    exact ⟨_, rfl, ⟨hle, hsum, by simp [hw]⟩, rfl, by simp⟩

/-- The queue to which a virtual channel is added after its front flit has left. -/
def rqNext (t : Bool) (q : List (Flit δ)) (k : Nat × Nat) (rq : List (Nat × Nat)) : List (Nat × Nat) :=
  if t = true ∧ q ≠ [] then rq ++ [k] else rq

/-- The queue to which a virtual channel is added after its front flit has left. -/
def saNext (t : Bool) (q : List (Flit δ)) (k : Nat × Nat) (sa : List (Nat × Nat)) : List (Nat × Nat) :=
  if t = false ∧ q ≠ [] then sa ++ [k] else sa

/-- The history with another flit passed. -/
def G.pass (g : G δ) (l : List (Pass δ)) : G δ := { g with log := g.log ++ l }

/-- The last flit passed from and to a channel pair. -/
theorem Owns.fits {c : Cfg} {s : R δ σ τ} {g : G δ} {rq va sa : List (Nat × Nat)} {i v o u : Nat} {f : Flit δ}
    {q : List (Flit δ)} (h : Inv c s g rq va sa) (ho : Owns c s g i v o u) (hq : (s.vcs i v).q = f :: q) :
    PassPk (fun e => (e.o, e.u)) (passedFrom g.log i v ++ [⟨i, v, o, u, f⟩]) ∧
    PassPk (fun e => ((e.i, e.v), e.f.pid)) (passedTo g.log o u ++ [⟨i, v, o, u, f⟩]) ∧
    (f.head = true → g.may i f o u) := by
  have hv := h.vc i v
  have hfits : Fits Flit.head Flit.tail Flit.pid ((passedFrom g.log i v).map Pass.f) f := by
    have hp := hv.pk
    rw [← hv.recv, hq] at hp
    exact packets_fits hp
  rcases ho.link with ⟨a1, a2, f', a3, a4⟩ | ⟨a, a1, a2, a3⟩
  · have hh := hv.front_head hq a1
    rw [hq] at a3
    cases a3
    refine ⟨packets_snoc.2 ⟨hv.fromPk, Fits.of_closed a1 hh⟩, packets_snoc.2 ⟨(h.out o u).toPk, Fits.of_closed a2 hh⟩, fun _ => a4⟩
  · obtain ⟨hh, hpid⟩ : f.head = false ∧ f.pid = a.f.pid := by
      refine Fits.head_of_open (a := a.f) ?_ a3 hfits
      rw [List.getLast?_map, a1]; rfl
    have m1 : a ∈ passedFrom g.log i v := List.mem_of_getLast? a1
    have m2 : a ∈ passedTo g.log o u := List.mem_of_getLast? a2
    simp only [passedFrom, List.mem_filter, decide_eq_true_eq] at m1
    simp only [passedTo, List.mem_filter, decide_eq_true_eq] at m2
    refine ⟨packets_snoc.2 ⟨hv.fromPk, Fits.of_open a1 a3 hh ?_⟩,
      packets_snoc.2 ⟨(h.out o u).toPk, Fits.of_open a2 a3 hh ?_⟩, fun e => by rw [hh] at e; cases e⟩
    · simp [m2.2.1, m2.2.2]
    · simp [m1.2.1, m1.2.2, hpid]

theorem forward_inv {c : Cfg} {s s' : R δ σ τ} {g : G δ} {i v o u : Nat} {rq va sa : List (Nat × Nat)} {x : Vc δ}
    {b : BufState} {f : Flit δ} {q : List (Flit δ)} (h : Inv c s g rq va ((i, v) :: sa))
    (hfq : (s.vcs i v).q = f :: q) (hout : (s.vcs i v).out = some (o, u))
    (hcr : v ∉ s.outCred i)
    (hvcs : ∀ i' v', s'.vcs i' v' = if i' = i ∧ v' = v then x else s.vcs i' v')
    (hnext : s'.next = upd s.next o b) (hb : BufInv c.buf b)
    (hbo : b.vcOcc = upd (s.next o).vcOcc u ((s.next o).vcOcc u + 1))
    (hbu : b.inUse = if f.tail then upd (s.next o).inUse u (-1) else (s.next o).inUse)
    (hcredQ : s'.credQ = s.credQ) (houtBuf : s'.outBuf = s.outBuf)
    (hxb : s'.xbQ = s.xbQ ++ [Cross.mk (-1) (move f u) i o])
    (hcredBuf : s'.credBuf = s.credBuf) (houtCred : s'.outCred = upd s.outCred i (s.outCred i ++ [v]))
    (hocc : s'.occ = upd s.occ i (s.occ i - 1))
    (hq : x.q = q) (he : x.exp = (s.vcs i v).exp) (hx : x.out = (s.vcs i v).out)
    (hst : x.st = if f.tail then (if q = [] then .idle else .routing) else .active) :
    Inv c s' (g.pass [⟨i, v, o, u, f⟩]) (rqNext f.tail q (i, v) rq) va (saNext f.tail q (i, v) sa) := by
  have hst0 : (s.vcs i v).st = .active := ((h.q.saM i v).1 (by simp)).1
  have hr := (h.vc i v).range (by rw [hst0]; simp)
  have how : Owns c s g i v o u := by
    obtain ⟨o', u', e, k⟩ := (h.vc i v).act hst0
    rw [hout] at e; cases e; exact k
  obtain ⟨p1, p2, p3⟩ := how.fits h hfq
  have huse : ∀ o' u', ¬ (o' = o ∧ u' = u) → (s'.next o').inUse u' = (s.next o').inUse u' := by
    intro o' u' hk
    rw [hnext, upd_apply]; split
    · rename_i e; subst e
      rw [hbu]; split
      · rw [upd_apply, if_neg (by simpa using hk)]
      · rfl
    · rfl
  have huse' : (s'.next o).inUse u = if f.tail then -1 else ((i * c.vcs + v : Nat) : Int) := by
    rw [hnext, upd_apply, if_pos rfl, hbu]; split
    · rw [upd_apply, if_pos rfl]
    · exact how.use
  have howner : ∀ i' v' o' u', v' < c.vcs → Owns c s g i' v' o' u' → ¬ (i' = i ∧ v' = v) → ¬ (o' = o ∧ u' = u) := by
    rintro i' v' o' u' hv' hw hk ⟨rfl, rfl⟩
    have e := hw.use
    rw [how.use] at e
    have := number_inj hr.2 hv' (by exact_mod_cast e)
    exact hk ⟨this.1.symm, this.2.symm⟩
  have hfrom : ∀ i' v', passedFrom (g.pass [⟨i, v, o, u, f⟩]).log i' v' =
      if i' = i ∧ v' = v then passedFrom g.log i' v' ++ [⟨i, v, o, u, f⟩] else passedFrom g.log i' v' := by
    intro i' v'
    simp only [G.pass, from_snoc]
    by_cases hk : i' = i ∧ v' = v
    · rw [if_pos ⟨hk.1.symm, hk.2.symm⟩, if_pos hk]
    · rw [if_neg (fun k => hk ⟨k.1.symm, k.2.symm⟩), if_neg hk]
  have hto : ∀ o' u', passedTo (g.pass [⟨i, v, o, u, f⟩]).log o' u' =
      if o' = o ∧ u' = u then passedTo g.log o' u' ++ [⟨i, v, o, u, f⟩] else passedTo g.log o' u' := by
    intro o' u'
    simp only [G.pass, to_snoc]
    by_cases hk : o' = o ∧ u' = u
    · rw [if_pos ⟨hk.1.symm, hk.2.symm⟩, if_pos hk]
    · rw [if_neg (fun k => hk ⟨k.1.symm, k.2.symm⟩), if_neg hk]
  refine ⟨?_, ?_, ?_, ?_⟩
  · intro i' v'
    have h' := h.vc i' v'
    by_cases hk : i' = i ∧ v' = v
    · obtain ⟨rfl, rfl⟩ := hk
      have e1 : s'.vcs i' v' = x := by rw [hvcs, if_pos ⟨rfl, rfl⟩]
      have e2 := hfrom i' v'
      rw [if_pos ⟨rfl, rfl⟩] at e2
      have hdone : f.tail = true → Done (passedFrom (g.pass [⟨i', v', o, u, f⟩]).log i' v') := by
        intro ht
        rw [e2, Done, closed_snoc]; exact ht
      refine ⟨fun _ => hr, ?_, h'.vc, h'.pk, ?_, ?_, ?_, ?_, ?_, ?_, ?_, h'.len⟩
      · rw [e1, hq, e2]
        have := h'.recv
        rw [hfq] at this
        simpa [G.pass] using this
      · rw [e1, he]; exact h'.expC
      · rw [e1, he]; exact h'.expO
      · rw [e2]; exact p1
      · rw [e1, hst, hq]
        intro e
        split at e
        · rename_i ht
          split at e
          · rename_i hq0; exact ⟨hq0, hdone ht⟩
          · cases e
        · cases e
      · rw [e1, hst, hq]
        intro e
        split at e
        · rename_i ht
          split at e
          · rcases e with e | e <;> cases e
          · rename_i hq0; exact ⟨hq0, hdone ht⟩
        · rcases e with e | e <;> cases e
      · rw [e1, hst]; intro e
        split at e
        · split at e <;> cases e
        · cases e
      · rw [e1, hst]; intro e
        have ht : f.tail = false := by
          split at e
          · split at e <;> cases e
          · rename_i ht; simpa using ht
        refine ⟨o, u, by rw [hx, hout], ⟨how.o_lt, how.u_lt, by rw [huse', ht]; rfl, .inr ⟨⟨i', v', o, u, f⟩, ?_, ?_, ht⟩⟩⟩
        · rw [e2]; simp
        · rw [hto, if_pos ⟨rfl, rfl⟩]; simp
    · have e1 : s'.vcs i' v' = s.vcs i' v' := by rw [hvcs, if_neg hk]
      have e2 := hfrom i' v'
      rw [if_neg hk] at e2
      refine ⟨?_, ?_, h'.vc, h'.pk, ?_, ?_, ?_, ?_, ?_, ?_, ?_, h'.len⟩
      all_goals first | rw [e1] | rw [e2]
      · exact h'.range
      · rw [e2]; exact h'.recv
      · exact h'.expC
      · exact h'.expO
      · exact h'.fromPk
      · rw [e2]; exact h'.idle
      · rw [e2]; exact h'.pre
      · intro e; exact ⟨(h'.hops e).hop, (h'.hops e).once, (h'.hops e).src, (h'.hops e).may⟩
      · intro e
        obtain ⟨o', u', ho', h3⟩ := h'.act e
        have hn := howner i' v' o' u' (h'.range (by rw [e]; simp)).2 h3 hk
        refine ⟨o', u', ho', ⟨h3.o_lt, h3.u_lt, by rw [huse _ _ hn]; exact h3.use, ?_⟩⟩
        rw [e1, e2, hto, if_neg hn]
        exact h3.link
  · intro o' u'
    have h' := h.out o' u'
    by_cases hk : o' = o ∧ u' = u
    · obtain ⟨rfl, rfl⟩ := hk
      have e2 := hto o' u'
      rw [if_pos ⟨rfl, rfl⟩] at e2
      refine ⟨by rw [e2]; exact p2, ?_, ?_, ?_, h'.le⟩
      · rw [huse']
        intro e
        rw [e2, Done, closed_snoc]
        by_contra ht
        rw [if_neg ht] at e
        omega
      · rw [huse']
        intro e
        have ht : f.tail = false := by
          by_contra ht
          rw [if_pos (by simpa using ht)] at e
          omega
        rw [ht]
        exact ⟨i, v, hr.1, hr.2, rfl, by rw [hvcs, if_pos ⟨rfl, rfl⟩, hst, ht]; rfl,
          by rw [hvcs, if_pos ⟨rfl, rfl⟩, hx, hout]⟩
      · rw [e2, hcredQ, hnext, upd_apply, if_pos rfl, hbo, upd_apply, if_pos rfl]
        have := h'.occ
        simp only [List.length_append, List.length_singleton, G.pass]
        push_cast
        omega
    · have e2 := hto o' u'
      rw [if_neg hk] at e2
      have hvo : (s'.next o').vcOcc u' = (s.next o').vcOcc u' := by
        rw [hnext, upd_apply]; split
        · rename_i e; subst e
          rw [hbo, upd_apply, if_neg (by simpa using hk)]
        · rfl
      refine ⟨by rw [e2]; exact h'.toPk, by rw [huse _ _ hk, e2]; exact h'.free, ?_,
        by rw [hvo, hcredQ, e2]; exact h'.occ, h'.le⟩
      rw [huse _ _ hk]
      intro e
      obtain ⟨i', v', a1, a2, a3, a4, a5⟩ := h'.own e
      have hk' : ¬ (i' = i ∧ v' = v) := by
        rintro ⟨rfl, rfl⟩
        rw [hout] at a5
        cases a5
        exact hk ⟨rfl, rfl⟩
      exact ⟨i', v', a1, a2, a3, by rw [hvcs, if_neg hk']; exact a4, by rw [hvcs, if_neg hk']; exact a5⟩
  · have h' := h.port
    refine ⟨?_, ?_, ?_, ?_, ?_, ?_, by rw [hcredQ]; exact h'.pendOk, ?_, ?_⟩
    · intro e he
      simp only [G.pass, List.mem_append, List.mem_singleton] at he
      rcases he with he | rfl
      · exact h'.routed e he
      · exact p3
    · intro o'
      rw [houtBuf, hxb]
      have := h'.stream o'
      simp only [G.pass, List.filter_append, List.map_append, this, List.append_assoc]
      congr 3
      by_cases e : o = o' <;> simp [e, Pass.flit, move]
    · intro o'
      rw [hnext, upd_apply]; split
      · exact hb
      · exact h'.buf o'
    · intro i' v'
      have := h'.cred i' v'
      rw [hcredBuf, houtCred, hfrom, upd_apply]
      simp only [G.pass]
      by_cases e : i' = i
      · subst e
        by_cases e2 : v' = v
        · subst e2
          simp only [if_true, and_self, List.count_append, List.count_singleton_self, List.length_append,
            List.length_singleton]
          omega
        · simp only [if_true, e2, and_false, if_false, List.count_append, List.count_singleton]
          rw [if_neg (by simpa using fun k : v = v' => e2 k.symm)]
          omega
      · simp only [e, false_and, if_false]
        exact this
    · intro i'
      rw [hocc, upd_apply]
      split
      · rename_i e; subst e
        rw [h'.occ]
        have : (fun v => ((s'.vcs i' v).q.length : Int)) =
            upd (fun v => ((s.vcs i' v).q.length : Int)) v (q.length) := by
          funext v'
          simp only [hvcs, upd_apply, true_and]
          split
          · rw [hq]
          · rfl
        rw [this, sumTo_upd _ _ _ hr.2, hfq]
        simp only [List.length_cons]
        push_cast
        omega
      · rename_i e
        rw [h'.occ]
        apply sumTo_congr
        intro v' _
        rw [hvcs, if_neg (by simp [e])]
    · rw [hxb]
      intro e he
      simp only [List.mem_append, List.mem_singleton] at he
      rcases he with he | rfl
      · exact h'.xb e he
      · exact ⟨hr.1, how.o_lt⟩
    · intro e he
      simp only [G.pass, List.mem_append, List.mem_singleton] at he
      rcases he with he | rfl
      · exact h'.logOk e he
      · exact ⟨hr, how.o_lt, how.u_lt⟩
    · intro i'
      rw [hcredBuf, houtCred, upd_apply]
      refine ⟨?_, (h'.crN i').2⟩
      split
      · rw [List.nodup_append]
        refine ⟨(h'.crN i).1, by simp, ?_⟩
        intro a ha b hb
        simp only [List.mem_singleton] at hb
        subst hb
        rintro rfl
        exact hcr ha
      · exact (h'.crN i').1
  · have h' := h.q
    have hn := List.nodup_cons.1 h'.saN
    refine ⟨?_, ?_, h'.vaN, ?_, ?_, ?_⟩
    · unfold rqNext; split
      · rw [List.nodup_append]
        refine ⟨h'.rqN, by simp, ?_⟩
        intro a ha b hb
        simp only [List.mem_singleton] at hb
        subst hb
        rintro rfl
        rw [h'.rqM, hst0] at ha; cases ha
      · exact h'.rqN
    · intro i' v'
      rw [hvcs]
      by_cases hk : i' = i ∧ v' = v
      · obtain ⟨rfl, rfl⟩ := hk
        rw [if_pos ⟨rfl, rfl⟩, hst]
        have hni : (i', v') ∉ rq := by rw [h'.rqM, hst0]; simp
        unfold rqNext
        cases f.tail <;> by_cases hq0 : q = [] <;> simp [hq0, hni]
      · rw [if_neg hk, ← h'.rqM]
        unfold rqNext
        split <;> simp [hk]
    · intro i' v'
      rw [hvcs, h'.vaM]
      by_cases hk : i' = i ∧ v' = v
      · obtain ⟨rfl, rfl⟩ := hk
        rw [if_pos ⟨rfl, rfl⟩, hst, hst0]
        cases f.tail <;> by_cases hq0 : q = [] <;> simp [hq0]
      · rw [if_neg hk]
    · unfold saNext; split
      · rw [List.nodup_append]
        refine ⟨hn.2, by simp, ?_⟩
        intro a ha b hb
        simp only [List.mem_singleton] at hb
        subst hb
        rintro rfl
        exact hn.1 ha
      · exact hn.2
    · intro i' v'
      rw [hvcs]
      by_cases hk : i' = i ∧ v' = v
      · obtain ⟨rfl, rfl⟩ := hk
        rw [if_pos ⟨rfl, rfl⟩, hst, hq]
        unfold saNext
        cases f.tail <;> by_cases hq0 : q = [] <;> simp [hq0, hn.1]
      · rw [if_neg hk, ← h'.saM]
        unfold saNext
        split <;> simp [hk]

theorem forward_ok {c : Cfg} (hc : c.Ok) {s : R δ σ τ} {g : G δ} {i v o u : Nat} {rq va sa : List (Nat × Nat)}
    (h : Inv c s g rq va ((i, v) :: sa)) (hout : (s.vcs i v).out = some (o, u)) (hf : (s.next o).vcOcc u < c.buf.perVc)
    (hcr : v ∉ s.outCred i) :
    ∃ f x b r q, (s.vcs i v).q.head? = some f ∧
      forward c s i v o = .ok { s.setVc i v x with
        occ := upd s.occ i (s.occ i - 1)
        next := upd s.next o b
        xbQ := s.xbQ ++ [Cross.mk (-1) (move f u) i o]
        outCred := upd s.outCred i (s.outCred i ++ [v])
        routeQ := s.routeQ ++ r
        saQ := s.saQ ++ q } ∧ Fresh r ∧ Fresh q ∧
      Inv c { s.setVc i v x with
        occ := upd s.occ i (s.occ i - 1)
        next := upd s.next o b
        xbQ := s.xbQ ++ [Cross.mk (-1) (move f u) i o]
        outCred := upd s.outCred i (s.outCred i ++ [v])
        routeQ := s.routeQ ++ r
        saQ := s.saQ ++ q } (g.pass [⟨i, v, o, u, f⟩]) (rq ++ r.map Wait.key) va (sa ++ q.map Wait.key) := by
  have hst0 := (h.q.saM i v).1 (by simp)
  have hr := (h.vc i v).range (by rw [hst0.1]; simp)
  have how : Owns c s g i v o u := by
    obtain ⟨o', u', e, k⟩ := (h.vc i v).act hst0.1
    rw [hout] at e; cases e; exact k
  cases hq : (s.vcs i v).q with
  | nil => exact absurd hq hst0.2
  | cons f q =>
    obtain ⟨p1, p2, p3⟩ := how.fits h hq
    obtain ⟨b, eb, hb, hbo, hbu⟩ := sendingFlit_eq (t := f.tail) hc.buf hc.tail (h.port.buf o) how.u_lt
      (by rw [how.use]; omega) hf
    have e1 : forward c s i v o = follow (leave s i v f q o u b) i v f.tail q := by
      unfold forward
      simp only [hq, hout]
      rw [require_pos (by simpa using how.o_lt), require_pos (by simp), require_pos (by simpa using how.u_lt), eb]
    rw [e1]
    have hinv : ∀ (x : Vc δ) (r qs : List Wait), x.q = q → x.exp = (s.vcs i v).exp → x.out = (s.vcs i v).out →
        (x.st = if f.tail then (if q = [] then .idle else .routing) else .active) →
        rqNext f.tail q (i, v) rq = rq ++ r.map Wait.key → saNext f.tail q (i, v) sa = sa ++ qs.map Wait.key →
        Inv c { s.setVc i v x with
          occ := upd s.occ i (s.occ i - 1)
          next := upd s.next o b
          xbQ := s.xbQ ++ [Cross.mk (-1) (move f u) i o]
          outCred := upd s.outCred i (s.outCred i ++ [v])
          routeQ := s.routeQ ++ r
          saQ := s.saQ ++ qs } (g.pass [⟨i, v, o, u, f⟩]) (rq ++ r.map Wait.key) va (sa ++ qs.map Wait.key) := by
      intro x r qs a1 a2 a3 a4 a5 a6
      rw [← a5, ← a6]
      exact forward_inv (x := x) (b := b) h hq hout hcr (setVc_apply s _ _ _) rfl hb hbo hbu rfl rfl rfl rfl rfl rfl a1 a2 a3 a4
    have hvc : ∀ nf ∈ q, nf.vc = v := fun nf hnf => (h.vc i v).front_vc (by rw [hq]; simp [hnf])
    have hlv : (leave s i v f q o u b).vcs i v = { s.vcs i v with q := q } := by
      simp [leave, setVc_apply]
    cases q with
    | nil =>
      cases ht : f.tail with
      | true =>
        refine ⟨f, { s.vcs i v with q := [], st := .idle }, b, [], [], rfl, ?_, (by intro w hw; cases hw),
          (by intro w hw; cases hw), hinv _ _ _ rfl rfl rfl (by simp [ht]) (by simp [rqNext]) (by simp [saNext])⟩
        simp only [follow, if_true, hlv]
        simp only [leave, if_neg hcr, R.setVc, List.append_nil]
        congr 2
        funext i' v'
        simp only [upd_apply]
        by_cases e1 : i' = i <;> by_cases e2 : v' = v <;> simp [e1, e2, upd_apply]
      | false =>
        refine ⟨f, { s.vcs i v with q := [] }, b, [], [], rfl, ?_, (by intro w hw; cases hw),
          (by intro w hw; cases hw), hinv _ _ _ rfl rfl rfl (by simp [ht, hst0.1]) (by simp [rqNext]) (by simp [saNext])⟩
        simp only [follow, leave, if_neg hcr, R.setVc, List.append_nil]
        simp
    | cons nf q =>
      have hv := hvc nf (by simp)
      cases ht : f.tail with
      | true =>
        have hhead : nf.head = true := by
          have hp := (h.vc i v).pk
          rw [← (h.vc i v).recv, hq] at hp
          have e : List.map Pass.f (passedFrom g.log i v) ++ f :: nf :: q =
            (List.map Pass.f (passedFrom g.log i v) ++ [f]) ++ nf :: q := by simp
          rw [e] at hp
          exact Fits.head_of_closed (closed_snoc.2 ht) (packets_fits hp)
        refine ⟨f, { s.vcs i v with q := nf :: q, st := .routing }, b, [Wait.mk (-1) i v .pending], [], rfl, ?_,
          fresh_cons (by intro w hw; cases hw) _ _,
          (by intro w hw; cases hw), hinv _ _ _ rfl rfl rfl (by simp [ht]) (by simp [rqNext, ht, Wait.key])
          (by simp [saNext, ht])⟩
        simp only [follow, hlv]
        rw [require_pos (by simpa using hv)]
        simp only [if_true]
        rw [require_pos hhead]
        simp only [leave, if_neg hcr, R.setVc, List.append_nil]
        congr 2
        funext i' v'
        simp only [upd_apply]
        by_cases e1 : i' = i <;> by_cases e2 : v' = v <;> simp [e1, e2, upd_apply]
      | false =>
        refine ⟨f, { s.vcs i v with q := nf :: q }, b, [], [Wait.mk (-1) i v .pending], rfl, ?_,
          (by intro w hw; cases hw), fresh_cons (by intro w hw; cases hw) _ _,
          hinv _ _ _ rfl rfl rfl (by simp [ht, hst0.1]) (by simp [rqNext, ht])
          (by simp [saNext, ht, Wait.key])⟩
        simp only [follow]
        rw [require_pos (by simpa using hv)]
        simp only [leave, if_neg hcr, R.setVc, List.append_nil]
        simp

theorem pass_pass (g : G δ) (a b : List (Pass δ)) : (g.pass a).pass b = g.pass (a ++ b) := by
  simp [G.pass]

/-- The flits that enter the crossbar in a tick: they have no time yet and go to different outputs. -/
structure CrossNew (l : List (Cross δ)) : Prop where
  time : ∀ e ∈ l, e.time = -1
  once : (l.map Cross.o).Nodup

theorem saUpd_ok {c : Cfg} (hc : c.Ok) {now : Int} (hnow : 0 ≤ now) {va : List (Nat × Nat)} (A B : List Wait)
    {s : R δ σ τ} {g : G δ} (hA : SaGrants c s now A) (hB : Fresh B) (hQ : Fresh s.saQ) (hR : Fresh s.routeQ)
    (hcr : ∀ w ∈ A, w.v ∉ s.outCred w.i)
    (h : Inv c s g (s.routeQ.map Wait.key) va ((A ++ B ++ s.saQ).map Wait.key)) :
    ∃ vcs occ next rq q ext oc L, saUpd c now s (A ++ B) = .ok { s with
        vcs := vcs
        occ := occ
        next := next
        routeQ := rq
        saQ := q
        xbQ := s.xbQ ++ ext
        outCred := oc } ∧
      Fresh rq ∧ Fresh q ∧ CrossNew ext ∧
      (∀ e ∈ ext, ∃ w ∈ A, w.res = .got e.o) ∧ (ext = [] → rq = s.routeQ) ∧
      Inv c { s with
        vcs := vcs
        occ := occ
        next := next
        routeQ := rq
        saQ := q
        xbQ := s.xbQ ++ ext
        outCred := oc } (g.pass L) (rq.map Wait.key) va (q.map Wait.key) := by
  induction A generalizing s g with
  | nil =>
    refine ⟨s.vcs, s.occ, s.next, s.routeQ, B ++ s.saQ, [], s.outCred, [], ?_, hR, fresh_append hB hQ,
      ⟨by simp, by simp⟩, by simp, fun _ => rfl, ?_⟩
    · cases B with
      | nil => simp [saUpd]
      | cons w B =>
        have := (hB w (by simp)).1
        simp [saUpd, this]
    · have := h.frame s.routeQ s.vaQ (B ++ s.saQ) s.va s.sa s.rr s.active
      simpa [G.pass] using this
  | cons w A ih =>
    have ht := hA.time w (by simp)
    have hkey : w.key ∈ (w :: A ++ B ++ s.saQ).map Wait.key := List.mem_map.2 ⟨w, by simp, rfl⟩
    have hfr := h.mem_sa (i := w.i) (v := w.v) hkey
    have hA' : SaGrants c s now A := ⟨fun w hw => hA.time w (by simp [hw]),
      fun w hw => hA.got w (by simp [hw]), (List.pairwise_cons.1 hA.distinct).2⟩
    have hstall : ∃ vcs occ next rq q ext oc L,
        saUpd c now { s with saQ := s.saQ ++ [Wait.mk (-1) w.i w.v .pending] } (A ++ B) = .ok { s with
          vcs := vcs
          occ := occ
          next := next
          routeQ := rq
          saQ := q
          xbQ := s.xbQ ++ ext
          outCred := oc } ∧
        Fresh rq ∧ Fresh q ∧ CrossNew ext ∧
        (∀ e ∈ ext, ∃ w' ∈ w :: A, w'.res = .got e.o) ∧ (ext = [] → rq = s.routeQ) ∧
        Inv c { s with
          vcs := vcs
          occ := occ
          next := next
          routeQ := rq
          saQ := q
          xbQ := s.xbQ ++ ext
          outCred := oc } (g.pass L) (rq.map Wait.key) va (q.map Wait.key) := by
      have h1 : Inv c { s with saQ := s.saQ ++ [Wait.mk (-1) w.i w.v .pending] } g (s.routeQ.map Wait.key) va
          ((A ++ B ++ (s.saQ ++ [Wait.mk (-1) w.i w.v .pending])).map Wait.key) := by
        have := h.frame s.routeQ s.vaQ (s.saQ ++ [Wait.mk (-1) w.i w.v .pending]) s.va s.sa s.rr s.active
        refine this.perm (List.Perm.refl _) (List.Perm.refl _) ?_
        have e : w.key = (Wait.mk (-1) w.i w.v .pending).key := rfl
        simp only [List.cons_append, List.map_cons, e, ← List.append_assoc]
        rw [List.map_append (l₂ := [_])]
        exact (List.perm_append_singleton _ _).symm
      obtain ⟨vcs, occ, next, rq, q, ext, oc, L, e, k1, k2, k3, k4, k6, k5⟩ :=
        ih (s := { s with saQ := s.saQ ++ [Wait.mk (-1) w.i w.v .pending] })
        ⟨hA'.time, hA'.got, hA'.distinct⟩ (fresh_snoc hQ _ _) hR (fun w hw => hcr w (by simp [hw])) h1
      refine ⟨vcs, occ, next, rq, q, ext, oc, L, e, k1, k2, k3, ?_, k6, k5⟩
      intro e he
      obtain ⟨w', hw', hr'⟩ := k4 e he
      exact ⟨w', by simp [hw'], hr'⟩
    simp only [List.cons_append]
    unfold saUpd
    rw [if_neg (by omega), require_pos (by simp [ht]), require_pos hfr]
    cases hres : w.res with
    | pending => exact hstall
    | stall => exact hstall
    | got o =>
      simp only []
      obtain ⟨u, g1, g2⟩ := hA.got w (by simp) o hres
      obtain ⟨f, x, b, r, qs, hf, e1, hr, hqs, h1⟩ := forward_ok hc (sa := (A ++ B ++ s.saQ).map Wait.key) h g1 g2
        (hcr w (by simp))
      have hn := List.nodup_cons.1 h.q.saN
      have hne : ∀ w' ∈ A, ¬ (w'.i = w.i ∧ w'.v = w.v) := by
        rintro w' hw' ⟨e1, e2⟩
        apply hn.1
        have : w.key = w'.key := by simp [Wait.key, e1, e2]
        simp only [List.append_eq] at *
        rw [this]
        exact List.mem_map.2 ⟨w', by simp [hw'], rfl⟩
      rw [e1]
      simp only []
      obtain ⟨vcs, occ, next, rq, q, ext, oc, L, e, k1, k2, k3, k4, k6, k5⟩ := ih (s := { s.setVc w.i w.v x with
          occ := upd s.occ w.i (s.occ w.i - 1)
          next := upd s.next o b
          xbQ := s.xbQ ++ [Cross.mk (-1) (move f u) w.i o]
          outCred := upd s.outCred w.i (s.outCred w.i ++ [w.v])
          routeQ := s.routeQ ++ r
          saQ := s.saQ ++ qs }) (g := g.pass [⟨w.i, w.v, o, u, f⟩])
        (by
          refine ⟨hA'.time, ?_, hA'.distinct⟩
          intro w' hw' o' hr'
          obtain ⟨u', m1, m2⟩ := hA'.got w' hw' o' hr'
          refine ⟨u', ?_, ?_⟩
          · simp only [setVc_apply, if_neg (hne w' hw')]
            exact m1
          · simp only [upd_apply]
            rw [if_neg]
            · exact m2
            · exact fun e => (List.pairwise_cons.1 hA.distinct).1 w' hw' o o' hres hr' e.symm)
        (fresh_append hQ hqs) (fresh_append hR hr)
        (by
          intro w' hw'
          have h0 := hcr w' (by simp [hw'])
          simp only [upd_apply]
          split
          · rename_i ei
            intro hm
            simp only [List.mem_append, List.mem_singleton] at hm
            rcases hm with hm | hm
            · exact h0 (by rw [ei]; exact hm)
            · exact hne w' hw' ⟨ei, hm⟩
          · exact h0)
        (h1.congr (by simp) rfl (by simp))
      refine ⟨vcs, occ, next, rq, q, Cross.mk (-1) (move f u) w.i o :: ext, oc, ⟨w.i, w.v, o, u, f⟩ :: L, ?_, k1, k2, ?_,
        ?_, by simp, ?_⟩
      · rw [e]
        simp [R.setVc]
      · refine ⟨?_, ?_⟩
        · intro e he
          rcases List.mem_cons.1 he with rfl | he
          · rfl
          · exact k3.time e he
        · simp only [List.map_cons, List.nodup_cons]
          refine ⟨?_, k3.once⟩
          intro hm
          obtain ⟨e, he, heo⟩ := List.mem_map.1 hm
          obtain ⟨w', hw', hr'⟩ := k4 e he
          exact (List.pairwise_cons.1 hA.distinct).1 w' hw' o e.o hres hr' heo.symm
      · intro e he
        rcases List.mem_cons.1 he with rfl | he
        · exact ⟨w, by simp, hres⟩
        · obtain ⟨w', hw', hr'⟩ := k4 e he
          exact ⟨w', by simp [hw'], hr'⟩
      · rw [pass_pass] at k5
        simpa [R.setVc] using k5

end RadSim.Router
