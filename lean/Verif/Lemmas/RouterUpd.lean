import Verif.Lemmas.RouterEval

/-! # The third phase of a tick: route and virtual channel updates -/

namespace RadSim.Router

variable {δ σ τ ρ ρ' : Type}

/-- What the routing function offers is allowed. -/
structure RfOk (c : Cfg) (g : G δ) (rf : Nat → Flit δ → List Hop) : Prop where
  hop : ∀ i f, ∀ p ∈ rf i f, p.port < c.outputs ∧ p.vcStart ≤ p.vcEnd ∧ p.vcEnd < c.vcs
  once : ∀ i f, (routePairs (rf i f)).Nodup
  src : ∀ i f, g.rts i f (rf i f)
  may : ∀ i f, ∀ p ∈ rf i f, ∀ u, p.vcStart ≤ u → u ≤ p.vcEnd → g.may i f p.port u

/-- A virtual channel gets its route. -/
theorem route_inv {c : Cfg} {s s' : R δ σ τ} {g : G δ} {i v : Nat} {rq va sa : List (Nat × Nat)} {x : Vc δ}
    {rf : Nat → Flit δ → List Hop} {f : Flit δ} {q : List (Flit δ)}
    (h : Inv c s g ((i, v) :: rq) va sa) (hrf : RfOk c g rf) (hf : (s.vcs i v).q = f :: q)
    (hvcs : ∀ i' v', s'.vcs i' v' = if i' = i ∧ v' = v then x else s.vcs i' v')
    (hnext : s'.next = s.next) (hcredQ : s'.credQ = s.credQ) (houtBuf : s'.outBuf = s.outBuf) (hxb : s'.xbQ = s.xbQ)
    (hcredBuf : s'.credBuf = s.credBuf) (houtCred : s'.outCred = s.outCred) (hocc : s'.occ = s.occ)
    (hq : x.q = (s.vcs i v).q) (he : x.exp = (s.vcs i v).exp) (hr : x.route = rf i f) (hst : x.st = .vcAlloc) :
    Inv c s' g rq (va ++ [(i, v)]) sa := by
  have hst0 : (s.vcs i v).st = .routing := (h.q.rqM i v).1 (by simp)
  refine ⟨?_, ?_, ?_, ?_⟩
  · intro i' v'
    have h' := h.vc i' v'
    by_cases hk : i' = i ∧ v' = v
    · obtain ⟨rfl, rfl⟩ := hk
      have e1 : s'.vcs i' v' = x := by rw [hvcs, if_pos ⟨rfl, rfl⟩]
      refine ⟨?_, ?_, h'.vc, h'.pk, ?_, ?_, h'.fromPk, ?_, ?_, ?_, ?_, h'.len⟩
      · intro _; exact h'.range (by rw [hst0]; simp)
      · rw [e1, hq]; exact h'.recv
      · rw [e1, he]; exact h'.expC
      · rw [e1, he]; exact h'.expO
      · rw [e1, hst]; simp
      · intro _; rw [e1, hq]; exact h'.pre (.inl hst0)
      · intro _
        rw [e1]
        refine ⟨by rw [hr]; exact hrf.hop i' f, by rw [hr]; exact hrf.once i' f, by intro f' hf'; rw [hq, hf] at hf'; cases hf'; rw [hr]; exact hrf.src i' f, ?_⟩
        intro f' hf'
        rw [hq, hf] at hf'
        cases hf'
        rw [hr]; exact hrf.may i' f
      · rw [e1, hst]; simp
    · have e1 : s'.vcs i' v' = s.vcs i' v' := by rw [hvcs, if_neg hk]
      refine ⟨?_, ?_, h'.vc, h'.pk, ?_, ?_, h'.fromPk, ?_, ?_, ?_, ?_, h'.len⟩
      all_goals rw [e1]
      · exact h'.range
      · exact h'.recv
      · exact h'.expC
      · exact h'.expO
      · exact h'.idle
      · exact h'.pre
      · exact h'.hops
      · intro e
        obtain ⟨o, u, ho, h3⟩ := h'.act e
        exact ⟨o, u, ho, ⟨h3.o_lt, h3.u_lt, by rw [hnext]; exact h3.use, by rw [e1]; exact h3.link⟩⟩
  · intro o u
    have h' := h.out o u
    refine ⟨h'.toPk, by rw [hnext]; exact h'.free, ?_, by rw [hnext, hcredQ]; exact h'.occ, h'.le⟩
    rw [hnext]
    intro e
    obtain ⟨i', v', a1, a2, a3, a4, a5⟩ := h'.own e
    have hk : ¬ (i' = i ∧ v' = v) := by
      rintro ⟨rfl, rfl⟩
      rw [hst0] at a4; cases a4
    exact ⟨i', v', a1, a2, a3, by rw [hvcs, if_neg hk]; exact a4, by rw [hvcs, if_neg hk]; exact a5⟩
  · have h' := h.port
    refine ⟨h'.routed, by rw [houtBuf, hxb]; exact h'.stream, by rw [hnext]; exact h'.buf,
      by rw [hcredBuf, houtCred]; exact h'.cred, ?_, by rw [hxb]; exact h'.xb, by rw [hcredQ]; exact h'.pendOk,
      h'.logOk, by rw [hcredBuf, houtCred]; exact h'.crN⟩
    intro i'
    rw [hocc, h'.occ]
    apply sumTo_congr
    intro v' _
    rw [hvcs]; split
    · rename_i hk; obtain ⟨rfl, rfl⟩ := hk; rw [hq]
    · rfl
  · have h' := h.q
    have hn := List.nodup_cons.1 h'.rqN
    refine ⟨hn.2, ?_, ?_, ?_, h'.saN, ?_⟩
    · intro i' v'
      rw [hvcs]
      by_cases hk : i' = i ∧ v' = v
      · obtain ⟨rfl, rfl⟩ := hk
        simp [hn.1, hst]
      · rw [if_neg hk, ← h'.rqM]
        simp [hk]
    · rw [List.nodup_append]
      refine ⟨h'.vaN, by simp, ?_⟩
      intro a ha b hb
      simp only [List.mem_singleton] at hb
      subst hb
      rintro rfl
      rw [h'.vaM, hst0] at ha; cases ha
    · intro i' v'
      rw [hvcs]
      by_cases hk : i' = i ∧ v' = v
      · obtain ⟨rfl, rfl⟩ := hk
        simp [hst]
      · rw [if_neg hk, ← h'.vaM]
        simp [hk]
    · intro i' v'
      rw [hvcs, h'.saM]
      by_cases hk : i' = i ∧ v' = v
      · obtain ⟨rfl, rfl⟩ := hk
        simp [hst, hst0]
      · rw [if_neg hk]

theorem routeUpd_ok {c : Cfg} {now : Int} (hnow : 0 ≤ now) {rf : Nat → Flit δ → List Hop} {g : G δ} (hrf : RfOk c g rf)
    {sa : List (Nat × Nat)} (l : List Wait) {s : R δ σ τ} (hl : ∀ w ∈ l, w.time = now)
    (h : Inv c s g (l.map Wait.key) (s.vaQ.map Wait.key) sa) :
    ∃ vcs ext, routeUpd c now rf s l = .ok { s with vcs := vcs, vaQ := s.vaQ ++ ext, routeQ := [] } ∧ Fresh ext ∧
      Inv c { s with vcs := vcs, vaQ := s.vaQ ++ ext, routeQ := [] } g [] ((s.vaQ ++ ext).map Wait.key) sa ∧
      (∀ i v, (s.vcs i v).st ≠ .routing → vcs i v = s.vcs i v) := by
  induction l generalizing s with
  | nil =>
    refine ⟨s.vcs, [], by simp [routeUpd], (by intro w hw; cases hw), ?_, fun _ _ _ => rfl⟩
    have := h.frame [] s.vaQ s.saQ s.va s.sa s.rr s.active
    simpa using this
  | cons w l ih =>
    have ht := hl w (by simp)
    have hfr := h.mem_rq (i := w.i) (v := w.v) (mem_key (l := w :: l) (by simp))
    have hst : (s.vcs w.i w.v).st = .routing := (h.q.rqM w.i w.v).1 (mem_key (l := w :: l) (by simp))
    have hne := ((h.vc w.i w.v).pre (.inl hst)).1
    unfold routeUpd
    rw [if_neg (by omega), require_pos (by simp [ht]), require_pos hfr]
    cases hq : (s.vcs w.i w.v).q with
    | nil => exact absurd hq hne
    | cons f q =>
      simp only []
      have h1 : Inv c { s.setVc w.i w.v { s.vcs w.i w.v with st := .vcAlloc, route := rf w.i f, out := none } with
            vaQ := s.vaQ ++ [⟨-1, w.i, w.v, .pending⟩] } g (l.map Wait.key) (s.vaQ.map Wait.key ++ [(w.i, w.v)]) sa :=
        route_inv (s' := { s.setVc w.i w.v { s.vcs w.i w.v with st := .vcAlloc, route := rf w.i f, out := none } with
            vaQ := s.vaQ ++ [⟨-1, w.i, w.v, .pending⟩] })
          (x := { s.vcs w.i w.v with st := .vcAlloc, route := rf w.i f, out := none }) h hrf hq
          (setVc_apply s _ _ _) rfl rfl rfl rfl rfl rfl rfl rfl rfl rfl rfl
      obtain ⟨vcs, ext, e, k1, k2, k3⟩ := ih (fun w hw => hl w (by simp [hw])) (h1.congr rfl (by simp [Wait.key]) rfl)
      refine ⟨vcs, ⟨-1, w.i, w.v, .pending⟩ :: ext, ?_, ?_, ?_, ?_⟩
      · rw [e]
        simp [R.setVc]
      · intro w' hw'
        rcases List.mem_cons.1 hw' with rfl | hw'
        · exact ⟨rfl, rfl⟩
        · exact k1 w' hw'
      · simpa [R.setVc] using k2
      · intro i v hs
        have hk : ¬ (i = w.i ∧ v = w.v) := by
          rintro ⟨rfl, rfl⟩; exact hs hst
        rw [k3 i v (by simp only [setVc_apply, if_neg hk]; exact hs)]
        simp only [setVc_apply, if_neg hk]

/-! ## Virtual channel allocation -/

theorem takeBuffer_eq {b : BufCfg} (hw : b.waitTail = false) {x : BufState} (hi : BufInv b x) {u : Nat} {tag : Int}
    (hu : u < b.vcs) (hav : x.inUse u < 0) : ∃ y, x.takeBuffer b u tag = .ok y ∧ BufInv b y ∧ y.vcOcc = x.vcOcc ∧
      y.inUse = upd x.inUse u tag := by
  unfold BufState.takeBuffer
  rw [if_neg (by omega), if_neg (by omega)]
  exact ⟨_, rfl, ⟨hi.bound, hi.total, by simp [hw]⟩, rfl, rfl⟩

theorem Inv.perm {c : Cfg} {s : R δ σ τ} {g : G δ} {rq va sa rq' va' sa' : List (Nat × Nat)} (h : Inv c s g rq va sa)
    (h1 : rq.Perm rq') (h2 : va.Perm va') (h3 : sa.Perm sa') : Inv c s g rq' va' sa' := by
  refine ⟨h.vc, h.out, h.port, ⟨h1.nodup_iff.1 h.q.rqN, ?_, h2.nodup_iff.1 h.q.vaN, ?_, h3.nodup_iff.1 h.q.saN, ?_⟩⟩
  · intro i v; rw [← h1.mem_iff]; exact h.q.rqM i v
  · intro i v; rw [← h2.mem_iff]; exact h.q.vaM i v
  · intro i v; rw [← h3.mem_iff]; exact h.q.saM i v

/-- A virtual channel gets its output. -/
theorem acquire_inv {c : Cfg} {s s' : R δ σ τ} {g : G δ} {i v o u : Nat} {rq va sa : List (Nat × Nat)} {x : Vc δ}
    {b : BufState} (h : Inv c s g rq ((i, v) :: va) sa) (ho : o < c.outputs) (hu : u < c.vcs)
    (hfree : (s.next o).inUse u < 0) (hmay : ∀ f, (s.vcs i v).q.head? = some f → g.may i f o u)
    (hvcs : ∀ i' v', s'.vcs i' v' = if i' = i ∧ v' = v then x else s.vcs i' v')
    (hnext : s'.next = upd s.next o b) (hb : BufInv c.buf b) (hbo : b.vcOcc = (s.next o).vcOcc)
    (hbu : b.inUse = upd (s.next o).inUse u ((i * c.vcs + v : Nat) : Int))
    (hcredQ : s'.credQ = s.credQ) (houtBuf : s'.outBuf = s.outBuf) (hxb : s'.xbQ = s.xbQ)
    (hcredBuf : s'.credBuf = s.credBuf) (houtCred : s'.outCred = s.outCred) (hocc : s'.occ = s.occ)
    (hq : x.q = (s.vcs i v).q) (he : x.exp = (s.vcs i v).exp) (hx : x.out = some (o, u)) (hst : x.st = .active) :
    Inv c s' g rq va (sa ++ [(i, v)]) := by
  have hst0 : (s.vcs i v).st = .vcAlloc := (h.q.vaM i v).1 (by simp)
  have hpre := (h.vc i v).pre (.inr hst0)
  have huse : ∀ o' u', ¬ (o' = o ∧ u' = u) → (s'.next o').inUse u' = (s.next o').inUse u' := by
    intro o' u' hk
    rw [hnext, upd_apply]; split
    · rename_i e; subst e
      rw [hbu, upd_apply, if_neg (by simpa using hk)]
    · rfl
  have hvo : ∀ o' u', (s'.next o').vcOcc u' = (s.next o').vcOcc u' := by
    intro o' u'
    rw [hnext, upd_apply]; split
    · rename_i e; subst e; rw [hbo]
    · rfl
  have huse' : (s'.next o).inUse u = ((i * c.vcs + v : Nat) : Int) := by
    rw [hnext, upd_apply, if_pos rfl, hbu, upd_apply, if_pos rfl]
  refine ⟨?_, ?_, ?_, ?_⟩
  · intro i' v'
    have h' := h.vc i' v'
    by_cases hk : i' = i ∧ v' = v
    · obtain ⟨rfl, rfl⟩ := hk
      have e1 : s'.vcs i' v' = x := by rw [hvcs, if_pos ⟨rfl, rfl⟩]
      refine ⟨?_, ?_, h'.vc, h'.pk, ?_, ?_, h'.fromPk, ?_, ?_, ?_, ?_, h'.len⟩
      · intro _; exact h'.range (by rw [hst0]; simp)
      · rw [e1, hq]; exact h'.recv
      · rw [e1, he]; exact h'.expC
      · rw [e1, he]; exact h'.expO
      · rw [e1, hst]; simp
      · rw [e1, hst]; simp
      · rw [e1, hst]; simp
      · intro _
        rw [e1]
        refine ⟨o, u, hx, ⟨ho, hu, huse', .inl ⟨hpre.2, (h.out o u).free hfree, ?_⟩⟩⟩
        rw [e1, hq]
        cases hqq : (s.vcs i' v').q with
        | nil => exact absurd hqq hpre.1
        | cons f q => exact ⟨f, rfl, hmay f (by rw [hqq]; rfl)⟩
    · have e1 : s'.vcs i' v' = s.vcs i' v' := by rw [hvcs, if_neg hk]
      refine ⟨?_, ?_, h'.vc, h'.pk, ?_, ?_, h'.fromPk, ?_, ?_, ?_, ?_, h'.len⟩
      all_goals rw [e1]
      · exact h'.range
      · exact h'.recv
      · exact h'.expC
      · exact h'.expO
      · exact h'.idle
      · exact h'.pre
      · exact h'.hops
      · intro e
        obtain ⟨o', u', ho', h3⟩ := h'.act e
        refine ⟨o', u', ho', ⟨h3.o_lt, h3.u_lt, ?_, by rw [e1]; exact h3.link⟩⟩
        rw [huse]
        · exact h3.use
        · rintro ⟨rfl, rfl⟩
          have := h3.use
          omega
  · intro o' u'
    have h' := h.out o' u'
    by_cases hk : o' = o ∧ u' = u
    · obtain ⟨rfl, rfl⟩ := hk
      refine ⟨h'.toPk, fun _ => h'.free hfree, ?_, by rw [hvo, hcredQ]; exact h'.occ, h'.le⟩
      intro _
      have hr := (h.vc i v).range (by rw [hst0]; simp)
      exact ⟨i, v, hr.1, hr.2, huse', by rw [hvcs, if_pos ⟨rfl, rfl⟩]; exact hst,
        by rw [hvcs, if_pos ⟨rfl, rfl⟩]; exact hx⟩
    · refine ⟨h'.toPk, by rw [huse _ _ hk]; exact h'.free, ?_, by rw [hvo, hcredQ]; exact h'.occ, h'.le⟩
      rw [huse _ _ hk]
      intro e
      obtain ⟨i', v', a1, a2, a3, a4, a5⟩ := h'.own e
      have hk : ¬ (i' = i ∧ v' = v) := by
        rintro ⟨rfl, rfl⟩
        rw [hst0] at a4; cases a4
      exact ⟨i', v', a1, a2, a3, by rw [hvcs, if_neg hk]; exact a4, by rw [hvcs, if_neg hk]; exact a5⟩
  · have h' := h.port
    refine ⟨h'.routed, by rw [houtBuf, hxb]; exact h'.stream, ?_,
      by rw [hcredBuf, houtCred]; exact h'.cred, ?_, by rw [hxb]; exact h'.xb, by rw [hcredQ]; exact h'.pendOk,
      h'.logOk, by rw [hcredBuf, houtCred]; exact h'.crN⟩
    · intro o'
      rw [hnext, upd_apply]; split
      · exact hb
      · exact h'.buf o'
    · intro i'
      rw [hocc, h'.occ]
      apply sumTo_congr
      intro v' _
      rw [hvcs]; split
      · rename_i hk; obtain ⟨rfl, rfl⟩ := hk; rw [hq]
      · rfl
  · have h' := h.q
    have hn := List.nodup_cons.1 h'.vaN
    refine ⟨h'.rqN, ?_, hn.2, ?_, ?_, ?_⟩
    · intro i' v'
      rw [hvcs, h'.rqM]
      by_cases hk : i' = i ∧ v' = v
      · obtain ⟨rfl, rfl⟩ := hk
        simp [hst, hst0]
      · rw [if_neg hk]
    · intro i' v'
      rw [hvcs]
      by_cases hk : i' = i ∧ v' = v
      · obtain ⟨rfl, rfl⟩ := hk
        simp [hn.1, hst]
      · rw [if_neg hk, ← h'.vaM]
        simp [hk]
    · rw [List.nodup_append]
      refine ⟨h'.saN, by simp, ?_⟩
      intro a ha b hb
      simp only [List.mem_singleton] at hb
      subst hb
      rintro rfl
      rw [h'.saM, hst0] at ha; cases ha.1
    · intro i' v'
      rw [hvcs]
      by_cases hk : i' = i ∧ v' = v
      · obtain ⟨rfl, rfl⟩ := hk
        simp [hst, hq, hpre.1]
      · rw [if_neg hk, ← h'.saM]
        simp [hk]

theorem fresh_snoc {l : List Wait} (h : Fresh l) (i v : Nat) : Fresh (l ++ [Wait.mk (-1) i v .pending]) := by
  intro w hw
  simp only [List.mem_append, List.mem_singleton] at hw
  rcases hw with hw | rfl
  · exact h w hw
  · exact ⟨rfl, rfl⟩

theorem fresh_append {l l' : List Wait} (h : Fresh l) (h' : Fresh l') : Fresh (l ++ l') := by
  intro w hw
  rcases List.mem_append.1 hw with hw | hw
  · exact h w hw
  · exact h' w hw

theorem fresh_cons {l : List Wait} (h : Fresh l) (i v : Nat) : Fresh (Wait.mk (-1) i v .pending :: l) := by
  intro w hw
  rcases List.mem_cons.1 hw with rfl | hw
  · exact ⟨rfl, rfl⟩
  · exact h w hw

theorem vaUpd_ok {c : Cfg} (hc : c.Ok) {now : Int} (hnow : 0 ≤ now) {g : G δ} {rq : List (Nat × Nat)} (A B : List Wait)
    {s : R δ σ τ} (hA : VaGrants c s g now A) (hB : Fresh B) (hQ : Fresh s.vaQ)
    (h : Inv c s g rq ((A ++ B ++ s.vaQ).map Wait.key) (s.saQ.map Wait.key)) :
    ∃ vcs next q ext, vaUpd c now s (A ++ B) = .ok { s with vcs := vcs, next := next, vaQ := q, saQ := s.saQ ++ ext } ∧
      Fresh q ∧ Fresh ext ∧
      Inv c { s with vcs := vcs, next := next, vaQ := q, saQ := s.saQ ++ ext } g rq (q.map Wait.key)
        ((s.saQ ++ ext).map Wait.key) ∧
      (∀ i v, (s.vcs i v).st = .active → vcs i v = s.vcs i v) ∧ (∀ o u, (next o).vcOcc u = (s.next o).vcOcc u) := by
  induction A generalizing s with
  | nil =>
    refine ⟨s.vcs, s.next, B ++ s.vaQ, [], ?_, fresh_append hB hQ, (by intro w hw; cases hw), ?_, fun _ _ _ => rfl,
      fun _ _ => rfl⟩
    · cases B with
      | nil => simp [vaUpd]
      | cons w B =>
        have := (hB w (by simp)).1
        simp [vaUpd, this]
    · have := h.frame s.routeQ (B ++ s.vaQ) s.saQ s.va s.sa s.rr s.active
      simpa using this
  | cons w A ih =>
    have ht := hA.time w (by simp)
    have hkey : w.key ∈ (w :: A ++ B ++ s.vaQ).map Wait.key := List.mem_map.2 ⟨w, by simp, rfl⟩
    have hfr := h.mem_va (i := w.i) (v := w.v) hkey
    have hA' : VaGrants c s g now A := ⟨fun w hw => hA.time w (by simp [hw]), fun w hw => hA.res w (by simp [hw]),
      fun w hw => hA.got w (by simp [hw]), (List.pairwise_cons.1 hA.distinct).2⟩
    simp only [List.cons_append]
    unfold vaUpd
    rw [if_neg (by omega), require_pos (by simp [ht]), require_pos hfr]
    cases hres : w.res with
    | pending => exact absurd hres (hA.res w (by simp))
    | stall =>
      simp only []
      have h1 : Inv c { s with vaQ := s.vaQ ++ [Wait.mk (-1) w.i w.v .pending] } g rq
          ((A ++ B ++ (s.vaQ ++ [Wait.mk (-1) w.i w.v .pending])).map Wait.key) (s.saQ.map Wait.key) := by
        have := h.frame s.routeQ (s.vaQ ++ [Wait.mk (-1) w.i w.v .pending]) s.saQ s.va s.sa s.rr s.active
        refine this.perm (List.Perm.refl _) ?_ (List.Perm.refl _)
        have e : w.key = (Wait.mk (-1) w.i w.v .pending).key := rfl
        simp only [List.cons_append, List.map_cons, e, ← List.append_assoc]
        rw [List.map_append (l₂ := [_])]
        exact (List.perm_append_singleton _ _).symm
      obtain ⟨vcs, next, q, ext, e, k1, k2, k3, k4, k5⟩ := ih (s := { s with vaQ := s.vaQ ++ [Wait.mk (-1) w.i w.v .pending] })
        ⟨hA'.time, hA'.res, hA'.got, hA'.distinct⟩ (fresh_snoc hQ _ _) h1
      exact ⟨vcs, next, q, ext, e, k1, k2, k3, k4, k5⟩
    | got ow =>
      simp only []
      obtain ⟨g1, g2, g3⟩ := hA.got w (by simp) ow hres
      have hu : ow % c.vcs < c.vcs := Nat.mod_lt _ hc.buf.vcs_pos
      obtain ⟨b, e0, hb, hbo, hbu⟩ := takeBuffer_eq (tag := ((w.i * c.vcs + w.v : Nat) : Int)) hc.tail
        (h.port.buf (ow / c.vcs)) hu g2
      have e1 : acquire c s w.i w.v ow = .ok { s.setVc w.i w.v { s.vcs w.i w.v with
            out := some (ow / c.vcs, ow % c.vcs)
            st := .active } with
          next := upd s.next (ow / c.vcs) b
          saQ := s.saQ ++ [Wait.mk (-1) w.i w.v .pending] } := by
        unfold acquire
        rw [require_pos (by simpa using g1), require_pos (by simpa [BufState.isAvailableFor] using g2), e0]
      rw [e1]
      simp only []
      have h1 := acquire_inv (s' := { s.setVc w.i w.v { s.vcs w.i w.v with out := some (ow / c.vcs, ow % c.vcs), st := .active } with
          next := upd s.next (ow / c.vcs) b
          saQ := s.saQ ++ [Wait.mk (-1) w.i w.v .pending] })
          (x := { s.vcs w.i w.v with out := some (ow / c.vcs, ow % c.vcs), st := .active })
          (va := (A ++ B ++ s.vaQ).map Wait.key) h g1 hu g2 g3
          (setVc_apply s _ _ _) rfl hb hbo hbu rfl rfl rfl rfl rfl rfl rfl rfl rfl rfl
      have hst0 : (s.vcs w.i w.v).st = .vcAlloc := (h.q.vaM w.i w.v).1 hkey
      have hA2 : VaGrants c { s.setVc w.i w.v { s.vcs w.i w.v with out := some (ow / c.vcs, ow % c.vcs), st := .active } with
          next := upd s.next (ow / c.vcs) b
          saQ := s.saQ ++ [Wait.mk (-1) w.i w.v .pending] } g now A := by
        refine ⟨hA'.time, hA'.res, ?_, hA'.distinct⟩
        intro w' hw' ow' hr'
        obtain ⟨l1, l2, l3⟩ := hA'.got w' hw' ow' hr'
        refine ⟨l1, ?_, ?_⟩
        · have hne : ow ≠ ow' := (List.pairwise_cons.1 hA.distinct).1 w' hw' ow ow' hres hr'
          simp only [upd_apply]
          split
          · rename_i e
            rw [hbu, upd_apply, if_neg]
            · rw [← e]; exact l2
            · intro e2
              apply hne
              rw [← Nat.div_add_mod ow c.vcs, ← e, ← e2, Nat.div_add_mod]
          · exact l2
        · intro f hf
          apply l3
          simp only [setVc_apply] at hf
          split at hf
          · rename_i hk; rw [hk.1, hk.2]; exact hf
          · exact hf
      obtain ⟨vcs, next, q, ext, e, k1, k2, k3, k4, k5⟩ := ih (s := { s.setVc w.i w.v { s.vcs w.i w.v with out := some (ow / c.vcs, ow % c.vcs), st := .active } with
          next := upd s.next (ow / c.vcs) b
          saQ := s.saQ ++ [Wait.mk (-1) w.i w.v .pending] }) hA2 hQ (h1.congr rfl rfl (by simp [Wait.key]))
      refine ⟨vcs, next, q, Wait.mk (-1) w.i w.v .pending :: ext, ?_, k1, fresh_cons k2 _ _, ?_, ?_, ?_⟩
      · rw [e]
        simp [R.setVc]
      · simpa [R.setVc] using k3
      · intro i v hs
        have hk : ¬ (i = w.i ∧ v = w.v) := by
          rintro ⟨rfl, rfl⟩; rw [hst0] at hs; cases hs
        rw [k4 i v (by simp only [setVc_apply, if_neg hk]; exact hs)]
        simp only [setVc_apply, if_neg hk]
      · intro o u
        rw [k5]
        simp only [upd_apply]
        split
        · rename_i e; subst e; rw [hbo]
        · rfl

end RadSim.Router
