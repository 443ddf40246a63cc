import Verif.Lemmas.RouterBase

/-! # The first phase of a tick: flits and credits come in -/

namespace RadSim.Router

variable {δ σ τ ρ ρ' : Type}

/-- All entries of the queues are new. -/
def Fresh (l : List Wait) : Prop := ∀ w ∈ l, w.time = -1 ∧ w.res = .pending

/-- The invariant for the queues as they are. -/
abbrev InvQ (c : Cfg) (s : R δ σ τ) (g : G δ) : Prop :=
  Inv c s g (s.routeQ.map Wait.key) (s.vaQ.map Wait.key) (s.saQ.map Wait.key)

theorem Inv.congr {c : Cfg} {s : R δ σ τ} {g : G δ} {rq va sa rq' va' sa' : List (Nat × Nat)} (h : Inv c s g rq va sa)
    (h1 : rq = rq') (h2 : va = va') (h3 : sa = sa') : Inv c s g rq' va' sa' := by subst h1 h2 h3; exact h

/-- A received flit in the history. -/
def G.receive (g : G δ) (i : Nat) (f : Flit δ) : G δ :=
  { g with recv := fun i' v' => if i' = i ∧ v' = f.vc then g.recv i' v' ++ [f] else g.recv i' v' }

theorem Vc.add_ok {c : Cfg} {s : R δ σ τ} {g : G δ} {i : Nat} {f : Flit δ} (h : VcInv c s g i f.vc)
    (hp : Packets Flit.head Flit.tail Flit.pid (g.recv i f.vc ++ [f])) :
    ∃ x, (s.vcs i f.vc).add f = .ok { s.vcs i f.vc with q := (s.vcs i f.vc).q ++ [f], exp := x } ∧
      (f.tail = true → x < 0) ∧ (f.tail = false → x = f.pid) := by
  have hfit := (packets_snoc.1 hp).2
  unfold Vc.add
  cases hl : (g.recv i f.vc).getLast? with
  | none =>
    have he : (s.vcs i f.vc).exp < 0 := h.expC (by intro a ha; rw [hl] at ha; cases ha)
    rw [if_neg (by omega)]
    refine ⟨_, rfl, ?_, ?_⟩ <;> intro ht <;> simp [ht, he]
  | some a =>
    cases ha : a.tail with
    | true =>
      have he : (s.vcs i f.vc).exp < 0 := h.expC (by intro b hb; rw [hl] at hb; cases hb; exact ha)
      rw [if_neg (by omega)]
      refine ⟨_, rfl, ?_, ?_⟩ <;> intro ht <;> simp [ht, he]
    | false =>
      have he := h.expO a hl ha
      have hk := (Fits.head_of_open hl ha hfit).2
      by_cases hx : (s.vcs i f.vc).exp ≥ 0
      · rw [if_pos hx, if_neg (by rw [he]; simpa using hk)]
        refine ⟨_, rfl, ?_, ?_⟩ <;> intro ht <;> simp [ht]
        rw [he]; exact hk.symm
      · rw [if_neg hx]
        refine ⟨_, rfl, ?_, ?_⟩ <;> intro ht <;> simp [ht]
        omega

theorem q_length_le {c : Cfg} {s : R δ σ τ} {g : G δ} (h : VcInv c s g i v) (hp : PortInv c s g) :
    ((s.vcs i v).q.length : Int) + g.ret i v + ((s.credBuf i).flatten.count v + (s.outCred i).count v) =
      (g.recv i v).length := by
  have h1 := congrArg List.length h.recv
  have h2 := hp.cred i v
  simp only [List.length_append, List.length_map] at h1
  omega

/-- The queue to which the virtual channel of an arriving flit is added. -/
def rqAdd (s : R δ σ τ) (i : Nat) (f : Flit δ) (rq : List (Nat × Nat)) : List (Nat × Nat) :=
  if (s.vcs i f.vc).st = .idle then rq ++ [(i, f.vc)] else rq

/-- The queue to which the virtual channel of an arriving flit is added. -/
def saAdd (s : R δ σ τ) (i : Nat) (f : Flit δ) (sa : List (Nat × Nat)) : List (Nat × Nat) :=
  if (s.vcs i f.vc).st = .active ∧ (s.vcs i f.vc).q = [] then sa ++ [(i, f.vc)] else sa

/-- The state after a flit has arrived. -/
theorem enqueue_inv {c : Cfg} {s s' : R δ σ τ} {g : G δ} {i : Nat} {f : Flit δ} {rq va sa : List (Nat × Nat)} {x : Vc δ}
    (h : Inv c s g rq va sa) (hi : i < c.inputs) (hv : f.vc < c.vcs)
    (hp : Packets Flit.head Flit.tail Flit.pid (g.recv i f.vc ++ [f]))
    (hl : ((g.recv i f.vc).length : Int) + 1 ≤ c.buf.perVc + g.ret i f.vc)
    (hvcs : ∀ i' v', s'.vcs i' v' = if i' = i ∧ v' = f.vc then x else s.vcs i' v')
    (hnext : s'.next = s.next) (hcredQ : s'.credQ = s.credQ) (houtBuf : s'.outBuf = s.outBuf) (hxb : s'.xbQ = s.xbQ)
    (hcredBuf : s'.credBuf = s.credBuf) (houtCred : s'.outCred = s.outCred) (hocc : s'.occ = upd s.occ i (s.occ i + 1))
    (hq : x.q = (s.vcs i f.vc).q ++ [f]) (he1 : f.tail = true → x.exp < 0) (he2 : f.tail = false → x.exp = f.pid)
    (hout : x.out = (s.vcs i f.vc).out) (hr : x.route = (s.vcs i f.vc).route)
    (hst : x.st = if (s.vcs i f.vc).st = .idle then .routing else (s.vcs i f.vc).st) :
    Inv c s' (g.receive i f) (rqAdd s i f rq) va (saAdd s i f sa) := by
  have hin := h.vc i f.vc
  have hhead : ∀ y, (s.vcs i f.vc).q.head? = some y → x.q.head? = some y := by
    intro y hy; rw [hq]; cases hqq : (s.vcs i f.vc).q <;> simp_all
  have hidle : x.st ≠ .idle := by rw [hst]; split <;> simp_all
  refine ⟨?_, ?_, ?_, ?_⟩
  · intro i' v'
    have h' := h.vc i' v'
    by_cases hk : i' = i ∧ v' = f.vc
    · obtain ⟨rfl, rfl⟩ := hk
      refine ⟨?_, ?_, ?_, ?_, ?_, ?_, ?_, ?_, ?_, ?_, ?_, ?_⟩
      · intro _; exact ⟨hi, hv⟩
      · simp only [hvcs, G.receive, hq, and_self, if_true]
        rw [← h'.recv]; simp
      · simp only [G.receive, and_self, if_true, List.mem_append, List.mem_singleton]
        rintro y (hy | rfl)
        · exact h'.vc y hy
        · rfl
      · simpa [G.receive] using hp
      · simp only [G.receive, and_self, if_true, hvcs, closed_snoc]; exact he1
      · simp only [G.receive, and_self, if_true, hvcs]
        intro a ha
        simp only [List.getLast?_append, List.getLast?_singleton, Option.some_or, Option.some.injEq] at ha
        subst ha; exact he2
      · exact h'.fromPk
      · simp only [hvcs, and_self, if_true]; intro e; exact absurd e hidle
      · simp only [hvcs, and_self, if_true, hq]
        intro e
        refine ⟨by simp, ?_⟩
        by_cases e2 : (s.vcs i' f.vc).st = .idle
        · exact (h'.idle e2).2
        · rw [hst, if_neg e2] at e
          exact (h'.pre e).2
      · simp only [hvcs, and_self, if_true]
        intro e
        have e' : (s.vcs i' f.vc).st = .vcAlloc := by rw [hst] at e; split at e <;> simp_all
        have h3 := h'.hops e'
        have hold : ∀ y, x.q.head? = some y → (s.vcs i' f.vc).q.head? = some y := by
          intro y hy
          have hne := (h'.pre (.inr e')).1
          rw [hq] at hy
          cases hqq : (s.vcs i' f.vc).q <;> simp_all
        refine ⟨by rw [hr]; exact h3.hop, by rw [hr]; exact h3.once, ?_, ?_⟩
        · intro y hy
          rw [hr]
          exact h3.src y (hold y hy)
        intro y hy
        rw [hr]
        exact h3.may y (hold y hy)
      · simp only [hvcs, and_self, if_true]
        intro e
        have e' : (s.vcs i' f.vc).st = .active := by rw [hst] at e; split at e <;> simp_all
        obtain ⟨o, u, ho, h3⟩ := h'.act e'
        refine ⟨o, u, by rw [hout, ho], ⟨h3.o_lt, h3.u_lt, by rw [hnext]; exact h3.use, ?_⟩⟩
        rcases h3.link with ⟨a1, a2, y, a3, a4⟩ | a
        · refine .inl ⟨a1, a2, y, ?_, a4⟩
          simp only [hvcs, and_self, if_true]
          exact hhead y a3
        · exact .inr a
      · simp only [G.receive, and_self, if_true, List.length_append, List.length_singleton]
        push_cast; exact hl
    · have e1 : s'.vcs i' v' = s.vcs i' v' := by rw [hvcs, if_neg hk]
      have e2 : (g.receive i f).recv i' v' = g.recv i' v' := by simp only [G.receive, if_neg hk]
      refine ⟨?_, ?_, ?_, ?_, ?_, ?_, ?_, ?_, ?_, ?_, ?_, ?_⟩
      · rw [e1]; exact h'.range
      · rw [e1, e2]; exact h'.recv
      · rw [e2]; exact h'.vc
      · rw [e2]; exact h'.pk
      · rw [e1, e2]; exact h'.expC
      · rw [e1, e2]; exact h'.expO
      · exact h'.fromPk
      · rw [e1]; exact h'.idle
      · rw [e1]; exact h'.pre
      · rw [e1]; intro e; exact ⟨(h'.hops e).hop, (h'.hops e).once, (h'.hops e).src, (h'.hops e).may⟩
      · rw [e1]; intro e
        obtain ⟨o, u, ho, h3⟩ := h'.act e
        exact ⟨o, u, ho, ⟨h3.o_lt, h3.u_lt, by rw [hnext]; exact h3.use, by rw [e1]; exact h3.link⟩⟩
      · rw [e2]; exact h'.len
  · intro o u
    have h' := h.out o u
    refine ⟨h'.toPk, by rw [hnext]; exact h'.free, ?_, by rw [hnext, hcredQ]; exact h'.occ, h'.le⟩
    rw [hnext]
    intro e
    obtain ⟨i', v', a1, a2, a3, a4, a5⟩ := h'.own e
    refine ⟨i', v', a1, a2, a3, ?_, ?_⟩
    · rw [hvcs]; split
      · rename_i hk; obtain ⟨rfl, rfl⟩ := hk; rw [hst, a4]; rfl
      · exact a4
    · rw [hvcs]; split
      · rename_i hk; obtain ⟨rfl, rfl⟩ := hk; rw [hout, a5]
      · exact a5
  · have h' := h.port
    refine ⟨h'.routed, by rw [houtBuf, hxb]; exact h'.stream, by rw [hnext]; exact h'.buf,
      by rw [hcredBuf, houtCred]; exact h'.cred, ?_, by rw [hxb]; exact h'.xb, by rw [hcredQ]; exact h'.pendOk,
      h'.logOk, by rw [hcredBuf, houtCred]; exact h'.crN⟩
    intro i'
    rw [hocc, upd_apply]
    split
    · rename_i e; subst e
      rw [h'.occ]
      have : (fun v => ((s'.vcs i' v).q.length : Int)) =
          upd (fun v => ((s.vcs i' v).q.length : Int)) f.vc ((s.vcs i' f.vc).q.length + 1) := by
        funext v
        simp only [hvcs, upd_apply, true_and]
        split
        · rw [hq]; simp
        · rfl
      rw [this, sumTo_upd _ _ _ hv]
      omega
    · rename_i e
      rw [h'.occ]
      apply sumTo_congr
      intro v _
      rw [hvcs, if_neg (by simp [e])]
  · have h' := h.q
    refine ⟨?_, ?_, h'.vaN, ?_, ?_, ?_⟩
    · unfold rqAdd; split
      · rename_i e
        rw [List.nodup_append]
        refine ⟨h'.rqN, by simp, ?_⟩
        intro a ha b hb
        simp only [List.mem_singleton] at hb
        subst hb
        rintro rfl
        rw [h'.rqM, e] at ha; cases ha
      · exact h'.rqN
    · intro i' v'
      rw [hvcs]
      by_cases hk : i' = i ∧ v' = f.vc
      · obtain ⟨rfl, rfl⟩ := hk
        rw [if_pos ⟨rfl, rfl⟩, hst]
        unfold rqAdd
        split <;> simp_all [h'.rqM]
      · rw [if_neg hk, ← h'.rqM]
        unfold rqAdd
        split <;> simp_all
    · intro i' v'
      rw [hvcs, h'.vaM]
      by_cases hk : i' = i ∧ v' = f.vc
      · obtain ⟨rfl, rfl⟩ := hk
        rw [if_pos ⟨rfl, rfl⟩, hst]
        split <;> simp_all
      · rw [if_neg hk]
    · unfold saAdd; split
      · rename_i e
        rw [List.nodup_append]
        refine ⟨h'.saN, by simp, ?_⟩
        intro a ha b hb
        simp only [List.mem_singleton] at hb
        subst hb
        rintro rfl
        rw [h'.saM] at ha; exact ha.2 e.2
      · exact h'.saN
    · intro i' v'
      rw [hvcs]
      by_cases hk : i' = i ∧ v' = f.vc
      · obtain ⟨rfl, rfl⟩ := hk
        rw [if_pos ⟨rfl, rfl⟩, hst, hq]
        have := h'.saM i' f.vc
        unfold saAdd
        split <;> split <;> simp_all
      · rw [if_neg hk, ← h'.saM]
        unfold saAdd
        split <;> simp_all

theorem enqueue_ok {c : Cfg} (hc : c.Ok) {s : R δ σ τ} {g : G δ} {i : Nat} {f : Flit δ} (h : InvQ c s g)
    (hi : i < c.inputs) (hv : f.vc < c.vcs) (hp : Packets Flit.head Flit.tail Flit.pid (g.recv i f.vc ++ [f]))
    (hl : ((g.recv i f.vc).length : Int) + 1 ≤ c.buf.perVc + g.ret i f.vc)
    (hf : Fresh s.routeQ ∧ Fresh s.saQ) :
    ∃ s', enqueue c s i f = .ok s' ∧ InvQ c s' (g.receive i f) ∧ (Fresh s'.routeQ ∧ Fresh s'.saQ) ∧
      s'.vaQ = s.vaQ ∧ s'.xbQ = s.xbQ ∧ s'.credQ = s.credQ ∧ s'.va = s.va ∧ s'.sa = s.sa ∧
      s'.outBuf = s.outBuf ∧ s'.outCred = s.outCred ∧ s'.credBuf = s.credBuf := by
  obtain ⟨e, hadd, he1, he2⟩ := Vc.add_ok (h.vc i f.vc) hp
  have hocc : s.occ i < c.buf.size := by
    have hle : ∀ v, v < c.vcs →
        upd (fun v => ((s.vcs i v).q.length : Int)) f.vc ((s.vcs i f.vc).q.length + 1) v ≤ c.buf.perVc := by
      intro v _
      have h1 := q_length_le (h.vc i v) h.port
      have h2 := (h.vc i v).len
      rw [upd_apply]; split
      · rename_i e; subst e; omega
      · omega
    have h1 := sumTo_le hle
    rw [sumTo_upd _ _ _ hv, ← h.port.occ i] at h1
    have h2 := perVc_mul_le_size c.buf hc.buf
    change (c.vcs : Int) * _ ≤ _ at h2
    omega
  unfold enqueue
  rw [require_pos (by simpa using hi), require_pos (by simpa using hv), require_pos (by simpa using hocc), hadd]
  have hfit := packets_snoc.1 hp
  by_cases h1 : (s.vcs i f.vc).st = .idle
  · have hq := ((h.vc i f.vc).idle h1).1
    have hd := ((h.vc i f.vc).idle h1).2
    have hr := (h.vc i f.vc).recv
    rw [hq, List.append_nil] at hr
    have hhead : f.head = true := by
      refine Fits.head_of_closed (tail := Flit.tail) (key := Flit.pid) ?_ hfit.2
      rw [← hr]
      intro a ha
      rw [List.getLast?_map] at ha
      obtain ⟨b, hb, rfl⟩ := Option.map_eq_some_iff.1 ha
      exact hd b hb
    simp only [h1, if_true]
    rw [require_pos (by simp [hq]), require_pos hhead]
    refine ⟨_, rfl, ?_, ?_, rfl, rfl, rfl, rfl, rfl, rfl, rfl, rfl⟩
    · have := enqueue_inv (s' := { R.setVc { s with occ := upd s.occ i (s.occ i + 1) } i f.vc { s.vcs i f.vc with st := .routing, q := (s.vcs i f.vc).q ++ [f], exp := e } with
            routeQ := s.routeQ ++ [⟨-1, i, f.vc, .pending⟩] }) (x := { s.vcs i f.vc with
          st := .routing, q := (s.vcs i f.vc).q ++ [f], exp := e }) h hi hv hp hl
          (setVc_apply { s with occ := upd s.occ i (s.occ i + 1) } _ _ _) rfl rfl rfl rfl rfl rfl rfl rfl he1 he2 rfl rfl (by simp [h1])
      exact this.congr (by simp [rqAdd, h1, Wait.key]) rfl (by simp [saAdd, h1, R.setVc])
    · refine ⟨?_, hf.2⟩
      intro w hw
      simp only [List.mem_append, List.mem_singleton] at hw
      rcases hw with hw | rfl
      · exact hf.1 w hw
      · exact ⟨rfl, rfl⟩
  · simp only [h1, if_false]
    by_cases h2 : (s.vcs i f.vc).st = .active ∧ (s.vcs i f.vc).q = []
    · rw [if_pos ⟨h2.1, by simp [h2.2]⟩]
      refine ⟨_, rfl, ?_, ?_, rfl, rfl, rfl, rfl, rfl, rfl, rfl, rfl⟩
      · have := enqueue_inv (s' := { R.setVc { s with occ := upd s.occ i (s.occ i + 1) } i f.vc { s.vcs i f.vc with q := (s.vcs i f.vc).q ++ [f], exp := e } with
            saQ := s.saQ ++ [⟨-1, i, f.vc, .pending⟩] }) (x := { s.vcs i f.vc with
            q := (s.vcs i f.vc).q ++ [f], exp := e }) h hi hv hp hl
            (setVc_apply { s with occ := upd s.occ i (s.occ i + 1) } _ _ _) rfl rfl rfl rfl rfl rfl rfl rfl he1 he2 rfl rfl (by simp [h1])
        exact this.congr (by simp [rqAdd, h1, R.setVc]) rfl (by simp [saAdd, h2.1, h2.2, Wait.key])
      · refine ⟨hf.1, ?_⟩
        intro w hw
        simp only [List.mem_append, List.mem_singleton] at hw
        rcases hw with hw | rfl
        · exact hf.2 w hw
        · exact ⟨rfl, rfl⟩
    · have h3 : ¬ ((s.vcs i f.vc).st = .active ∧ ((s.vcs i f.vc).q ++ [f]).length = 1) := by
        intro ⟨a, b⟩
        refine h2 ⟨a, ?_⟩
        simpa using b
      rw [if_neg h3]
      refine ⟨_, rfl, ?_, hf, rfl, rfl, rfl, rfl, rfl, rfl, rfl, rfl⟩
      have := enqueue_inv (s' := R.setVc { s with occ := upd s.occ i (s.occ i + 1) } i f.vc { s.vcs i f.vc with q := (s.vcs i f.vc).q ++ [f], exp := e }) (x := { s.vcs i f.vc with
            q := (s.vcs i f.vc).q ++ [f], exp := e }) h hi hv hp hl
            (setVc_apply { s with occ := upd s.occ i (s.occ i + 1) } _ _ _) rfl rfl rfl rfl rfl rfl rfl rfl he1 he2 rfl rfl (by simp [h1])
      exact this.congr (by simp [rqAdd, h1, R.setVc]) rfl (by simp only [saAdd, if_neg h2]; rfl)

theorem enqueueAll_ok {c : Cfg} (hc : c.Ok) {s : R δ σ τ} {g : G δ} (l : List (Nat × Flit δ)) (h : InvQ c s g)
    (hn : (l.map Prod.fst).Nodup) (hr : ∀ x ∈ l, x.1 < c.inputs ∧ x.2.vc < c.vcs)
    (hp : ∀ x ∈ l, Packets Flit.head Flit.tail Flit.pid (g.recv x.1 x.2.vc ++ [x.2]))
    (hl : ∀ x ∈ l, ((g.recv x.1 x.2.vc).length : Int) + 1 ≤ c.buf.perVc + g.ret x.1 x.2.vc)
    (hf : Fresh s.routeQ ∧ Fresh s.saQ) :
    ∃ s', enqueueAll c s l = .ok s' ∧ InvQ c s' (l.foldl (fun g x => g.receive x.1 x.2) g) ∧
      (Fresh s'.routeQ ∧ Fresh s'.saQ) ∧
      s'.vaQ = s.vaQ ∧ s'.xbQ = s.xbQ ∧ s'.credQ = s.credQ ∧ s'.va = s.va ∧ s'.sa = s.sa ∧
      s'.outBuf = s.outBuf ∧ s'.outCred = s.outCred ∧ s'.credBuf = s.credBuf := by
  induction l generalizing s g with
  | nil => exact ⟨s, rfl, h, hf, rfl, rfl, rfl, rfl, rfl, rfl, rfl, rfl⟩
  | cons x l ih =>
    obtain ⟨i, f⟩ := x
    have h0 := hr (i, f) (by simp)
    obtain ⟨s1, e1, i1, f1, a1, a2, a3, a4, a5, a6, a7, a8⟩ :=
      enqueue_ok hc h h0.1 h0.2 (hp (i, f) (by simp)) (hl (i, f) (by simp)) hf
    simp only [List.map_cons, List.nodup_cons] at hn
    have hne : ∀ x ∈ l, x.1 ≠ i := fun x hx e => hn.1 (List.mem_map.2 ⟨x, hx, e⟩)
    have hg : ∀ x ∈ l, (g.receive i f).recv x.1 x.2.vc = g.recv x.1 x.2.vc := by
      intro x hx
      simp [G.receive, hne x hx]
    obtain ⟨s2, e2, i2, f2, b1, b2, b3, b4, b5, b6, b7, b8⟩ := ih i1 hn.2 (fun x hx => hr x (by simp [hx]))
      (fun x hx => by rw [hg x hx]; exact hp x (by simp [hx]))
      (fun x hx => by rw [hg x hx]; exact hl x (by simp [hx])) f1
    refine ⟨s2, ?_, i2, f2, ?_, ?_, ?_, ?_, ?_, ?_, ?_, ?_⟩
    · simp only [enqueueAll, e1, e2]
    all_goals simp_all

theorem creditVc_eq {b : BufCfg} (hw : b.waitTail = false) {x : BufState} (hi : BufInv b x) {u : Nat} (hu : u < b.vcs)
    (hocc : 0 < x.vcOcc u) : ∃ y, x.creditVc b u = .ok y ∧ BufInv b y ∧
      y.vcOcc = upd x.vcOcc u (x.vcOcc u - 1) ∧ y.inUse = x.inUse := by
  obtain ⟨y, e, h1, h2⟩ := creditVc_ok hi hu hocc
  refine ⟨y, e, h1, h2, ?_⟩
  have hle := le_sumTo (fun i hi' => (hi.bound i hi').1) hu
  have ht := hi.total
  unfold BufState.creditVc at e
  simp only [hw, Bool.false_and] at e
  rw [if_neg (by omega), if_neg (by simp), if_neg (by omega), if_neg (by omega), if_neg (by simp)] at e
  cases e; rfl

theorem processCredit_eq {b : BufCfg} (hw : b.waitTail = false) (vcs : List Nat) {x : BufState} (hi : BufInv b x)
    (hv : ∀ u ∈ vcs, u < b.vcs ∧ (vcs.count u : Int) ≤ x.vcOcc u) :
    ∃ y, x.processCredit b vcs = .ok y ∧ BufInv b y ∧ (∀ u, y.vcOcc u = x.vcOcc u - vcs.count u) ∧
      y.inUse = x.inUse := by
  induction vcs generalizing x with
  | nil => exact ⟨x, rfl, hi, by simp, rfl⟩
  | cons u l ih =>
    have h0 := hv u (by simp)
    rw [List.count_cons_self] at h0
    obtain ⟨y, e, h1, h2, h3⟩ := creditVc_eq hw hi h0.1 (by omega)
    obtain ⟨z, e', k1, k2, k3⟩ := ih h1 (by
      intro w hwl
      have := hv w (by simp [hwl])
      refine ⟨this.1, ?_⟩
      rw [h2, upd_apply]
      by_cases e : w = u
      · subst e; rw [if_pos rfl]; rw [List.count_cons_self] at this; omega
      · rw [if_neg e]; rw [List.count_cons_of_ne (Ne.symm e)] at this; omega)
    refine ⟨z, by simp only [BufState.processCredit, e, e'], k1, ?_, by rw [k3, h3]⟩
    intro w
    rw [k2, h2, upd_apply]
    by_cases e : w = u
    · subst e; rw [if_pos rfl, List.count_cons_self]; push_cast; omega
    · rw [if_neg e, List.count_cons_of_ne (Ne.symm e)]

theorem pend_cons (x : Cred) (l : List Cred) (o u : Nat) :
    pend (x :: l) o u = (if x.o = o then x.vcs.count u else 0) + pend l o u := by
  simp only [pend, List.filter_cons]
  by_cases h : x.o = o <;> simp [h, List.count_append]

theorem pend_append (l l' : List Cred) (o u : Nat) : pend (l ++ l') o u = pend l o u + pend l' o u := by
  simp [pend, List.filter_append, List.count_append]

theorem sent_le {c : Cfg} {s : R δ σ τ} {g : G δ} (h : PortInv c s g) (o u : Nat) :
    ((g.sent o).filter fun f => f.vc = u).length ≤ (passedTo g.log o u).length := by
  have h1 := congrArg (fun l => (l.filter fun f => decide (f.vc = u)).length) (h.stream o)
  simp only [List.filter_append, List.length_append] at h1
  have h2 : ((List.map Pass.flit (g.log.filter fun e => decide (e.o = o))).filter fun f => decide (f.vc = u)).length =
      (passedTo g.log o u).length := by
    rw [List.filter_map, List.length_map, List.filter_filter, passedTo]
    congr 1
    apply List.filter_congr
    intro e _
    simp only [Function.comp, Pass.flit]
    by_cases h1 : e.o = o <;> by_cases h2 : e.u = u <;> simp [h1, h2]
  omega

/-- A change of the accounting of the next buffers that does not concern who uses them. -/
theorem Inv.credit {c : Cfg} {s : R δ σ τ} {g : G δ} {rq va sa : List (Nat × Nat)} {next : Nat → BufState} {q : List Cred}
    (h : Inv c s g rq va sa) (hu : ∀ o, (next o).inUse = (s.next o).inUse) (hb : ∀ o, BufInv c.buf (next o))
    (ho : ∀ o u, (next o).vcOcc u + g.cin o u = (passedTo g.log o u).length + pend q o u)
    (hq : ∀ x ∈ q, x.o < c.outputs ∧ x.vcs.Nodup ∧ ∀ u ∈ x.vcs, u < c.vcs) :
    Inv c { s with next := next, credQ := q } g rq va sa := by
  refine ⟨?_, ?_, ?_, ?_⟩
  · intro i v
    have h' := h.vc i v
    refine ⟨h'.range, h'.recv, h'.vc, h'.pk, h'.expC, h'.expO, h'.fromPk, h'.idle, h'.pre, h'.hops, ?_, h'.len⟩
    intro e
    obtain ⟨o, u, e1, h3⟩ := h'.act e
    exact ⟨o, u, e1, ⟨h3.o_lt, h3.u_lt, by simp only [hu]; exact h3.use, h3.link⟩⟩
  · intro o u
    have h' := h.out o u
    refine ⟨h'.toPk, by simp only [hu]; exact h'.free, by simp only [hu]; exact h'.own, ho o u, h'.le⟩
  · have h' := h.port
    exact ⟨h'.routed, h'.stream, hb, h'.cred, h'.occ, h'.xb, hq, h'.logOk, h'.crN⟩
  · exact ⟨h.q.rqN, h.q.rqM, h.q.vaN, h.q.vaM, h.q.saN, h.q.saM⟩

theorem credits_ok {c : Cfg} (hc : c.Ok) (now : Int) {g : G δ} {rq va sa : List (Nat × Nat)} (l : List Cred)
    {s : R δ σ τ} (h : Inv c { s with credQ := l } g rq va sa) :
    ∃ next q, credits c now s l = .ok { s with next := next, credQ := q } ∧
      Inv c { s with next := next, credQ := q } g rq va sa ∧
      (∀ o, (next o).inUse = (s.next o).inUse) ∧ (∀ o u, (next o).vcOcc u ≤ (s.next o).vcOcc u) ∧
      (∃ A, l = A ++ q) ∧ ∀ x ∈ q.head?, now < x.time := by
  induction l generalizing s with
  | nil => exact ⟨s.next, [], rfl, h, fun _ => rfl, fun _ _ => Int.le_refl _, ⟨[], rfl⟩, by simp⟩
  | cons x l ih =>
    unfold credits
    split
    · rename_i hx
      exact ⟨s.next, x :: l, rfl, h, fun _ => rfl, fun _ _ => Int.le_refl _, ⟨[], rfl⟩, by simpa using hx⟩
    · have hx := h.port.pendOk x (by simp)
      rw [require_pos (by simpa using hx.1)]
      have hocc : ∀ u, (x.vcs.count u : Int) ≤ (s.next x.o).vcOcc u := by
        intro u
        have h1 := (h.out x.o u).occ
        have h2 := (h.out x.o u).le
        have h3 := sent_le h.port x.o u
        simp only [pend_cons, if_true] at h1
        push_cast at h1
        omega
      obtain ⟨b, e, hb, ho, hu⟩ := processCredit_eq hc.tail x.vcs (h.port.buf x.o)
        fun u hu => ⟨hx.2.2 u hu, hocc u⟩
      replace ho : ∀ u, b.vcOcc u = (s.next x.o).vcOcc u - x.vcs.count u := ho
      replace e : (s.next x.o).processCredit c.buf x.vcs = .ok b := e
      simp only [e]
      have hs : Inv c { s with next := upd s.next x.o b, credQ := l } g rq va sa := by
        refine Inv.credit (s := { s with credQ := x :: l }) h ?_ ?_ ?_ fun y hy => h.port.pendOk y (by simp [hy])
        · intro o
          rw [upd_apply]; split
          · rename_i e; subst e; exact hu
          · rfl
        · intro o
          rw [upd_apply]; split
          · exact hb
          · exact h.port.buf o
        · intro o u
          have h1 := (h.out o u).occ
          simp only [pend_cons] at h1
          rw [upd_apply]; split
          · rename_i e; subst e
            rw [ho]
            simp only [if_true] at h1
            push_cast at h1
            omega
          · rename_i e
            rw [if_neg (Ne.symm e)] at h1
            push_cast at h1
            omega
      obtain ⟨next, q, e2, h2, h3, h4, ⟨A, hA⟩, h5⟩ := ih (s := { s with next := upd s.next x.o b }) hs
      refine ⟨next, q, e2, h2, ?_, ?_, ⟨x :: A, by rw [hA]; rfl⟩, h5⟩
      · intro o
        rw [h3]
        simp only [upd_apply]
        split
        · rename_i e; subst e; exact hu
        · rfl
      · intro o u
        refine Int.le_trans (h4 o u) ?_
        simp only [upd_apply]
        split
        · rename_i e; subst e; rw [ho]; omega
        · exact Int.le_refl _

end RadSim.Router
