import Verif.Lemmas.RouterWork

/-! # A tick of the router -/

namespace RadSim.Router

variable {δ σ τ ρ ρ' : Type}

/-- Replace the crossbar queue and the output buffers by others with the same content. -/
theorem Inv.cross {c : Cfg} {s : R δ σ τ} {g : G δ} {rq va sa : List (Nat × Nat)} {ob : Nat → List (Flit δ)}
    {xb : List (Cross δ)} (h : Inv c s g rq va sa)
    (h1 : ∀ o, ob o ++ (xb.filter fun e => e.o = o).map Cross.f = s.outBuf o ++ (s.xbQ.filter fun e => e.o = o).map Cross.f)
    (h2 : ∀ e ∈ xb, e.i < c.inputs ∧ e.o < c.outputs) : Inv c { s with outBuf := ob, xbQ := xb } g rq va sa := by
  refine ⟨?_, ?_, ?_, ?_⟩
  · intro i v
    have h' := h.vc i v
    refine ⟨h'.range, h'.recv, h'.vc, h'.pk, h'.expC, h'.expO, h'.fromPk, h'.idle, h'.pre, h'.hops, ?_, h'.len⟩
    intro e
    obtain ⟨o, u, e1, h3⟩ := h'.act e
    exact ⟨o, u, e1, ⟨h3.o_lt, h3.u_lt, h3.use, h3.link⟩⟩
  · intro o u
    have h' := h.out o u
    exact ⟨h'.toPk, h'.free, h'.own, h'.occ, h'.le⟩
  · have h' := h.port
    refine ⟨h'.routed, ?_, h'.buf, h'.cred, h'.occ, h2, h'.pendOk, h'.logOk, h'.crN⟩
    intro o
    rw [h'.stream o, List.append_assoc, List.append_assoc, h1]
  · exact ⟨h.q.rqN, h.q.rqM, h.q.vaN, h.q.vaM, h.q.saN, h.q.saM⟩

theorem xbEval_eq {c : Cfg} (hc : c.Ok) (now : Int) {s : R δ σ τ} (h : CrossNew s.xbQ) :
    xbEval c now s = { s with xbQ := s.xbQ.map fun e => { e with time := now } } := by
  have h1 : ∀ l : List (Cross δ), (∀ e ∈ l, e.time = -1) → (l.takeWhile fun e => e.time < 0) = l ∧
      (l.dropWhile fun e => e.time < 0) = [] := by
    intro l hl
    induction l with
    | nil => exact ⟨rfl, rfl⟩
    | cons e l ih =>
      have he : (fun e : Cross δ => decide (e.time < 0)) e = true := by simp [hl e (by simp)]
      obtain ⟨a, b⟩ := ih fun e he => hl e (by simp [he])
      exact ⟨by rw [List.takeWhile_cons_of_pos (p := fun e : Cross δ => decide (e.time < 0)) he, a], by rw [List.dropWhile_cons_of_pos (p := fun e : Cross δ => decide (e.time < 0)) he, b]⟩
  obtain ⟨a, b⟩ := h1 _ h.time
  simp only [xbEval, a, b, List.append_nil, hc.xb, Int.add_sub_cancel]

theorem xbUpd_ok {c : Cfg} (hc : c.Ok) {now : Int} (hnow : 0 ≤ now) {g : G δ} {rq va sa : List (Nat × Nat)}
    (A B : List (Cross δ)) {s : R δ σ τ} (hA : ∀ e ∈ A, e.time = now) (hn : (A.map Cross.o).Nodup)
    (hB : ∀ e ∈ B, e.time = -1) (hob : ∀ o, (s.outBuf o).length ≤ 1) (hoA : ∀ e ∈ A, s.outBuf e.o = [])
    (h : Inv c { s with xbQ := A ++ B } g rq va sa) :
    ∃ ob, xbUpd c now s (A ++ B) = .ok { s with outBuf := ob, xbQ := B } ∧
      Inv c { s with outBuf := ob, xbQ := B } g rq va sa ∧ ∀ o, (ob o).length ≤ 1 := by
  induction A generalizing s with
  | nil =>
    refine ⟨s.outBuf, ?_, h, hob⟩
    cases B with
    | nil => simp [xbUpd]
    | cons w B =>
      have := hB w (by simp)
      simp [xbUpd, this]
  | cons e A ih =>
    have ht := hA e (by simp)
    have hx := h.port.xb e (by simp)
    have he := hoA e (by simp)
    simp only [List.cons_append]
    unfold xbUpd
    rw [if_neg (by omega), require_pos (by simp [ht]), require_pos (by simpa using hx.1),
      require_pos (by simpa using hx.2)]
    simp only [he, List.nil_append]
    rw [require_pos]
    rotate_left
    · have := hc.outSize
      rw [hc.xb]
      simp only [List.length_singleton, Bool.or_eq_true, decide_eq_true_eq]
      omega
    have hn' := List.nodup_cons.1 (by simpa using hn : (e.o :: A.map Cross.o).Nodup)
    obtain ⟨ob, e1, k1, k2⟩ := ih (s := { s with outBuf := upd s.outBuf e.o [e.f] }) (fun e he => hA e (by simp [he])) hn'.2
      (by
        intro o
        simp only [upd_apply]
        split
        · simp
        · exact hob o)
      (by
        intro e' he'
        simp only [upd_apply]
        rw [if_neg]
        · exact hoA e' (by simp [he'])
        · intro k
          exact hn'.1 (List.mem_map.2 ⟨e', he', k⟩))
      (by
        refine Inv.cross (s := { s with xbQ := e :: A ++ B }) h ?_ fun e' he' => h.port.xb e' (by simpa using .inr (by simpa using he'))
        intro o
        simp only [upd_apply, List.cons_append]
        by_cases ho : o = e.o
        · subst ho
          simp [he]
        · simp [ho, Ne.symm ho])
    exact ⟨ob, e1, k1, k2⟩

/-- Move the credits of a tick to the credit buffers. -/
theorem creditOut_inv {c : Cfg} {s : R δ σ τ} {g : G δ} {rq va sa : List (Nat × Nat)} (h : Inv c s g rq va sa) :
    Inv c (creditOut s) g rq va sa := by
  refine ⟨?_, ?_, ?_, ?_⟩
  · intro i v
    have h' := h.vc i v
    refine ⟨h'.range, h'.recv, h'.vc, h'.pk, h'.expC, h'.expO, h'.fromPk, h'.idle, h'.pre, h'.hops, ?_, h'.len⟩
    intro e
    obtain ⟨o, u, e1, h3⟩ := h'.act e
    exact ⟨o, u, e1, ⟨h3.o_lt, h3.u_lt, h3.use, h3.link⟩⟩
  · intro o u
    have h' := h.out o u
    exact ⟨h'.toPk, h'.free, h'.own, h'.occ, h'.le⟩
  · have h' := h.port
    refine ⟨h'.routed, h'.stream, h'.buf, ?_, h'.occ, h'.xb, h'.pendOk, h'.logOk, ?_⟩
    intro i v
    have := h'.cred i v
    simp only [creditOut]
    split
    · rename_i e
      rw [e] at this
      simpa using this
    · simp only [List.flatten_append, List.count_append, List.flatten_cons, List.flatten_nil, List.append_nil,
        List.count_nil]
      omega
    · intro i
      refine ⟨by simp [creditOut], ?_⟩
      simp only [creditOut]
      split
      · exact (h'.crN i).2
      · intro l hl
        simp only [List.mem_append, List.mem_singleton] at hl
        rcases hl with hl | rfl
        · exact (h'.crN i).2 l hl
        · exact (h'.crN i).1
  · exact ⟨h.q.rqN, h.q.rqM, h.q.vaN, h.q.vaM, h.q.saN, h.q.saM⟩

/-- The ghost state of a history. -/
def ghost (ins : List (In δ ρ ρ')) (outs : List (Out δ)) (l : List (Pass δ)) : G δ where
  recv := received ins
  log := l
  cin := granted ins
  ret := returned outs
  sent := sent outs
  may := Offered ins
  rts := fun i f r => ∃ e ∈ ins, r = e.rf i f

/-- What is sent. -/
theorem send_inv {c : Cfg} {s : R δ σ τ} {ins : List (In δ ρ ρ')} {outs : List (Out δ)} {l : List (Pass δ)}
    {rq va sa : List (Nat × Nat)} (h : Inv c s (ghost ins outs l) rq va sa) :
    Inv c (send c s).1 (ghost ins (outs ++ [(send c s).2]) l) rq va sa := by
  have hret : ∀ i v, returned (outs ++ [(send c s).2]) i v = returned outs i v +
      (if i < c.inputs then ((s.credBuf i).head?.getD []).count v else 0) := by
    intro i v
    simp only [returned, List.filterMap_append, List.flatten_append, List.count_append, send]
    congr 1
    split
    · cases hh : (s.credBuf i).head? <;> simp [*]
    · simp [*]
  have hsent : ∀ o, sent (outs ++ [(send c s).2]) o = sent outs o ++
      (if o < c.outputs then (s.outBuf o).head?.toList else []) := by
    intro o
    simp only [sent, List.filterMap_append, send]
    congr 1
    split
    · cases hh : (s.outBuf o).head? <;> simp [*]
    · simp [*]
  refine ⟨?_, ?_, ?_, ?_⟩
  · intro i v
    have h' := h.vc i v
    refine ⟨h'.range, h'.recv, h'.vc, h'.pk, h'.expC, h'.expO, h'.fromPk, h'.idle, h'.pre, ?_, ?_, ?_⟩
    · intro e
      have h3 := h'.hops e
      exact ⟨h3.hop, h3.once, h3.src, h3.may⟩
    · intro e
      obtain ⟨o, u, e1, h3⟩ := h'.act e
      exact ⟨o, u, e1, ⟨h3.o_lt, h3.u_lt, h3.use, h3.link⟩⟩
    · have h1 : ((received ins i v).length : Int) ≤ c.buf.perVc + (returned outs i v : Nat) := h'.len
      have h2 := hret i v
      change ((received ins i v).length : Int) ≤ c.buf.perVc + (returned (outs ++ [(send c s).2]) i v : Nat)
      omega
  · intro o u
    have h' := h.out o u
    refine ⟨h'.toPk, h'.free, h'.own, h'.occ, ?_⟩
    have h1 : granted ins o u ≤ ((sent outs o).filter fun f => f.vc = u).length := h'.le
    change granted ins o u ≤ ((sent (outs ++ [(send c s).2]) o).filter fun f => f.vc = u).length
    rw [hsent, List.filter_append, List.length_append]
    omega
  · have h' := h.port
    refine ⟨h'.routed, ?_, h'.buf, ?_, h'.occ, h'.xb, h'.pendOk, h'.logOk, ?_⟩
    · intro o
      have h1 := h'.stream o
      change (l.filter fun e => e.o = o).map Pass.flit =
        sent outs o ++ s.outBuf o ++ (s.xbQ.filter fun e => e.o = o).map Cross.f at h1
      change (l.filter fun e => e.o = o).map Pass.flit =
        sent (outs ++ [(send c s).2]) o ++ (if o < c.outputs then (s.outBuf o).tail else s.outBuf o) ++
          (s.xbQ.filter fun e => e.o = o).map Cross.f
      rw [hsent, h1]
      congr 1
      split
      · cases s.outBuf o <;> simp
      · simp
    · intro i v
      have h1 : returned outs i v + (s.credBuf i).flatten.count v + (s.outCred i).count v = (passedFrom l i v).length :=
        h'.cred i v
      change returned (outs ++ [(send c s).2]) i v +
        ((if i < c.inputs then (s.credBuf i).tail else s.credBuf i)).flatten.count v + (s.outCred i).count v =
          (passedFrom l i v).length
      rw [hret, ← h1]
      split
      · cases s.credBuf i with
        | nil => simp
        | cons a t => simp only [List.head?_cons, Option.getD_some, List.tail_cons, List.flatten_cons, List.count_append]; omega
      · simp
    · intro i
      refine ⟨(h'.crN i).1, ?_⟩
      simp only [send]
      split
      · exact fun l hl => (h'.crN i).2 l (List.mem_of_mem_tail hl)
      · exact (h'.crN i).2
  · exact ⟨h.q.rqN, h.q.rqM, h.q.vaN, h.q.vaM, h.q.saN, h.q.saM⟩

theorem received_snoc (ins : List (In δ ρ ρ')) (e : In δ ρ ρ') (i v : Nat) :
    received (ins ++ [e]) i v = received ins i v ++ ((e.flit i).filter fun f => f.vc = v).toList := by
  simp only [received, List.filterMap_append]
  rfl

theorem granted_snoc (ins : List (In δ ρ ρ')) (e : In δ ρ ρ') (o u : Nat) :
    granted (ins ++ [e]) o u = granted ins o u + ((e.credit o).getD []).count u := by
  simp only [granted, List.filterMap_append, List.flatten_append, List.count_append]
  congr 1
  simp only [List.filterMap_cons, List.filterMap_nil]
  cases e.credit o <;> simp

theorem receive_fold (l : List (Nat × Flit δ)) (g : G δ) :
    l.foldl (fun g x => g.receive x.1 x.2) g =
      { g with recv := fun i v => g.recv i v ++ (l.filter fun x => x.1 = i ∧ x.2.vc = v).map Prod.snd } := by
  induction l generalizing g with
  | nil => simp
  | cons x l ih =>
    rw [List.foldl_cons, ih]
    simp only [G.receive]
    congr 1
    funext i v
    by_cases h : i = x.1 ∧ v = x.2.vc
    · rw [if_pos h, List.filter_cons_of_pos (by simp [h.1, h.2])]
      simp
    · rw [if_neg h, List.filter_cons_of_neg (by simpa using fun a b => h ⟨a.symm, b.symm⟩)]

theorem arrivals_filter {c : Cfg} (e : In δ ρ ρ') (h : ∀ i f, e.flit i = some f → i < c.inputs) (i v : Nat) :
    ((arrivals c e).filter fun x => x.1 = i ∧ x.2.vc = v).map Prod.snd = ((e.flit i).filter fun f => f.vc = v).toList := by
  have key : ∀ n, (((List.range n).filterMap fun i => (e.flit i).map (Prod.mk i)).filter
      fun x => x.1 = i ∧ x.2.vc = v).map Prod.snd = if i < n then ((e.flit i).filter fun f => f.vc = v).toList else [] := by
    intro n
    induction n with
    | zero => simp
    | succ n ih =>
      rw [List.range_succ, List.filterMap_append, List.filter_append, List.map_append, ih]
      by_cases h1 : i < n
      · rw [if_pos h1, if_pos (by omega)]
        have : n ≠ i := by omega
        cases hf : e.flit n <;> simp [hf, this]
      · rw [if_neg h1]
        by_cases h2 : i = n
        · subst h2
          rw [if_pos (by omega)]
          cases hf : e.flit i with
          | none => simp [hf]
          | some f => by_cases hv : f.vc = v <;> simp [hf, hv, Option.filter]
        · rw [if_neg (by omega)]
          have : n ≠ i := fun k => h2 k.symm
          cases hf : e.flit n <;> simp [hf, this]
  rw [arrivals, key]
  split
  · rfl
  · rename_i hi
    cases hf : e.flit i with
    | none => rfl
    | some f => exact absurd (h i f hf) hi

theorem mem_arrivals {c : Cfg} {e : In δ ρ ρ'} {x : Nat × Flit δ} (h : x ∈ arrivals c e) : e.flit x.1 = some x.2 := by
  simp only [arrivals, List.mem_filterMap, List.mem_range, Option.map_eq_some_iff] at h
  obtain ⟨i, _, f, hf, rfl⟩ := h
  exact hf

theorem arrivals_nodup (c : Cfg) (e : In δ ρ ρ') : ((arrivals c e).map Prod.fst).Nodup := by
  have key : ∀ n, (((List.range n).filterMap fun i => (e.flit i).map (Prod.mk i)).map Prod.fst).Sublist (List.range n) := by
    intro n
    induction n with
    | zero => simp
    | succ n ih =>
      rw [List.range_succ, List.filterMap_append, List.map_append]
      refine List.Sublist.append ih ?_
      cases hf : e.flit n <;> simp [hf]
  exact List.Nodup.sublist (key c.inputs) List.nodup_range

theorem creditArrivals_pend {c : Cfg} (e : In δ ρ ρ') (h : ∀ o l, e.credit o = some l → o < c.outputs) (o u : Nat) :
    pend (creditArrivals c e) o u = ((e.credit o).getD []).count u := by
  have key : ∀ n, pend ((List.range n).filterMap fun o => (e.credit o).map fun l => Cred.mk (e.now + c.creditDelay) l o) o u =
      if o < n then ((e.credit o).getD []).count u else 0 := by
    intro n
    induction n with
    | zero => simp [pend]
    | succ n ih =>
      rw [List.range_succ, List.filterMap_append, pend_append, ih]
      by_cases h1 : o < n
      · rw [if_pos h1, if_pos (by omega)]
        have : n ≠ o := by omega
        cases hf : e.credit n <;> simp [hf, this, pend]
      · rw [if_neg h1]
        by_cases h2 : o = n
        · subst h2
          rw [if_pos (by omega)]
          cases hf : e.credit o <;> simp [hf, pend]
        · rw [if_neg (by omega)]
          have : n ≠ o := fun k => h2 k.symm
          cases hf : e.credit n <;> simp [hf, this, pend]
  rw [creditArrivals, key]
  split
  · rfl
  · rename_i ho
    cases hf : e.credit o with
    | none => rfl
    | some l => exact absurd (h o l hf) ho

theorem mem_creditArrivals {c : Cfg} {e : In δ ρ ρ'} {x : Cred} (h : x ∈ creditArrivals c e) :
    e.credit x.o = some x.vcs := by
  simp only [creditArrivals, List.mem_filterMap, List.mem_range, Option.map_eq_some_iff] at h
  obtain ⟨i, _, f, hf, rfl⟩ := h
  exact hf

/-- The invariant between ticks. -/
structure TInv (k : Bool) (VA : Alloc.Cls σ ρ) (SA : Alloc.Cls τ ρ') (c : Cfg) (s : R δ σ τ) (g : G δ) : Prop where
  inv : InvQ c s g
  rq : Fresh s.routeQ
  vq : Fresh s.vaQ
  sq : Fresh s.saQ
  xb : CrossNew s.xbQ
  ob : ∀ o, s.outBuf o = []
  oc : ∀ i, s.outCred i = []
  cb : ∀ i, s.credBuf i = []
  va : Serves k VA (c.inputs * c.vcs) (c.outputs * c.vcs) s.va
  sa : Serves k SA c.inputs c.outputs s.sa
  idle : s.active = false → s.routeQ = [] ∧ s.vaQ = [] ∧ s.saQ = [] ∧ s.xbQ = [] ∧ s.credQ = []

theorem internalStep_ok {k : Bool} {VA : Alloc.Cls σ ρ} {SA : Alloc.Cls τ ρ'} {c : Cfg} (hc : c.Ok) {e : In δ ρ ρ'}
    {inq : List (Nat × Flit δ)} {s : R δ σ τ} {g : G δ} (hnow : 0 ≤ e.now)
    (h : InvQ c s g) (hr : Fresh s.routeQ) (hv : Fresh s.vaQ) (hs : Fresh s.saQ) (hx : CrossNew s.xbQ)
    (hob : ∀ o, s.outBuf o = []) (hoc : ∀ i, s.outCred i = []) (hcb : ∀ i, s.credBuf i = [])
    (hva : Serves k VA (c.inputs * c.vcs) (c.outputs * c.vcs) s.va)
    (hsa : Serves k SA c.inputs c.outputs s.sa)
    (hn : (inq.map Prod.fst).Nodup) (hrg : ∀ x ∈ inq, x.1 < c.inputs ∧ x.2.vc < c.vcs)
    (hp : ∀ x ∈ inq, Packets Flit.head Flit.tail Flit.pid (g.recv x.1 x.2.vc ++ [x.2]))
    (hl : ∀ x ∈ inq, ((g.recv x.1 x.2.vc).length : Int) + 1 ≤ c.buf.perVc + g.ret x.1 x.2.vc)
    (hrf : RfOk c g e.rf) :
    ∃ s' L, internalStep VA SA c e inq s = .ok s' ∧
      InvQ c s' ((inq.foldl (fun g x => g.receive x.1 x.2) g).pass L) ∧
      Fresh s'.routeQ ∧ Fresh s'.vaQ ∧ Fresh s'.saQ ∧ CrossNew s'.xbQ ∧ (∀ o, (s'.outBuf o).length ≤ 1) ∧
      (∀ i, s'.outCred i = []) ∧ (∀ i, (s'.credBuf i).length ≤ 1 ∧ (s'.credBuf i ≠ [] → i < c.inputs)) ∧
      Serves k VA (c.inputs * c.vcs) (c.outputs * c.vcs) s'.va ∧
      Serves k SA c.inputs c.outputs s'.sa ∧
      (s'.active = false → s'.routeQ = [] ∧ s'.vaQ = [] ∧ s'.saQ = [] ∧ s'.xbQ = [] ∧ s'.credQ = []) ∧
      (inq = [] → work c s'.vcs + s'.xbQ.length ≤ work c s.vcs) ∧
      (inq = [] → k = true → Ready c s → work c s'.vcs + s'.xbQ.length < work c s.vcs) ∧
      (∃ A, s.credQ = A ++ s'.credQ) ∧ (∀ x ∈ s'.credQ.head?, e.now < x.time) ∧ (∀ i, ∀ l ∈ s'.credBuf i, l ≠ []) ∧
      (s.xbQ = [] → ∀ o, s'.outBuf o = []) ∧ ∀ x ∈ s.xbQ, s'.outBuf x.o ≠ [] := by
  obtain ⟨s1, e1, i1, ⟨f1, f1'⟩, a1, a2, a3, a4, a5, a6, a7, a8⟩ := enqueueAll_ok hc inq h hn hrg hp hl ⟨hr, hs⟩
  generalize hg' : inq.foldl (fun g x => g.receive x.1 x.2) g = g' at i1 ⊢
  have hmay : g'.may = g.may := by
    rw [← hg', receive_fold]
  have hrts : g'.rts = g.rts := by
    rw [← hg', receive_fold]
  have hrf' : RfOk c g' e.rf := ⟨hrf.hop, hrf.once, by rw [hrts]; exact hrf.src, by rw [hmay]; exact hrf.may⟩
  obtain ⟨n2, q2, e2, i2, j2, j2', ⟨A2, hA2⟩, hd2⟩ := credits_ok hc e.now s1.credQ (s := s1) i1
  have e3 := routeEval_ok hc e.now i2 f1
  have i3 := i2.frame (stamp e.now s1.routeQ) s1.vaQ s1.saQ s1.va s1.sa s1.rr s1.active
  obtain ⟨va4, vq4, e4, k4, g4, h4, y4⟩ := vaEval_ok (k := k) (VA := VA) hc e.now e.rva
    (s := { s1 with
      next := n2
      credQ := q2
      routeQ := stamp e.now s1.routeQ }) i3 (by rw [a1]; exact hv)
    (by rw [a4]; exact hva)
  have i4 := i3.frame (stamp e.now s1.routeQ) vq4 s1.saQ va4 s1.sa s1.rr s1.active
  obtain ⟨sa5, rr5, sq5, e5, k5, g5, h5, y5⟩ := saEval_ok (k := k) (SA := SA) hc e.now e.rsa
    (s := { s1 with
      next := n2
      credQ := q2
      routeQ := stamp e.now s1.routeQ
      va := va4
      vaQ := vq4 }) i4 f1'
    (by simp only; rw [a5]; exact hsa)
  have i5 := i4.frame (stamp e.now s1.routeQ) vq4 sq5 va4 sa5 rr5 s1.active
  have hx1 : CrossNew s1.xbQ := by rw [a2]; exact hx
  have e6 := xbEval_eq hc e.now (s := { s1 with
      next := n2
      credQ := q2
      routeQ := stamp e.now s1.routeQ
      va := va4
      vaQ := vq4
      sa := sa5
      rr := rr5
      saQ := sq5 }) hx1
  have i6 := Inv.cross (ob := s1.outBuf) (xb := s1.xbQ.map fun x => { x with time := e.now }) i5
    (by intro o; simp only [List.filter_map, List.map_map]; rfl)
    (by
      intro x hx
      obtain ⟨y, hy, rfl⟩ := List.mem_map.1 hx
      exact i5.port.xb y hy)
  obtain ⟨vcs7, ext7, e7, f7, i7, u7⟩ := routeUpd_ok hnow hrf' (stamp e.now s1.routeQ) (sa := s1.saQ.map Wait.key)
    (s := { s1 with
      next := n2
      credQ := q2
      routeQ := stamp e.now s1.routeQ
      va := va4
      vaQ := vq4
      sa := sa5
      rr := rr5
      saQ := sq5
      outBuf := s1.outBuf
      xbQ := s1.xbQ.map fun x => { x with time := e.now } })
    (by intro w hw; obtain ⟨y, _, rfl⟩ := List.mem_map.1 hw; rfl)
    (i6.congr (stamp_key _ _).symm (by simp only; rw [k4]) rfl)
  have hstA : ∀ w ∈ vq4, (s1.vcs w.i w.v).st = .vcAlloc := by
    intro w hw
    refine (i2.q.vaM w.i w.v).1 ?_
    have : (w.i, w.v) ∈ vq4.map Wait.key := mem_key hw
    rw [k4] at this
    exact this
  have hstS : ∀ w ∈ sq5, (s1.vcs w.i w.v).st = .active := by
    intro w hw
    refine ((i2.q.saM w.i w.v).1 ?_).1
    have : (w.i, w.v) ∈ sq5.map Wait.key := mem_key hw
    rw [k5] at this
    exact this
  obtain ⟨vcs8, n8, q8, ext8, e8, f8, f8', i8, u8, o8⟩ := vaUpd_ok hc hnow vq4 ext7 (g := g') (rq := [])
    (s := { s1 with
      vcs := vcs7
      next := n2
      credQ := q2
      routeQ := []
      va := va4
      vaQ := []
      sa := sa5
      rr := rr5
      saQ := sq5
      outBuf := s1.outBuf
      xbQ := s1.xbQ.map fun x => { x with time := e.now } })
    ⟨g4.time, g4.res, by
      intro w hw ow hres
      obtain ⟨m1, m2, m3⟩ := g4.got w hw ow hres
      refine ⟨m1, m2, ?_⟩
      intro f hf
      simp only [] at hf
      rw [u7 w.i w.v (by simp only; rw [hstA w hw]; simp)] at hf
      exact m3 f hf, g4.distinct⟩ f7 (by intro w hw; cases hw)
    ((i7.frame [] [] sq5 va4 sa5 rr5 s1.active).congr rfl (by simp) (by rw [← k5]))
  obtain ⟨vcs9, oc9, n9, rq9, q9, ext9, cr9, L, e9, f9, f9', x9, w9, y9, i9⟩ := saUpd_ok hc hnow sq5 ext8 (g := g')
    (va := q8.map Wait.key)
    (s := { s1 with
      vcs := vcs8
      next := n8
      credQ := q2
      routeQ := []
      va := va4
      vaQ := q8
      sa := sa5
      rr := rr5
      saQ := []
      outBuf := s1.outBuf
      xbQ := s1.xbQ.map fun x => { x with time := e.now } })
    ⟨g5.time, by
      intro w hw o hres
      obtain ⟨u, m1, m2⟩ := g5.got w hw o hres
      have hst := hstS w hw
      have hv7 := u7 w.i w.v (by simp only; rw [hst]; simp)
      refine ⟨u, ?_, ?_⟩
      · simp only []
        rw [u8 w.i w.v (by simp only; rw [hv7]; exact hst)]
        simp only []
        rw [hv7]; exact m1
      · simp only []
        rw [o8]; exact m2, g5.distinct⟩ f8' (by intro w hw; cases hw) (by intro w hw; cases hw)
    (by intro w _; simp only []; rw [a7, hoc]; simp)
    ((i8.frame [] q8 [] va4 sa5 rr5 s1.active).congr rfl rfl (by simp))
  have hmapo : (s1.xbQ.map fun x => { x with time := e.now }).map Cross.o = s1.xbQ.map Cross.o := by
    simp only [List.map_map]; rfl
  obtain ⟨ob10, e10, i10, l10⟩ := xbUpd_ok hc hnow (s1.xbQ.map fun x => { x with time := e.now }) ext9
    (s := { s1 with
      vcs := vcs9
      occ := oc9
      next := n9
      credQ := q2
      routeQ := rq9
      va := va4
      vaQ := q8
      sa := sa5
      rr := rr5
      saQ := q9
      outBuf := s1.outBuf
      outCred := cr9
      xbQ := (s1.xbQ.map fun x => { x with time := e.now }) ++ ext9 })
    (by intro x hx; obtain ⟨y, _, rfl⟩ := List.mem_map.1 hx; rfl) (by rw [hmapo]; exact hx1.once) x9.time
    (by intro o; simp only []; rw [a6, hob]; simp) (by intro x _; simp only []; rw [a6, hob]) i9
  have hstep : internalStep VA SA c e inq s = .ok (creditOut { s1 with
      vcs := vcs9
      occ := oc9
      next := n9
      credQ := q2
      routeQ := rq9
      va := va4
      vaQ := q8
      sa := sa5
      rr := rr5
      saQ := q9
      outBuf := ob10
      outCred := cr9
      xbQ := ext9
      active := !q2.isEmpty || !([] : List Wait).isEmpty || !q8.isEmpty || !q9.isEmpty || !ext9.isEmpty }) := by
    unfold internalStep
    simp only [e1, e2, e3, e4, e5, e6, bind, Except.bind]
    simp only [e7]
    simp only [e8]
    simp only [e9]
    simp only [e10]
  have m7 := routeUpd_work hnow _ (by intro w hw; obtain ⟨y, _, rfl⟩ := List.mem_map.1 hw; rfl) e7
  have m8 := vaUpd_work hnow _ _ g4.time f7 e8
  have m9 := saUpd_work hnow _ _ g5.time f8' e9
  simp only [List.length_append, List.length_map, stamp] at m7 m8 m9
  refine ⟨_, L, hstep, ?_, f9, f8, f9', x9, l10, fun _ => rfl, ?_, h4, h5, ?_, ?_, ?_, ⟨A2, by rw [← a3]; exact hA2⟩, hd2, ?_, ?_, ?_⟩
  rotate_right 5
  · rintro rfl
    cases e1
    simp only [creditOut]
    omega
  · rintro rfl hk hready
    cases e1
    simp only [creditOut]
    rcases hready with hr' | ⟨w, hw, hne⟩ | ⟨w, hw, o, u, ho, hb⟩
    · have : 0 < s.routeQ.length := List.length_pos_iff.2 hr'
      omega
    · have hgot := y4 hk ⟨w, hw, by
        intro h0
        apply hne
        rw [← h0]
        simp only [vaAsks, BufState.isAvailableFor, j2]⟩
      have := m8.2 hgot
      omega
    · have hgot := y5 hk ⟨w, hw, o, u, ho, by
        have := j2' o u
        simp only [blocked, BufState.isFullFor, Bool.or_eq_false_iff, decide_eq_false_iff_not] at hb ⊢
        exact ⟨by omega, hb.2⟩⟩
      have := m9.2.2 hgot
      omega
  · intro i
    simp only [creditOut, a8, hcb]
    split
    · simp
    · rename_i hne
      simpa using hne
  · intro hx0 o
    rw [a2, hx0, List.map_nil, List.nil_append] at e10
    simp only [creditOut]
    cases ext9 with
    | nil =>
      simp only [xbUpd, Except.ok.injEq] at e10
      have := congrArg R.outBuf e10
      simp only [] at this
      rw [← this, a6]; exact hob o
    | cons y t =>
      have hy := x9.time y (by simp)
      simp only [xbUpd] at e10
      rw [if_pos (.inl (by omega))] at e10
      simp only [Except.ok.injEq] at e10
      have := congrArg R.outBuf e10
      simp only [] at this
      rw [← this, a6]; exact hob o
  · intro x hxm h0
    have h1 := i9.port.stream x.o
    have h2 := i10.port.stream x.o
    simp only [creditOut] at h0
    rw [h1] at h2
    have h3 := congrArg List.length h2
    simp only [h0, a6, hob, a2, List.filter_append, List.map_append, List.length_append, List.length_nil, List.length_map] at h3
    have h4 : 0 < ((s.xbQ.map fun x => { x with time := e.now }).filter fun y => decide (y.o = x.o)).length := by
      refine List.length_pos_iff.2 (List.ne_nil_of_mem (a := { x with time := e.now }) ?_)
      exact List.mem_filter.2 ⟨List.mem_map.2 ⟨x, hxm, rfl⟩, by simp⟩
    omega
  · exact creditOut_inv (i10.frame rq9 q8 q9 va4 sa5 rr5 _)
  · intro i
    simp only [creditOut, a8, hcb]
    split
    · simp
    · rename_i hne
      refine ⟨by simp, fun _ => ?_⟩
      cases hcr : cr9 i with
      | nil => exact absurd hcr hne
      | cons v t =>
        have h1 := i10.port.cred i v
        simp only [hcr, List.count_cons_self] at h1
        cases hpf : passedFrom (g'.pass L).log i v with
        | nil => rw [hpf] at h1; simp at h1
        | cons p _ =>
          have hm : p ∈ passedFrom (g'.pass L).log i v := by rw [hpf]; simp
          simp only [passedFrom, List.mem_filter, decide_eq_true_eq] at hm
          have := (i10.port.logOk p hm.1).1.1
          rw [hm.2.1] at this
          exact this
  · simp only [creditOut]
    intro ha
    simp only [Bool.or_eq_false_iff, Bool.not_eq_false', List.isEmpty_iff] at ha
    obtain ⟨⟨⟨⟨b1, b2⟩, b3⟩, b4⟩, b5⟩ := ha
    exact ⟨y9 b5, b3, b4, b5, b1⟩

theorem init_inv {k : Bool} {VA : Alloc.Cls σ ρ} {SA : Alloc.Cls τ ρ'} {c : Cfg} (hc : c.Ok) {va : σ} {sa : τ}
    (hva : Serves k VA (c.inputs * c.vcs) (c.outputs * c.vcs) va)
    (hsa : Serves k SA c.inputs c.outputs sa) :
    TInv k VA SA c (R.init va sa : R δ σ τ) (ghost ([] : List (In δ ρ ρ')) [] []) := by
  have hp := hc.buf.perVc_pos
  have hsum : ∀ n, sumTo n (fun _ => 0) = 0 := by
    intro n; induction n with
    | zero => rfl
    | succ n ih => simp [sumTo, ih]
  refine ⟨⟨?_, ?_, ?_, ?_⟩, ?_, ?_, ?_, ?_, ?_, ?_, ?_, hva, hsa, ?_⟩
  · intro i v
    refine ⟨?_, ?_, ?_, ?_, ?_, ?_, ?_, ?_, ?_, ?_, ?_, ?_⟩ <;>
      simp [R.init, Vc.init, ghost, received, passedFrom, returned, packets_nil, Closed]
    omega
  · intro o u
    refine ⟨?_, ?_, ?_, ?_, ?_⟩ <;>
      simp [R.init, ghost, passedTo, packets_nil, granted, pend, BufState.init, Closed, sent]
  · refine ⟨?_, ?_, ?_, ?_, ?_, ?_, ?_, ?_, ?_⟩ <;>
      simp [R.init, ghost, sent, returned, passedFrom, Vc.init, hsum]
    exact BufInv.init _ hc.buf
  · refine ⟨?_, ?_, ?_, ?_, ?_, ?_⟩ <;> simp [R.init, Vc.init]
  · intro w hw; cases hw
  · intro w hw; cases hw
  · intro w hw; cases hw
  · exact ⟨by simp [R.init], by simp [R.init]⟩
  · intro o; rfl
  · intro i; rfl
  · intro i; rfl
  · intro _; exact ⟨rfl, rfl, rfl, rfl, rfl⟩

/-- The invariant with more outputs offered and more credits received. -/
theorem Inv.environment {c : Cfg} {s : R δ σ τ} {g : G δ} {rq va sa : List (Nat × Nat)}
    {may : Nat → Flit δ → Nat → Nat → Prop} {rts : Nat → Flit δ → List Hop → Prop} {cin : Nat → Nat → Nat} {q : List Cred} {act : Bool} (h : Inv c s g rq va sa)
    (hm : ∀ i f o u, g.may i f o u → may i f o u) (hr : ∀ i f r, g.rts i f r → rts i f r)
    (hc : ∀ o u, cin o u = g.cin o u + pend q o u) (hl : ∀ o u, cin o u ≤ ((g.sent o).filter fun f => f.vc = u).length)
    (hq : ∀ x ∈ q, x.o < c.outputs ∧ x.vcs.Nodup ∧ ∀ u ∈ x.vcs, u < c.vcs) :
    Inv c { s with credQ := s.credQ ++ q, active := act } { g with may := may, rts := rts, cin := cin } rq va sa := by
  refine ⟨?_, ?_, ?_, ?_⟩
  · intro i v
    have h' := h.vc i v
    refine ⟨h'.range, h'.recv, h'.vc, h'.pk, h'.expC, h'.expO, h'.fromPk, h'.idle, h'.pre, ?_, ?_, h'.len⟩
    · intro e
      have h3 := h'.hops e
      exact ⟨h3.hop, h3.once, fun f hf => hr _ _ _ (h3.src f hf), fun f hf p hp u h1 h2 => hm _ _ _ _ (h3.may f hf p hp u h1 h2)⟩
    · intro e
      obtain ⟨o, u, e1, h3⟩ := h'.act e
      refine ⟨o, u, e1, ⟨h3.o_lt, h3.u_lt, h3.use, ?_⟩⟩
      rcases h3.link with ⟨a1, a2, f, a3, a4⟩ | a
      · exact .inl ⟨a1, a2, f, a3, hm _ _ _ _ a4⟩
      · exact .inr a
  · intro o u
    have h' := h.out o u
    refine ⟨h'.toPk, h'.free, h'.own, ?_, hl o u⟩
    have h1 := h'.occ
    simp only [pend_append, hc]
    push_cast
    omega
  · have h' := h.port
    refine ⟨fun e he hh => hm _ _ _ _ (h'.routed e he hh), h'.stream, h'.buf, h'.cred, h'.occ, h'.xb, ?_, h'.logOk, h'.crN⟩
    intro x hx
    rcases List.mem_append.1 hx with hx | hx
    · exact h'.pendOk x hx
    · exact hq x hx
  · exact ⟨h.q.rqN, h.q.rqM, h.q.vaN, h.q.vaM, h.q.saN, h.q.saM⟩

theorem PortInv.credit_lt {c : Cfg} {s : R δ σ τ} {g : G δ} (h : PortInv c s g) {i v : Nat} {r : List Nat}
    (hm : r ∈ s.credBuf i) (hv : v ∈ r) : v < c.vcs := by
  have hcr := h.cred i v
  have h0 : 0 < (s.credBuf i).flatten.count v := List.count_pos_iff.2 (List.mem_flatten.2 ⟨r, hm, hv⟩)
  cases hpf : passedFrom g.log i v with
  | nil => rw [hpf] at hcr; simp at hcr; omega
  | cons p t =>
    have hp : p ∈ passedFrom g.log i v := by rw [hpf]; simp
    simp only [passedFrom, List.mem_filter, decide_eq_true_eq] at hp
    have := (h.logOk p hp.1).1.2
    rw [hp.2.2] at this
    exact this

theorem tick_ok {k : Bool} {VA : Alloc.Cls σ ρ} {SA : Alloc.Cls τ ρ'} {c : Cfg} (hc : c.Ok) {ins : List (In δ ρ ρ')}
    {outs : List (Out δ)} {l : List (Pass δ)} {s : R δ σ τ} {e : In δ ρ ρ'} (h : TInv k VA SA c s (ghost ins outs l))
    (ha : Admits c ins outs e) :
    ∃ s' out L, tick VA SA c e s = .ok (s', out) ∧ TInv k VA SA c s' (ghost (ins ++ [e]) (outs ++ [out]) (l ++ L)) ∧
      (arrivals c e = [] → work c s'.vcs + s'.xbQ.length ≤ work c s.vcs) ∧
      (arrivals c e = [] → k = true → Ready c s → work c s'.vcs + s'.xbQ.length < work c s.vcs) ∧
      (∃ A, s.credQ ++ creditArrivals c e = A ++ s'.credQ) ∧ (∀ x ∈ s'.credQ.head?, e.now < x.time) ∧
      (s.xbQ = [] → ∀ o, out.flit o = none) ∧ (∀ x ∈ s.xbQ, out.flit x.o ≠ none) ∧
      ∀ i r, out.credit i = some r → i < c.inputs ∧ r ≠ [] ∧ r.Nodup ∧ ∀ v ∈ r, v < c.vcs := by
  have h0 := Inv.environment (may := Offered (ins ++ [e])) (rts := fun i f r => ∃ x ∈ ins ++ [e], r = x.rf i f) (cin := granted (ins ++ [e])) (q := creditArrivals c e)
    (act := s.active || !(arrivals c e).isEmpty || !(creditArrivals c e).isEmpty) h.inv
    (by
      rintro i f o u ⟨x, hx, r⟩
      exact ⟨x, by simp [hx], r⟩)
    (by
      rintro i f r ⟨x, hx, h⟩
      exact ⟨x, by simp [hx], h⟩)
    (by
      intro o u
      rw [creditArrivals_pend _ fun o l ho => (ha.credit o l ho).1, granted_snoc]; rfl)
    ha.credits
    (by
      intro x hx
      have := mem_creditArrivals hx
      exact ha.credit _ _ this)
  have hg : (arrivals c e).foldl (fun g x => g.receive x.1 x.2)
      { ghost ins outs l with may := Offered (ins ++ [e]), rts := fun i f r => ∃ x ∈ ins ++ [e], r = x.rf i f, cin := granted (ins ++ [e]) } = ghost (ins ++ [e]) outs l := by
    rw [receive_fold]
    simp only [ghost]
    congr 1
    funext i v
    rw [received_snoc, arrivals_filter _ fun i f hf => (ha.port i f hf).1]
  have hrec : ∀ x ∈ arrivals c e, received (ins ++ [e]) x.1 x.2.vc = received ins x.1 x.2.vc ++ [x.2] := by
    intro x hx
    rw [received_snoc, mem_arrivals hx]
    simp [Option.filter]
  unfold tick
  simp only []
  by_cases hact : (s.active || !(arrivals c e).isEmpty || !(creditArrivals c e).isEmpty) = true
  · rw [if_pos hact]
    obtain ⟨s', L, e1, i1, f1, f2, f3, x1, b1, c1, cb1, v1, w1, d1, m1, m2, q1, q2, q3, q4, q5⟩ := internalStep_ok (k := k) (VA := VA) (SA := SA) hc (e := e)
      (inq := arrivals c e) ha.time h0 h.rq h.vq h.sq h.xb h.ob h.oc h.cb h.va h.sa (arrivals_nodup c e)
      (fun x hx => ha.port _ _ (mem_arrivals hx))
      (fun x hx => by
        have := ha.packets x.1 x.2.vc
        rw [hrec x hx] at this
        exact this)
      (fun x hx => by
        have := ha.space x.1 x.2.vc
        rw [hrec x hx] at this
        simpa [ghost] using this)
      ⟨ha.offers, ha.once, fun i f => ⟨e, by simp, rfl⟩, fun i f p hp u h1 h2 => ⟨e, by simp, p, hp, rfl, h1, h2⟩⟩
    rw [e1]
    refine ⟨(send c s').1, (send c s').2, L, rfl, ?_, m1, m2, q1, q2, (fun h0 o => by simp [send, q4 h0 o]),
      (fun x hx => by simp [send, q5 x hx, (h.inv.port.xb x hx).2]), ?_⟩
    rotate_left
    · intro i r hr
      simp only [send] at hr
      split at hr
      · rename_i hi
        have hm : r ∈ s'.credBuf i := List.mem_of_mem_head? hr
        refine ⟨hi, q3 i r hm, (i1.port.crN i).2 r hm, ?_⟩
        exact fun v hv => i1.port.credit_lt hm hv
      · cases hr
    rw [hg] at i1
    have i2 := send_inv (outs := outs) (ins := ins ++ [e]) (l := l ++ L) (s := s') i1
    refine ⟨i2, f1, f2, f3, x1, ?_, c1, ?_, v1, w1, d1⟩
    rotate_left
    · intro i
      have hb := cb1 i
      simp only [send]
      split
      · cases hcb : s'.credBuf i with
        | nil => rfl
        | cons a t =>
          rw [hcb] at hb
          simp only [List.length_cons] at hb
          exact List.length_eq_zero_iff.1 (by simp only [List.tail_cons]; omega)
      · rename_i hi
        by_contra hne
        exact hi (hb.2 hne)
    intro o
    have hb := b1 o
    simp only [send]
    split
    · cases hob : s'.outBuf o with
      | nil => rfl
      | cons a t =>
        rw [hob] at hb
        simp only [List.length_cons] at hb
        exact List.length_eq_zero_iff.1 (by simp only [List.tail_cons]; omega)
    · rename_i ho
      -- nothing is ever passed to an output that does not exist
      cases hob : s'.outBuf o with
      | nil => rfl
      | cons a t =>
        have hs := i1.port.stream o
        rw [hob] at hs
        have hm : a ∈ ((((ghost (ins ++ [e]) outs l).pass L).log.filter fun e => e.o = o)).map Pass.flit := by
          rw [hs]; simp
        obtain ⟨p, hp, _⟩ := List.mem_map.1 hm
        simp only [List.mem_filter, decide_eq_true_eq] at hp
        have := (i1.port.logOk p hp.1).2.1
        rw [hp.2] at this
        exact absurd this ho
  · rw [if_neg hact]
    simp only [Bool.not_eq_true, Bool.or_eq_false_iff, Bool.not_eq_false', List.isEmpty_iff] at hact
    have hg' := hg
    rw [hact.1.2] at hg'
    simp only [List.foldl_nil] at hg'
    rw [hg'] at h0
    obtain ⟨z1, z2, z3, z4, z5⟩ := h.idle hact.1.1
    refine ⟨_, _, [], rfl, ?_, ?_, ?_, ?_, ?_, ?_, ?_, ?_⟩
    rotate_left
    · intro _; simp [z4]
    · intro _ _ hr
      rcases hr with hr | ⟨w, hw, _⟩ | ⟨w, hw, _⟩
      · exact absurd z1 hr
      · rw [z2] at hw; cases hw
      · rw [z3] at hw; cases hw
    · exact ⟨[], rfl⟩
    · simp [z5, hact.2]
    · intro _ o; simp [h.ob]
    · rw [z4]; intro x hx; cases hx
    · intro i r hr
      simp only [h.cb] at hr
      split at hr <;> cases hr
    rw [List.append_nil]
    have i2 := send_inv (outs := outs) (ins := ins ++ [e]) (l := l) h0
    refine ⟨i2, h.rq, h.vq, h.sq, h.xb, ?_, h.oc, ?_, h.va, h.sa, ?_⟩
    · intro o
      simp only [h.ob]
      split <;> rfl
    · intro i
      simp only [h.cb]
      split <;> rfl
    · intro _
      obtain ⟨k1, k2, k3, k4, k5⟩ := h.idle hact.1.1
      exact ⟨k1, k2, k3, k4, by simp [k5, hact.2]⟩

theorem run_inv {k : Bool} {VA : Alloc.Cls σ ρ} {SA : Alloc.Cls τ ρ'} {c : Cfg} (hc : c.Ok) {va : σ} {sa : τ}
    (hva : Serves k VA (c.inputs * c.vcs) (c.outputs * c.vcs) va)
    (hsa : Serves k SA c.inputs c.outputs sa)
    {ins : List (In δ ρ ρ')} {outs : List (Out δ)} {s : R δ σ τ} (h : Run VA SA c va sa ins outs s) :
    ∃ l, TInv k VA SA c s (ghost ins outs l) := by
  induction h with
  | start => exact ⟨[], init_inv hc hva hsa⟩
  | step h ha ht ih =>
    obtain ⟨l, hl⟩ := ih
    obtain ⟨s', out, L, e1, k, _⟩ := tick_ok hc hl ha
    rw [ht] at e1
    cases e1
    exact ⟨_, k⟩

end RadSim.Router
