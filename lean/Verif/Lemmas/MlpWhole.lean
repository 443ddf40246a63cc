import Verif.Lemmas.MlpMesh

/-! # A run of the design `mlp` on a mesh -/

namespace RadSim.Mlp

open AddDesign (isNode isNodeM SEdge MEdge accepted_le Fifo FifoErr)
open AxisNoc (In SlaveEdge MasterEdge Offered)
open Net (mesh Allocs each each_ok each_exists)

variable {σ τ ρ ρ' : Type}

/-! ## a period at one node -/

section
variable {d : Params} {t : Tick ρ ρ'} {x : Sys σ τ} {y : AxisNoc.Sys σ τ} {rng : Nat → Nat × Nat} {u : Nat}

theorem count_source (u : Nat) (cr : List Nat) :
    (((inOf d t x).sPre u).map SlaveEdge.event ++ SlaveEvent.noc cr :: ((inOf d t x).sPost u).map SlaveEdge.event).countP isNode =
      (t.sPre u ++ t.sPost u).count SEdge.node := by
  have : ∀ g : SEdge → SlaveEdge, (∀ e, isNode (g e).event = (e == SEdge.node)) → ∀ l : List SEdge,
      ((l.map g).map SlaveEdge.event).countP isNode = l.count SEdge.node := by
    intro g hg l
    rw [List.map_map, List.countP_map, List.count]
    congr 1
    funext e
    exact hg e
  unfold inOf
  dsimp only
  rw [List.countP_append, List.countP_cons, this _ (by intro e; cases e <;> rfl), this _ (by intro e; cases e <;> rfl),
    List.count_append]
  simp [isNode]

theorem count_sink (u : Nat) (f : Option BsFlit) :
    (MasterEvent.tick :: ((inOf d t x).mPre u).map MasterEdge.event ++
      .noc f :: ((inOf d t x).mPost u).map MasterEdge.event).countP isNodeM = (t.mPre u ++ t.mPost u).count MEdge.node := by
  have : ∀ g : MEdge → MasterEdge, (∀ e, isNodeM (g e).event = (e == MEdge.node)) → ∀ l : List MEdge,
      ((l.map g).map MasterEdge.event).countP isNodeM = l.count MEdge.node := by
    intro g hg l
    rw [List.map_map, List.countP_map, List.count]
    congr 1
    funext e
    exact hg e
  unfold inOf
  dsimp only
  rw [List.cons_append, List.countP_cons, List.countP_append, List.countP_cons, this _ (by intro e; cases e <;> rfl),
    this _ (by intro e; cases e <;> rfl), List.count_append]
  simp [isNodeM]

/-- The node edges of a period at a source side adapter. -/
theorem edges_source {beats : Nat → Option AxisTxn} {seen : Bool}
    (h : SlaveEdge.node beats seen ∈ (inOf d t x).sPre u ++ (inOf d t x).sPost u) : beats = offers d x u := by
  unfold inOf at h
  simp only [← List.map_append, List.mem_map] at h
  obtain ⟨e, -, h⟩ := h
  cases e with
  | adapter => cases h
  | node => cases h; rfl

/-- The node edges of a period at a sink side adapter. -/
theorem edges_sink {r : Nat → Bool}
    (h : MasterEdge.node r ∈ (inOf d t x).mPre u ++ (inOf d t x).mPost u) : r = readies d x u := by
  unfold inOf at h
  simp only [← List.map_append, List.mem_map] at h
  obtain ⟨e, -, h⟩ := h
  cases e with
  | adapter => cases h
  | node => cases h; rfl

/-- What a source side adapter accepts in a period. -/
theorem source_period (hn : 0 < (d.noc.sc u).n) (hc : (t.sPre u ++ t.sPost u).count SEdge.node = if t.edge then 1 else 0)
    (hi : SlaveInv (d.noc.sc u) (x.noc.slave u)) {cr : List Nat} {s' : SlaveState} {acc : List AxisTxn} {out : List BsFlit}
    (hr : slaveRun (d.noc.sc u) (x.noc.slave u) (((inOf d t x).sPre u).map SlaveEdge.event ++
      .noc cr :: ((inOf d t x).sPost u).map SlaveEdge.event) = .ok (s', acc, out)) (hg : y.got u = x.noc.got u ++ acc) :
    acc = (if took x.noc y u then ((offers d x u 0).map (registerTxn (d.noc.sc u) 0)).toList else []) ∧
      (took x.noc y u = true → (offers d x u 0).isSome = true) ∧ (t.edge = false → acc = []) := by
  have hlen := accepted_le hn hi (by
    intro e he
    rcases List.mem_append.1 he with he | he
    · obtain ⟨e', -, rfl⟩ := List.mem_map.1 he; exact AxisNoc.event_reset e'
    · rcases List.mem_cons.1 he with rfl | he
      · rfl
      · obtain ⟨e', -, rfl⟩ := List.mem_map.1 he; exact AxisNoc.event_reset e') hr
  rw [count_source, hc] at hlen
  have ht : took x.noc y u = decide (acc ≠ []) := by
    unfold took
    rw [hg, List.length_append]
    cases acc <;> simp
  rw [ht]
  cases acc with
  | nil => simp
  | cons b l =>
    have hl : l = [] := by
      rw [List.length_cons] at hlen
      split at hlen
      · exact List.length_eq_zero_iff.1 (by omega)
      · omega
    subst hl
    obtain ⟨beats, seen, p, b', he, hp, hb, rfl⟩ := AxisNoc.slaveRun_mem hr b (by simp)
    have hm : SlaveEdge.node beats seen ∈ (inOf d t x).sPre u ++ (inOf d t x).sPost u := by
      rcases List.mem_append.1 he with he | he
      · obtain ⟨e', h1, h2⟩ := List.mem_map.1 he
        cases e' with
        | adapter => cases h2
        | node b s => cases h2; exact List.mem_append.2 (Or.inl h1)
      · rcases List.mem_cons.1 he with he | he
        · cases he
        · obtain ⟨e', h1, h2⟩ := List.mem_map.1 he
          cases e' with
          | adapter => cases h2
          | node b s => cases h2; exact List.mem_append.2 (Or.inr h1)
    rw [edges_source hm] at hb
    have hp0 : p = 0 := by
      by_contra hne
      unfold offers at hb
      rw [if_neg hne] at hb
      cases hb
    subst hp0
    refine ⟨by simp [hb], fun _ => by simp [hb], fun he => ?_⟩
    rw [he] at hlen
    simp at hlen

/-- What a sink side adapter hands over in a period. -/
theorem sink_inbox (hn : ∀ b, d.D.Has b → 0 < (d.noc.mc (d.node b)).n) {b : Block} (hb : d.D.Has b)
    (hc : (t.mPre (d.node b) ++ t.mPost (d.node b)).count MEdge.node = if t.edge then 1 else 0) {f : Option BsFlit}
    (hr : masterRun (d.noc.mc (d.node b)) (x.noc.master (d.node b)) (x.noc.hist (d.node b))
      (.tick :: ((inOf d t x).mPre (d.node b)).map MasterEdge.event ++
        .noc f :: ((inOf d t x).mPost (d.node b)).map MasterEdge.event) = (y.hist (d.node b), .ok (y.master (d.node b)))) :
    inbox d y b = inbox d x.noc b ++ (if t.edge && readies d x (d.node b) 0 then
      ((shown x.noc (d.node b)).map fun o => (unpack d.D.dim o.tdata, o.tuser.toNat)).toList else []) ∧
    (t.edge = false → shown y (d.node b) = shown x.noc (d.node b)) := by
  obtain ⟨h0, h1⟩ := sink_period (hn b hb) (r := readies d x (d.node b)) hr (by
    intro r' hr'
    have hm : MasterEdge.node r' ∈ (inOf d t x).mPre (d.node b) ++ (inOf d t x).mPost (d.node b) := by
      rw [List.cons_append, List.mem_cons, List.mem_append, List.mem_cons] at hr'
      rcases hr' with he | he | he | he
      · cases he
      · obtain ⟨e', h1, h2⟩ := List.mem_map.1 he
        cases e' with
        | adapter => cases h2
        | node b => cases h2; exact List.mem_append.2 (Or.inl h1)
      · cases he
      · obtain ⟨e', h1, h2⟩ := List.mem_map.1 he
        cases e' with
        | adapter => cases h2
        | node b => cases h2; exact List.mem_append.2 (Or.inr h1)
    exact edges_sink hm)
  rw [count_sink, hc] at h0 h1
  cases he : t.edge
  · obtain ⟨h2, h3⟩ := h0 (by simp [he])
    refine ⟨?_, fun _ => ?_⟩
    · unfold inbox AxisNoc.deliveredAt
      rw [h3]
      simp
    · unfold shown
      rw [h2]
  · have h2 := h1 (by simp [he])
    refine ⟨?_, fun h => by cases h⟩
    unfold inbox AxisNoc.deliveredAt
    rw [h2, List.map_append, List.map_append]
    congr 1
    unfold shown
    cases readies d x (d.node b) 0 <;> cases (x.noc.master (d.node b)).port 0 <;> rfl

end

/-! ## the run -/

/-- The part of the invariant about a matrix vector multiplier. -/
def MvmGood (d : Params) (x : Sys σ τ) (l m : Nat) : Prop :=
  ∃ h r p q f, Follows (d.D.mvm d.q l m) h (x.mvm l m) r p q f ∧ Right d.D l m h.ins h.reds ∧
    x.noc.got (d.node (.mvm l m)) = h.sent.map (mvmTxn d l m) ∧ h.ins = withTag (inbox d x.noc (.mvm l m)) 3 ∧
    h.reds = withTag (inbox d x.noc (.mvm l m)) 2 ∧
    ∀ o, shown x.noc (d.node (.mvm l m)) = some o → (x.mvm l m).rxUser = o.tuser.toNat

/-- The part of the invariant about a dispatcher. -/
def DispGood (d : Params) (x : Sys σ τ) (m : Nat) : Prop :=
  ∃ sent, Feeds d.q.fifoSize (d.lines m) (x.feed m) (x.disp m) sent ∧ x.noc.got (d.node (.disp m)) = sent.map (dispTxn d m)

section
variable (VA : Alloc.Cls σ ρ) (SA : Alloc.Cls τ ρ') (d : Params) (va : Nat → σ) (sa : Nat → τ) (t : Nat → Tick ρ ρ')

/-- The state after `n` periods when nothing has failed. -/
def xs (n : Nat) : Sys σ τ :=
  match sysRun VA SA d va sa t n with
  | .ok x => x
  | .error _ => .init d va sa

/-- The periods as the NoC sees them. -/
def nocIns (n : Nat) : In ρ ρ' := inOf d (t n) (xs VA SA d va sa t n)

structure Good (n : Nat) : Prop where
  ok : sysRun VA SA d va sa t n = .ok (xs VA SA d va sa t n)
  noc : AxisNoc.after VA SA d.noc va sa (nocIns VA SA d va sa t) n = .ok (xs VA SA d va sa t n).noc
  offered : ∀ k < n, Offered d.noc (Sends d) (nocIns VA SA d va sa t k)
  mvm : ∀ l < d.D.layers, ∀ m < d.D.mvms l, MvmGood d (xs VA SA d va sa t n) l m
  disp : ∀ m < d.D.mvms 0, DispGood d (xs VA SA d va sa t n) m
  check : Checks d.q.fifoSize d.golden (xs VA SA d va sa t n).coll (xs VA SA d va sa t n).check (received d (xs VA SA d va sa t n))
  coll : (xs VA SA d va sa t n).noc.got (d.node .coll) = []

end

variable {VA : Alloc.Cls σ ρ} {SA : Alloc.Cls τ ρ'} {d : Params} {va : Nat → σ} {sa : Nat → τ} {t : Nat → Tick ρ ρ'}
  {rng : Nat → Nat × Nat} {n : Nat}

theorem xs_of {x : Sys σ τ} (h : sysRun VA SA d va sa t n = .ok x) : xs VA SA d va sa t n = x := by
  unfold xs
  rw [h]

theorem Works.size (hw : Works d rng) : 2 ≤ d.q.fifoSize := by
  have := hw.ok.fifo
  omega

theorem Works.first (hw : Works d rng) {m : Nat} (hm : m < d.D.mvms 0) : ∀ v ∈ d.lines m, 0 < v.length := by
  intro v hv
  rw [(lines_length hw hm).2 v hv]
  exact hw.ok.dim

theorem good_init (hw : Works d rng) : Good VA SA d va sa t 0 where
  ok := rfl
  noc := rfl
  offered := by intro k hk; omega
  mvm := by
    intro l hl m hm
    refine ⟨_, _, _, _, _, init_follows (hw.ok.fits hl hm), ⟨?_, ?_, Nat.zero_le _, Nat.zero_le _, fun _ => rfl⟩, rfl, rfl, rfl, ?_⟩
    · intro i a hi
      simp at hi
    · intro _ i a hi
      simp at hi
    · intro o ho
      cases ho
  disp := by
    intro m hm
    exact ⟨[], feeds_init hw.size _, rfl⟩
  check := checks_init hw.size _
  coll := rfl

/-- The beat of a module. -/
theorem mvm_beat (hw : Works d rng) {l m : Nat} (hl : l < d.D.layers) (hm : m < d.D.mvms l) {h : Seen} {s : Sig} {r : Ref}
    {p q f : List Out} (I : Follows (d.D.mvm d.q l m) h s r p q f) (R : Right d.D l m h.ins h.reds) (hv : s.wire.txValid = true) :
    h.sent ++ [(⟨s.wire.txData, s.wire.txDest.1, s.wire.txDest.2⟩, s.wire.txUser)] <+: r.out.map (d.D.mvm d.q l m).wire ∧
      s.wire.txData.length = d.D.dim ∧ d.D.Has (destBlock s.wire.txDest.1 s.wire.txDest.2) := by
  obtain ⟨h1, h2⟩ := I.shows (hw.ok.fits hl hm)
  rw [hv] at h1
  cases q with
  | nil => cases h1
  | cons o q' =>
    have h3 := h2 o q' rfl
    have hp : h.sent ++ [((⟨s.wire.txData, s.wire.txDest.1, s.wire.txDest.2⟩, s.wire.txUser) : Out × Nat)] <+:
        r.out.map (d.D.mvm d.q l m).wire := by
      rw [h3, I.sent, I.out]
      refine ⟨(q' ++ backOuts s.reg.back.reverse ++ f).map (d.D.mvm d.q l m).wire, ?_⟩
      simp
    obtain ⟨ho, -⟩ := R.out hw.ok hl hm I.reach
    obtain ⟨h4, h5⟩ := sent_kind hw.ok hl hm hp ho (e := (⟨s.wire.txData, s.wire.txDest.1, s.wire.txDest.2⟩, s.wire.txUser))
      (by simp)
    refine ⟨hp, h4, ?_⟩
    dsimp only at h5
    rcases h5 with ⟨-, -, h6, -⟩ | ⟨h7, -, m', hm', -, -, h6, -⟩ | ⟨h7, -, -, h6, -⟩
    · rw [h6]; trivial
    · rw [h6]; exact ⟨h7, hm'⟩
    · rw [h6]; exact ⟨hl, h7⟩

theorem Good.offers (hw : Works d rng) (h : Good VA SA d va sa t n) : Offered d.noc (Sends d) (nocIns VA SA d va sa t n) := by
  intro u hu beats seen hm p hp b hb
  rw [edges_source hm] at hb
  unfold Mlp.offers at hb
  split at hb
  · rename_i hp0
    split at hb
    · rename_i m hbl
      have hm := ((hw.apart _ _).1 hbl).1
      obtain ⟨sent, hf, -⟩ := h.disp m hm
      rw [hf.offer (hw.first hm), Option.map_eq_some_iff] at hb
      obtain ⟨v, hv, rfl⟩ := hb
      refine ⟨hp0, _, hbl, .mvm 0 m, ⟨hw.ok.layers, hm⟩, v, ?_, _, rfl⟩
      refine (lines_length hw hm).2 v (List.mem_of_mem_take (i := ((xs VA SA d va sa t n).feed m).written) ?_)
      rw [← hf.order]
      have := List.mem_of_mem_head? hv
      simp [this]
    · rename_i l m hbl
      have hlm := ((hw.apart _ _).1 hbl).1
      obtain ⟨h', r, p', q, f, I, R, -⟩ := h.mvm l hlm.1 m hlm.2
      dsimp only at hb
      split at hb
      · rename_i hv
        obtain ⟨-, h1, h2⟩ := mvm_beat hw hlm.1 hlm.2 I R hv
        exact ⟨hp0, _, hbl, _, h2, _, h1, _, (Option.some.inj hb).symm⟩
      · cases hb
    · cases hb
  · cases hb

/-- An edge of a matrix vector multiplier. -/
theorem mvm_step (hw : Works d rng) {l m : Nat} (hl : l < d.D.layers) (hm : m < d.D.mvms l) {x : Sys σ τ} {y : AxisNoc.Sys σ τ}
    {tk : Tick ρ ρ'} (h : MvmGood d x l m) (he : tk.edge = true)
    (hgot : y.got (d.node (.mvm l m)) = x.noc.got (d.node (.mvm l m)) ++ if took x.noc y (d.node (.mvm l m)) then
      ((offers d x (d.node (.mvm l m)) 0).map (registerTxn (d.noc.sc (d.node (.mvm l m))) 0)).toList else [])
    (hin : inbox d y (.mvm l m) = inbox d x.noc (.mvm l m) ++ (if tk.edge && readies d x (d.node (.mvm l m)) 0 then
      ((shown x.noc (d.node (.mvm l m))).map fun o => (unpack d.D.dim o.tdata, o.tuser.toNat)).toList else []))
    (hr : Right d.D l m (withTag (inbox d y (.mvm l m)) 3) (withTag (inbox d y (.mvm l m)) 2)) :
    ∃ s', mvmStep d tk x y l m = .ok s' ∧ ∀ x' : Sys σ τ, x'.noc = y → x'.mvm l m = s' → MvmGood d x' l m := by
  obtain ⟨h1, r, p, q, f, I, R, hg, hi, hd, hu⟩ := h
  have hb := (hw.apart (d.node (.mvm l m)) (.mvm l m)).2 ⟨⟨hl, hm⟩, rfl⟩
  have hof : offers d x (d.node (.mvm l m)) 0 = if (x.mvm l m).wire.txValid then
      some (txBeat d (destBlock (x.mvm l m).wire.txDest.1 (x.mvm l m).wire.txDest.2) (x.mvm l m).wire.txData (x.mvm l m).wire.txUser)
      else none := by
    unfold offers
    rw [if_pos rfl, hb]
  have hre : readies d x (d.node (.mvm l m)) 0 = (x.mvm l m).wire.rxReady := by
    unfold readies
    rw [hb]
    simp
  obtain ⟨I', hu', hrx, htx⟩ := I.settle (took x.noc y (d.node (.mvm l m)))
  unfold mvmStep
  dsimp only
  generalize hs : settle (d.D.mvm d.q l m) (took x.noc y (d.node (.mvm l m))) (x.mvm l m) (x.mvm l m) = s at I' hu' hrx htx ⊢
  generalize hcy : (⟨match shown x.noc (d.node (.mvm l m)) with
      | some o => ⟨true, unpack d.D.dim o.tdata⟩
      | none => ⟨false, []⟩, match shown y (d.node (.mvm l m)) with
      | some o => o.tuser.toNat
      | none => s.rxUser, tk.room (d.node (.mvm l m)), tk.later (d.node (.mvm l m))⟩ : Cycle) = cy
  have hadd : ∀ k, (if cy.rx.valid && s.wire.rxReady && decide (s.rxUser / 2 ^ 13 % 8 = k) then [cy.rx.data] else []) =
      withTag (if tk.edge && readies d x (d.node (.mvm l m)) 0 then
        ((shown x.noc (d.node (.mvm l m))).map fun o => (unpack d.D.dim o.tdata, o.tuser.toNat)).toList else []) k := by
    intro k
    rw [he, hre, hrx, hu', ← hcy]
    cases ho : shown x.noc (d.node (.mvm l m)) with
    | none => cases (x.mvm l m).wire.rxReady <;> simp [withTag]
    | some o =>
      rw [hu o ho]
      cases (x.mvm l m).wire.rxReady
      · simp [withTag]
      · by_cases hk : o.tuser.toNat / 8192 % 8 = k
        · simp [withTag, tagOf, hk]
        · simp [withTag, tagOf, hk]
  have happ : ∀ a b k, withTag (a ++ b) k = withTag a k ++ withTag b k := by
    intro a b k
    simp [withTag]
  have hins : (h1.add s cy).ins = withTag (inbox d y (.mvm l m)) 3 := by
    rw [hin, happ, ← hi, ← hadd]
    rfl
  have hreds : (h1.add s cy).reds = withTag (inbox d y (.mvm l m)) 2 := by
    rw [hin, happ, ← hd, ← hadd]
    rfl
  have R' : Right d.D l m (h1.add s cy).ins (h1.add s cy).reds := by
    rw [hins, hreds]
    exact hr
  obtain ⟨s', r', f', hc, I'', -⟩ := cycle_follows (hw.ok.fits hl hm) I' cy ((hw.ok.job hl).sound _ _)
    (fun r hr => R'.shows hw.ok (golden_shows hw) hl hm hr)
  refine ⟨s', by rw [hc], ?_⟩
  rintro x' rfl rfl
  refine ⟨_, _, _, _, _, I'', R', ?_, hins, hreds, ?_⟩
  · rw [hgot, hg]
    have hv : s.wire.txValid = (x.mvm l m).wire.txValid := by
      rw [(I'.shows (hw.ok.fits hl hm)).1, (I.shows (hw.ok.fits hl hm)).1]
    have hsent : (h1.add s cy).sent = h1.sent ++ if s.wire.txValid && s.txReady then
        [(⟨s.wire.txData, s.wire.txDest.1, s.wire.txDest.2⟩, s.wire.txUser)] else [] := rfl
    rw [hsent, List.map_append, hof, htx, hv]
    congr 1
    cases htk : took x.noc x'.noc (d.node (.mvm l m))
    · simp
    · cases hvx : (x.mvm l m).wire.txValid
      · simp
      · simp only [if_true, Option.map_some, Option.toList_some, Bool.and_self, List.map_cons, List.map_nil]
        congr 1
        obtain ⟨h2, h3⟩ := I'.shows (hw.ok.fits hl hm)
        obtain ⟨h4, h5⟩ := I.shows (hw.ok.fits hl hm)
        rw [hvx] at h4
        cases q with
        | nil => cases h4
        | cons o q' =>
          rw [h3 o q' rfl, ← h5 o q' rfl]
          rfl
  · intro o ho
    rw [cycle_user hc, ← hcy]
    dsimp only
    rw [ho]

theorem good_step (hw : Works d rng) (ha : Allocs VA SA (mesh d.noc.m) d.noc.b va sa) (ht : ∀ k ≤ n, Paced d (t k))
    (h : Good VA SA d va sa t n) : Good VA SA d va sa t (n + 1) := by
  have ho : ∀ k < n + 1, Offered d.noc (Sends d) (nocIns VA SA d va sa t k) := by
    intro k hk
    rcases Nat.lt_or_eq_of_le (Nat.le_of_lt_succ hk) with hk | rfl
    · exact h.offered k hk
    · exact h.offers hw
  have hti : ∀ k < n + 1, AxisNoc.InTime (nocIns VA SA d va sa t k) := fun k hk => (ht k (by omega)).time
  have inv : ∀ m ≤ n + 1, AxisNoc.Inv VA SA d.noc va sa (nocIns VA SA d va sa t) (Sends d) m := fun m hm =>
    AxisNoc.inv_all hw.setup ha (fun u p b h => (sends_ok hw h).1) m (fun k hk => hti k (by omega)) fun k hk => ho k (by omega)
  have hn : AxisNoc.st VA SA d.noc va sa (nocIns VA SA d va sa t) n = (xs VA SA d va sa t n).noc := by
    have := (inv n (by omega)).ok
    rw [h.noc] at this
    exact (Except.ok.inj this).symm
  have hy := (inv (n + 1) (by omega)).ok
  have hper := fun u hu => (inv n (by omega)).period (inv (n + 1) (by omega)) (u := u) hu
  have hsl := fun u hu => ((inv n (by omega)).slave u hu).inv
  rw [hn] at hper hsl
  have hmark := fun dst hd => inbox_marked hw ha hti ho hy (dst := dst) hd
  generalize AxisNoc.st VA SA d.noc va sa (nocIns VA SA d va sa t) (n + 1) = y at hy hper hmark
  have hstep : AxisNoc.step VA SA d.noc (inOf d (t n) (xs VA SA d va sa t n)) (xs VA SA d va sa t n).noc = .ok y := by
    have := hy
    unfold AxisNoc.after at this
    rw [h.noc] at this
    exact this
  have hp := ht n (by omega)
  have hrun : sysRun VA SA d va sa t (n + 1) = step VA SA d (t n) (xs VA SA d va sa t n) := by
    unfold sysRun
    rw [h.ok]
  have hgm := h.mvm
  have hgd := h.disp
  have hgk := h.check
  have hgc := h.coll
  have hxs := fun (z : Sys σ τ) (hz : sysRun VA SA d va sa t (n + 1) = .ok z) => xs_of hz
  unfold nocIns at hper
  generalize xs VA SA d va sa t n = x at hper hsl hstep hrun hgm hgd hgk hgc
  -- what happens at the ports
  have hsrc : ∀ b, d.D.Has b → y.got (d.node b) = x.noc.got (d.node b) ++ (if took x.noc y (d.node b) then
        ((Mlp.offers d x (d.node b) 0).map (registerTxn (d.noc.sc (d.node b)) 0)).toList else []) ∧
      (took x.noc y (d.node b) = true → (Mlp.offers d x (d.node b) 0).isSome = true) ∧
      ((t n).edge = false → y.got (d.node b) = x.noc.got (d.node b)) := by
    intro b hb
    have hu := (hw.placed b hb).1
    obtain ⟨acc, out, h1, h2, -⟩ := hper _ hu
    obtain ⟨h3, h4, h5⟩ := source_period (hw.setup.ports _ hu).1 (hp.source _ hu) (hsl _ hu) h1 h2
    refine ⟨by rw [h2, ← h3], h4, fun he => ?_⟩
    rw [h2, h5 he, List.append_nil]
  have hsnk : ∀ b, d.D.Has b → inbox d y b = inbox d x.noc b ++ (if (t n).edge && readies d x (d.node b) 0 then
        ((shown x.noc (d.node b)).map fun o => (unpack d.D.dim o.tdata, o.tuser.toNat)).toList else []) ∧
      ((t n).edge = false → shown y (d.node b) = shown x.noc (d.node b)) := by
    intro b hb
    have hu := (hw.placed b hb).1
    obtain ⟨-, -, -, -, -, h1⟩ := hper _ hu
    exact sink_inbox (fun b hb => (hw.setup.ports _ (hw.placed b hb).1).2) hb (hp.sink _ hu) h1
  have hofd : ∀ m < d.D.mvms 0, Mlp.offers d x (d.node (.disp m)) 0 =
      (dispOffer (x.disp m)).map fun v => txBeat d (.mvm 0 m) v (3 * 8192) := by
    intro m hm
    unfold Mlp.offers
    rw [if_pos rfl, (hw.apart (d.node (.disp m)) (.disp m)).2 ⟨hm, rfl⟩]
  have hdget : ∀ m < d.D.mvms 0, ∀ sent : List Vec, x.noc.got (d.node (.disp m)) = sent.map (dispTxn d m) →
      y.got (d.node (.disp m)) =
        (sent ++ if took x.noc y (d.node (.disp m)) then (dispOffer (x.disp m)).toList else []).map (dispTxn d m) := by
    intro m hm sent hs
    rw [(hsrc (.disp m) hm).1, hs, hofd m hm, List.map_append]
    congr 1
    cases took x.noc y (d.node (.disp m)) <;> cases dispOffer (x.disp m) <;> rfl
  have hcget : y.got (d.node .coll) = [] := by
    rw [(hsrc .coll trivial).1, hgc]
    have : Mlp.offers d x (d.node .coll) 0 = none := by
      unfold Mlp.offers
      rw [if_pos rfl, (hw.apart (d.node .coll) .coll).2 ⟨trivial, rfl⟩]
    rw [this]
    simp
  have mid : Mid d y := by
    refine ⟨?_, ?_, hcget⟩
    · intro l hl m hm
      obtain ⟨h1, r, p, q, f, I, R, hg, -⟩ := hgm l hl m hm
      obtain ⟨ho1, ho2⟩ := R.out hw.ok hl hm I.reach
      have hb := (hw.apart (d.node (.mvm l m)) (.mvm l m)).2 ⟨⟨hl, hm⟩, rfl⟩
      obtain ⟨h2, h3, -⟩ := hsrc (.mvm l m) ⟨hl, hm⟩
      cases hk : took x.noc y (d.node (.mvm l m)) with
      | false =>
        refine ⟨r.out, h1.sent, ho1, ho2, ?_, ?_⟩
        · rw [I.sent, I.out]
          refine ⟨(q ++ backOuts (x.mvm l m).reg.back.reverse ++ f).map (d.D.mvm d.q l m).wire, ?_⟩
          simp
        · rw [h2, hk, hg]
          simp
      | true =>
        have hv : (x.mvm l m).wire.txValid = true := by
          have := h3 hk
          unfold Mlp.offers at this
          rw [if_pos rfl, hb] at this
          dsimp only at this
          split at this
          · assumption
          · cases this
        obtain ⟨h4, -, -⟩ := mvm_beat hw hl hm I R hv
        refine ⟨r.out, _, ho1, ho2, h4, ?_⟩
        rw [h2, hk, hg, List.map_append]
        congr 1
        unfold Mlp.offers
        rw [if_pos rfl, hb]
        dsimp only
        rw [if_pos hv]
        rfl
    · intro m hm
      obtain ⟨sent, hf, hg⟩ := hgd m hm
      refine ⟨_, ?_, hdget m hm sent hg⟩
      refine List.IsPrefix.trans (l₂ := (d.lines m).take (x.feed m).written) ?_ (List.take_prefix _ _)
      rw [← hf.order, hf.offer (hw.first hm), List.append_assoc]
      refine (List.prefix_append_right_inj _).2 ?_
      cases took x.noc y (d.node (.disp m)) <;> cases (x.disp m).mem <;> simp
  have hright : ∀ l < d.D.layers, ∀ m < d.D.mvms l,
      Right d.D l m (withTag (inbox d y (.mvm l m)) 3) (withTag (inbox d y (.mvm l m)) 2) := by
    intro l hl m hm
    obtain ⟨L, hL1, hL2⟩ := hmark (.mvm l m) ⟨hl, hm⟩
    rw [← hL1]
    exact (mid.right hw hl hm hL2).1
  -- the next state
  cases he : (t n).edge
  · have hnext : sysRun VA SA d va sa t (n + 1) = .ok ⟨y, x.feed, x.disp, x.mvm, x.coll, x.check⟩ := by
      rw [hrun, step, hstep]
      simp only [hp.drive, he, Bool.false_eq_true, if_false]
    have hx := hxs _ hnext
    refine ⟨by rw [hx, hnext], by rw [hx]; exact hy, ho, ?_, ?_, ?_, ?_⟩
    · intro l hl m hm
      rw [hx]
      obtain ⟨h1, r, p, q, f, I, R, hg, hi, hd, hu⟩ := hgm l hl m hm
      obtain ⟨h2, h3⟩ := hsnk (.mvm l m) ⟨hl, hm⟩
      have h4 : inbox d y (.mvm l m) = inbox d x.noc (.mvm l m) := by
        rw [h2, he]
        simp
      refine ⟨h1, r, p, q, f, I, R, ?_, ?_, ?_, ?_⟩
      · show y.got _ = _
        rw [(hsrc (.mvm l m) ⟨hl, hm⟩).2.2 he, hg]
      · show _ = withTag (inbox d y _) 3
        rw [h4, hi]
      · show _ = withTag (inbox d y _) 2
        rw [h4, hd]
      · intro o ho
        apply hu o
        rw [← h3 he]
        exact ho
    · intro m hm
      rw [hx]
      obtain ⟨sent, hf, hg⟩ := hgd m hm
      refine ⟨sent, hf, ?_⟩
      show y.got _ = _
      rw [(hsrc (.disp m) hm).2.2 he, hg]
    · rw [hx]
      have : received d ⟨y, x.feed, x.disp, x.mvm, x.coll, x.check⟩ = received d x := by
        unfold received
        show (inbox d y .coll).map _ = _
        rw [(hsnk .coll trivial).1, he]
        simp
      rw [this]
      exact hgk
    · rw [hx]
      exact hcget
  · -- dispatchers
    have hdisp : ∀ m < d.D.mvms 0, ∃ f', (dispTick d.q.fifoSize d.D.dim (x.feed m) (took x.noc y (d.node (.disp m))) (x.disp m)).mapError
        (SysErr.disp m) = .ok f' ∧ ∃ sent, Feeds d.q.fifoSize (d.lines m) ((x.feed m).tick (d.lines m) (dispRdy (x.disp m))) f' sent ∧
          y.got (d.node (.disp m)) = sent.map (dispTxn d m) := by
      intro m hm
      obtain ⟨sent, hf, hg⟩ := hgd m hm
      obtain ⟨f', h1, -, h2⟩ := hf.tick d.D.dim (hw.first hm) (took x.noc y (d.node (.disp m)))
      exact ⟨f', by rw [h1]; rfl, _, h2, hdget m hm sent hg⟩
    obtain ⟨disp, hdisp1⟩ := each_exists (d := x.disp 0) fun m hm => (hdisp m hm).imp fun _ h => h.1
    have hdisp2 := (each_ok hdisp1).1
    -- matrix vector multipliers
    have hmvm : ∀ l < d.D.layers, ∀ m < d.D.mvms l, ∃ s', mvmStep d (t n) x y l m = .ok s' ∧
        ∀ x' : Sys σ τ, x'.noc = y → x'.mvm l m = s' → MvmGood d x' l m := by
      intro l hl m hm
      exact mvm_step hw hl hm (hgm l hl m hm) he (hsrc (.mvm l m) ⟨hl, hm⟩).1 (hsnk (.mvm l m) ⟨hl, hm⟩).1 (hright l hl m hm)
    have hmvm0 : ∀ l < d.D.layers, ∃ g, each (x.mvm 0 0) (mvmStep d (t n) x y l) (d.D.mvms l) = .ok g := fun l hl =>
      each_exists fun m hm => (hmvm l hl m hm).imp fun _ h => h.1
    obtain ⟨mvm, hmvm1⟩ := each_exists (d := x.mvm 0) hmvm0
    have hmvm2 : ∀ l < d.D.layers, ∀ m < d.D.mvms l, mvmStep d (t n) x y l m = .ok (mvm l m) := fun l hl m hm =>
      (each_ok ((each_ok hmvm1).1 l hl)).1 m hm
    -- the collector
    have hrc : readies d x (d.node .coll) 0 = collReady x.coll := by
      unfold readies
      rw [(hw.apart (d.node .coll) .coll).2 ⟨trivial, rfl⟩]
      simp
    obtain ⟨coll, hcoll1, hcoll2⟩ := hgk.tick hw.ok.dim (golden_length hw).2 (by
      intro v hv
      unfold received inbox at hv
      rw [List.map_map, List.mem_map] at hv
      obtain ⟨b, -, rfl⟩ := hv
      simp [unpack]) ((shown x.noc (d.node .coll)).map fun o => unpack d.D.dim o.tdata)
    have hnext : sysRun VA SA d va sa t (n + 1) = .ok ⟨y, fun m => (x.feed m).tick (d.lines m) (dispRdy (x.disp m)), disp, mvm, coll,
        x.check.tick d.golden x.coll⟩ := by
      rw [hrun, step, hstep]
      simp only [hp.drive, he, if_true]
      unfold modules
      rw [hdisp1]
      dsimp only
      rw [hmvm1]
      dsimp only
      rw [hcoll1]
    have hx := hxs _ hnext
    refine ⟨by rw [hx, hnext], by rw [hx]; exact hy, ho, ?_, ?_, ?_, ?_⟩
    · intro l hl m hm
      rw [hx]
      obtain ⟨s', h1, h2⟩ := hmvm l hl m hm
      have h3 := hmvm2 l hl m hm
      rw [h1] at h3
      exact h2 _ rfl (Except.ok.inj h3).symm
    · intro m hm
      rw [hx]
      obtain ⟨f', h1, sent, h2, h3⟩ := hdisp m hm
      have h4 := hdisp2 m hm
      rw [h1] at h4
      cases h4
      exact ⟨sent, h2, h3⟩
    · rw [hx]
      have : received d ⟨y, fun m => (x.feed m).tick (d.lines m) (dispRdy (x.disp m)), disp, mvm, coll,
          x.check.tick d.golden x.coll⟩ = received d x ++ if collReady x.coll then
            ((shown x.noc (d.node .coll)).map fun o => unpack d.D.dim o.tdata).toList else [] := by
        unfold received
        show (inbox d y .coll).map _ = _
        rw [(hsnk .coll trivial).1, he, hrc, List.map_append]
        congr 1
        cases collReady x.coll <;> cases shown x.noc (d.node .coll) <;> rfl
      rw [this]
      exact hcoll2
    · rw [hx]
      exact hcget

theorem good_all (hw : Works d rng) (ha : Allocs VA SA (mesh d.noc.m) d.noc.b va sa) : ∀ n, (∀ k < n, Paced d (t k)) →
    Good VA SA d va sa t n
  | 0, _ => good_init hw
  | n + 1, ht => good_step hw ha (fun k hk => ht k (by omega)) (good_all hw ha n fun k hk => ht k (by omega))

/-- What the modules have sent. -/
theorem Good.mid (hw : Works d rng) (h : Good VA SA d va sa t n) : Mid d (xs VA SA d va sa t n).noc where
  mvm := by
    intro l hl m hm
    obtain ⟨h1, r, p, q, f, I, R, hg, -⟩ := h.mvm l hl m hm
    obtain ⟨ho1, ho2⟩ := R.out hw.ok hl hm I.reach
    refine ⟨r.out, h1.sent, ho1, ho2, ?_, hg⟩
    rw [I.sent, I.out]
    refine ⟨(q ++ backOuts ((xs VA SA d va sa t n).mvm l m).reg.back.reverse ++ f).map (d.D.mvm d.q l m).wire, ?_⟩
    simp
  disp := by
    intro m hm
    obtain ⟨sent, hf, hg⟩ := h.disp m hm
    refine ⟨sent, ?_, hg⟩
    refine List.IsPrefix.trans (l₂ := (d.lines m).take ((xs VA SA d va sa t n).feed m).written) ?_ (List.take_prefix _ _)
    rw [← hf.order, List.append_assoc]
    exact List.prefix_append _ _
  coll := h.coll

/-- What has arrived, with the modules it came from. -/
theorem Good.marked (hw : Works d rng) (ha : Allocs VA SA (mesh d.noc.m) d.noc.b va sa) (ht : ∀ k < n, Paced d (t k))
    (h : Good VA SA d va sa t n) {dst : Block} (hd : d.D.Has dst) :
    ∃ L : List (Block × Vec × Nat), L.map (·.2) = inbox d (xs VA SA d va sa t n).noc dst ∧ ∀ e ∈ L, d.D.Has e.1 ∧
      (L.filter fun z => z.1 = e.1).map (·.2) <+: outbox d (xs VA SA d va sa t n).noc e.1 dst :=
  inbox_marked hw ha (i := nocIns VA SA d va sa t) (fun k hk => (ht k hk).time) h.offered h.noc hd

theorem Good.right (hw : Works d rng) (ha : Allocs VA SA (mesh d.noc.m) d.noc.b va sa) (ht : ∀ k < n, Paced d (t k))
    (h : Good VA SA d va sa t n) : received d (xs VA SA d va sa t n) <+: d.D.goldenFile.map parse := by
  obtain ⟨L, hL1, hL2⟩ := h.marked hw ha ht (dst := .coll) trivial
  unfold received
  rw [← hL1]
  exact (h.mid hw).golden hw hL2

theorem goods (hw : Works d rng) (ha : Allocs VA SA (mesh d.noc.m) d.noc.b va sa) {N : Nat} (ht : ∀ k < N, Paced d (t k)) :
    ∀ m ≤ N, Good VA SA d va sa t m := fun m hm => good_all hw ha m fun k hk => ht k (by omega)

/-- The NoC in the run. -/
theorem invs (hw : Works d rng) (ha : Allocs VA SA (mesh d.noc.m) d.noc.b va sa) {N : Nat} (ht : ∀ k < N, Paced d (t k)) :
    ∀ m ≤ N, AxisNoc.Inv VA SA d.noc va sa (nocIns VA SA d va sa t) (Sends d) m ∧
      AxisNoc.st VA SA d.noc va sa (nocIns VA SA d va sa t) m = (xs VA SA d va sa t m).noc := by
  intro m hm
  have hg := goods hw ha ht m hm
  have hi := AxisNoc.inv_all hw.setup ha (P := Sends d) (i := nocIns VA SA d va sa t) (fun u p b h => (sends_ok hw h).1) m
    (fun k hk => (ht k (by omega)).time) hg.offered
  refine ⟨hi, ?_⟩
  have := hi.ok
  rw [hg.noc] at this
  exact (Except.ok.inj this).symm

/-- What has arrived stays. -/
theorem inbox_grows (hw : Works d rng) (ha : Allocs VA SA (mesh d.noc.m) d.noc.b va sa) {N : Nat} (ht : ∀ k < N, Paced d (t k))
    (hn : n ≤ N) {b : Block} (hb : d.D.Has b) : inbox d (xs VA SA d va sa t n).noc b <+: inbox d (xs VA SA d va sa t N).noc b := by
  have hi := invs (VA := VA) (SA := SA) hw ha ht
  have := (AxisNoc.all_grows (fun m hm => (hi m hm).1) hn (Nat.le_refl _) (hw.placed b hb).1).1.del 0
  rw [(hi n hn).2, (hi N (Nat.le_refl _)).2] at this
  have key : ∀ l : List (Nat × AxisOut), (l.filter fun y => y.1 = 0).map (fun y => AxisNoc.beatOut y.2) =
      (beatsOn 0 l).map AxisNoc.beatOut := by
    intro l
    unfold beatsOn
    rw [List.map_map]
    congr 1
  unfold inbox AxisNoc.deliveredAt
  rw [key, key]
  exact (this.map _).map _

theorem Good.next (h : Good VA SA d va sa t n) (h' : Good VA SA d va sa t (n + 1)) :
    step VA SA d (t n) (xs VA SA d va sa t n) = .ok (xs VA SA d va sa t (n + 1)) := by
  have := h'.ok
  unfold sysRun at this
  rw [h.ok] at this
  exact this

/-- The driver in a period. -/
theorem check_step {x y : Sys σ τ} {tk : Tick ρ ρ'} (h : step VA SA d tk x = .ok y) :
    y.check = if tk.drive then x.check.tick d.golden x.coll else x.check := by
  unfold step at h
  split at h
  · cases h
  · dsimp only at h
    split at h
    · split at h
      · cases h
      · cases h
        rfl
    · cases h
      rfl

/-- Once all golden outputs have come, the report is not far. -/
theorem reported (hw : Works d rng) (ha : Allocs VA SA (mesh d.noc.m) d.noc.b va sa) :
    ∀ N, (∀ k < n + N, Paced d (t k)) → d.golden.length ≤ (received d (xs VA SA d va sa t n)).length →
      toReport d.golden (xs VA SA d va sa t (n + N)).check ≤ d.q.fifoSize - (List.range N).countP fun k => (t (n + k)).edge
  | 0, ht, hr => by
    have := (good_all hw ha n ht).check.near hw.size hr
    simpa using this
  | N + 1, ht, hr => by
    have ih := reported hw ha N (fun k hk => ht k (by omega)) hr
    have hg := goods (VA := VA) (SA := SA) hw ha ht
    have h1 := hg (n + N) (by omega)
    have hc := check_step (h1.next (hg (n + N + 1) (by omega)))
    rw [(ht (n + N) (by omega)).drive] at hc
    rw [List.range_succ, List.countP_append, List.countP_singleton, ← Nat.add_assoc, hc]
    cases he : (t (n + N)).edge with
    | false => simpa using ih
    | true =>
      have hl : d.golden.length ≤ (received d (xs VA SA d va sa t (n + N))).length := by
        refine Nat.le_trans hr ?_
        unfold received
        rw [List.length_map, List.length_map]
        exact (inbox_grows (N := n + N) hw ha (fun k hk => ht k (by omega)) (by omega) (b := .coll) trivial).length_le
      have := h1.check.nearer hw.ok.dim (by
        intro v hv
        unfold received inbox at hv
        rw [List.map_map, List.mem_map] at hv
        obtain ⟨b, -, rfl⟩ := hv
        simp [unpack]) hl
      simp only [if_true]
      omega

end RadSim.Mlp
