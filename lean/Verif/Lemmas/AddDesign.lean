import Verif.Lemmas.AddClient
import Verif.Lemmas.AxisNocLive
import Verif.Props.AxisNoc
import Verif.Spec.AddDesign

/-! # A run of the example designs -/

namespace RadSim.AddDesign

open AxisNoc (Cfg In SlaveEdge MasterEdge Offered Exists FitsPort nodeOf portOf deliveredAt acceptedFor beatIn beatOut)
open Net (mesh Allocs)

variable {σ τ ρ ρ' : Type}

/-! ## how many beats an adapter hands over in a period -/

def isNode : SlaveEvent → Bool
  | .node _ _ => true
  | _ => false

theorem accepted_le {c : SlaveCfg} (hn : 0 < c.n) : ∀ {es : List SlaveEvent} {s s' : SlaveState} {acc : List AxisTxn}
    {out : List BsFlit}, SlaveInv c s → (∀ e ∈ es, e.isReset = false) → slaveRun c s es = .ok (s', acc, out) →
    acc.length ≤ es.countP isNode := by
  intro es
  induction es with
  | nil => intro s s' acc out _ _ h; cases h; simp
  | cons e es ih =>
    intro s s' acc out hi hes h
    simp only [slaveRun] at h
    split at h
    · cases h
    · rename_i s1 o1 h1
      split at h
      · cases h
      · rename_i h2
        cases h
        have h3 := ih (slaveStep_inv hn (hes e (by simp)) h1 hi).1 (fun e he => hes e (by simp [he])) h2
        rw [List.length_append, List.countP_cons]
        have h4 : (handshakes c s e).length ≤ if isNode e = true then 1 else 0 := by
          cases e with
          | node beats seen => exact (nodeStep_eq c hn s hi.prio beats seen).2.1
          | _ => simp [handshakes]
        omega

def isNodeM : MasterEvent → Bool
  | .node _ => true
  | _ => false

theorem picked_le {α : Type} (g : Nat → Option (Nat × α)) (hg : ∀ i y, g i = some y → y.1 = i) (p : Nat) :
    ∀ l : List Nat, ((l.filterMap g).filter fun y => y.1 = p).length ≤ l.count p := by
  intro l
  induction l with
  | nil => simp
  | cons i l ih =>
    rw [List.filterMap_cons, List.count_cons]
    cases hi : g i with
    | none => simp only; omega
    | some y =>
      simp only [List.filter_cons]
      have := hg i y hi
      by_cases h : i = p
      · rw [if_pos (by simp [this, h]), if_pos (by simp [h]), List.length_cons]; omega
      · rw [if_neg (by simp [this, h])]; omega

theorem handed_le {c : MasterCfg} (p : Nat) : ∀ {es : List MasterEvent} {s s' : MasterState} {h h' : MasterHist},
    masterRun c s h es = (h', .ok s') →
    ∃ l, h'.delivered = h.delivered ++ l ∧ (l.filter fun y => y.1 = p).length ≤ es.countP isNodeM := by
  intro es
  induction es with
  | nil => intro s s' h h' hr; cases hr; exact ⟨[], by simp, by simp⟩
  | cons e es ih =>
    intro s s' h h' hr
    rw [masterRun] at hr
    have key : ∃ l, (masterStep c s h e).1.delivered = h.delivered ++ l ∧
        (l.filter fun y => y.1 = p).length ≤ if isNodeM e = true then 1 else 0 := by
      cases e with
      | noc a => exact ⟨[], by cases hh : s.held <;> simp [masterStep, hh], by simp⟩
      | adapter cm =>
        refine ⟨[], ?_, by simp⟩
        rw [masterStep]
        split <;> simp
      | node r =>
        refine ⟨portHandshakes c s r, rfl, ?_⟩
        refine Nat.le_trans (picked_le _ (fun i y h => ?_) p _) (m := (List.range c.n).count p) ?_
        · split at h
          · cases ho : s.port i with
            | none => rw [ho] at h; cases h
            | some o => rw [ho] at h; cases h; rfl
          · cases h
        · exact List.nodup_iff_count_le_one.1 List.nodup_range p
      | tick => exact ⟨[], by simp [masterStep], by simp⟩
    obtain ⟨l, h1, h2⟩ := key
    split at hr
    · cases hr
    · rename_i h1' s1 he
      rw [he] at h1
      obtain ⟨l', h3, h4⟩ := ih hr
      refine ⟨l ++ l', by rw [h3, h1, List.append_assoc], ?_⟩
      rw [List.filter_append, List.length_append, List.countP_cons]
      omega

/-! ## the run -/

section
variable (VA : Alloc.Cls σ ρ) (SA : Alloc.Cls τ ρ') (d : Params) (va : Nat → σ) (sa : Nat → τ) (t : Nat → Tick ρ ρ')

/-- The state after `n` periods when nothing has failed. -/
def xs (n : Nat) : Sys σ τ :=
  match run VA SA d va sa t n with
  | .ok x => x
  | .error _ => .init d va sa

/-- The periods as the NoC sees them. -/
def ins (n : Nat) : In ρ ρ' := inOf d (t n) (xs VA SA d va sa t n).client

/-- What the client offers. -/
def Sends (u p : Nat) (b : AxisTxn) : Prop := u = d.client ∧ p = 0 ∧ ∃ v ∈ d.numbers, ∃ l, b = clientBeat d v l

/-- Number and flag of a beat accepted. -/
def pairIn (b : AxisTxn) : Nat × Bool := (b.tdata.toNat, b.tlast)

/-- Number and flag of a beat handed over. -/
def pairOut (b : AxisOut) : Nat × Bool := (b.tdata.toNat, b.tlast)

/-- The part of the invariant about client and driver, where `g` has been accepted by the NoC and `q` is stored. -/
structure Feeds (k : Client) (s : Source) (g q : List (Nat × Bool)) : Prop where
  client : k = clientOf d.depth q
  src : Shows s
  all : g ++ (q ++ mark s.queue) = mark d.numbers

/-- The part of the invariant about adder and report, where `g` has been taken. -/
structure Adds (a : Adder) (r : Option Bool) (g : List (Nat × Bool)) : Prop where
  acc : a.acc = (g.map (·.1)).foldl d.op.apply d.op.unit % 2 ^ 64
  finished : a.finished = (g.getLast?.map (·.2)).getD false
  resp : a.respValid = true → d.numbers ≠ [] ∧ g = mark d.numbers ∧ a.response = d.want
  report : ∀ b, r = some b → d.numbers ≠ [] ∧ g = mark d.numbers ∧ b = true

structure Good (n : Nat) : Prop where
  ok : run VA SA d va sa t n = .ok (xs VA SA d va sa t n)
  noc : AxisNoc.after VA SA d.noc va sa (ins VA SA d va sa t) n = .ok (xs VA SA d va sa t n).noc
  offered : ∀ k < n, Offered d.noc (Sends d) (ins VA SA d va sa t k)
  feeds : ∃ q, Feeds d (xs VA SA d va sa t n).client (xs VA SA d va sa t n).src
    (((xs VA SA d va sa t n).noc.got d.client).map pairIn) q
  adds : Adds d (xs VA SA d va sa t n).adder (xs VA SA d va sa t n).report ((taken d (xs VA SA d va sa t n).noc).map pairOut)

end

variable {VA : Alloc.Cls σ ρ} {SA : Alloc.Cls τ ρ'} {d : Params} {va : Nat → σ} {sa : Nat → τ} {t : Nat → Tick ρ ρ'}
  {rng : Nat → Nat × Nat} {n : Nat}

/-! ## the beats of the client -/

theorem sends_node (hw : Works d rng) (v : Nat) (l : Bool) :
    nodeOf (d.noc.sc d.client) (clientBeat d v l) = d.adder ∧ portOf (clientBeat d v l) = 0 := by
  have h1 := hw.adder.2
  have h2 := hw.rad
  have e : (clientBeat d v l).tdest.toNat = d.rad * 16384 + d.adder := by
    unfold clientBeat
    dsimp only
    rw [BitVec.toNat_ofNat, Nat.mod_eq_of_lt]
    show _ < 2 ^ 21
    omega
  refine ⟨?_, rfl⟩
  unfold nodeOf
  rw [e, h2.2, if_pos (by omega)]
  omega

theorem sends_data (hw : Works d rng) {v : Nat} (hv : v ∈ d.numbers) (l : Bool) : (clientBeat d v l).tdata.toNat = v := by
  unfold clientBeat
  dsimp only
  rw [BitVec.toNat_ofNat, Nat.mod_eq_of_lt]
  exact Nat.lt_of_lt_of_le (hw.numbers v hv).2 (Nat.pow_le_pow_right (by omega) hw.wide.1)

theorem sends_ok (hw : Works d rng) {u p : Nat} {b : AxisTxn} (h : Sends d u p b) : Exists d.noc u p b ∧ FitsPort d.noc u p b := by
  obtain ⟨rfl, rfl, v, hv, l, rfl⟩ := h
  obtain ⟨h1, h2⟩ := sends_node hw v l
  refine ⟨⟨?_, ?_⟩, hw.wide.1, ?_, ?_⟩
  · rw [h1]; exact hw.adder.1
  · rw [h1, h2]; exact (hw.setup.ports _ hw.adder.1).2
  · rw [sends_data hw hv]; exact (hw.numbers v hv).2
  · rw [h1, h2]; exact hw.wide.2

theorem mem_mark {l : List Nat} {y : Nat × Bool} (h : y ∈ mark l) : y.1 ∈ l := by
  have := List.mem_map_of_mem (f := (·.1)) h
  rwa [mark_fst] at this

/-- The node edges of a period at a source side adapter. -/
theorem edges_of {d : Params} {t : Tick ρ ρ'} {k : Client} {u : Nat} {beats : Nat → Option AxisTxn} {seen : Bool}
    (h : SlaveEdge.node beats seen ∈ (inOf d t k).sPre u ++ (inOf d t k).sPost u) :
    beats = offers d k u ∧ seen = t.seen u ∧ SEdge.node ∈ t.sPre u ++ t.sPost u := by
  unfold inOf at h
  simp only [← List.map_append, List.mem_map] at h
  obtain ⟨e, he, h⟩ := h
  cases e with
  | adapter => cases h
  | node => cases h; exact ⟨rfl, rfl, he⟩

theorem count_source {d : Params} {t : Tick ρ ρ'} {k : Client} (u : Nat) (cr : List Nat) :
    (((inOf d t k).sPre u).map SlaveEdge.event ++ SlaveEvent.noc cr :: ((inOf d t k).sPost u).map SlaveEdge.event).countP isNode =
      (t.sPre u ++ t.sPost u).count SEdge.node := by
  have : ∀ g : SEdge → SlaveEdge, (∀ e, isNode (g e).event = (e == SEdge.node)) → ∀ l : List SEdge,
      ((l.map g).map SlaveEdge.event).countP isNode = l.count SEdge.node := by
    intro g hg l
    rw [List.map_map, List.countP_map, List.count]
    congr 1
    funext e
    exact hg e
  unfold inOf
  dsimp only
  rw [List.countP_append, List.countP_cons, this _ (by intro e; cases e <;> rfl), this _ (by intro e; cases e <;> rfl),
    List.count_append]
  simp [isNode]

theorem count_sink {d : Params} {t : Tick ρ ρ'} {k : Client} (u : Nat) (f : Option BsFlit) :
    (MasterEvent.tick :: ((inOf d t k).mPre u).map MasterEdge.event ++
      .noc f :: ((inOf d t k).mPost u).map MasterEdge.event).countP isNodeM = (t.mPre u ++ t.mPost u).count MEdge.node := by
  have : ∀ g : MEdge → MasterEdge, (∀ e, isNodeM (g e).event = (e == MEdge.node)) → ∀ l : List MEdge,
      ((l.map g).map MasterEdge.event).countP isNodeM = l.count MEdge.node := by
    intro g hg l
    rw [List.map_map, List.countP_map, List.count]
    congr 1
    funext e
    exact hg e
  unfold inOf
  dsimp only
  rw [List.cons_append, List.countP_cons, List.countP_append, List.countP_cons, this _ (by intro e; cases e <;> rfl),
    this _ (by intro e; cases e <;> rfl), List.count_append]
  simp [isNodeM]

theorem apply_mod (o : Op) (a b : Nat) : o.apply (a % 2 ^ 64) (b % 2 ^ 64) % 2 ^ 64 = o.apply a b % 2 ^ 64 := by
  cases o with
  | add => exact (Nat.add_mod _ _ _).symm
  | mult => exact (Nat.mul_mod _ _ _).symm

/-! ## the adder -/

section
variable {a : Adder} {r : Option Bool} {g : List (Nat × Bool)}

/-- What is taken is part of what was sent, and after the flag nothing comes. -/
theorem Adds.complete (h : Adds d a r g) (hp : g <+: mark d.numbers) (hf : a.finished = true) :
    d.numbers ≠ [] ∧ g = mark d.numbers := by
  rw [h.finished] at hf
  cases hl : g.getLast? with
  | none => rw [hl] at hf; cases hf
  | some y =>
    rw [hl] at hf
    have e := mark_end hp hl hf
    refine ⟨fun h0 => ?_, e⟩
    rw [e, h0] at hl
    cases hl

theorem Adds.sum (h : Adds d a r g) (hr : d.want < 2 ^ 31) (e : g = mark d.numbers) : a.acc = d.want := by
  rw [h.acc, e, mark_fst]
  exact Nat.mod_eq_of_lt (Nat.lt_of_lt_of_le hr (by decide))

/-- An edge at which nothing is taken. -/
theorem Adds.idle (h : Adds d a r g) (hr : d.want < 2 ^ 31) (hp : g <+: mark d.numbers) : Adds d (a.tick d.op none) r g := by
  unfold Adder.tick
  dsimp only
  split
  · rename_i hf
    have hc := h.complete hp hf
    exact ⟨h.acc, h.finished, fun _ => ⟨hc.1, hc.2, h.sum hr hc.2⟩, h.report⟩
  · exact ⟨h.acc, h.finished, h.resp, h.report⟩

/-- An edge at which `b` is taken. -/
theorem Adds.takes (h : Adds d a r g) {b : AxisOut} (hp : g ++ [pairOut b] <+: mark d.numbers) :
    Adds d (a.tick d.op (some b)) r (g ++ [pairOut b]) := by
  have hne : g ≠ mark d.numbers := by
    intro e
    have := hp.length_le
    rw [List.length_append, ← e] at this
    simp at this
  have hf : a.finished = false := by
    rw [Bool.eq_false_iff]
    intro hf
    exact hne (h.complete ((List.prefix_append _ _).trans hp) hf).2
  unfold Adder.tick
  dsimp only
  rw [hf]
  refine ⟨?_, ?_, fun hr => absurd (h.resp hr).2.1 hne, fun b' hb' => absurd (h.report b' hb').2.1 hne⟩
  · show d.op.apply a.acc (b.tdata.toNat % 2 ^ 64) % 2 ^ 64 = _
    rw [List.map_append, List.foldl_append, h.acc, apply_mod]
    rfl
  · simp [pairOut]

/-- An edge of the driver. -/
theorem Adds.sink (h : Adds d a r g) {a' : Adder} {g' : List (Nat × Bool)} (h' : Adds d a' r g') (hg : g <+: g')
    (hp : g' <+: mark d.numbers) : Adds d a' (sinkTick d.want a r) g' := by
  refine ⟨h'.acc, h'.finished, h'.resp, fun b hb => ?_⟩
  cases r with
  | some b' => exact h'.report b hb
  | none =>
    unfold sinkTick at hb
    dsimp only at hb
    split at hb
    · rename_i hv
      obtain ⟨h1, h2, h3⟩ := h.resp hv
      rw [h3] at hb
      refine ⟨h1, hp.eq_of_length_le ?_, by simpa using hb.symm⟩
      rw [← h2]
      exact hg.length_le
    · cases hb

end

/-! ## the NoC -/

theorem taken_prefix (hw : Works d rng) (ha : Allocs VA SA (mesh d.noc.m) d.noc.b va sa) {i : Nat → In ρ ρ'}
    (ht : ∀ k < n, AxisNoc.InTime (i k)) (ho : ∀ k < n, Offered d.noc (Sends d) (i k)) {x : AxisNoc.Sys σ τ}
    (hx : AxisNoc.after VA SA d.noc va sa i n = .ok x) :
    (taken d x).map pairOut <+: (x.got d.client).map pairIn := by
  have hinv := AxisNoc.inv_all hw.setup ha (P := Sends d) (fun u p b h => (sends_ok hw h).1) n ht ho
  have hxs : x = AxisNoc.st VA SA d.noc va sa i n := by
    have := hinv.ok
    rw [hx] at this
    exact Except.ok.inj this
  have hgood : ∀ u < d.noc.m.nodes, ∀ b ∈ x.got u, u = d.client ∧ nodeOf (d.noc.sc u) b = d.adder ∧ portOf b = 0 ∧
      b.type = (d.noc.sc d.client).types 0 := by
    intro u hu b hb
    rw [hxs] at hb
    obtain ⟨p, hp, b', ⟨rfl, rfl, v, hv, l, rfl⟩, rfl⟩ := hinv.good u hu b hb
    exact ⟨rfl, (sends_node hw v l).1, (sends_node hw v l).2, rfl⟩
  have key := AxisNoc.C94_stream_in_order hw.setup ha ht (fun k hk u hu beats seen hm p hp b hb =>
    sends_ok hw (ho k hk u hu beats seen hm p hp b hb)) hx hw.adder.1 (hw.setup.ports _ hw.adder.1).2 (w := d.client)
    hw.channel (fun w hwn ty hne => by
      unfold acceptedFor
      rw [List.map_eq_nil_iff, List.filter_eq_nil_iff]
      intro b hb
      obtain ⟨rfl, -, -, h4⟩ := hgood w hwn b hb
      simp only [decide_eq_true_eq, not_and]
      intro _ _ h5
      exact hne (by rw [← h4, h5]))
  have e : acceptedFor d.noc x d.client d.adder 0 ((d.noc.sc d.client).types 0) = (x.got d.client).map beatIn := by
    unfold acceptedFor
    rw [List.filter_eq_self.2]
    intro b hb
    have := hgood _ hw.client b hb
    simp [this]
  rw [e] at key
  have := key.map (fun b => (b.tdata.toNat, b.tlast))
  unfold deliveredAt at this
  unfold taken
  rw [List.map_map, List.map_map] at this
  rw [List.map_map]
  exact this

/-! ## the whole -/

theorem xs_of {x : Sys σ τ} (h : run VA SA d va sa t n = .ok x) : xs VA SA d va sa t n = x := by
  unfold xs
  rw [h]

theorem good_init (hw : Works d rng) : Good VA SA d va sa t 0 where
  ok := rfl
  noc := rfl
  offered := by intro k hk; omega
  feeds := ⟨[], reset_client hw.depth, fun h => (by cases h), rfl⟩
  adds := by
    refine ⟨?_, rfl, fun h => (by cases h), fun _ h => (by cases h)⟩
    show d.op.unit = d.op.unit % 2 ^ 64
    cases d.op <;> rfl

theorem Good.offers (h : Good VA SA d va sa t n) : Offered d.noc (Sends d) (ins VA SA d va sa t n) := by
  obtain ⟨q, hq⟩ := h.feeds
  intro u hu beats seen hm p hp b hb
  obtain ⟨rfl, -, -⟩ := edges_of hm
  unfold AddDesign.offers at hb
  split at hb
  · rename_i hup
    obtain ⟨rfl, rfl⟩ := hup
    rw [hq.client, offer_client] at hb
    cases q with
    | nil => cases hb
    | cons y q =>
      refine ⟨rfl, rfl, y.1, mem_mark (y := y) ?_, y.2, (Option.some.inj hb).symm⟩
      rw [← hq.all]
      simp
  · cases hb

theorem good_step (hw : Works d rng) (ha : Allocs VA SA (mesh d.noc.m) d.noc.b va sa) (ht : ∀ k ≤ n, Paced d (t k))
    (h : Good VA SA d va sa t n) : Good VA SA d va sa t (n + 1) := by
  have ho : ∀ k < n + 1, Offered d.noc (Sends d) (ins VA SA d va sa t k) := by
    intro k hk
    rcases Nat.lt_or_eq_of_le (Nat.le_of_lt_succ hk) with hk | rfl
    · exact h.offered k hk
    · exact h.offers
  have hti : ∀ k < n + 1, AxisNoc.InTime (ins VA SA d va sa t k) := fun k hk => (ht k (by omega)).time
  have inv : ∀ m ≤ n + 1, AxisNoc.Inv VA SA d.noc va sa (ins VA SA d va sa t) (Sends d) m := fun m hm =>
    AxisNoc.inv_all hw.setup ha (fun u p b h => (sends_ok hw h).1) m (fun k hk => hti k (by omega)) fun k hk => ho k (by omega)
  have hn : AxisNoc.st VA SA d.noc va sa (ins VA SA d va sa t) n = (xs VA SA d va sa t n).noc := by
    have := (inv n (by omega)).ok
    rw [h.noc] at this
    exact (Except.ok.inj this).symm
  have hy := (inv (n + 1) (by omega)).ok
  have hper := fun u hu => (inv n (by omega)).period (inv (n + 1) (by omega)) (u := u) hu
  have hpre := taken_prefix hw ha hti ho hy
  have hsl := ((inv n (by omega)).slave d.client hw.client).inv
  rw [hn] at hper hsl
  generalize AxisNoc.st VA SA d.noc va sa (ins VA SA d va sa t) (n + 1) = y at hy hper hpre
  have hstep : AxisNoc.step VA SA d.noc (inOf d (t n) (xs VA SA d va sa t n).client) (xs VA SA d va sa t n).noc = .ok y := by
    have := hy
    unfold AxisNoc.after at this
    rw [h.noc] at this
    exact this
  obtain ⟨q, hq⟩ := h.feeds
  -- what the NoC accepts from the client
  obtain ⟨acc, out, hs1, hs2, -, -⟩ := hper d.client hw.client
  have hlen := accepted_le (hw.setup.ports _ hw.client).1 hsl (by
    intro e he
    rcases List.mem_append.1 he with he | he
    · obtain ⟨e', -, rfl⟩ := List.mem_map.1 he; exact AxisNoc.event_reset e'
    · rcases List.mem_cons.1 he with rfl | he
      · rfl
      · obtain ⟨e', -, rfl⟩ := List.mem_map.1 he; exact AxisNoc.event_reset e') hs1
  rw [ins, count_source] at hlen
  have hacc : acc.map pairIn ++ (if acc ≠ [] then q.tail else q) = q := by
    cases acc with
    | nil => rfl
    | cons b r =>
      have hr : r = [] := by
        have := (ht n (by omega)).client
        rw [List.length_cons] at hlen
        exact List.length_eq_zero_iff.1 (by omega)
      subst hr
      obtain ⟨beats, seen, p, b', he, hp, hb, rfl⟩ := AxisNoc.slaveRun_mem hs1 b (by simp)
      have hm : SlaveEdge.node beats seen ∈ (ins VA SA d va sa t n).sPre d.client ++ (ins VA SA d va sa t n).sPost d.client := by
        rcases List.mem_append.1 he with he | he
        · obtain ⟨e', h1, h2⟩ := List.mem_map.1 he
          cases e' with
          | adapter => cases h2
          | node b s => cases h2; exact List.mem_append.2 (Or.inl h1)
        · rcases List.mem_cons.1 he with he | he
          · cases he
          · obtain ⟨e', h1, h2⟩ := List.mem_map.1 he
            cases e' with
            | adapter => cases h2
            | node b s => cases h2; exact List.mem_append.2 (Or.inr h1)
      obtain ⟨rfl, -, -⟩ := edges_of hm
      unfold AddDesign.offers at hb
      split at hb
      · rw [hq.client, offer_client] at hb
        cases q with
        | nil => cases hb
        | cons z q =>
          have := (Option.some.inj hb).symm
          subst this
          have hz : z.1 ∈ d.numbers := mem_mark (y := z) (by rw [← hq.all]; simp)
          show (_ :: _ : List (Nat × Bool)) = _
          simp only [List.map_nil, ne_eq, reduceCtorEq, not_false_eq_true, if_true, List.tail_cons]
          congr 1
          exact Prod.ext (sends_data hw hz z.2) rfl
      · cases hb
  have hgrow : decide (((xs VA SA d va sa t n).noc.got d.client).length < (y.got d.client).length) = decide (acc ≠ []) := by
    rw [hs2, List.length_append]
    cases acc <;> simp
  -- what the adder is handed
  obtain ⟨-, -, -, -, -, hm1⟩ := hper d.adder hw.adder.1
  obtain ⟨l, hl1, hl2⟩ := handed_le 0 hm1
  rw [ins, count_sink] at hl2
  have htk : taken d y = taken d (xs VA SA d va sa t n).noc ++ (l.filter fun y => y.1 = 0).map (·.2) := by
    unfold taken
    rw [hl1, List.filter_append, List.map_append]
  have hall : (y.got d.client).map pairIn <+: mark d.numbers := by
    rw [hs2, List.map_append, ← hq.all]
    refine List.prefix_append_right_inj _ |>.2 ?_
    exact List.IsPrefix.trans (l₂ := q) ⟨_, hacc⟩ (List.prefix_append _ _)
  have hp' := hpre.trans hall
  have hadds : Adds d (if MEdge.node ∈ (t n).mPre d.adder ++ (t n).mPost d.adder then
      (xs VA SA d va sa t n).adder.tick d.op ((taken d y).drop (taken d (xs VA SA d va sa t n).noc).length).head?
      else (xs VA SA d va sa t n).adder) (xs VA SA d va sa t n).report ((taken d y).map pairOut) := by
    rw [htk, List.drop_left]
    rw [htk] at hp'
    have hl3 : ((l.filter fun y => y.1 = 0).map (·.2)).length ≤ ((t n).mPre d.adder ++ (t n).mPost d.adder).count MEdge.node := by
      rw [List.length_map]; exact hl2
    have hone := (ht n (by omega)).adder
    revert hl3 hp'
    generalize (l.filter fun y => y.1 = 0).map (·.2) = new
    intro hp' hl3
    rw [List.map_append] at hp' ⊢
    split
    · cases new with
      | nil =>
        simp only [List.map_nil, List.append_nil] at hp' ⊢
        exact h.adds.idle hw.result hp'
      | cons b r =>
        have hr : r = [] := by
          rw [List.length_cons] at hl3
          exact List.length_eq_zero_iff.1 (by omega)
        subst hr
        exact h.adds.takes hp'
    · rename_i hno
      rw [List.count_eq_zero_of_not_mem hno] at hl3
      have hr : new = [] := List.length_eq_zero_iff.1 (by omega)
      subst hr
      simpa using h.adds
  have hgp : (taken d (xs VA SA d va sa t n).noc).map pairOut <+: (taken d y).map pairOut := by
    rw [htk, List.map_append]
    exact List.prefix_append _ _
  generalize hna : (if MEdge.node ∈ (t n).mPre d.adder ++ (t n).mPost d.adder then
      (xs VA SA d va sa t n).adder.tick d.op ((taken d y).drop (taken d (xs VA SA d va sa t n).noc).length).head?
      else (xs VA SA d va sa t n).adder) = na at hadds
  -- the next state
  have hrun : run VA SA d va sa t (n + 1) = step VA SA d (t n) (xs VA SA d va sa t n) := by
    unfold run
    rw [h.ok]
  by_cases hed : SEdge.node ∈ (t n).sPre d.client ++ (t n).sPost d.client
  · have hnext : run VA SA d va sa t (n + 1) = .ok ⟨y, (xs VA SA d va sa t n).src.tick (xs VA SA d va sa t n).client.ready,
        clientOf d.depth (after q ((xs VA SA d va sa t n).client.ready && (xs VA SA d va sa t n).src.valid) (decide (acc ≠ []))
          ((xs VA SA d va sa t n).src.tdata, (xs VA SA d va sa t n).src.tlast)), na,
        sinkTick d.want (xs VA SA d va sa t n).adder (xs VA SA d va sa t n).report⟩ := by
      rw [hrun, step, hstep]
      dsimp only
      rw [if_pos hed, hgrow, hna, hq.client, tick_client]
    have hx := xs_of hnext
    refine ⟨?_, ?_, ho, ?_, ?_⟩
    · rw [hx, hnext]
    · rw [hx]; exact hy
    · rw [hx]
      obtain ⟨h1, h2, -⟩ := tick_source hq.src (xs VA SA d va sa t n).client.ready
      refine ⟨_, rfl, h1, ?_⟩
      show (y.got d.client).map pairIn ++ _ = _
      rw [hs2, List.map_append, ← hq.all, h2, List.append_assoc]
      unfold after
      rw [List.append_assoc, ← List.append_assoc (acc.map pairIn)]
      have e : (if decide (acc ≠ []) = true then q.tail else q) = if acc ≠ [] then q.tail else q := by simp
      rw [e, hacc]
    · rw [hx]
      exact h.adds.sink hadds hgp hp'
  · have hnext : run VA SA d va sa t (n + 1) = .ok ⟨y, (xs VA SA d va sa t n).src, (xs VA SA d va sa t n).client, na,
        (xs VA SA d va sa t n).report⟩ := by
      rw [hrun, step, hstep]
      dsimp only
      rw [if_neg hed, hna]
    have hx := xs_of hnext
    have ha0 : acc = [] := by
      rw [List.count_eq_zero_of_not_mem hed] at hlen
      exact List.length_eq_zero_iff.1 (by omega)
    refine ⟨?_, ?_, ho, ?_, ?_⟩
    · rw [hx, hnext]
    · rw [hx]; exact hy
    · rw [hx]
      refine ⟨q, hq.client, hq.src, ?_⟩
      show (y.got d.client).map pairIn ++ _ = _
      rw [hs2, ha0, List.append_nil]
      exact hq.all
    · rw [hx]
      exact hadds

theorem good_all (hw : Works d rng) (ha : Allocs VA SA (mesh d.noc.m) d.noc.b va sa) :
    ∀ n, (∀ k < n, Paced d (t k)) → Good VA SA d va sa t n := by
  intro n
  induction n with
  | zero => intro _; exact good_init hw
  | succ n ih => intro ht; exact good_step hw ha (fun k hk => ht k (by omega)) (ih fun k hk => ht k (by omega))

end RadSim.AddDesign
