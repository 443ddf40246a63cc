import Verif.Model.Telemetry
import Mathlib.Data.List.Induction
import Mathlib.Algebra.BigOperators.Group.List.Basic

/-! # Properties of telemetry (C30, C31, C55, C56) -/

namespace RadSim.Telemetry

/-! ## C30 -/

/-- Number of initiations in a sequence of calls. -/
def numInits (ops : List (Int × Op)) : Nat :=
  (ops.filter fun x => match x.2 with | .initiate .. => true | _ => false).length

/-- Time of the last call of kind `k` for transaction `id`. -/
def lastStamp (k : Stamp) (id : Nat) (ops : List (Int × Op)) : Option Int :=
  (ops.filterMap fun x => if x.2 = .stamp k id then some x.1 else none).getLast?

/-- Hop count last reported for transaction `id`. -/
def lastHops (id : Nat) (ops : List (Int × Op)) : Option Int :=
  (ops.filterMap fun x => match x.2 with | .hops j n => if j = id then some n else none | _ => none).getLast?

theorem run_append (s : State) (a b : List (Int × Op)) :
    run s (a ++ b) = (run s a).bind fun x => (run x.1 b).map fun y => (y.1, x.2 ++ y.2) := by
  induction a generalizing s with
  | nil =>
    simp only [List.nil_append, run, Option.bind_some]
    cases run s b <;> rfl
  | cons x a ih =>
    obtain ⟨t, o⟩ := x
    simp only [List.cons_append, run]
    cases call t s o with
    | none => rfl
    | some y =>
      simp only [ih]
      cases run y.1 a with
      | none => rfl
      | some z =>
        simp only [Option.bind_some]
        cases run z.1 b with
        | none => rfl
        | some w => simp [List.append_assoc]

theorem numInits_append (a b : List (Int × Op)) : numInits (a ++ b) = numInits a + numInits b := by
  simp [numInits]

theorem run_ids (ops : List (Int × Op)) : ∀ (s s' : State) (ids : List Nat),
    run s ops = some (s', ids) →
    s'.next = s.next + numInits ops ∧ ids = List.range' (s.next + 1) (numInits ops) := by
  induction ops with
  | nil => intro s s' ids h; cases h; exact ⟨rfl, rfl⟩
  | cons x ops ih =>
    obtain ⟨t, o⟩ := x
    intro s s' ids h
    simp only [run] at h
    cases o with
    | initiate rad src dest ty dw noc =>
      simp only [call] at h
      by_cases hb : s.next + 1 < 2 ^ 31
      · simp only [if_pos hb] at h
        split at h
        · cases h
        next s'' ids' hr =>
        cases h
        obtain ⟨i1, i2⟩ := ih _ _ _ hr
        have e : numInits ((t, Op.initiate rad src dest ty dw noc) :: ops) = numInits ops + 1 := rfl
        rw [e]
        constructor
        · rw [i1]; simp only [store]; omega
        · rw [i2, List.range'_succ]; rfl
      · simp only [if_neg hb] at h
        cases h
    | stamp k id =>
      simp only [call] at h
      split at h
      · cases h
      next s'' ids' hr =>
      cases h
      have := ih _ _ _ hr
      exact this
    | hops id n =>
      simp only [call] at h
      split at h
      · cases h
      next s'' ids' hr =>
      cases h
      have := ih _ _ _ hr
      exact this

/-- **C30.** Over any sequence of calls the identifiers handed out are 1, 2, 3, ..., one for each
initiation, in particular all different. -/
theorem C30_identifiers_unique (ops : List (Int × Op)) (s : State) (ids : List Nat)
    (h : run init ops = some (s, ids)) : ids = List.range' 1 (numInits ops) ∧ ids.Nodup := by
  have := (run_ids ops init s ids h).2
  have e : (init).next + 1 = 1 := rfl
  rw [e] at this
  exact ⟨this, this ▸ List.nodup_range'⟩

/-- What the record of a transaction must say after the calls `post` that follow its initiation. -/
structure Agrees (t src dest ty dw noc : Int) (id : Nat) (post : List (Int × Op)) (e : Entry) : Prop where
  src : e.src = src
  dest : e.dest = dest % 128
  type : e.type = ty
  dataw : e.dataw = dw
  noc : e.noc = noc
  tInit : e.tInit = t
  tPacket : e.tPacket = (lastStamp .tailPacketization id post).getD 0
  tInject : e.tInject = (lastStamp .headInjection id post).getD 0
  tEject : e.tEject = (lastStamp .tailEjection id post).getD 0
  tDepacket : e.tDepacket = (lastStamp .tailDepacketization id post).getD 0
  tReceive : e.tReceive = (lastStamp .receipt id post).getD 0
  latency : e.latency = ((lastStamp .receipt id post).map (· - t)).getD 0
  hops : e.hops = (lastHops id post).getD 0

theorem lastStamp_snoc (k : Stamp) (id : Nat) (ops : List (Int × Op)) (t : Int) (o : Op) :
    lastStamp k id (ops ++ [(t, o)]) = if o = .stamp k id then some t else lastStamp k id ops := by
  unfold lastStamp
  by_cases h : o = .stamp k id <;> simp [h, List.filterMap_append]

theorem lastHops_snoc_hops (id j : Nat) (ops : List (Int × Op)) (t n : Int) :
    lastHops id (ops ++ [(t, .hops j n)]) = if j = id then some n else lastHops id ops := by
  unfold lastHops
  by_cases h : j = id <;> simp [h, List.filterMap_append]

theorem lastHops_snoc_other (id : Nat) (ops : List (Int × Op)) (t : Int) (o : Op)
    (h : ∀ j n, o ≠ .hops j n) : lastHops id (ops ++ [(t, o)]) = lastHops id ops := by
  unfold lastHops
  cases o with
  | hops j n => exact absurd rfl (h j n)
  | initiate _ _ _ _ _ _ => simp [List.filterMap_append]
  | stamp _ _ => simp [List.filterMap_append]

theorem book_after (t src dest ty dw noc : Int) (id : Nat) (post : List (Int × Op)) :
    ∀ (s s' : State) (ids : List Nat) (e : Entry), s.book id = some e → id ≤ s.next →
      Agrees t src dest ty dw noc id [] e → run s post = some (s', ids) →
      ∃ e', s'.book id = some e' ∧ Agrees t src dest ty dw noc id post e' := by
  induction post using List.reverseRecOn with
  | nil => intro s s' ids e hb _ ha h; cases h; exact ⟨e, hb, ha⟩
  | append_singleton post x ih =>
    obtain ⟨u, o⟩ := x
    intro s s' ids e hb hid ha h
    rw [run_append] at h
    cases hr : run s post with
    | none => rw [hr] at h; cases h
    | some y =>
      obtain ⟨s1, ids1⟩ := y
      rw [hr] at h
      simp only [Option.bind_some] at h
      obtain ⟨e1, hb1, ha1⟩ := ih s s1 ids1 e hb hid ha hr
      have hn := (run_ids post s s1 ids1 hr).1
      cases o with
      | initiate rad src' dest' ty' dw' noc' =>
        simp only [run, call] at h
        by_cases hlt : s1.next + 1 < 2 ^ 31
        · simp only [if_pos hlt, Option.map_some, Option.some.injEq, Prod.mk.injEq] at h
          obtain ⟨rfl, -⟩ := h
          refine ⟨e1, ?_, ?_⟩
          · simp only [store]
            rw [if_neg (by omega)]
            exact hb1
          · constructor <;> try
              simp only [lastStamp_snoc, reduceCtorEq, if_false,
                lastHops_snoc_other id post u (.initiate rad src' dest' ty' dw' noc') (by simp)]
            exacts [ha1.src, ha1.dest, ha1.type, ha1.dataw, ha1.noc, ha1.tInit, ha1.tPacket, ha1.tInject,
              ha1.tEject, ha1.tDepacket, ha1.tReceive, ha1.latency, ha1.hops]
        · simp only [if_neg hlt, Option.map_none, reduceCtorEq] at h
      | hops j n =>
        simp only [run, call, Option.map_some, Option.some.injEq, Prod.mk.injEq] at h
        obtain ⟨rfl, -⟩ := h
        by_cases hj : j = id
        · subst hj
          refine ⟨{ e1 with hops := n }, ?_, ?_⟩
          · simp [store, access, hb1]
          · constructor <;> try
              simp only [lastStamp_snoc, reduceCtorEq, if_false, lastHops_snoc_hops, if_true,
                Option.getD_some]
            exacts [ha1.src, ha1.dest, ha1.type, ha1.dataw, ha1.noc, ha1.tInit, ha1.tPacket, ha1.tInject,
              ha1.tEject, ha1.tDepacket, ha1.tReceive, ha1.latency]
        · refine ⟨e1, ?_, ?_⟩
          · simp only [store]; rw [if_neg (Ne.symm hj)]; exact hb1
          · constructor <;> try
              simp only [lastStamp_snoc, reduceCtorEq, if_false, lastHops_snoc_hops, if_neg hj]
            exacts [ha1.src, ha1.dest, ha1.type, ha1.dataw, ha1.noc, ha1.tInit, ha1.tPacket, ha1.tInject,
              ha1.tEject, ha1.tDepacket, ha1.tReceive, ha1.latency, ha1.hops]
      | stamp k j =>
        simp only [run, call, Option.map_some, Option.some.injEq, Prod.mk.injEq] at h
        obtain ⟨rfl, -⟩ := h
        by_cases hj : j = id
        · subst hj
          refine ⟨stampEntry u e1 k, ?_, ?_⟩
          · simp [store, access, hb1]
          · have hh := lastHops_snoc_other j post u (.stamp k j) (by simp)
            cases k <;> constructor <;>
              simp only [lastStamp_snoc, hh, stampEntry, Op.stamp.injEq, reduceCtorEq, false_and,
                and_true, if_false, if_true, Option.getD_some, Option.map_some, ha1.src,
                ha1.dest, ha1.type, ha1.dataw, ha1.noc, ha1.tInit, ha1.tPacket, ha1.tInject, ha1.tEject,
                ha1.tDepacket, ha1.tReceive, ha1.latency, ha1.hops]
        · refine ⟨e1, ?_, ?_⟩
          · simp only [store]; rw [if_neg (Ne.symm hj)]; exact hb1
          · have hh := lastHops_snoc_other id post u (.stamp k j) (by simp)
            constructor <;> try simp only [lastStamp_snoc, hh, Op.stamp.injEq, hj, and_false, if_false]
            exacts [ha1.src, ha1.dest, ha1.type, ha1.dataw, ha1.noc, ha1.tInit, ha1.tPacket, ha1.tInject,
              ha1.tEject, ha1.tDepacket, ha1.tReceive, ha1.latency, ha1.hops]

/-- **C30.** Whatever calls precede and follow an initiation, its record holds the arguments of the
initiation, the local part of the destination, the last time stamp of every kind given under its
identifier, and as latency the time from initiation to receipt. -/
theorem C30_record_is_faithful (pre post : List (Int × Op)) (t : Int) (rad : Nat)
    (src dest ty dw noc : Int) (s : State) (ids : List Nat)
    (h : run init (pre ++ (t, .initiate rad src dest ty dw noc) :: post) = some (s, ids)) :
    ∃ e, s.book (numInits pre + 1) = some e ∧
      Agrees t src dest ty dw noc (numInits pre + 1) post e := by
  rw [run_append] at h
  cases hr : run init pre with
  | none => rw [hr] at h; cases h
  | some y =>
    obtain ⟨s1, ids1⟩ := y
    rw [hr] at h
    simp only [Option.bind_some, run, call] at h
    have hn : s1.next = numInits pre := by
      have := (run_ids pre init s1 ids1 hr).1
      rw [this]; simp [init]
    by_cases hlt : s1.next + 1 < 2 ^ 31
    · simp only [if_pos hlt] at h
      split at h
      · cases h
      next s2 ids2 hrun =>
      refine book_after t src dest ty dw noc (numInits pre + 1) post
        (store { s1 with next := s1.next + 1 } (s1.next + 1)
          { src := src, dest := dest % 128, type := ty, dataw := dw, noc := noc, tInit := t })
        s ids2 { src := src, dest := dest % 128, type := ty, dataw := dw, noc := noc, tInit := t }
        ?_ ?_ ?_ ?_
      · simp [store, hn]
      · simp [store, hn]
      · constructor <;> simp [lastStamp, lastHops]
      · simp only [Option.map_some, Option.some.injEq, Prod.mk.injEq] at h
        obtain ⟨rfl, -⟩ := h
        exact hrun
    · simp only [if_neg hlt, Option.map_none, reduceCtorEq] at h

/-- **C30**, sign: when the calls happen at non-decreasing times, the latency is not negative. -/
theorem C30_latency_nonneg (pre post : List (Int × Op)) (t : Int) (rad : Nat)
    (src dest ty dw noc : Int) (s : State) (ids : List Nat)
    (h : run init (pre ++ (t, .initiate rad src dest ty dw noc) :: post) = some (s, ids))
    (ht : (pre ++ (t, Op.initiate rad src dest ty dw noc) :: post).Pairwise fun a b => a.1 ≤ b.1)
    (e : Entry) (he : s.book (numInits pre + 1) = some e) : 0 ≤ e.latency := by
  obtain ⟨e', he', ha⟩ := C30_record_is_faithful pre post t rad src dest ty dw noc s ids h
  rw [he] at he'
  cases he'
  rw [ha.latency]
  cases hl : lastStamp .receipt (numInits pre + 1) post with
  | none => simp
  | some u =>
    have hm := List.mem_of_getLast? (hl ▸ rfl : (post.filterMap fun x =>
      if x.2 = .stamp .receipt (numInits pre + 1) then some x.1 else none).getLast? = some u)
    obtain ⟨x, hx, hxe⟩ := List.mem_filterMap.mp hm
    have hp := (List.pairwise_cons.mp (List.pairwise_append.mp ht).2.1).1 x hx
    have : x.1 = u := by
      split at hxe
      · exact Option.some.inj hxe
      · cases hxe
    simp only [Option.map_some, Option.getD_some]
    simp only at hp
    omega

/-- Two transactions, the second one finishing first. -/
def sampleCalls : List (Int × Op) :=
  [(10, .initiate 0 3 0x203 1 512 0), (20, .initiate 0 4 5 1 512 0), (30, .stamp .headInjection 2),
   (35, .stamp .headInjection 1), (50, .stamp .tailEjection 2), (50, .hops 2 4), (60, .stamp .receipt 2),
   (75, .stamp .tailEjection 1), (75, .hops 1 6), (90, .stamp .receipt 1)]

example : ∃ s ids, run init sampleCalls = some (s, ids) ∧ ids = [1, 2] ∧
    (s.book 1).map (fun e => (e.dest, e.latency, e.hops)) = some (3, 80, 6) ∧
    (s.book 2).map (fun e => (e.dest, e.latency, e.hops)) = some (5, 40, 4) := by
  refine ⟨_, _, rfl, ?_⟩; decide

/-! ## C31 -/

/-- Entries recorded for a flow. -/
def ofFlow (n s d : Nat) (es : List Entry) : List Entry :=
  es.filter fun e => toU e.noc = n ∧ toU e.src = s ∧ toU e.dest = d

/-- Total data width, the C++ `int` read as unsigned. -/
def totalBits (es : List Entry) : Nat := (es.map fun e => toU e.dataw).sum

/-- Identity of a row. -/
def Flow.key (f : Flow) : Nat × Nat × Nat := (f.noc, f.src, f.dest)

theorem addFlow_keys (n s d w h : Nat) (fs : List Flow) :
    (addFlow n s d w h fs).map Flow.key =
      if (n, s, d) ∈ fs.map Flow.key then fs.map Flow.key else fs.map Flow.key ++ [(n, s, d)] := by
  induction fs with
  | nil => simp [addFlow, Flow.key]
  | cons f fs ih =>
    unfold addFlow
    by_cases hk : f.noc = n ∧ f.src = s ∧ f.dest = d
    · rw [if_pos hk]
      obtain ⟨rfl, rfl, rfl⟩ := hk
      simp [Flow.key]
    · rw [if_neg hk]
      have : ¬ (n, s, d) = f.key := by
        intro e
        simp only [Flow.key, Prod.mk.injEq] at e
        exact hk ⟨e.1.symm, e.2.1.symm, e.2.2.symm⟩
      simp only [List.map_cons, List.mem_cons, this, false_or, ih]
      split <;> simp

theorem addFlow_mem (n s d w h : Nat) (fs : List Flow) (f : Flow) (hn : (fs.map Flow.key).Nodup)
    (hf : f ∈ addFlow n s d w h fs) :
    (f.key ≠ (n, s, d) ∧ f ∈ fs) ∨
    (f.key = (n, s, d) ∧ f.hops = h ∧
      ((∃ g ∈ fs, g.key = (n, s, d) ∧ f.bits = (g.bits + w) % 2 ^ 32) ∨
       ((n, s, d) ∉ fs.map Flow.key ∧ f.bits = w))) := by
  induction fs with
  | nil =>
    simp only [addFlow, List.mem_singleton] at hf
    subst hf
    exact Or.inr ⟨rfl, rfl, Or.inr ⟨by simp, rfl⟩⟩
  | cons g fs ih =>
    rw [List.map_cons, List.nodup_cons] at hn
    unfold addFlow at hf
    by_cases hk : g.noc = n ∧ g.src = s ∧ g.dest = d
    · rw [if_pos hk] at hf
      obtain ⟨rfl, rfl, rfl⟩ := hk
      rcases List.mem_cons.mp hf with rfl | hf
      · exact Or.inr ⟨rfl, rfl, Or.inl ⟨g, by simp, rfl, rfl⟩⟩
      · left
        refine ⟨?_, by simp [hf]⟩
        intro e
        exact hn.1 (List.mem_map.mpr ⟨f, hf, e⟩)
    · rw [if_neg hk] at hf
      have hg : g.key ≠ (n, s, d) := by
        intro e
        simp only [Flow.key, Prod.mk.injEq] at e
        exact hk e
      rcases List.mem_cons.mp hf with rfl | hf
      · exact Or.inl ⟨hg, by simp⟩
      · rcases ih hn.2 hf with ⟨h1, h2⟩ | ⟨h1, h2, h3⟩
        · exact Or.inl ⟨h1, by simp [h2]⟩
        · refine Or.inr ⟨h1, h2, ?_⟩
          rcases h3 with ⟨g', hg', h4⟩ | ⟨h4, h5⟩
          · exact Or.inl ⟨g', by simp [hg'], h4⟩
          · refine Or.inr ⟨?_, h5⟩
            simp only [List.map_cons, List.mem_cons, not_or]
            exact ⟨fun e => hg e.symm, h4⟩

/-- What the table says about the entries seen so far. -/
structure TableOk (es : List Entry) (fs : List Flow) : Prop where
  nodup : (fs.map Flow.key).Nodup
  cover : ∀ n s d, (n, s, d) ∈ fs.map Flow.key ↔ ofFlow n s d es ≠ []
  bits : ∀ f ∈ fs, f.bits = totalBits (ofFlow f.noc f.src f.dest es) % 2 ^ 32
  hops : ∀ f ∈ fs, ∃ e ∈ ofFlow f.noc f.src f.dest es, f.hops = toU (e.hops - 1)

theorem toU_lt (x : Int) : toU x < 2 ^ 32 := by unfold toU; omega

theorem ofFlow_snoc (n s d : Nat) (es : List Entry) (e : Entry) :
    ofFlow n s d (es ++ [e]) =
      ofFlow n s d es ++ if (toU e.noc, toU e.src, toU e.dest) = (n, s, d) then [e] else [] := by
  unfold ofFlow
  rw [List.filter_append]
  congr 1
  by_cases h : toU e.noc = n ∧ toU e.src = s ∧ toU e.dest = d
  · simp [h]
  · have : ¬ (toU e.noc, toU e.src, toU e.dest) = (n, s, d) := by
      simpa [Prod.mk.injEq] using h
    rw [if_neg this]
    simp [h]

theorem table_step (es : List Entry) (fs : List Flow) (e : Entry) (h : TableOk es fs) :
    TableOk (es ++ [e])
      (addFlow (toU e.noc) (toU e.src) (toU e.dest) (toU e.dataw) (toU (e.hops - 1)) fs) := by
  have hk := addFlow_keys (toU e.noc) (toU e.src) (toU e.dest) (toU e.dataw) (toU (e.hops - 1)) fs
  constructor
  · rw [hk]
    split
    · exact h.nodup
    next hm =>
      rw [List.nodup_append]
      refine ⟨h.nodup, by simp, ?_⟩
      intro a ha b hb
      simp only [List.mem_singleton] at hb
      subst hb
      intro e
      exact hm (e ▸ ha)
  · intro n s d
    rw [hk, ofFlow_snoc]
    by_cases hq : (toU e.noc, toU e.src, toU e.dest) = (n, s, d)
    · rw [if_pos hq, hq]
      split
      next hm => simp [hm]
      · simp
    · rw [if_neg hq, List.append_nil]
      rw [← h.cover n s d]
      split
      · rfl
      · simp only [List.mem_append, List.mem_singleton, or_iff_left_iff_imp]
        intro hc
        exact absurd hc.symm hq
  · intro f hf
    rcases addFlow_mem _ _ _ _ _ fs f h.nodup hf with ⟨h1, h2⟩ | ⟨h1, -, h3⟩
    · rw [ofFlow_snoc, if_neg (fun c => h1 c.symm), List.append_nil]
      exact h.bits f h2
    · simp only [Flow.key, Prod.mk.injEq] at h1
      rw [h1.1, h1.2.1, h1.2.2, ofFlow_snoc, if_pos rfl]
      unfold totalBits
      rw [List.map_append, List.sum_append]
      simp only [List.map_cons, List.map_nil, List.sum_cons, List.sum_nil, Nat.add_zero]
      rcases h3 with ⟨g, hg, hgk, hb⟩ | ⟨hm, hb⟩
      · have := h.bits g hg
        simp only [Flow.key, Prod.mk.injEq] at hgk
        rw [hgk.1, hgk.2.1, hgk.2.2] at this
        unfold totalBits at this
        rw [hb, this, Nat.mod_add_mod]
      · have : ofFlow (toU e.noc) (toU e.src) (toU e.dest) es = [] := by
          refine Decidable.byContradiction fun hc => hm ((h.cover _ _ _).mpr hc)
        rw [hb, this]
        simp only [List.map_nil, List.sum_nil, Nat.zero_add]
        exact (Nat.mod_eq_of_lt (toU_lt _)).symm
  · intro f hf
    rcases addFlow_mem _ _ _ _ _ fs f h.nodup hf with ⟨h1, h2⟩ | ⟨h1, h2, -⟩
    · rw [ofFlow_snoc, if_neg (fun c => h1 c.symm), List.append_nil]
      exact h.hops f h2
    · simp only [Flow.key, Prod.mk.injEq] at h1
      rw [h1.1, h1.2.1, h1.2.2, ofFlow_snoc, if_pos rfl]
      exact ⟨e, by simp, h2⟩

/-- An entry the table has room for. -/
def InRange (nodes : List Nat) (e : Entry) : Prop := ∃ m, nodes[toU e.noc]? = some m ∧ toU e.src < m

theorem addEntry_some (nodes : List Nat) (fs : List Flow) (e : Entry) (h : InRange nodes e) :
    addEntry nodes fs e =
      some (addFlow (toU e.noc) (toU e.src) (toU e.dest) (toU e.dataw) (toU (e.hops - 1)) fs) := by
  obtain ⟨m, h1, h2⟩ := h
  unfold addEntry
  rw [h1]
  simp [h2]

theorem addEntry_none (nodes : List Nat) (fs : List Flow) (e : Entry) (h : ¬ InRange nodes e) :
    addEntry nodes fs e = none := by
  unfold addEntry
  cases hm : nodes[toU e.noc]? with
  | none => rfl
  | some m =>
    have : ¬ toU e.src < m := fun hc => h ⟨m, hm, hc⟩
    simp [this]

theorem flows_ok (nodes : List Nat) (es : List Entry) :
    (∀ fs, flows nodes es = some fs → TableOk es fs ∧ ∀ e ∈ es, InRange nodes e) ∧
    ((∀ e ∈ es, InRange nodes e) → ∃ fs, flows nodes es = some fs) := by
  induction es using List.reverseRecOn with
  | nil =>
    refine ⟨?_, fun _ => ⟨[], rfl⟩⟩
    intro fs h
    cases h
    exact ⟨⟨by simp, by simp [ofFlow], by simp, by simp⟩, by simp⟩
  | append_singleton es e ih =>
    have hf : flows nodes (es ++ [e]) = (flows nodes es).bind fun fs => addEntry nodes fs e := by
      unfold flows
      rw [List.foldlM_append]
      cases List.foldlM (addEntry nodes) [] es with
      | none => rfl
      | some fs => simp
    constructor
    · intro fs h
      rw [hf] at h
      cases hr : flows nodes es with
      | none => rw [hr] at h; cases h
      | some fs0 =>
        rw [hr] at h
        simp only [Option.bind_some] at h
        obtain ⟨i1, i2⟩ := ih.1 fs0 hr
        by_cases hi : InRange nodes e
        · rw [addEntry_some nodes fs0 e hi] at h
          cases h
          refine ⟨table_step es fs0 e i1, ?_⟩
          intro x hx
          rcases List.mem_append.mp hx with hx | hx
          · exact i2 x hx
          · rw [List.mem_singleton] at hx; exact hx ▸ hi
        · rw [addEntry_none nodes fs0 e hi] at h
          cases h
    · intro h
      obtain ⟨fs0, h0⟩ := ih.2 fun x hx => h x (by simp [hx])
      rw [hf, h0]
      exact ⟨_, addEntry_some nodes fs0 e (h e (by simp))⟩

/-- **C31.** The summary has one row for every source and destination that occurs among the recorded
transactions and no other, and its number of bits is the sum over exactly these transactions
(modulo 2^32), for any order of iteration over the record. -/
theorem C31_flow_totals_partial (nodes : List Nat) (es : List Entry) (fs : List Flow)
    (h : flows nodes es = some fs) :
    (fs.map Flow.key).Nodup ∧
    (∀ n s d, (n, s, d) ∈ fs.map Flow.key ↔ ∃ e ∈ es, toU e.noc = n ∧ toU e.src = s ∧ toU e.dest = d) ∧
    ∀ f ∈ fs, f.bits = totalBits (ofFlow f.noc f.src f.dest es) % 2 ^ 32 := by
  obtain ⟨ho, -⟩ := (flows_ok nodes es).1 fs h
  refine ⟨ho.nodup, ?_, ho.bits⟩
  intro n s d
  rw [ho.cover]
  constructor
  · intro hne
    obtain ⟨e, he⟩ := List.exists_mem_of_ne_nil _ hne
    unfold ofFlow at he
    rw [List.mem_filter] at he
    exact ⟨e, he.1, by simpa using he.2⟩
  · rintro ⟨e, he, hk⟩ hc
    have : e ∈ ofFlow n s d es := by
      unfold ofFlow
      rw [List.mem_filter]
      exact ⟨he, by simpa using hk⟩
    rw [hc] at this
    cases this

/-- Splitting a list of entries by flow loses nothing. -/
theorem sum_by_keys (ks : List (Nat × Nat × Nat)) : ∀ (es : List Entry), ks.Nodup →
    (∀ e ∈ es, (toU e.noc, toU e.src, toU e.dest) ∈ ks) →
    (ks.map fun k => totalBits (ofFlow k.1 k.2.1 k.2.2 es)).sum = totalBits es := by
  intro es
  induction es using List.reverseRecOn with
  | nil => intro _ _; simp [ofFlow, totalBits]
  | append_singleton es e ih =>
    intro hn hm
    have h1 := ih hn fun x hx => hm x (by simp [hx])
    have he := hm e (by simp)
    have key : ∀ (ks : List (Nat × Nat × Nat)), ks.Nodup →
        (ks.map fun k => totalBits (ofFlow k.1 k.2.1 k.2.2 (es ++ [e]))).sum =
        (ks.map fun k => totalBits (ofFlow k.1 k.2.1 k.2.2 es)).sum +
          if (toU e.noc, toU e.src, toU e.dest) ∈ ks then toU e.dataw else 0 := by
      intro ks
      induction ks with
      | nil => intro _; simp
      | cons k ks ihk =>
        intro hn
        rw [List.nodup_cons] at hn
        simp only [List.map_cons, List.sum_cons, ihk hn.2]
        rw [ofFlow_snoc]
        by_cases hk : (toU e.noc, toU e.src, toU e.dest) = (k.1, k.2.1, k.2.2)
        · have hk' : (toU e.noc, toU e.src, toU e.dest) = k := hk
          rw [if_pos hk]
          have hnot : (toU e.noc, toU e.src, toU e.dest) ∉ ks := hk' ▸ hn.1
          rw [if_neg hnot, if_pos (by rw [hk']; simp)]
          simp only [totalBits, List.map_append, List.sum_append, List.map_cons, List.map_nil,
            List.sum_cons, List.sum_nil]
          omega
        · have hk' : ¬ (toU e.noc, toU e.src, toU e.dest) = k := hk
          rw [if_neg hk, List.append_nil]
          simp only [List.mem_cons, hk', false_or]
          omega
    rw [key ks hn, h1, if_pos he]
    simp [totalBits]

/-- **C31.** As long as all recorded data together is less than 2^32 bits, the rows add up to it. -/
theorem C31_total_conserved_partial (nodes : List Nat) (es : List Entry) (fs : List Flow)
    (h : flows nodes es = some fs) (hsmall : totalBits es < 2 ^ 32) :
    (fs.map Flow.bits).sum = totalBits es := by
  obtain ⟨hn, hk, hb⟩ := C31_flow_totals_partial nodes es fs h
  have h1 : fs.map Flow.bits =
      (fs.map Flow.key).map fun k => totalBits (ofFlow k.1 k.2.1 k.2.2 es) := by
    rw [List.map_map]
    apply List.map_congr_left
    intro f hf
    rw [hb f hf]
    apply Nat.mod_eq_of_lt
    refine Nat.lt_of_le_of_lt ?_ hsmall
    unfold totalBits ofFlow
    have hsub := (List.filter_sublist (p := fun e : Entry =>
      decide (toU e.noc = f.noc ∧ toU e.src = f.src ∧ toU e.dest = f.dest)) (l := es)).map
        (fun e => toU e.dataw)
    have key : ∀ (a b : List Nat), a.Sublist b → a.sum ≤ b.sum := by
      intro a b hab
      induction hab with
      | slnil => simp
      | cons x _ ih => rw [List.sum_cons]; omega
      | cons_cons x _ ih => rw [List.sum_cons, List.sum_cons]; omega
    exact key _ _ hsub
  rw [h1]
  exact sum_by_keys _ es hn fun e he => (hk _ _ _).mpr ⟨e, he, rfl, rfl, rfl⟩

/-- **C31.** The summary is defined exactly when every recorded NoC and source exists in the RAD being
summarised. -/
theorem C31_defined_iff_in_range (nodes : List Nat) (es : List Entry) :
    (∃ fs, flows nodes es = some fs) ↔ ∀ e ∈ es, InRange nodes e :=
  ⟨fun ⟨fs, h⟩ => ((flows_ok nodes es).1 fs h).2, (flows_ok nodes es).2⟩

example : ∃ fs, flows [16] [{ src := 3, dest := 5, dataw := 512 }, { src := 1, dest := 5, dataw := 64 },
      { src := 3, dest := 5, dataw := 512 }] = some fs ∧
    fs.map (fun f => (f.src, f.dest, f.bits)) = [(3, 5, 1024), (1, 5, 64)] := by
  refine ⟨_, rfl, ?_⟩; decide

theorem totalBits_replicate (n : Nat) (e : Entry) : totalBits (List.replicate n e) = n * toU e.dataw := by
  simp [totalBits]

/-- **C31**, overflow: after 2^23 transfers of 512 bits the row of the flow reads zero. -/
theorem C31_overflow_violated :
    ∃ fs, flows [16] (List.replicate (2 ^ 23) { src := 3, dest := 5, dataw := 512 }) = some fs ∧
      ∃ f ∈ fs, f.src = 3 ∧ f.dest = 5 ∧ f.bits = 0 := by
  obtain ⟨fs, h⟩ := (C31_defined_iff_in_range [16]
    (List.replicate (2 ^ 23) { src := 3, dest := 5, dataw := 512 })).mpr (by
      intro e he
      rw [List.eq_of_mem_replicate he]
      exact ⟨16, rfl, by decide⟩)
  refine ⟨fs, h, ?_⟩
  obtain ⟨hn, hk, hb⟩ := C31_flow_totals_partial _ _ _ h
  have hmem : ((0, 3, 5) : Nat × Nat × Nat) ∈ fs.map Flow.key := by
    refine (hk 0 3 5).mpr ⟨{ src := 3, dest := 5, dataw := 512 }, ?_, by decide⟩
    exact List.mem_replicate.mpr ⟨by decide, rfl⟩
  obtain ⟨f, hf, hfk⟩ := List.mem_map.mp hmem
  simp only [Flow.key, Prod.mk.injEq] at hfk
  refine ⟨f, hf, hfk.2.1, hfk.2.2, ?_⟩
  rw [hb f hf, hfk.1, hfk.2.1, hfk.2.2]
  have : ofFlow 0 3 5 (List.replicate (2 ^ 23) { src := 3, dest := 5, dataw := 512 }) =
      List.replicate (2 ^ 23) ({ src := 3, dest := 5, dataw := 512 } : Entry) := by
    unfold ofFlow
    rw [List.filter_replicate_of_pos]
    decide
  rw [this, totalBits_replicate]
  decide

/-- **C31**, several RADs: the record is shared by all RADs and does not know which one a
transaction belongs to, so one transfer on each of two RADs appears as twice the traffic on both. -/
theorem C31_two_rads_violated :
    ∃ s ids e1 e2 fs, run init [(0, .initiate 0 3 5 1 512 0), (0, .initiate 1 3 5 1 512 0)] = some (s, ids) ∧
      s.book 1 = some e1 ∧ s.book 2 = some e2 ∧ flows [16] [e1, e2] = some fs ∧
      fs.map (fun f => (f.src, f.dest, f.bits)) = [(3, 5, 1024)] := by
  refine ⟨_, _, _, _, _, rfl, rfl, rfl, rfl, ?_⟩; decide

/-! ## C55: aggregate bandwidth -/

theorem sum_aggregate (noc : Nat) (fs : List Flow) (g : Flow → Nat)
    (h : ∀ f ∈ fs, f.hops * f.bits = g f) :
    aggregate noc fs = ((fs.filter fun f => f.noc = noc).map g).sum := by
  unfold aggregate
  congr 1
  apply List.map_congr_left
  intro f hf
  exact h f (List.mem_of_mem_filter hf)

/-- Bits times links over the transactions of one NoC. -/
def bitLinks (noc : Nat) (es : List Entry) : Nat :=
  ((es.filter fun e => toU e.noc = noc).map fun e => toU (e.hops - 1) * toU e.dataw).sum

theorem bitLinks_snoc (noc : Nat) (es : List Entry) (e : Entry) :
    bitLinks noc (es ++ [e]) =
      bitLinks noc es + if toU e.noc = noc then toU (e.hops - 1) * toU e.dataw else 0 := by
  unfold bitLinks
  rw [List.filter_append, List.map_append, List.sum_append]
  congr 1
  by_cases h : toU e.noc = noc <;> simp [h]

/-- Adding a row changes the aggregate by its bits times its hops when the row agrees with the hop
count already there and does not wrap. -/
theorem aggregate_addFlow (noc n s d w h : Nat) (fs : List Flow) (hn : (fs.map Flow.key).Nodup)
    (hh : ∀ f ∈ fs, f.key = (n, s, d) → f.hops = h ∧ f.bits + w < 2 ^ 32) :
    aggregate noc (addFlow n s d w h fs) = aggregate noc fs + if n = noc then h * w else 0 := by
  induction fs with
  | nil => by_cases hq : n = noc <;> simp [addFlow, aggregate, hq]
  | cons f fs ih =>
    rw [List.map_cons, List.nodup_cons] at hn
    unfold addFlow
    by_cases hk : f.noc = n ∧ f.src = s ∧ f.dest = d
    · rw [if_pos hk]
      obtain ⟨rfl, rfl, rfl⟩ := hk
      obtain ⟨h1, h2⟩ := hh f (by simp) rfl
      unfold aggregate
      by_cases hq : f.noc = noc
      · have h2' : (f.bits + w) % 4294967296 = f.bits + w := Nat.mod_eq_of_lt h2
        simp [hq, h2', h1, Nat.mul_add]
        omega
      · simp [hq]
    · rw [if_neg hk]
      have := ih hn.2 fun g hg => hh g (by simp [hg])
      unfold aggregate at this ⊢
      by_cases hq : f.noc = noc
      · simp only [List.filter_cons, hq, decide_true, if_true, List.map_cons, List.sum_cons]
        omega
      · simp only [List.filter_cons, hq, decide_false, Bool.false_eq_true, if_false]
        exact this

theorem le_sum_of_mem' {l : List Nat} {x : Nat} (h : x ∈ l) : x ≤ l.sum := by
  induction l with
  | nil => cases h
  | cons y l ih =>
    rw [List.sum_cons]
    rcases List.mem_cons.mp h with rfl | h
    · omega
    · have := ih h; omega

/-- **C55.** The aggregate of a NoC is the sum over its transactions of bits times links, provided all
transactions of a flow report the same hop count (so none is still under way next to a finished
one) and the flow does not overflow. -/
theorem C55_aggregate_is_bit_links_partial (nodes : List Nat) (es : List Entry) (fs : List Flow) (noc : Nat)
    (h : flows nodes es = some fs)
    (hsame : ∀ e ∈ es, ∀ e' ∈ es, (toU e.noc, toU e.src, toU e.dest) = (toU e'.noc, toU e'.src, toU e'.dest) →
      e.hops = e'.hops)
    (hsmall : totalBits es < 2 ^ 32) : aggregate noc fs = bitLinks noc es := by
  induction es using List.reverseRecOn generalizing fs with
  | nil => cases h; rfl
  | append_singleton es e ih =>
    have hf : flows nodes (es ++ [e]) = (flows nodes es).bind fun fs => addEntry nodes fs e := by
      unfold flows
      rw [List.foldlM_append]
      cases List.foldlM (addEntry nodes) [] es with
      | none => rfl
      | some fs => simp
    have ht : totalBits (es ++ [e]) = totalBits es + toU e.dataw := by simp [totalBits]
    have hi := ((flows_ok nodes (es ++ [e])).1 fs h).2 e (by simp)
    rw [hf] at h
    cases hr : flows nodes es with
    | none => rw [hr] at h; cases h
    | some fs0 =>
      rw [hr] at h
      simp only [Option.bind_some] at h
      rw [addEntry_some nodes fs0 e hi] at h
      cases h
      obtain ⟨ho, -⟩ := (flows_ok nodes es).1 fs0 hr
      have hc := C31_total_conserved_partial nodes es fs0 hr (by omega)
      rw [aggregate_addFlow noc _ _ _ _ _ fs0 ho.nodup, bitLinks_snoc,
        ih fs0 hr (fun a ha b hb => hsame a (by simp [ha]) b (by simp [hb])) (by omega)]
      intro f hff hkey
      constructor
      · obtain ⟨e', he', hh⟩ := ho.hops f hff
        unfold ofFlow at he'
        rw [List.mem_filter] at he'
        have hq := he'.2
        simp only [decide_eq_true_eq] at hq
        simp only [Flow.key, Prod.mk.injEq] at hkey
        rw [hh, hsame e (by simp) e' (by simp [he'.1])
          (by rw [hq.1, hq.2.1, hq.2.2, hkey.1, hkey.2.1, hkey.2.2])]
      · have : f.bits ≤ (fs0.map Flow.bits).sum :=
          le_sum_of_mem' (List.mem_map_of_mem hff)
        omega

/-- **C55**, transaction under way: one that was initiated but not ejected has hop count zero, which
becomes 2^32 - 1 links. -/
theorem C55_in_flight_violated :
    ∃ fs, flows [16] [{ src := 3, dest := 5, dataw := 512, hops := 4 }, { src := 3, dest := 5, dataw := 512 }]
        = some fs ∧ aggregate 0 fs = (2 ^ 32 - 1) * 1024 := by
  refine ⟨_, rfl, ?_⟩; decide

example : ∃ fs, flows [16] [{ src := 3, dest := 5, dataw := 512, hops := 4 },
      { src := 2, dest := 5, dataw := 64, hops := 3 }, { src := 3, dest := 5, dataw := 512, hops := 4 }]
        = some fs ∧ aggregate 0 fs = 3 * 1024 + 2 * 64 := by
  refine ⟨_, rfl, ?_⟩; decide

/-! ## C56: trace recording -/

/-- **C56.** Starting from `n` empty traces, recording succeeds exactly when all identifiers are below `n`,
and each trace then lists the cycles of its own events in the order they happened. -/
theorem C56_traces_list_their_events (n : Nat) (evs : List (Nat × Nat)) :
    (∀ ev ∈ evs, ev.1 < n) →
    ∃ tr, evs.foldlM recordEvent (traceInit n) = some tr ∧ tr.length = n ∧
      ∀ k < n, tr[k]? = some ((evs.filter fun ev => ev.1 = k).map Prod.snd) := by
  induction evs using List.reverseRecOn with
  | nil =>
    intro _
    refine ⟨traceInit n, rfl, by simp [traceInit], ?_⟩
    intro k hk
    simp [traceInit, hk]
  | append_singleton evs ev ih =>
    intro h
    obtain ⟨tr, h1, h2, h3⟩ := ih fun x hx => h x (by simp [hx])
    have hev := h ev (by simp)
    refine ⟨tr.modify ev.1 (· ++ [ev.2]), ?_, by simp [h2], ?_⟩
    · rw [List.foldlM_append, h1]
      simp only [List.foldlM_cons, List.foldlM_nil, Option.bind_eq_bind, Option.bind_some, recordEvent]
      rw [if_pos (by omega)]
      rfl
    · intro k hk
      rw [List.getElem?_modify, h3 k hk, List.filter_append, List.map_append]
      by_cases hq : ev.1 = k <;> simp [hq]

/-- **C56**, misuse: an identifier out of range is never recorded silently. -/
theorem C56_bad_identifier_fails (n : Nat) (evs : List (Nat × Nat)) (ev : Nat × Nat) (hm : ev ∈ evs)
    (hb : n ≤ ev.1) : evs.foldlM recordEvent (traceInit n) = none := by
  have key : ∀ (evs : List (Nat × Nat)) (tr : Traces), ev ∈ evs → tr.length ≤ ev.1 →
      evs.foldlM recordEvent tr = none := by
    intro evs
    induction evs with
    | nil => intro tr h _; cases h
    | cons x evs ih =>
      intro tr h hl
      rw [List.foldlM_cons]
      unfold recordEvent
      by_cases hx : x.1 < tr.length
      · rw [if_pos hx]
        rcases List.mem_cons.mp h with rfl | h
        · omega
        · exact ih _ h (by simpa using hl)
      · rw [if_neg hx]; rfl
  exact key evs _ hm (by simpa [traceInit] using hb)

example : ([(1, 10), (0, 12), (1, 17)] : List (Nat × Nat)).foldlM recordEvent (traceInit 3)
    = some [[12], [10, 17], []] := by decide

end RadSim.Telemetry
