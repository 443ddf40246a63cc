import Verif.Lemmas.AxisNocLive

/-! # A NoC with AXI-Stream adapters in which nothing moves any more has delivered everything -/

namespace RadSim.AxisNoc

open Router (Flit Hop)
open Routing (Shape Rf dimOrderMesh vcOk)
open Net

/-- If the last flit on a channel is not the last of its packet, then the next flit is on this channel. -/
theorem next_of_open {α β : Type} {g : β → List α} {vc : α → Nat} {tail : α → Bool} {v : Nat} {f : α} :
    ∀ (got : List β) (fs rest : List α), got.flatMap g = fs ++ rest →
      (∀ t ∈ got, (∀ x ∈ g t, ∀ y ∈ g t, vc x = vc y) ∧ Closed tail (g t)) →
      (fs.filter fun x => vc x = v).getLast? = some f → tail f = false → ∃ y r, rest = y :: r ∧ vc y = v := by
  intro got
  induction got with
  | nil =>
    intro fs rest h _ hf _
    have : fs = [] := (List.append_eq_nil_iff.1 h.symm).1
    subst this
    cases hf
  | cons t got ih =>
    intro fs rest h hg hf ht
    obtain ⟨hv, hc⟩ := hg t (by simp)
    have hone : ∀ l, l <+: g t → (l.filter fun x => vc x = v).getLast? = some f → l.getLast? = some f ∧ ∀ x ∈ g t, vc x = v := by
      intro l hl hlf
      have hm := List.mem_filter.1 (List.mem_of_getLast? hlf)
      have hm2 : vc f = v := of_decide_eq_true hm.2
      have hall : ∀ x ∈ g t, vc x = v := fun x hx => (hv x hx f (hl.subset hm.1)).trans hm2
      rw [List.filter_eq_self.2 fun x hx => by simpa using hall x (hl.subset hx)] at hlf
      exact ⟨hlf, hall⟩
    have hshut : ∀ l, l = g t → (l.filter fun x => vc x = v).getLast? = some f → False := by
      intro l hl hlf
      have h1 := (hone l (by rw [hl]) hlf).1
      rw [hl] at h1
      have := hc f h1
      rw [ht] at this
      cases this
    rw [List.flatMap_cons] at h
    rcases List.append_eq_append_iff.1 h with ⟨as, rfl, h2⟩ | ⟨bs, h1, rfl⟩
    · rw [List.filter_append, List.getLast?_append] at hf
      cases hl : (as.filter fun x => vc x = v).getLast? with
      | some f' =>
        rw [hl, Option.some_or] at hf
        cases hf
        exact ih as rest h2 (fun t ht => hg t (by simp [ht])) hl ht
      | none =>
        rw [hl, Option.none_or] at hf
        exact (hshut _ rfl hf).elim
    · cases bs with
      | nil =>
        rw [List.append_nil] at h1
        exact (hshut _ h1.symm hf).elim
      | cons y bs =>
        refine ⟨y, _, rfl, ?_⟩
        exact (hone fs ⟨_, h1.symm⟩ hf).2 y (by rw [h1]; simp)

variable {σ τ ρ ρ' : Type} {VA : Alloc.Cls σ ρ} {SA : Alloc.Cls τ ρ'} {c : Cfg} {va : Nat → σ} {sa : Nat → τ} {i : Nat → In ρ ρ'}
  {P : Nat → Nat → AxisTxn → Prop} {rng : Nat → Nat × Nat} {n : Nat}

theorem got_const {N n₀ J K : Nat} (hinv : ∀ n ≤ N, Inv VA SA c va sa i P n) (hc : Closing c N n₀ J K i) {n m : Nat}
    (h1 : n₀ ≤ n) (h2 : n ≤ m) (h3 : m ≤ N) {u : Nat} (hu : u < c.m.nodes) :
    (st VA SA c va sa i m).got u = (st VA SA c va sa i n).got u := by
  obtain ⟨d, rfl⟩ := Nat.exists_eq_add_of_le h2
  clear h2
  induction d with
  | zero => rfl
  | succ d ih =>
    obtain ⟨acc, out, hr, hg, _, _⟩ := (hinv (n + d) (by omega)).period (hinv (n + d + 1) (by omega)) hu
    have hacc : acc = [] := by
      rw [List.eq_nil_iff_forall_not_mem]
      intro t ht
      obtain ⟨beats, seen, p, b, hm, hp, hb, -⟩ := slaveRun_mem hr t ht
      have hm' : SlaveEdge.node beats seen ∈ (i (n + d)).sPre u ++ (i (n + d)).sPost u := by
        rcases List.mem_append.1 hm with hm | hm
        · obtain ⟨e, he, h⟩ := List.mem_map.1 hm
          cases e with
          | adapter => cases h
          | node => cases h; exact List.mem_append_left _ he
        · rcases List.mem_cons.1 hm with h | hm
          · cases h
          · obtain ⟨e, he, h⟩ := List.mem_map.1 hm
            cases e with
            | adapter => cases h
            | node => cases h; exact List.mem_append_right _ he
      exact hc.quiet (n + d) (by omega) (by omega) u hu beats seen hm' p hp b hb
    rw [show n + (d + 1) = n + d + 1 from rfl, hg, hacc, List.append_nil]
    exact ih (by omega)

theorem creditsAt_mono {δ : Type} (s : Nat → S δ σ τ) (l : Nat) {n m : Nat} (h : n ≤ m) : creditsAt s l n <+: creditsAt s l m := by
  obtain ⟨d, rfl⟩ := Nat.exists_eq_add_of_le h
  clear h
  induction d with
  | zero => exact List.prefix_refl _
  | succ d ih => exact ih.trans ⟨_, (creditsAt_succ s l (n + d)).symm⟩

namespace Calm

variable {N n₀ J K a T : Nat} (w : Calm VA SA c va sa i P rng N n₀ J K a T)
include w

theorem waiting {n m : Nat} (h1 : a ≤ n) (h2 : n ≤ m) (h3 : m ≤ a + T) {u : Nat} (hu : u < c.m.nodes) :
    pending (c.sc u) ((st VA SA c va sa i m).slave u) = pending (c.sc u) ((st VA SA c va sa i n).slave u) := by
  have hN := w.stop
  have h0 := w.start
  obtain ⟨fs, e1, e2⟩ := (w.inv n (by omega)).stream u hu
  obtain ⟨fs', e3, e4⟩ := (w.inv m (by omega)).stream u hu
  rw [((w.same h1 h2 h3).2 u hu).1, e1] at e3
  have := congrArg List.length e3
  rw [List.length_map, List.length_map] at this
  rw [w.got h1 h2 h3 hu, e2] at e4
  exact (List.append_inj_right e4 this).symm

/-- An adapter that has something to send has no credit for it. -/
theorem blocked {n : Nat} (h1 : a ≤ n) (h2 : n + J < a + T) {u : Nat} (hu : u < c.m.nodes) {f : ScFlit} {r : List ScFlit}
    (hp : pending (c.sc u) ((st VA SA c va sa i n).slave u) = f :: r) :
    ((st VA SA c va sa i n).slave u).buf.isFullFor c.b.buf f.vc.toNat = true := by
  have hN := w.stop
  have h0 := w.start
  by_contra hf
  have hocc : ∀ m, n ≤ m → m ≤ a + T → ((st VA SA c va sa i m).slave u).buf.isFullFor (c.sc u).buf f.vc.toNat = false := by
    intro m h3 h4
    rw [w.set.buf u hu]
    unfold BufState.isFullFor at hf ⊢
    simp only [decide_eq_true_eq, decide_eq_false_iff_not] at hf ⊢
    rw [((w.inv n (by omega)).slave u hu).occ] at hf
    rw [((w.inv m (by omega)).slave u hu).occ, ((w.same h1 h3 h4).2 u hu).1]
    have := count_flatten_prefix (creditsAt_mono (nets VA SA c va sa i) (injLink c.m u) (show n + 1 ≤ m + 1 by omega)) f.vc.toNat
    omega
  have key : ∀ m, n ≤ m → m < a + T → ¬ Loaded ((st VA SA c va sa i m).slave u) ∧
      (.adapter ∈ (i m).sPre u ++ (i m).sPost u → Loaded ((st VA SA c va sa i (m + 1)).slave u)) := by
    intro m h3 h4
    have hi := w.inv m (by omega)
    obtain ⟨acc, out, hr, -, hs, -⟩ := hi.period (w.inv (m + 1) (by omega)) hu
    have ho : out = [] := by
      rw [((w.same (n := m) (m := m + 1) (by omega) (by omega) (by omega)).2 u hu).1] at hs
      simpa using hs
    subst ho
    refine period_source (w.set.ports u hu).1 (w.depth u hu).1 ?_ (hi.slave u hu).inv
      ((w.waiting h1 h3 (by omega) hu).trans hp) (hocc m h3 (by omega)) hr
    rw [w.set.buf u hu]
    exact w.set.ok.tail
  obtain ⟨k, h3, h4, h5⟩ := w.fair.source n (by omega) (by omega) u hu
  exact (key (k + 1) (by omega) (by omega)).1 ((key k h3 (by omega)).2 h5)

variable {T' : Nat}

/-- An empty buffer at a node has given back all credits. -/
theorem free (hT : K + 2 + 2 * J ≤ T) (hT' : T' ≤ T) {n : Nat} (h1 : a + 3 * K + 5 ≤ n) (h2 : n < a + T') {r j : Nat}
    (hr : r < (mesh c.m).size) (hj : j < (mesh c.m).inputs r) {u : Nat} (hu : u < c.m.nodes)
    (hl : (mesh c.m).inLink r j = injLink c.m u) {v : Nat} (hq : (((nets VA SA c va sa i n).r r).vcs j v).q = []) :
    ((st VA SA c va sa i n).slave u).buf.isFullFor c.b.buf v = false := by
  have hN := w.stop
  have hi := w.inv n (by omega)
  have := (w.window hT hT').returned_source hr hj (by rw [hl]; exact mesh_source.2 ⟨u, hu, rfl⟩) (by omega) h2 hq
  rw [hl, hi.wrote u hu, count_toNet] at this
  unfold BufState.isFullFor
  rw [(hi.slave u hu).occ, this]
  have hpos := w.set.ok.buf.perVc_pos
  simp only [decide_eq_false_iff_not]
  omega

theorem ended (hT : K + 2 + 2 * J ≤ T) (hT' : T' + J ≤ T) {n : Nat} (h1 : a + 3 * K + 5 ≤ n) (h2 : n < a + T') :
    Ended (mesh c.m) (envs VA SA c va sa i) (nets VA SA c va sa i) n := by
  intro r hr j hj hs v hq f hf
  have hN := w.stop
  have hi := w.inv n (by omega)
  obtain ⟨u, hu, hl⟩ := mesh_source.1 hs
  by_contra ht
  rw [hl, hi.wrote u hu] at hf
  obtain ⟨fs, e1, e2⟩ := hi.stream u hu
  unfold Net.onVc at hf
  rw [e1, List.map_map, List.filter_map, List.getLast?_map, Option.mem_def, Option.map_eq_some_iff] at hf
  obtain ⟨g, hg, rfl⟩ := hf
  obtain ⟨y, z, e3, e4⟩ := next_of_open (vc := fun x : ScFlit => x.vc.toNat) (tail := ScFlit.tail) (v := v) (f := g) _ _ _ e2 (by
      intro t _
      refine ⟨fun x hx y hy => ?_, ?_⟩
      · obtain ⟨a1, -, rfl⟩ := List.mem_map.1 hx
        obtain ⟨a2, -, rfl⟩ := List.mem_map.1 hy
        rfl
      · have := (netFlits_packets (c.sc u) u t (fun _ => ()) fun _ => rfl).2
        intro x hx
        refine this (toNet u (injectFlit (c.sc u).radId (c.sc u).portalId x)) ?_
        unfold netFlits
        rw [List.getLast?_map, hx]
        rfl) hg (Bool.eq_false_iff.2 ht)
  have h3 := w.blocked (n := n) (by omega) (by omega) hu e3
  rw [e4, w.free hT (T' := T') (by omega) h1 h2 hr hj hu hl hq] at h3
  cases h3

theorem stuck (hT : K + 2 + 2 * J ≤ T) (hT' : T' ≤ T) (hs : 3 * K + 2 * slots (mesh c.m) c.b + 7 ≤ T') (ho : c.b.outSize ≠ 0) :
    ∃ n, Stuck VA SA (mesh c.m) c.b va sa N 1 K a T' n (envs VA SA c va sa i) (nets VA SA c va sa i)
      (mayOrd c.m rng fun _ _ => false) (meshRank c.m rng fun _ _ => false) (c.m.n * c.m.k + 1) := by
  obtain ⟨n, h1, h2, h3⟩ := (w.window hT hT').stuck (by omega)
  have hu : ∀ n < N, Uses (dimOrderMesh c.m rng) (envs VA SA c va sa i n) := fun n _ => uses w.set n
  exact ⟨n, w.window hT hT', ho, ord_guided w.set.k (steps_dim w.set.n rng) (orders_dim c.m rng)
    ((w.inv N (Nat.le_refl _)).sends w.set w.goes) hu, mesh_ranked w.set.k (steps_dim w.set.n rng) (orders_dim c.m rng) hu,
    h1, h2, h3⟩

/-- The source side adapters are empty. -/
theorem empty (hT : K + 2 + 2 * J ≤ T) (hT' : T' + J ≤ T) {n : Nat} {may : Nat → Flit (Msg BsFlit) → Prop}
    {rank : Nat → Nat → Nat} {R : Nat} (z : Stuck VA SA (mesh c.m) c.b va sa N 1 K a T' n (envs VA SA c va sa i)
      (nets VA SA c va sa i) may rank R) {u : Nat} (hu : u < c.m.nodes) :
    pending (c.sc u) ((st VA SA c va sa i n).slave u) = [] := by
  have hN := w.stop
  have h1 := z.lo
  have h2 := z.hi
  cases hp : pending (c.sc u) ((st VA SA c va sa i n).slave u) with
  | nil => rfl
  | cons f r =>
    have h3 := w.blocked (n := n) (by omega) (by omega) hu hp
    have hl : (mesh c.m).inLink u (2 * c.m.n) = injLink c.m u := mesh_inj (by omega)
    have hq := z.empty (w.ended hT hT' (by omega) h2) _ u (2 * c.m.n) f.vc.toNat hu (Nat.le_refl _)
    rw [w.free hT (T' := T') (by omega) (by omega) h2 (r := u) (j := 2 * c.m.n) hu (Nat.lt_succ_self _) hu hl hq] at h3
    cases h3

/-- Every beat has been written entirely. -/
theorem written (hT : K + 2 + 2 * J ≤ T) (hT' : T' + J ≤ T) {n : Nat} {may : Nat → Flit (Msg BsFlit) → Prop}
    {rank : Nat → Nat → Nat} {R : Nat} (z : Stuck VA SA (mesh c.m) c.b va sa N 1 K a T' n (envs VA SA c va sa i)
      (nets VA SA c va sa i) may rank R) {u : Nat} (hu : u < c.m.nodes) :
    injected (envs VA SA c va sa i) (injLink c.m u) n =
      ((st VA SA c va sa i n).got u).flatMap (netFlits (c.sc u) u) := by
  have hN := w.stop
  have h2 := z.hi
  have hi := w.inv n (by omega)
  obtain ⟨fs, e1, e2⟩ := hi.stream u hu
  rw [w.empty hT hT' z hu, List.append_nil] at e2
  rw [hi.wrote u hu, e1, ← e2, List.map_map, List.map_flatMap]
  rfl

/-- Every beat has been handed over. -/
theorem handed (hT : K + 2 + 2 * J ≤ T) (hT' : T' + J ≤ T) (hs : 3 * K + 2 * slots (mesh c.m) c.b + 7 ≤ T')
    (ho : c.b.outSize ≠ 0) : ∃ n, a ≤ n ∧ n < a + T' ∧
      (∀ u < c.m.nodes, pending (c.sc u) ((st VA SA c va sa i n).slave u) = []) ∧ ∀ u < c.m.nodes, ∀ p < (c.mc u).n,
      ∑ x ∈ Finset.range c.m.nodes, ((st VA SA c va sa i n).got x).countP
        (fun t => decide (portOf t = p) && decide (nodeOf (c.sc x) t = u)) ≤
      (deliveredAt (st VA SA c va sa i n) u p).length := by
  obtain ⟨n, z⟩ := w.stuck hT (T' := T') (by omega) hs ho
  have hN := w.stop
  have h0 := w.start
  have h1 := z.lo
  have h2 := z.hi
  have hi := w.inv n (by omega)
  refine ⟨n, by omega, h2, fun u hu => w.empty hT hT' z hu, fun u hu p hp => ?_⟩
  have e1 : ∑ x ∈ Finset.range c.m.nodes, ((st VA SA c va sa i n).got x).countP
        (fun t => decide (portOf t = p) && decide (nodeOf (c.sc x) t = u)) =
      sentTo c.m c.b (envs VA SA c va sa i) n u (portIs p) := by
    unfold sentTo
    refine Finset.sum_congr rfl fun x hx => ?_
    have hx := Finset.mem_range.1 hx
    rw [w.written hT hT' z hx]
    simp only [packetsOf_beats (w.set.vcOk hx), List.countP_map]
    rw [sum_fibre]
    refine List.countP_congr fun t _ => ?_
    have := (w.set.vcOk hx t.type).2
    rw [w.set.buf x hx] at this
    have : vcidFromType (c.sc x).vc t.type < c.b.vcs := this
    simp [Function.comp, pkOf_port, pkOf_dest, this]
  have e2 := z.delivered (w.ended hT hT' (by omega) h2) fun q => portIs p q && q.any fun x => x.2.2.2.dest = u
  rw [leaving_at w.set.k (fun x hx f hf => (hi.right w.set w.allocs w.goes hx hf).1) hu, entering_at, ← e1] at e2
  rw [← e2]
  obtain ⟨hist, hm, -⟩ := hi.master u hu
  have e3 : receivedBy c.m c.b (nets VA SA c va sa i) (n + 1) u (portIs p) = (histIf p hist).length := by
    unfold receivedBy histIf
    rw [List.length_map, ← List.countP_eq_length_filter]
    have e4 := sum_fibre hist (·.1) (fun x => pktDest x.2 == some p) c.b.vcs
    have e5 : hist.countP (fun x => (pktDest x.2 == some p) && decide (x.1 < c.b.vcs)) =
        hist.countP fun x => pktDest x.2 == some p := by
      refine List.countP_congr fun x hx => ?_
      have := (hm.fifo.histOk x hx).2
      rw [w.set.sameVcs u hu] at this
      simp [this]
    rw [← e5, ← e4]
    refine Finset.sum_congr rfl fun v hv => ?_
    have hv := Finset.mem_range.1 hv
    rw [← w.set.sameVcs u hu] at hv
    have e6 := (w.cuts hT (n := n) (by omega) (by omega) hu hm hv).1
    rw [hi.arrived u hu, onVc_toBs, List.map_map, RadSim.whole_map] at e6
    have e7 : (hist.filter fun x => x.1 = v).countP (fun x => pktDest x.2 == some p) =
        (histVc v hist).countP fun q => pktDest q == some p := by
      unfold histVc
      rw [List.countP_map]
      rfl
    rw [e7, ← e6]
    unfold Net.packetsOf
    rw [List.countP_map, List.countP_map]
    refine List.countP_congr fun q _ => ?_
    simp only [Function.comp, portIs]
    rw [← eject_dest]
    rfl
  rw [e3]
  have e8 := (hm.ports p hp).outs
  rw [w.outq (by omega) (n := n) (by omega) (by omega) hu hp] at e8
  have e9 := congrArg List.length e8
  simp only [List.flatMap_nil, List.drop_nil, List.append_nil, List.length_map] at e9
  have e10 : (deliveredAt (st VA SA c va sa i n) u p).length = (beatsOn p ((st VA SA c va sa i n).hist u).delivered).length := by
    unfold deliveredAt beatsOn
    rw [List.length_map, List.length_map]
    rfl
  rw [e10, e9]
  have hne : ∀ q ∈ histIf p hist, q ≠ [] := by
    intro q hq
    simp only [histIf, List.mem_map, List.mem_filter] at hq
    obtain ⟨x, ⟨hx, _⟩, rfl⟩ := hq
    obtain ⟨_, _, h, _⟩ := (hm.fifo.histOk x hx).1
    rw [h]
    simp
  generalize histIf p hist = l at hne
  induction l with
  | nil => exact Nat.zero_le _
  | cons q l ih =>
    rw [List.flatMap_cons, List.length_append, List.length_cons]
    have h3 := ih fun q hq => hne q (by simp [hq])
    have h4 : 0 < (shown (numFlits ((c.mc u).dataw p)) q).length := by
      unfold shown
      rw [List.length_replicate]
      exact numChunks_pos (List.length_pos_of_ne_nil (hne q (by simp))) (numFlits_pos _)
    omega

end Calm

/-! ## how much can happen -/

theorem sum_parts {α : Type} (l : List α) (f : α → Option Nat) (g : α → Nat) (V : Nat) :
    ∑ p ∈ Finset.range V, ((l.filter fun x => f x == some p).map g).sum =
      (l.map fun x => if (f x).any (fun v => decide (v < V)) then g x else 0).sum := by
  induction l with
  | nil => simp
  | cons x l ih =>
    rw [List.map_cons, List.sum_cons, ← ih]
    have : ∀ p, (((x :: l).filter fun x => f x == some p).map g).sum =
        (if f x = some p then g x else 0) + ((l.filter fun x => f x == some p).map g).sum := by
      intro p
      rw [List.filter_cons]
      by_cases h : f x = some p <;> simp [h]
    simp only [this]
    rw [Finset.sum_add_distrib]
    congr 1
    cases hf : f x with
    | none => simp
    | some v =>
      have : ∀ p, (if some v = some p then g x else 0) = if p = v then g x else 0 := by
        intro p
        by_cases h : p = v
        · simp [h]
        · have : v ≠ p := fun e => h e.symm
          simp [h, this]
      simp only [this]
      rw [Finset.sum_ite_eq']
      simp

theorem numChunks_le {n nf : Nat} (hn : 0 < n) (hf : 0 < nf) : numChunks n nf ≤ n := by
  unfold numChunks
  refine Nat.le_of_lt_succ ((Nat.div_lt_iff_lt_mul hf).2 ?_)
  have h1 : n ≤ n * nf := Nat.le_mul_of_pos_right _ hf
  have h2 : (n + 1) * nf = n * nf + nf := Nat.succ_mul n nf
  have h3 : nf ≤ n * nf := Nat.le_mul_of_pos_left _ hn
  show _ < (n + 1) * nf
  have h4 : n + nf ≤ n * nf + 1 := by
    obtain ⟨a, rfl⟩ : ∃ a, n = a + 1 := ⟨n - 1, by omega⟩
    obtain ⟨b, rfl⟩ : ∃ b, nf = b + 1 := ⟨nf - 1, by omega⟩
    have : (a + 1) * (b + 1) = a * b + a + b + 1 := by ring
    have := Nat.zero_le (a * b)
    omega
  omega

/-- A port shows no more beats than there are flits. -/
theorem few_beats {c : MasterCfg} {s : MasterState} {h : MasterHist} {hist : List (Nat × List ScFlit)} (hm : MasterInv c s h hist) :
    ∑ p ∈ Finset.range c.n, (beatsOn p h.delivered).length ≤ h.accepted.length := by
  have h1 : ∀ p ∈ Finset.range c.n, (beatsOn p h.delivered).length ≤
      ((hist.filter fun x => pktDest x.2 == some p).map fun x => x.2.length).sum := by
    intro p hp
    have e1 := congrArg List.length (hm.ports p (Finset.mem_range.1 hp)).outs
    rw [List.length_append, List.length_map] at e1
    refine Nat.le_trans (Nat.le_of_add_right_le (Nat.le_of_eq e1)) ?_
    unfold histIf
    have hne : ∀ x ∈ hist.filter fun x => pktDest x.2 == some p, x.2 ≠ [] := by
      intro x hx
      obtain ⟨_, _, h, _⟩ := (hm.fifo.histOk x (List.mem_filter.1 hx).1).1
      rw [h]
      simp
    generalize hist.filter _ = l at hne
    induction l with
    | nil => simp
    | cons x l ih =>
      rw [List.map_cons, List.flatMap_cons, List.length_append, List.map_cons, List.sum_cons]
      refine Nat.add_le_add ?_ (ih fun y hy => hne y (by simp [hy]))
      unfold shown
      rw [List.length_replicate]
      exact numChunks_le (List.length_pos_of_ne_nil (hne x (by simp))) (numFlits_pos _)
  refine Nat.le_trans (Finset.sum_le_sum h1) ?_
  rw [sum_parts]
  have h2 : (hist.map fun x => if (pktDest x.2).any (fun v => decide (v < c.n)) then x.2.length else 0).sum ≤
      (hist.map fun x => x.2.length).sum := by
    refine List.sum_le_sum fun x _ => ?_
    split <;> omega
  refine Nat.le_trans h2 ?_
  have h3 := sum_parts hist (fun x => some x.1) (fun x => x.2.length) c.vcs
  have h4 : (hist.map fun x => if (some x.1).any (fun v => decide (v < c.vcs)) then x.2.length else 0) =
      hist.map fun x => x.2.length := by
    refine List.map_congr_left fun x hx => ?_
    have := (hm.fifo.histOk x hx).2
    simp [this]
  rw [h4] at h3
  rw [← h3]
  have h5 : ∀ v ∈ Finset.range c.vcs, ((hist.filter fun x => some x.1 == some v).map fun x => x.2.length).sum ≤
      (h.accepted.filter fun g => g.vc = v).length := by
    intro v hv
    have e1 := congrArg List.length (hm.fifo.stream v (Finset.mem_range.1 hv))
    have e2 : (RadSim.onVc v h.accepted).length = (h.accepted.filter fun g => g.vc = v).length := by
      unfold RadSim.onVc
      rw [List.length_map]
      congr 1
    have e3 : (histVc v hist).flatten.length = ((hist.filter fun x => some x.1 == some v).map fun x => x.2.length).sum := by
      unfold histVc
      rw [List.length_flatten, List.map_map]
      congr 2
    rw [List.length_append, e2, e3] at e1
    omega
  refine Nat.le_trans (Finset.sum_le_sum h5) ?_
  have h6 := sum_fibre h.accepted (fun g => g.vc) (fun _ => true) c.vcs
  simp only [List.countP_true] at h6
  rw [h6]
  exact List.countP_le_length

theorem few_pops {c : MasterCfg} {s : MasterState} {h : MasterHist} (hd : DropInv c s h) : h.pops.length ≤ h.accepted.length := by
  have : List.Subperm h.pops (h.accepted.map fun g => g.vc) := by
    rw [List.subperm_ext_iff]
    intro v _
    have := hd.fifo v
    rw [List.count_eq_countP (l := h.accepted.map _), List.countP_map]
    have e : h.accepted.countP ((fun x => x == v) ∘ fun g => g.vc) = h.accepted.countP fun g => g.vc == v := rfl
    rw [e]
    omega
  simpa using this.length_le

section
variable {N : Nat} (hset : Setup c rng) (hal : Allocs VA SA (mesh c.m) c.b va sa)
  (hgo : ∀ u p t, P u p t → Exists c u p t) (hinv : ∀ n ≤ N, Inv VA SA c va sa i P n)
include hset hal hgo hinv

omit hset hal hgo in
theorem sent_le : ∑ u ∈ Finset.range c.m.nodes, ((st VA SA c va sa i N).sent u).length ≤ flitsOf c (st VA SA c va sa i N) := by
  refine Finset.sum_le_sum fun u hu => ?_
  have hu := Finset.mem_range.1 hu
  have h1 := (((hinv N (Nat.le_refl _)).stream u hu).prefix u).length_le
  rw [List.length_map, List.length_flatMap] at h1
  refine Nat.le_trans h1 (Nat.le_of_eq ?_)
  congr 1
  refine List.map_congr_left fun t _ => ?_
  rw [netFlits_eq, List.length_map, List.length_range]
  rfl

omit hset hal hgo in
theorem in_le : flitsIn (mesh c.m) (envs VA SA c va sa i) N ≤ flitsOf c (st VA SA c va sa i N) := by
  refine Nat.le_trans (Nat.le_of_eq ?_) (sent_le hinv)
  unfold flitsIn
  have e1 : ∑ u ∈ Finset.range c.m.nodes, ((st VA SA c va sa i N).sent u).length =
      ∑ u ∈ Finset.range c.m.nodes, (injected (envs VA SA c va sa i) (injLink c.m u) N).length := by
    refine Finset.sum_congr rfl fun u hu => ?_
    rw [(hinv N (Nat.le_refl _)).wrote u (Finset.mem_range.1 hu), List.length_map]
  rw [e1, ← Finset.sum_image (s := Finset.range c.m.nodes) (g := injLink c.m)
    (f := fun l => (injected (envs VA SA c va sa i) l N).length)]
  · refine Finset.sum_congr (Finset.ext fun l => ?_) fun _ _ => rfl
    rw [Finset.mem_filter, Finset.mem_image, Finset.mem_range]
    constructor
    · rintro ⟨-, h2⟩
      obtain ⟨x, hx, rfl⟩ := mesh_source.1 h2
      exact ⟨x, Finset.mem_range.2 hx, rfl⟩
    · rintro ⟨x, hx, rfl⟩
      have := mesh_source.2 ⟨x, Finset.mem_range.1 hx, rfl⟩
      exact ⟨this.1, this⟩
  · intro x _ y _ h
    have h : injLink c.m x = injLink c.m y := h
    unfold injLink at h
    omega

theorem progress_le : progress VA SA c va sa i N ≤ (3 * (c.m.n * c.m.k + 1) + 1) * flitsOf c (st VA SA c va sa i N) := by
  have hi := hinv N (Nat.le_refl _)
  have hu : ∀ n < N, Uses (dimOrderMesh c.m rng) (envs VA SA c va sa i n) := fun n _ => uses hset n
  have h1 := hops_le (mesh_wired hset.k) hset.ok hal hi.ticks
    (ord_guided hset.k (steps_dim hset.n rng) (orders_dim c.m rng) (hi.sends hset hgo) hu)
    (mesh_ranked hset.k (steps_dim hset.n rng) (orders_dim c.m rng) hu) (Nat.le_refl N)
  have h2 := Nat.le_trans h1 (Nat.mul_le_mul_left _ (in_le hinv))
  have h3 := sent_le hinv
  have h4 : ∑ u ∈ Finset.range c.m.nodes, ((st VA SA c va sa i N).hist u).accepted.length ≤
      hops (mesh c.m) (nets VA SA c va sa i) N := by
    refine Finset.sum_le_sum fun u hu => ?_
    have hu := Finset.mem_range.1 hu
    have hsink : (mesh c.m).Sink (ejLink c.m u) := (mesh_sink hset.k).2 ⟨u, hu, rfl⟩
    rw [hi.arrived u hu, List.length_map]
    refine Nat.le_trans (flitsAt_prefix hi.ticks (Nat.le_refl _) hsink.1).length_le ?_
    have e : (mesh c.m).outLink u (2 * c.m.n) = ejLink c.m u := mesh_ej (by omega)
    rw [← e]
    exact Finset.single_le_sum (f := fun o => (entered (nets VA SA c va sa i) ((mesh c.m).outLink u o) N).length)
      (fun _ _ => Nat.zero_le _) (Finset.mem_range.2 (Nat.lt_succ_self _))
  have h5 : ∑ u ∈ Finset.range c.m.nodes, (((st VA SA c va sa i N).hist u).pops.length +
      ∑ p ∈ Finset.range (c.mc u).n, (beatsOn p ((st VA SA c va sa i N).hist u).delivered).length) ≤
      ∑ u ∈ Finset.range c.m.nodes, 2 * ((st VA SA c va sa i N).hist u).accepted.length := by
    refine Finset.sum_le_sum fun u hu => ?_
    obtain ⟨hist, hm, hd⟩ := hi.master u (Finset.mem_range.1 hu)
    have := few_beats hm
    have := few_pops hd
    omega
  rw [← Finset.mul_sum] at h5
  unfold progress
  rw [Finset.sum_add_distrib]
  have e : (3 * (c.m.n * c.m.k + 1) + 1) * flitsOf c (st VA SA c va sa i N) =
      3 * ((c.m.n * c.m.k + 1) * flitsOf c (st VA SA c va sa i N)) + flitsOf c (st VA SA c va sa i N) := by ring
  rw [e]
  omega

omit hset hal hgo hinv in
/-- Every beat has a flit. -/
theorem got_le : ∑ u ∈ Finset.range c.m.nodes, ((st VA SA c va sa i N).got u).length ≤ flitsOf c (st VA SA c va sa i N) := by
  refine Finset.sum_le_sum fun u _ => ?_
  induction (st VA SA c va sa i N).got u with
  | nil => exact Nat.le_refl _
  | cons t l ih =>
    rw [List.length_cons, List.map_cons, List.sum_cons]
    have := numFlits_pos ((c.sc u).dataw t.iface)
    omega

/-- In time everything is handed over. -/
theorem all_handed {n₀ J K : Nat} (hcl : Closing c N n₀ J K i) (hn : n₀ ≤ N) (hgr : Grants VA SA (mesh c.m) c.b va sa) (ho : c.b.outSize ≠ 0)
    (hsh : ∀ u < c.m.nodes, ∀ p < (c.sc u).n, ((c.sc u).flits p : Int) ≤ c.b.buf.perVc)
    (hdp : ∀ u < c.m.nodes, 0 < (c.sc u).depth ∧ 0 < (c.mc u).outDepth)
    (hN : n₀ + ((3 * (c.m.n * c.m.k + 1) + 1) * flitsOf c (st VA SA c va sa i n₀) + 1) *
      (3 * K + 2 * J + 2 * slots (mesh c.m) c.b + 7) ≤ N) {u : Nat} (hu : u < c.m.nodes) {p : Nat} (hp : p < (c.mc u).n) :
    ∑ x ∈ Finset.range c.m.nodes, ((st VA SA c va sa i N).got x).countP
        (fun t => decide (portOf t = p) && decide (nodeOf (c.sc x) t = u)) ≤
      (deliveredAt (st VA SA c va sa i N) u p).length := by
  have hF : flitsOf c (st VA SA c va sa i N) = flitsOf c (st VA SA c va sa i n₀) := by
    refine Finset.sum_congr rfl fun u hu => ?_
    rw [got_const hinv hcl (Nat.le_refl n₀) hn (Nat.le_refl N) (Finset.mem_range.1 hu)]
  obtain ⟨a, h1, h2, h3⟩ := stands_still (f := progress VA SA c va sa i) (fun n m h1 h2 => progress_mono hinv h1 h2)
    (progress_le hset hal hgo hinv) (by rw [hF]; exact hN)
  have w : Calm VA SA c va sa i P rng N n₀ J K a (3 * K + 2 * J + 2 * slots (mesh c.m) c.b + 7) :=
    ⟨hset, hal, hgr, hsh, hdp, hgo, hinv, hcl.toFair.willing, h1, h2, h3, fun u hu => got_const hinv hcl h1 (Nat.le_add_right _ _) h2 hu⟩
  obtain ⟨n, h5, h4, -, h6⟩ := w.handed (T' := 3 * K + 2 * slots (mesh c.m) c.b + 7) (by omega) (by omega) (by omega) ho
  have h5 : n₀ ≤ n := by omega
  have h4 : n ≤ N := by omega
  have e1 : ∑ x ∈ Finset.range c.m.nodes, ((st VA SA c va sa i N).got x).countP
        (fun t => decide (portOf t = p) && decide (nodeOf (c.sc x) t = u)) =
      ∑ x ∈ Finset.range c.m.nodes, ((st VA SA c va sa i n).got x).countP
        (fun t => decide (portOf t = p) && decide (nodeOf (c.sc x) t = u)) := by
    refine Finset.sum_congr rfl fun x hx => ?_
    rw [got_const hinv hcl h5 h4 (Nat.le_refl _) (Finset.mem_range.1 hx)]
  rw [e1]
  refine Nat.le_trans (h6 u hu p hp) ?_
  have := ((all_grows hinv h4 (Nat.le_refl N) hu).1.del p).length_le
  unfold beatsOn at this
  unfold deliveredAt
  rw [List.length_map, List.length_map] at this ⊢
  exact this

/-- If the modules can only send so much, then there are periods in which nothing is accepted and nothing is on its way. -/
theorem drained {n₀ J K B L : Nat} (hf : Willing VA SA c va sa N n₀ J K i) (hgr : Grants VA SA (mesh c.m) c.b va sa) (ho : c.b.outSize ≠ 0)
    (hsh : ∀ u < c.m.nodes, ∀ p < (c.sc u).n, ((c.sc u).flits p : Int) ≤ c.b.buf.perVc)
    (hdp : ∀ u < c.m.nodes, 0 < (c.sc u).depth ∧ 0 < (c.mc u).outDepth)
    (hB : flitsOf c (st VA SA c va sa i N) ≤ B)
    (hN : n₀ + ((3 * (c.m.n * c.m.k + 1) + 2) * B + 1) *
      (3 * K + 2 * J + 2 * slots (mesh c.m) c.b + 7 + L) ≤ N) :
    ∃ n, n₀ ≤ n ∧ n + L ≤ N ∧
      (∀ m, n ≤ m → m ≤ n + L → ∀ u < c.m.nodes, (st VA SA c va sa i m).got u = (st VA SA c va sa i n).got u ∧
        pending (c.sc u) ((st VA SA c va sa i m).slave u) = []) ∧
      ∀ u < c.m.nodes, ∀ p < (c.mc u).n, ∑ x ∈ Finset.range c.m.nodes, ((st VA SA c va sa i n).got x).countP
        (fun t => decide (portOf t = p) && decide (nodeOf (c.sc x) t = u)) ≤
        (deliveredAt (st VA SA c va sa i n) u p).length ∧
      ∀ m, n ≤ m → m ≤ n + L → deliveredAt (st VA SA c va sa i m) u p = deliveredAt (st VA SA c va sa i n) u p := by
  have hmono : ∀ n m, n ≤ m → m ≤ N → ∑ u ∈ Finset.range c.m.nodes, ((st VA SA c va sa i n).got u).length ≤
      ∑ u ∈ Finset.range c.m.nodes, ((st VA SA c va sa i m).got u).length := fun n m h1 h2 =>
    Finset.sum_le_sum fun u hu => (all_grows hinv h1 h2 (Finset.mem_range.1 hu)).2.2.length_le
  obtain ⟨a, h1, h2, h3⟩ := stands_still
    (f := fun n => progress VA SA c va sa i n + ∑ u ∈ Finset.range c.m.nodes, ((st VA SA c va sa i n).got u).length)
    (fun n m h1 h2 => Nat.add_le_add (progress_mono hinv h1 h2) (hmono n m h1 h2))
    (show _ ≤ (3 * (c.m.n * c.m.k + 1) + 2) * B by
      have h1 := progress_le hset hal hgo hinv
      have h2 := got_le (VA := VA) (SA := SA) (c := c) (va := va) (sa := sa) (i := i) (N := N)
      have h3 := Nat.mul_le_mul_left (3 * (c.m.n * c.m.k + 1) + 1) hB
      have e : (3 * (c.m.n * c.m.k + 1) + 2) * B = (3 * (c.m.n * c.m.k + 1) + 1) * B + B := by ring
      show progress VA SA c va sa i N + ∑ u ∈ Finset.range c.m.nodes, ((st VA SA c va sa i N).got u).length ≤ _
      omega) hN
  have m1 := progress_mono hinv (Nat.le_add_right a (3 * K + 2 * J + 2 * slots (mesh c.m) c.b + 7 + L)) h2
  have m2 := hmono _ _ (Nat.le_add_right a (3 * K + 2 * J + 2 * slots (mesh c.m) c.b + 7 + L)) h2
  have hle : ∀ u ∈ Finset.range c.m.nodes, ((st VA SA c va sa i a).got u).length ≤
      ((st VA SA c va sa i (a + (3 * K + 2 * J + 2 * slots (mesh c.m) c.b + 7 + L))).got u).length := fun u hu =>
    (all_grows hinv (Nat.le_add_right _ _) h2 (Finset.mem_range.1 hu)).2.2.length_le
  have e1 := (Finset.sum_eq_sum_iff_of_le hle).1 (by omega)
  have w : Calm VA SA c va sa i P rng N n₀ J K a (3 * K + 2 * J + 2 * slots (mesh c.m) c.b + 7 + L) :=
    ⟨hset, hal, hgr, hsh, hdp, hgo, hinv, hf, h1, h2, by omega, fun u hu =>
      ((all_grows hinv (Nat.le_add_right _ _) h2 hu).2.2.eq_of_length (e1 u (Finset.mem_range.2 hu))).symm⟩
  obtain ⟨n, h4, h5, h6, h7⟩ := w.handed (T' := 3 * K + 2 * slots (mesh c.m) c.b + 7) (by omega) (by omega) (by omega) ho
  refine ⟨n, by omega, by omega, fun m k1 k2 u hu => ⟨w.got h4 k1 (by omega) hu, ?_⟩, fun u hu p hp => ⟨h7 u hu p hp, fun m k1 k2 => ?_⟩⟩
  · rw [w.waiting h4 k1 (by omega) hu]
    exact h6 u hu
  · have e := ((w.same h4 k1 (by omega)).2 u hu).2.2 p hp
    have key : ∀ l : List (Nat × AxisOut), (l.filter fun y => y.1 = p).map (fun y => beatOut y.2) = (beatsOn p l).map beatOut := by
      intro l
      unfold beatsOn
      rw [List.map_map]
      congr 1
    unfold deliveredAt
    rw [key, key, e]

end

end RadSim.AxisNoc
