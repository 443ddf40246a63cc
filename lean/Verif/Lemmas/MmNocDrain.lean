import Verif.Lemmas.MmNocLive

/-! # A NoC with AXI memory-mapped adapters comes to an end -/

namespace RadSim.MmNoc

open Router (Flit Hop)
open Routing (Shape Rf dimOrderMesh vcOk)
open AxisNoc (clsOf toBs toNet count_toBs count_toNet next_of_open creditsAt_mono)
open Noc (Made Comes Laws st nets envs)
open Net

variable {σ τ ρ ρ' : Type} {VA : Alloc.Cls σ ρ} {SA : Alloc.Cls τ ρ'} {c : Cfg} {va : Nat → σ} {sa : Nat → τ} {i : Nat → In ρ ρ'}
  {rng : Nat → Nat × Nat} {r : Nat → Nat} {n : Nat}

namespace Calm

variable {N n₀ J K a T : Nat} (w : Calm VA SA c va sa i rng r N n₀ J K a T)
include w

/-- No packet is waiting to be cut into flits. -/
theorem spent {n : Nat} (h1 : a + J ≤ n) (h2 : n ≤ a + T) {u : Nat} (hu : u < c.m.nodes) (hk : (c.nc u).kind ≠ .none) :
    Spent (pktOf (c.nc u).kind (node VA SA c va sa i n u)) (gapTo c (fun k => (i k).ad) u n) := by
  have hN := w.stop
  have h0 := w.start
  obtain ⟨k, k1, k2, x, hx, hx2⟩ := w.fair.source a h0 (by omega) u hu hk
  have key : ∀ m, a ≤ m → m < a + T →
      (Spent (pktOf (c.nc u).kind (node VA SA c va sa i m u)) (gapTo c (fun k => (i k).ad) u m) ∨ m = k) →
      Spent (pktOf (c.nc u).kind (node VA SA c va sa i (m + 1) u)) (gapTo c (fun k => (i k).ad) u (m + 1)) := by
    intro m h3 h4 h5
    obtain ⟨out, hp, -⟩ := period (w.inv m (by omega)) (w.inv (m + 1) (by omega)) hu hk
    have hsame := (w.same (n := m) (m := m + 1) h3 (by omega) (by omega)).2 u hu
    rw [gapTo_succ]
    refine hp.spent _ hsame.2.2.1 hsame.2.2.2 (h5.imp id fun e => ?_)
    subst e
    exact ⟨x, hx, hx2⟩
  have hind : ∀ d, k + 1 + d ≤ a + T →
      Spent (pktOf (c.nc u).kind (node VA SA c va sa i (k + 1 + d) u)) (gapTo c (fun k => (i k).ad) u (k + 1 + d)) := by
    intro d
    induction d with
    | zero => intro _; exact key k k1 (by omega) (.inr rfl)
    | succ d ih => intro hd; exact key (k + 1 + d) (by omega) (by omega) (.inl (ih (by omega)))
  obtain ⟨d, rfl⟩ : ∃ d, n = k + 1 + d := ⟨n - (k + 1), by omega⟩
  exact hind d h2

/-- An adapter that has something to send has no credit for it. -/
theorem blocked {n : Nat} (h1 : a ≤ n) (h2 : n < a + T) {u : Nat} (hu : u < c.m.nodes) (hk : (c.nc u).kind ≠ .none) {f : ScFlit}
    {r : List ScFlit} (hp : waits (pktOf (c.nc u).kind (node VA SA c va sa i n u)) = f :: r) :
    (node VA SA c va sa i n u).buf.isFullFor c.b.buf f.vc.toNat = true := by
  have hN := w.stop
  obtain ⟨out, hq, hs⟩ := period (w.inv n (by omega)) (w.inv (n + 1) (by omega)) hu hk
  have ho : out = [] := by
    rw [((w.same (n := n) (m := n + 1) (by omega) (by omega) (by omega)).2 u hu).1] at hs
    simpa using hs
  exact hq.blocked w.set.ok.tail ho f r hp

variable {T' : Nat}

theorem wrote {n : Nat} (hn : n ≤ N) {u : Nat} (hu : u < c.m.nodes) :
    injected (envs VA SA c.noc va sa i) (injLink c.m u) n = ((st VA SA c.noc va sa i n).sent u).map (toNet u) :=
  (w.inv n hn).wrote u hu

/-- An empty buffer at a node has given back all credits. -/
theorem free (hT : K + 2 + J ≤ T) (hT' : T' ≤ T) {n : Nat} (h1 : a + 3 * K + 5 ≤ n) (h2 : n < a + T') {x j : Nat}
    (hr : x < (mesh c.m).size) (hj : j < (mesh c.m).inputs x) {u : Nat} (hu : u < c.m.nodes) (hk : (c.nc u).kind ≠ .none)
    (hl : (mesh c.m).inLink x j = injLink c.m u) {v : Nat} (hq : (((nets VA SA c.noc va sa i n).r x).vcs j v).q = []) :
    (node VA SA c va sa i n u).buf.isFullFor c.b.buf v = false := by
  have hN := w.stop
  have := (w.window hT hT').returned_source hr hj (by rw [hl]; exact mesh_source.2 ⟨u, hu, rfl⟩) (by omega) h2 hq
  rw [hl, w.wrote (by omega) hu, count_toNet] at this
  unfold BufState.isFullFor
  rw [(held (w.inv n (by omega)) hu hk).out.occ, this]
  have hpos := w.set.ok.buf.perVc_pos
  simp only [decide_eq_false_iff_not]
  omega

/-- What has been sent and what waits make up packets. -/
theorem parts {n : Nat} (hn : n ≤ N) {u : Nat} (hu : u < c.m.nodes) (hk : (c.nc u).kind ≠ .none)
    (hsp : Spent (pktOf (c.nc u).kind (node VA SA c va sa i n u)) (gapTo c (fun k => (i k).ad) u n)) :
    (pks c u (node VA SA c va sa i n u)).flatten = (st VA SA c.noc va sa i n).sent u ++
      (waits (pktOf (c.nc u).kind (node VA SA c va sa i n u))).map mmInject := by
  obtain ⟨dn, pend, e1, e2, e3⟩ := (held (w.inv n hn) hu hk).pkt
  rw [hsp.pend e3, List.append_nil] at e1
  unfold waits
  rw [e2]
  unfold pks
  rw [e1, List.map_flatten, List.map_map]
  rfl

/-- The packets of a node are proper. -/
theorem proper {n : Nat} (hn : n ≤ N) {u : Nat} (hu : u < c.m.nodes) :
    ∀ p ∈ pks c u (node VA SA c va sa i n u), Made c.m rng (Wel c) p := by
  intro p hp
  unfold pks at hp
  obtain ⟨t, ht, rfl⟩ := List.mem_map.1 hp
  have hk : (c.nc u).kind ≠ .none := by intro e; rw [e] at ht; cases ht
  exact made_onWire w.set hu hk ((held (w.inv n hn) hu hk).fits t ht)

/-- Every source side is done with cutting packets. -/
def Cut (VA : Alloc.Cls σ ρ) (SA : Alloc.Cls τ ρ') (c : Cfg) (va : Nat → σ) (sa : Nat → τ) (i : Nat → In ρ ρ') (n : Nat) : Prop :=
  ∀ u < c.m.nodes, (c.nc u).kind ≠ .none →
    Spent (pktOf (c.nc u).kind (node VA SA c va sa i n u)) (gapTo c (fun k => (i k).ad) u n)

theorem ended (hT : K + 2 + J ≤ T) (hT' : T' ≤ T) {n : Nat} (h1 : a + 3 * K + 5 ≤ n) (h2 : n < a + T')
    (hsp : Cut VA SA c va sa i n) : Ended (mesh c.m) (envs VA SA c.noc va sa i) (nets VA SA c.noc va sa i) n := by
  intro r hr j hj hs v hq f hf
  have hN := w.stop
  obtain ⟨u, hu, hl⟩ := mesh_source.1 hs
  by_contra ht
  rw [hl, w.wrote (by omega) hu] at hf
  by_cases hk : (c.nc u).kind = .none
  · rw [(bare (w.inv n (by omega)) hu hk).2.1] at hf
    cases hf
  unfold Net.onVc at hf
  rw [List.filter_map, List.getLast?_map, Option.mem_def, Option.map_eq_some_iff] at hf
  obtain ⟨g, hg, rfl⟩ := hf
  have e2 := w.parts (n := n) (by omega) hu hk (hsp u hu hk)
  rw [← List.flatMap_id] at e2
  obtain ⟨y, z, e3, e4⟩ := next_of_open (g := id) (vc := BsFlit.vc) (tail := BsFlit.tail) (v := v) (f := g) _ _ _ e2 (by
      intro p hp
      have hm := w.proper (n := n) (by omega) hu p hp
      refine ⟨fun x hx y hy => ?_, ?_⟩
      · have := hm.same hx hy
        simp only [Prod.mk.injEq] at this
        rw [hm.vc x hx, hm.vc y hy, this.2.2.1]
      · obtain ⟨ini, last, e, ht, -⟩ := hm.closed
        intro x hx
        have hx : p.getLast? = some x := hx
        rw [e, List.getLast?_append] at hx
        simp at hx
        rw [← hx]
        exact ht) hg (Bool.eq_false_iff.2 ht)
  obtain ⟨f', r', e5, rfl, -⟩ := List.map_eq_cons_iff.1 e3
  have h3 := w.blocked (n := n) (by omega) (by omega) hu hk e5
  have e4 : f'.vc.toNat = v := e4
  rw [e4, w.free hT (T' := T') (by omega) h1 h2 hr hj hu hk hl hq] at h3
  cases h3

theorem stuck (hT : K + 2 + J ≤ T) (hT' : T' ≤ T) (hs : 3 * K + 2 * slots (mesh c.m) c.b + 7 ≤ T') (ho : c.b.outSize ≠ 0) :
    ∃ n, Stuck VA SA (mesh c.m) c.b va sa N 1 K a T' n (envs VA SA c.noc va sa i) (nets VA SA c.noc va sa i)
      (mayOrd c.m rng fun _ _ => false) (meshRank c.m rng fun _ _ => false) (c.m.n * c.m.k + 1) := by
  obtain ⟨n, h1, h2, h3⟩ := (w.window hT hT').stuck (by omega)
  have hu : ∀ n < N, Uses (dimOrderMesh c.m rng) (envs VA SA c.noc va sa i n) := fun n _ => Noc.uses w.set.noc n
  exact ⟨n, w.window hT hT', ho, ord_guided w.set.k (steps_dim w.set.n rng) (orders_dim c.m rng)
    ((w.inv N (Nat.le_refl _)).sends w.set.noc (laws w.set w.runs)) hu,
    mesh_ranked w.set.k (steps_dim w.set.n rng) (orders_dim c.m rng) hu, h1, h2, h3⟩

/-- The source side adapters are empty and everything has been written. -/
theorem written (hT : K + 2 + J ≤ T) (hT' : T' ≤ T) {n : Nat} {may : Nat → Flit (Msg BsFlit) → Prop}
    {rank : Nat → Nat → Nat} {R : Nat} (z : Stuck VA SA (mesh c.m) c.b va sa N 1 K a T' n (envs VA SA c.noc va sa i)
      (nets VA SA c.noc va sa i) may rank R) (hsp : Cut VA SA c va sa i n) {u : Nat} (hu : u < c.m.nodes) :
    (st VA SA c.noc va sa i n).sent u = (pks c u (node VA SA c va sa i n u)).flatten := by
  have hN := w.stop
  have h1 := z.lo
  have h2 := z.hi
  by_cases hk : (c.nc u).kind = .none
  · rw [(bare (w.inv n (by omega)) hu hk).2.1]
    unfold pks txns
    rw [hk]
    rfl
  rw [w.parts (n := n) (by omega) hu hk (hsp u hu hk)]
  cases hp : waits (pktOf (c.nc u).kind (node VA SA c va sa i n u)) with
  | nil => simp
  | cons f r =>
    have h3 := w.blocked (n := n) (by omega) (by omega) hu hk hp
    have hl : (mesh c.m).inLink u (2 * c.m.n) = injLink c.m u := mesh_inj (by omega)
    have hq := z.empty (w.ended hT hT' (by omega) h2 hsp) _ u (2 * c.m.n) f.vc.toNat hu (Nat.le_refl _)
    rw [w.free hT (T' := T') (by omega) (by omega) h2 (x := u) (j := 2 * c.m.n) hu (Nat.lt_succ_self _) hu hk hl hq] at h3
    cases h3

/-- The packets sent from a node for channel `k` of node `u`. -/
def isFor (k : MmType) (q : List (Bool × Bool × Int × Msg BsFlit)) : Bool := q.any fun x => x.2.2.2.load.type = k.flitType

theorem sentFor {n : Nat} (hn : n ≤ N) {x : Nat} (hx : x < c.m.nodes)
    (hw : (st VA SA c.noc va sa i n).sent x = (pks c x (node VA SA c va sa i n x)).flatten) (u : Nat) (k : MmType) :
    ∑ v ∈ Finset.range c.b.vcs, (Net.packetsOf (injected (envs VA SA c.noc va sa i) (injLink c.m x) n) v).countP
      (fun p => isFor k p && p.any fun x => x.2.2.2.dest = u) = (givenFor c (st VA SA c.noc va sa i n) x u k).length := by
  have hp := w.proper hn hx
  have e0 : (givenFor c (st VA SA c.noc va sa i n) x u k).length =
      (pks c x (node VA SA c va sa i n x)).countP fun p => p.head?.any fun f => f.dest = u ∧ f.type = k.flitType := by
    have := congrArg List.length (decode_pks (u := u) (k := k) ((w.inv n hn).good x hx))
    simp only [List.length_map] at this
    unfold givenFor
    rw [List.length_map, List.countP_eq_length_filter]
    exact this.symm
  rw [e0, w.wrote hn hx, hw]
  generalize pks c x (node VA SA c va sa i n x) = ps at hp
  have e1 : ∀ v, Net.packetsOf (ps.flatten.map (toNet x)) v =
      (ps.filter fun p => (p.head?.map BsFlit.vc).getD 0 = v).map fun p => p.map fun f => body (toNet x f) := by
    intro v
    unfold Net.packetsOf
    rw [Noc.onVc_flatten hp]
    have := MmSink.whole_closed Flit.tail ((ps.filter fun p => p.head?.any fun f => f.vc = v).map (List.map (toNet x))) [] (by
      intro q hq
      obtain ⟨p, hp', rfl⟩ := List.mem_map.1 hq
      obtain ⟨ini, last, e, ht, ho⟩ := (hp p (List.mem_of_mem_filter hp')).closed
      refine ⟨ini.map (toNet x), toNet x last, by rw [e]; simp, ht, ?_⟩
      intro f hf
      obtain ⟨g, hg, rfl⟩ := List.mem_map.1 hf
      exact ho g hg) (by simp)
    rw [List.append_nil] at this
    rw [this, List.map_map]
    have hfil : (ps.filter fun p => p.head?.any fun f => f.vc = v) = ps.filter fun p => (p.head?.map BsFlit.vc).getD 0 = v := by
      apply List.filter_congr
      intro p hp'
      cases p with
      | nil => exact absurd rfl (hp [] hp').ne
      | cons f p => exact decide_eq_decide.2 Iff.rfl
    rw [hfil]
    apply List.map_congr_left
    intro p _
    simp
  simp only [e1, List.countP_map]
  rw [sum_fibre]
  refine List.countP_congr fun p hp' => ?_
  have hm := hp p hp'
  cases p with
  | nil => exact absurd rfl hm.ne
  | cons f p =>
    have h1 : ∀ g ∈ f :: p, g.dest = f.dest ∧ g.type = f.type := by
      intro g hg
      have := hm.same hg (List.mem_cons_self (a := f) (l := p))
      simp only [Prod.mk.injEq] at this
      exact ⟨this.2.1, this.2.2.1⟩
    have hv : f.vc < c.b.vcs := by
      rw [hm.vc f (by simp), (w.set.one f.type).1]
      exact w.set.vcs _
    have a1 : (isFor k ((f :: p).map fun g => body (toNet x g))) = decide (f.type = k.flitType) := by
      rw [Bool.eq_iff_iff]
      unfold isFor
      rw [List.any_map, List.any_eq_true]
      constructor
      · rintro ⟨g, hg, h⟩
        have : g.type = k.flitType := of_decide_eq_true h
        rw [(h1 g hg).2] at this
        exact decide_eq_true this
      · intro h
        exact ⟨f, by simp, h⟩
    have a2 : (((f :: p).map fun g => body (toNet x g)).any fun x => decide (x.2.2.2.dest = u)) = decide (f.dest = u) := by
      rw [Bool.eq_iff_iff, List.any_map, List.any_eq_true]
      constructor
      · rintro ⟨g, hg, h⟩
        have : g.dest = u := of_decide_eq_true h
        rw [(h1 g hg).1] at this
        exact decide_eq_true this
      · intro h
        exact ⟨f, by simp, h⟩
    show ((isFor k ((f :: p).map fun g => body (toNet x g)) && ((f :: p).map fun g => body (toNet x g)).any fun x =>
      decide (x.2.2.2.dest = u)) && decide (f.vc < c.b.vcs)) = true ↔ decide (f.dest = u ∧ f.type = k.flitType) = true
    rw [a1, a2]
    simp [hv, and_comm]

/-- Every packet that has come to a node has been shown. -/
theorem shownFor (hT : K + 2 + J ≤ T) {n : Nat} (h1 : a + K + 1 + J ≤ n) (h2 : n ≤ a + T) {u : Nat} (hu : u < c.m.nodes)
    {k : MmType} (hk : k ∈ shows (c.nc u).kind) :
    receivedBy c.m c.b (nets VA SA c.noc va sa i) (n + 1) u (isFor k) = (shownAt (st VA SA c.noc va sa i n) u k).length := by
  have hN := w.stop
  have hk' : (c.nc u).kind ≠ .none := by intro e; rw [e] at hk; cases hk
  have hi := (held (w.inv n (by omega)) hu hk').sink
  have hsep := w.set.separate hu hk'
  have hsing := fun t => w.set.single hu hk' t
  have hkt : k ∈ (c.nc u).sink.types := by rw [MmSink.types_eq, ← shows_eq hk']; exact hk
  obtain ⟨made, pres, hall⟩ := hi.all hsep
  obtain ⟨f1, f2⟩ := MmSink.final_shown hall (w.final hT (by omega) h2 hu hk') (w.ports h1 h2 hu hk)
  have e1 : (shownAt (st VA SA c.noc va sa i n) u k).length = (MmSink.madeOf k made).length := by
    have hbeat : ∀ x ∈ made, ∃ b, MmSink.beatOf (c.nc u).sink.master x.2 = some b ∧ b.type = x.1 := fun x hx =>
      MmSink.made_beat hall.1.1 (w.typed (by omega) hu hk') hx
    have := MmSink.filter_beats made hbeat k ((node VA SA c va sa i n u).hist.shown.map (·.1)) [] (by
      rw [List.append_nil, f2, List.map_map]; rfl)
    have := congrArg List.length this
    simp only [List.filter_nil, List.append_nil, List.length_map] at this
    exact this
  have hlt : (c.nc u).sink.vcs.last k.flitType < c.b.vcs := by
    have a1 := w.set.types u hu hk' k.flitType
    have a2 := w.set.vcs (clsOf k.flitType)
    show (c.nc u).vcs.last k.flitType < c.b.vcs
    omega
  have hty : ∀ f ∈ flitsAt (nets VA SA c.noc va sa i) (ejLink c.m u) (n + 1), f.data.load.type = k.flitType →
      f.vc = (c.nc u).sink.vcs.last k.flitType := by
    intro f hf ht
    obtain ⟨j, -, -, b1, b2⟩ := hi.belongs (toBs f) (List.mem_map_of_mem hf)
    have e : (toBs f).type = k.flitType := ht
    rw [e] at b1 b2
    have := hsing k.flitType
    have e' : (toBs f).vc = f.vc := rfl
    omega
  have hvc : ∀ f ∈ flitsAt (nets VA SA c.noc va sa i) (ejLink c.m u) (n + 1), f.vc = (c.nc u).sink.vcs.last k.flitType →
      f.data.load.type = k.flitType := by
    intro f hf hv
    have e := typed_vc hsep hsing hi.belongs hkt rfl
    have : toBs f ∈ MmSink.typed k ((flitsAt (nets VA SA c.noc va sa i) (ejLink c.m u) (n + 1)).map toBs) := by
      rw [e]
      exact List.mem_filter.2 ⟨List.mem_map_of_mem hf, decide_eq_true hv⟩
    exact of_decide_eq_true (List.mem_filter.1 this).2
  have hmem : ∀ v, ∀ p ∈ Net.packetsOf (flitsAt (nets VA SA c.noc va sa i) (ejLink c.m u) (n + 1)) v, p ≠ [] ∧
      ∀ x ∈ p, ∃ f ∈ flitsAt (nets VA SA c.noc va sa i) (ejLink c.m u) (n + 1), f.vc = v ∧ x = body f := by
    intro v p hp
    refine ⟨(packetsOf_mem hp).1, ?_⟩
    unfold Net.packetsOf at hp
    obtain ⟨q, hq, rfl⟩ := List.mem_map.1 hp
    have := (MmSink.whole_mem Flit.tail _ (fun f => f ∈ Net.onVc (flitsAt (nets VA SA c.noc va sa i) (ejLink c.m u) (n + 1)) v)
      (fun f hf => hf) q hq).2
    intro x hx
    obtain ⟨f, hf, rfl⟩ := List.mem_map.1 hx
    have hf' := List.mem_filter.1 (this f hf)
    exact ⟨f, hf'.1, of_decide_eq_true hf'.2, rfl⟩
  unfold receivedBy
  rw [Finset.sum_eq_single ((c.nc u).sink.vcs.last k.flitType)]
  · rw [List.countP_eq_length.2, e1, ← f1 k hkt, hi.acc, MmSink.ofClass_eq hsep hi.belongs, typed_vc hsep hsing hi.belongs hkt rfl,
      MmSink.whole_map, List.length_map, List.filter_map, MmSink.whole_map, List.length_map]
    · unfold Net.packetsOf
      rw [List.length_map]
      rfl
    · intro p hp
      obtain ⟨p1, p2⟩ := hmem _ p hp
      cases p with
      | nil => exact absurd rfl p1
      | cons x p =>
        obtain ⟨f, hf, hv, rfl⟩ := p2 x (by simp)
        unfold isFor
        rw [List.any_eq_true]
        exact ⟨body f, by simp, decide_eq_true (hvc f hf hv)⟩
  · intro v _ hv
    rw [List.countP_eq_zero]
    intro p hp hc
    unfold isFor at hc
    obtain ⟨x, hx, ht⟩ := List.any_eq_true.1 hc
    obtain ⟨f, hf, hfv, rfl⟩ := (hmem v p hp).2 x hx
    exact hv (hfv.symm.trans (hty f hf (of_decide_eq_true ht)))
  · intro h
    exact absurd (Finset.mem_range.2 hlt) h

/-- Every beat has been shown. -/
theorem handed (hT : 3 * K + 2 * J + 2 * slots (mesh c.m) c.b + 7 ≤ T) (ho : c.b.outSize ≠ 0) :
    ∃ n, a ≤ n ∧ n ≤ a + T ∧ ∀ u < c.m.nodes, ∀ k ∈ shows (c.nc u).kind,
      (shownAt (st VA SA c.noc va sa i n) u k).length =
        ∑ x ∈ Finset.range c.m.nodes, (givenFor c (st VA SA c.noc va sa i n) x u k).length := by
  have hN := w.stop
  have w1 := w.shift (d := J) (by omega)
  obtain ⟨n, z⟩ := w1.stuck (T' := T - J) (by omega) (Nat.le_refl _) (by omega) ho
  have h1 := z.lo
  have h2 := z.hi
  have hcut : Cut VA SA c va sa i n := fun u hu hk => w.spent (by omega) (by omega) hu hk
  refine ⟨n, by omega, by omega, fun u hu k hk => ?_⟩
  rw [← w.shownFor (by omega) (n := n) (by omega) (by omega) hu hk]
  have e2 := z.delivered (w1.ended (by omega) (Nat.le_refl _) (by omega) h2 hcut) fun q => isFor k q && q.any fun x => x.2.2.2.dest = u
  rw [leaving_at w.set.k (fun x hx f hf =>
    ((w.inv n (by omega)).read w.set.noc w.allocs (laws w.set w.runs) hx hf).1) hu, entering_at] at e2
  rw [e2]
  unfold sentTo
  refine Finset.sum_congr rfl fun x hx => ?_
  have hx := Finset.mem_range.1 hx
  exact w.sentFor (by omega) hx (w1.written (by omega) (Nat.le_refl _) z hcut hx) u k

end Calm

/-! ## how much can happen -/

/-- A module at a slave adapter hands over no responses, one at a master adapter no requests. -/
theorem step_other {b : BufCfg} {nc : NodeCfg} {j : NodeIn} {l : List Nat} {arrive : Option BsFlit} {s s' : Node} {out : List BsFlit}
    (h : nodeStep b nc j l arrive s = .ok (s', out)) :
    (nc.kind = .slave → s'.rsps = s.rsps) ∧ (nc.kind = .master → s'.reqs = s.reqs) := by
  unfold nodeStep at h
  constructor <;> intro hk <;> rw [hk] at h <;> dsimp only at h <;> repeat' split at h
  all_goals first
    | (cases h; done)
    | (cases h; rfl)

theorem types_req (l : List ReqBeat) : ∀ (o : Option (BitVec 64)) (d : Nat),
    (reqTxns o l).map (·.type) = (routed d l).map (·.2.type) := by
  induction l with
  | nil => intro o d; rfl
  | cons x l ih =>
    intro o d
    cases x <;> simp only [reqTxns, routed, List.map_cons] <;> congr 1 <;> exact ih _ _

theorem types_rsp (l : List RspBeat) : (l.map rspTxn).map (·.type) = (answered l).map (·.2.type) := by
  induction l with
  | nil => rfl
  | cons x l ih => cases x <;> simp only [answered, List.map_cons] <;> congr 1

theorem types_given (k : Kind) (s : Node) : (txns k s).map (·.type) = (given k s).map (·.2.type) := by
  unfold txns given
  cases k with
  | none => rfl
  | slave => exact types_req _ _ _
  | master => exact types_rsp _

theorem flits_given (c : Cfg) (u : Nat) (s : Node) : (pks c u s).flatten.length =
    ((given (c.nc u).kind s).map fun y => mmFlits (c.nc u).dataw y.2.type).sum := by
  have e : ((given (c.nc u).kind s).map fun y => mmFlits (c.nc u).dataw y.2.type) =
      (((given (c.nc u).kind s).map (·.2.type))).map (mmFlits (c.nc u).dataw) := by rw [List.map_map]; rfl
  rw [e, ← types_given]
  unfold pks
  rw [List.length_flatten, List.map_map, List.map_map]
  congr 1
  apply List.map_congr_left
  intro t _
  simp [onWire, mmPacket]

theorem beats_given (k : Kind) (dataw : Nat) (s : Node) : (given k s).length ≤ ((given k s).map fun y => mmFlits dataw y.2.type).sum := by
  induction given k s with
  | nil => exact Nat.le_refl _
  | cons y l ih =>
    rw [List.length_cons, List.map_cons, List.sum_cons]
    have := mmFlits_pos dataw y.2.type
    omega

section
variable {N : Nat} (hs : Setup c rng r) (hal : Allocs VA SA (mesh c.m) c.b va sa) (hruns : Runs c r N i)
  (hinv : ∀ n ≤ N, Holds VA SA c va sa i n)
include hs hal hruns hinv

omit hs hal hruns in
theorem beats_le {n : Nat} (hn : n ≤ N) {u : Nat} (hu : u < c.m.nodes) :
    (node VA SA c va sa i n u).reqs.length + (node VA SA c va sa i n u).rsps.length =
      (given (c.nc u).kind (node VA SA c va sa i n u)).length := by
  have key : ((c.nc u).kind = .none → (node VA SA c va sa i n u).reqs = [] ∧ (node VA SA c va sa i n u).rsps = []) ∧
      ((c.nc u).kind = .slave → (node VA SA c va sa i n u).rsps = []) ∧
      ((c.nc u).kind = .master → (node VA SA c va sa i n u).reqs = []) := by
    refine ⟨fun hk => ?_, ?_⟩
    · rw [(bare (hinv n hn) hu hk).1]; exact ⟨rfl, rfl⟩
    · induction n with
      | zero => exact ⟨fun _ => rfl, fun _ => rfl⟩
      | succ n ih =>
        obtain ⟨out, h1, -⟩ := step_of (hinv n (by omega)) (hinv (n + 1) hn) hu
        have h2 := step_other h1
        have h3 := ih (by omega)
        exact ⟨fun hk => (h2.1 hk).trans (h3.1 hk), fun hk => (h2.2 hk).trans (h3.2 hk)⟩
  have hlen := congrArg List.length (types_given (c.nc u).kind (node VA SA c va sa i n u))
  rw [List.length_map, List.length_map] at hlen
  rw [← hlen]
  unfold txns
  cases hk : (c.nc u).kind with
  | none => rw [(key.1 hk).1, (key.1 hk).2]; rfl
  | slave =>
    have h1 := congrArg List.length (types_req (node VA SA c va sa i n u).reqs none 0)
    have h2 : ∀ (l : List ReqBeat) (o : Option (BitVec 64)), (reqTxns o l).length = l.length := by
      intro l
      induction l with
      | nil => intro o; rfl
      | cons x l ih => intro o; cases x <;> simp only [reqTxns, List.length_cons] <;> rw [ih]
    rw [key.2.1 hk]
    exact (h2 _ _).symm
  | master =>
    rw [key.2.2 hk]
    simp

omit hal in
theorem sent_le : ∑ u ∈ Finset.range c.m.nodes, ((st VA SA c.noc va sa i N).sent u).length ≤ flitsOf c (st VA SA c.noc va sa i N) := by
  refine Finset.sum_le_sum fun u hu => ?_
  have hu := Finset.mem_range.1 hu
  obtain ⟨q1, -⟩ := (laws hs hruns).sent u hu _ _ _ _ _ _ ((hinv N (Nat.le_refl _)).good u hu)
  have := q1.length_le
  rw [flits_given] at this
  exact this

omit hal in
theorem in_le : flitsIn (mesh c.m) (envs VA SA c.noc va sa i) N ≤ flitsOf c (st VA SA c.noc va sa i N) := by
  refine Nat.le_trans (Nat.le_of_eq ?_) (sent_le hs hruns hinv)
  unfold flitsIn
  have e1 : ∑ u ∈ Finset.range c.m.nodes, ((st VA SA c.noc va sa i N).sent u).length =
      ∑ u ∈ Finset.range c.m.nodes, (injected (envs VA SA c.noc va sa i) (injLink c.m u) N).length := by
    refine Finset.sum_congr rfl fun u hu => ?_
    have := (hinv N (Nat.le_refl _)).wrote u (Finset.mem_range.1 hu)
    have e : injected (envs VA SA c.noc va sa i) (injLink c.m u) N = _ := this
    rw [e, List.length_map]
  rw [e1, ← Finset.sum_image (s := Finset.range c.m.nodes) (g := injLink c.m)
    (f := fun l => (injected (envs VA SA c.noc va sa i) l N).length)]
  · refine Finset.sum_congr (Finset.ext fun l => ?_) fun _ _ => rfl
    rw [Finset.mem_filter, Finset.mem_image, Finset.mem_range]
    constructor
    · rintro ⟨-, h2⟩
      obtain ⟨x, hx, rfl⟩ := mesh_source.1 h2
      exact ⟨x, Finset.mem_range.2 hx, rfl⟩
    · rintro ⟨x, hx, rfl⟩
      have := mesh_source.2 ⟨x, Finset.mem_range.1 hx, rfl⟩
      exact ⟨this.1, this⟩
  · intro x _ y _ h
    have h : injLink c.m x = injLink c.m y := h
    unfold injLink at h
    omega

theorem progress_le : progress VA SA c va sa i N ≤ (5 * (c.m.n * c.m.k + 1) + 2) * flitsOf c (st VA SA c.noc va sa i N) := by
  have hi := hinv N (Nat.le_refl _)
  have hu : ∀ n < N, Uses (dimOrderMesh c.m rng) (envs VA SA c.noc va sa i n) := fun n _ => Noc.uses hs.noc n
  have h1 := hops_le (mesh_wired hs.k) hs.ok hal hi.ticks
    (ord_guided hs.k (steps_dim hs.n rng) (orders_dim c.m rng) (hi.sends hs.noc (laws hs hruns)) hu)
    (mesh_ranked hs.k (steps_dim hs.n rng) (orders_dim c.m rng) hu) (Nat.le_refl N)
  have h2 := Nat.le_trans h1 (Nat.mul_le_mul_left _ (in_le hs hruns hinv))
  have h3 := sent_le hs hruns hinv
  have h4 : ∑ u ∈ Finset.range c.m.nodes, (node VA SA c va sa i N u).hist.accepted.length ≤
      hops (mesh c.m) (nets VA SA c.noc va sa i) N := by
    refine Finset.sum_le_sum fun u hu => ?_
    have hu := Finset.mem_range.1 hu
    by_cases hk : (c.nc u).kind = .none
    · rw [(bare hi hu hk).1]; exact Nat.zero_le _
    have hsink : (mesh c.m).Sink (ejLink c.m u) := (mesh_sink hs.k).2 ⟨u, hu, rfl⟩
    rw [(held hi hu hk).sink.acc, List.length_map]
    refine Nat.le_trans (flitsAt_prefix hi.ticks (Nat.le_refl _) hsink.1).length_le ?_
    have e : (mesh c.m).outLink u (2 * c.m.n) = ejLink c.m u := mesh_ej (by omega)
    rw [← e]
    exact Finset.single_le_sum (f := fun o => (entered (nets VA SA c.noc va sa i) ((mesh c.m).outLink u o) N).length)
      (fun _ _ => Nat.zero_le _) (Finset.mem_range.2 (Nat.lt_succ_self _))
  have h5 : ∑ u ∈ Finset.range c.m.nodes, work (node VA SA c va sa i N u) ≤
      ∑ u ∈ Finset.range c.m.nodes, 4 * (node VA SA c va sa i N u).hist.accepted.length :=
    Finset.sum_le_sum fun u _ => Nat.sub_le _ _
  have h6 : ∑ u ∈ Finset.range c.m.nodes, ((node VA SA c va sa i N u).reqs.length + (node VA SA c va sa i N u).rsps.length) ≤
      flitsOf c (st VA SA c.noc va sa i N) := by
    refine Finset.sum_le_sum fun u hu => ?_
    rw [beats_le hinv (Nat.le_refl N) (Finset.mem_range.1 hu)]
    exact beats_given _ _ _
  rw [← Finset.mul_sum] at h5
  unfold progress
  rw [Finset.sum_add_distrib, Finset.sum_add_distrib]
  have e : (5 * (c.m.n * c.m.k + 1) + 2) * flitsOf c (st VA SA c.noc va sa i N) =
      5 * ((c.m.n * c.m.k + 1) * flitsOf c (st VA SA c.noc va sa i N)) + 2 * flitsOf c (st VA SA c.noc va sa i N) := by ring
  rw [e]
  omega

/-- There is a period after which everything handed over has been shown. -/
theorem all_shown {n₀ J K B : Nat} (hfair : Fair c N n₀ J K i) (hgr : Grants VA SA (mesh c.m) c.b va sa) (ho : c.b.outSize ≠ 0)
    (hsh : ∀ u < c.m.nodes, (c.nc u).kind ≠ .none → ∀ k, (mmFlits (c.nc u).dataw k : Int) ≤ c.b.buf.perVc)
    (hB : flitsOf c (st VA SA c.noc va sa i N) ≤ B)
    (hN : n₀ + ((5 * (c.m.n * c.m.k + 1) + 2) * B + 1) * (3 * K + 2 * J + 2 * slots (mesh c.m) c.b + 7) ≤ N) :
    ∃ n, n₀ ≤ n ∧ n ≤ N ∧ ∀ u < c.m.nodes, ∀ k ∈ shows (c.nc u).kind,
      (shownAt (st VA SA c.noc va sa i n) u k).length =
        ∑ x ∈ Finset.range c.m.nodes, (givenFor c (st VA SA c.noc va sa i n) x u k).length := by
  obtain ⟨a, h1, h2, h3⟩ := stands_still (f := progress VA SA c va sa i) (fun n m h1 h2 => progress_mono hs hinv h1 h2)
    (Nat.le_trans (progress_le hs hal hruns hinv) (Nat.mul_le_mul_left _ hB)) hN
  have w : Calm VA SA c va sa i rng r N n₀ J K a (3 * K + 2 * J + 2 * slots (mesh c.m) c.b + 7) :=
    ⟨hs, hal, hgr, hsh, hruns, hinv, hfair, h1, h2, h3⟩
  obtain ⟨n, h4, h5, h6⟩ := w.handed (Nat.le_refl _) ho
  exact ⟨n, by omega, by omega, h6⟩

end

/-! ## modules that offer nothing any more -/

/-- A module offers no requests. -/
def SilentReq (e : ReqEvent) : Prop := match e with
  | .edge _ _ off => off = ⟨none, none, none⟩
  | .noc _ => True

/-- A module offers no responses. -/
def SilentRsp (e : RspEvent) : Prop := match e with
  | .edge _ _ off => off = ⟨none, none⟩
  | .noc _ => True

theorem req_off (c : MmCfg) (s : ReqState) (node adapter : Bool) (off : ReqOffer) :
    (reqStep c s (.edge node adapter off)).1.off = off := by
  rw [reqStep_edge]; cases reqTriggered s (reqMid c s node adapter off) <;> rfl

theorem rsp_off (c : MmCfg) (s : RspState) (node adapter : Bool) (off : RspOffer) :
    (rspStep c s (.edge node adapter off)).1.off = off := by
  rw [rspStep_edge]; cases rspTriggered s (rspMid c s node adapter off) <;> rfl

theorem req_silent (c : MmCfg) (es : List ReqEvent) : ∀ s : ReqState, (∀ e ∈ es, SilentReq e) →
    (s.off = ⟨none, none, none⟩ → (reqRun c s es).2.1 = []) ∧
    ((s.off = ⟨none, none, none⟩ ∨ ∃ n a off, .edge n a off ∈ es) → (reqRun c s es).1.off = ⟨none, none, none⟩) := by
  induction es with
  | nil =>
    intro s _
    exact ⟨fun _ => rfl, fun h => h.resolve_right (by rintro ⟨_, _, _, h⟩; cases h)⟩
  | cons e es ih =>
    intro s h
    obtain ⟨i1, i2⟩ := ih (reqStep c s e).1 fun e' he => h e' (by simp [he])
    have h0 := h e (by simp)
    cases e with
    | edge n a off =>
      have ho : (reqStep c s (.edge n a off)).1.off = ⟨none, none, none⟩ := (req_off c s n a off).trans h0
      refine ⟨fun hs => ?_, fun _ => i2 (.inl ho)⟩
      show reqHandshakes s (.edge n a off) ++ _ = []
      rw [i1 ho, List.append_nil]
      cases n <;> simp [reqHandshakes, hs]
    | noc a =>
      have ho : (reqStep c s (.noc a)).1.off = s.off := rfl
      refine ⟨fun hs => ?_, fun hs => ?_⟩
      · show [] ++ _ = []
        rw [i1 (ho.trans hs)]; rfl
      · refine i2 (hs.imp (fun e => ho.trans e) ?_)
        rintro ⟨n, b, off, hm⟩
        exact ⟨n, b, off, (List.mem_cons.1 hm).resolve_left (by simp)⟩

theorem rsp_silent (c : MmCfg) (es : List RspEvent) : ∀ s : RspState, (∀ e ∈ es, SilentRsp e) →
    (s.off = ⟨none, none⟩ → (rspRun c s es).2.1 = []) ∧
    ((s.off = ⟨none, none⟩ ∨ ∃ n a off, .edge n a off ∈ es) → (rspRun c s es).1.off = ⟨none, none⟩) := by
  induction es with
  | nil =>
    intro s _
    exact ⟨fun _ => rfl, fun h => h.resolve_right (by rintro ⟨_, _, _, h⟩; cases h)⟩
  | cons e es ih =>
    intro s h
    obtain ⟨i1, i2⟩ := ih (rspStep c s e).1 fun e' he => h e' (by simp [he])
    have h0 := h e (by simp)
    cases e with
    | edge n a off =>
      have ho : (rspStep c s (.edge n a off)).1.off = ⟨none, none⟩ := (rsp_off c s n a off).trans h0
      refine ⟨fun hs => ?_, fun _ => i2 (.inl ho)⟩
      show rspHandshakes s (.edge n a off) ++ _ = []
      rw [i1 ho, List.append_nil]
      cases n <;> simp [rspHandshakes, hs]
    | noc a =>
      have ho : (rspStep c s (.noc a)).1.off = s.off := rfl
      refine ⟨fun hs => ?_, fun hs => ?_⟩
      · show [] ++ _ = []
        rw [i1 (ho.trans hs)]; rfl
      · refine i2 (hs.imp (fun e => ho.trans e) ?_)
        rintro ⟨n, b, off, hm⟩
        exact ⟨n, b, off, (List.mem_cons.1 hm).resolve_left (by simp)⟩

/-- Nothing is offered at a node. -/
def NoOffer (k : Kind) (s : Node) : Prop :=
  (k = .slave → s.req.off = ⟨none, none, none⟩) ∧ (k = .master → s.rsp.off = ⟨none, none⟩)

/-- A period in which a module offers nothing. -/
theorem step_silent {b : BufCfg} {nc : NodeCfg} {j : NodeIn} {l : List Nat} {arrive : Option BsFlit} {s s' : Node} {out : List BsFlit}
    (h : nodeStep b nc j l arrive s = .ok (s', out)) (hj : Offerless j) :
    (NoOffer nc.kind s → s'.reqs = s.reqs ∧ s'.rsps = s.rsps) ∧
    ((NoOffer nc.kind s ∨ ∃ x, x ∈ clocksOf nc.kind j) → NoOffer nc.kind s') := by
  unfold nodeStep at h
  cases hk : nc.kind with
  | none =>
    rw [hk] at h
    cases h
    exact ⟨fun _ => ⟨rfl, rfl⟩, fun _ => ⟨fun e => (by cases e), fun e => (by cases e)⟩⟩
  | slave =>
    rw [hk] at h
    dsimp only at h
    split at h
    · cases h
    · rename_i accept buf hb
      split at h
      · cases h
      · cases h
        obtain ⟨q1, q2⟩ := req_silent nc.mm (reqEvents j accept) s.req (by
          intro e he
          unfold reqEvents at he
          rcases List.mem_append.1 he with he | he
          · obtain ⟨x, hx, rfl⟩ := List.mem_map.1 he
            exact hj.1 x (List.mem_append_left _ hx)
          · rcases List.mem_cons.1 he with rfl | he
            · trivial
            · obtain ⟨x, hx, rfl⟩ := List.mem_map.1 he
              exact hj.1 x (List.mem_append_right _ hx))
        refine ⟨fun h0 => ⟨?_, rfl⟩, fun h0 => ⟨fun _ => ?_, fun e => (by cases e)⟩⟩
        · show s.reqs ++ _ = s.reqs
          rw [q1 (h0.1 rfl), List.append_nil]
        · refine q2 (h0.imp (fun h => h.1 rfl) ?_)
          rintro ⟨x, hx⟩
          unfold clocksOf at hx
          obtain ⟨y, hy, rfl⟩ := List.mem_map.1 hx
          refine ⟨y.1, y.2.1, y.2.2, ?_⟩
          unfold reqEvents
          rcases List.mem_append.1 hy with hy | hy
          · exact List.mem_append_left _ (List.mem_map.2 ⟨y, hy, rfl⟩)
          · exact List.mem_append_right _ (List.mem_cons_of_mem _ (List.mem_map.2 ⟨y, hy, rfl⟩))
  | master =>
    rw [hk] at h
    dsimp only at h
    split at h
    · cases h
    · rename_i accept buf hb
      split at h
      · cases h
      · cases h
        obtain ⟨q1, q2⟩ := rsp_silent nc.mm (rspEvents j accept) s.rsp (by
          intro e he
          unfold rspEvents at he
          rcases List.mem_append.1 he with he | he
          · obtain ⟨x, hx, rfl⟩ := List.mem_map.1 he
            exact hj.2 x (List.mem_append_left _ hx)
          · rcases List.mem_cons.1 he with rfl | he
            · trivial
            · obtain ⟨x, hx, rfl⟩ := List.mem_map.1 he
              exact hj.2 x (List.mem_append_right _ hx))
        refine ⟨fun h0 => ⟨rfl, ?_⟩, fun h0 => ⟨fun e => (by cases e), fun _ => ?_⟩⟩
        · show s.rsps ++ _ = s.rsps
          rw [q1 (h0.2 rfl), List.append_nil]
        · refine q2 (h0.imp (fun h => h.2 rfl) ?_)
          rintro ⟨x, hx⟩
          unfold clocksOf at hx
          obtain ⟨y, hy, rfl⟩ := List.mem_map.1 hx
          refine ⟨y.1, y.2.1, y.2.2, ?_⟩
          unfold rspEvents
          rcases List.mem_append.1 hy with hy | hy
          · exact List.mem_append_left _ (List.mem_map.2 ⟨y, hy, rfl⟩)
          · exact List.mem_append_right _ (List.mem_cons_of_mem _ (List.mem_map.2 ⟨y, hy, rfl⟩))

/-- Nothing more is handed over. -/
theorem nothing_new {N n₀ J K : Nat} (hinv : ∀ n ≤ N, Holds VA SA c va sa i n) (hfair : Fair c N n₀ J K i)
    (hoff : ∀ k, n₀ ≤ k → k < N → ∀ u < c.m.nodes, Offerless ((i k).ad u)) {n : Nat} (h1 : n₀ + J ≤ n) (h2 : n ≤ N)
    {u : Nat} (hu : u < c.m.nodes) :
    (node VA SA c va sa i n u).reqs = (node VA SA c va sa i (n₀ + J) u).reqs ∧
    (node VA SA c va sa i n u).rsps = (node VA SA c va sa i (n₀ + J) u).rsps := by
  by_cases hk : (c.nc u).kind = .none
  · rw [(bare (hinv n h2) hu hk).1, (bare (hinv (n₀ + J) (by omega)) hu hk).1]; exact ⟨rfl, rfl⟩
  obtain ⟨k, k1, k2, x, hx, -⟩ := hfair.source n₀ (Nat.le_refl _) (by omega) u hu hk
  have key : ∀ d, k + 1 + d ≤ N → NoOffer (c.nc u).kind (node VA SA c va sa i (k + 1 + d) u) ∧
      (node VA SA c va sa i (k + 1 + d) u).reqs = (node VA SA c va sa i (k + 1) u).reqs ∧
      (node VA SA c va sa i (k + 1 + d) u).rsps = (node VA SA c va sa i (k + 1) u).rsps := by
    intro d
    induction d with
    | zero =>
      intro hd
      obtain ⟨out, hstep, -⟩ := step_of (hinv k (by omega)) (hinv (k + 1) (by omega)) hu
      exact ⟨(step_silent hstep (hoff k k1 (by omega) u hu)).2 (.inr ⟨x, hx⟩), rfl, rfl⟩
    | succ d ih =>
      intro hd
      obtain ⟨g1, g2, g3⟩ := ih (by omega)
      obtain ⟨out, hstep, -⟩ := step_of (hinv (k + 1 + d) (by omega)) (hinv (k + 1 + d + 1) (by omega)) hu
      obtain ⟨s1, s2⟩ := step_silent hstep (hoff (k + 1 + d) (by omega) (by omega) u hu)
      exact ⟨s2 (.inl g1), (s1 g1).1.trans g2, (s1 g1).2.trans g3⟩
  obtain ⟨d, rfl⟩ : ∃ d, n = k + 1 + d := ⟨n - (k + 1), by omega⟩
  obtain ⟨d', e⟩ : ∃ d', n₀ + J = k + 1 + d' := ⟨n₀ + J - (k + 1), by omega⟩
  rw [e]
  obtain ⟨-, a1, a2⟩ := key d h2
  obtain ⟨-, b1, b2⟩ := key d' (by omega)
  exact ⟨a1.trans b1.symm, a2.trans b2.symm⟩

end RadSim.MmNoc
