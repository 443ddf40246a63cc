import Verif.Model.Noc
import Verif.Lemmas.AxisNocOrder

/-! # A run of a NoC with adapters of any kind -/

namespace RadSim.Noc

open Router (Flit Hop)
open Routing (Shape Rf dimOrderMesh vcOk)
open Channel (intMax)
open Net
open AxisNoc (toNet toBs clsOf guided_data count_toBs count_toNet toList_flatten)

/-- A mesh with dimension-order routing, where `rng` gives the virtual channels of a type. -/
structure Setup {ι S ε : Type} (c : Cfg ι S ε) (rng : Nat → Nat × Nat) : Prop where
  k : 0 < c.m.k
  n : 0 < c.m.n
  ok : c.b.Ok
  rf : c.rf = dimOrderMesh c.m rng
  vcs : ∀ t, (rng t).2 < c.b.vcs
  few : ∀ t, (rng (clsOf t)).1 ≤ (rng (clsOf t)).2

/-- The time is in the range of the type the channels use. -/
def InTime {ρ ρ' ι : Type} (i : In ρ ρ' ι) : Prop := 0 ≤ i.now ∧ i.now + 1 ≤ intMax

/-- A packet as adapters write it: one head, one tail, all flits with the same fields and on the first channel of their type,
to a node that takes it. -/
structure Made (m : Shape) (rng : Nat → Nat × Nat) (Wel : Nat → FlitType → Nat → Prop) (p : List BsFlit) : Prop where
  packets : Packets BsFlit.head BsFlit.tail (fun f => (f.pid, f.dest, f.type, f.destInterface)) p
  closed : MmSink.Closed BsFlit.tail p
  vc : ∀ f ∈ p, f.vc = (rng (clsOf f.type)).1
  wel : ∀ f ∈ p, f.dest < m.nodes ∧ Wel f.dest f.type f.destInterface

/-- What a node is handed by the NoC. -/
structure Comes (b : Router.Cfg) (rng : Nat → Nat × Nat) (Wel : Nat → FlitType → Nat → Prop) (u : Nat) (l : List BsFlit) :
    Prop where
  vcs : ∀ f ∈ l, f.vc < b.vcs
  wel : ∀ f ∈ l, Wel u f.type f.destInterface
  range : ∀ f ∈ l, (rng (clsOf f.type)).1 ≤ f.vc ∧ f.vc ≤ (rng (clsOf f.type)).2
  packets : ∀ v, Packets BsFlit.head BsFlit.tail (fun f => (f.type, f.destInterface)) (l.filter fun f => f.vc = v)

/-- What the adapters keep to in the first `N` periods. `Good` relates the state of a node after `n` periods to the flits
written, the credits read, the flits read and the credits returned; `pks` are the packets a node has been asked to send. -/
structure Laws {ι S ε : Type} (c : Cfg ι S ε) (rng : Nat → Nat × Nat) (Wel : Nat → FlitType → Nat → Prop) (N : Nat)
    (inp : Nat → Nat → ι) (pks : Nat → S → List (List BsFlit))
    (Good : Nat → Nat → S → List BsFlit → List Nat → List BsFlit → List Nat → Prop) : Prop where
  init : ∀ u < c.m.nodes, Good u 0 (c.ad.init u) [] [] [] []
  sent : ∀ u < c.m.nodes, ∀ n s se cr ac re, Good u n s se cr ac re →
    se <+: (pks u s).flatten ∧ ∀ p ∈ pks u s, Made c.m rng Wel p
  occ : ∀ u < c.m.nodes, ∀ n s se cr ac re, Good u n s se cr ac re → ∀ v,
    ((se.countP fun g => g.vc == v : Nat) : Int) ≤ c.b.buf.perVc + (cr.count v : Nat)
  ret : ∀ u < c.m.nodes, ∀ n s se cr ac re, Good u n s se cr ac re → ∀ v, re.count v ≤ ac.countP fun g => g.vc == v
  step : ∀ u < c.m.nodes, ∀ n < N, ∀ s se cr ac re, Good u n s se cr ac re → ∀ l a, l.Nodup →
    (∀ v, (cr ++ l).count v ≤ se.countP fun g => g.vc == v) → Comes c.b rng Wel u (ac ++ a.toList) →
    (∀ v, (((ac ++ a.toList).countP fun g => g.vc == v : Nat) : Int) ≤ c.b.buf.perVc + (re.count v : Nat)) →
    ∃ s' out, c.ad.step u (inp n u) l a s = .ok (s', out) ∧ out.length ≤ 1 ∧
      Good u (n + 1) s' (se ++ out) (cr ++ l) (ac ++ a.toList) (re ++ (c.ad.credit s).toList)

variable {σ τ ρ ρ' ι S ε : Type}

section
variable (VA : Alloc.Cls σ ρ) (SA : Alloc.Cls τ ρ') (c : Cfg ι S ε) (va : Nat → σ) (sa : Nat → τ) (i : Nat → In ρ ρ' ι)

/-- The state after `n` periods when nothing has failed. -/
def st (n : Nat) : Sys σ τ S :=
  match after VA SA c va sa i n with
  | .ok x => x
  | .error _ => .init c va sa

/-- The network after `n` periods. -/
def nets (n : Nat) : Net.S (Msg BsFlit) σ τ := (st VA SA c va sa i n).net

/-- What the network finds in period `n`, with the flits written in it. -/
def envs (n : Nat) : Net.Env (Msg BsFlit) ρ ρ' :=
  { env c (i n) (st VA SA c va sa i n) with inject := (nets VA SA c va sa i (n + 1)).fIn }

/-- What holds after `n` periods. -/
structure Inv (Good : Nat → Nat → S → List BsFlit → List Nat → List BsFlit → List Nat → Prop) (n : Nat) : Prop where
  ok : after VA SA c va sa i n = .ok (st VA SA c va sa i n)
  ticks : Ticks VA SA (mesh c.m) c.b va sa n (envs VA SA c va sa i) (nets VA SA c va sa i)
  good : ∀ u < c.m.nodes, Good u n ((st VA SA c va sa i n).ad u) ((st VA SA c va sa i n).sent u)
    (creditsAt (nets VA SA c va sa i) (injLink c.m u) (n + 1)).flatten
    ((flitsAt (nets VA SA c va sa i) (ejLink c.m u) (n + 1)).map toBs)
    (credited (envs VA SA c va sa i) (ejLink c.m u) n).flatten
  wrote : ∀ u < c.m.nodes,
    injected (envs VA SA c va sa i) (injLink c.m u) n = ((st VA SA c va sa i n).sent u).map (toNet u)

end

/-- What the flits of a packet have in common. -/
def keyOf (d : Msg BsFlit) : Nat × Nat × Nat × FlitType × Nat := (d.src, d.dest, d.cls, d.load.type, d.load.destInterface)

section
variable {m : Shape} {rng : Nat → Nat × Nat} {Wel : Nat → FlitType → Nat → Prop}

/-- All flits of a packet have the same fields. -/
theorem Made.same {p : List BsFlit} (h : Made m rng Wel p) {f g : BsFlit} (hf : f ∈ p) (hg : g ∈ p) :
    (f.pid, f.dest, f.type, f.destInterface) = (g.pid, g.dest, g.type, g.destInterface) := by
  obtain ⟨ini, last, rfl, -, ho⟩ := h.closed
  have key : ∀ (l : List BsFlit) (y : BsFlit), (∀ f ∈ l, f.tail = false) →
      Packets BsFlit.head BsFlit.tail (fun f => (f.pid, f.dest, f.type, f.destInterface)) (l ++ [y]) →
      ∀ f ∈ l ++ [y], (f.pid, f.dest, f.type, f.destInterface) = (y.pid, y.dest, y.type, y.destInterface) := by
    intro l
    induction l using List.reverseRecOn with
    | nil =>
      intro y _ _ f hf
      rw [List.mem_singleton.1 hf]
    | append_singleton l z ih =>
      intro y hl hp f hf
      obtain ⟨h1, h2⟩ := packets_snoc.1 hp
      have hz : (z.pid, z.dest, z.type, z.destInterface) = (y.pid, y.dest, y.type, y.destInterface) :=
        ((Fits.head_of_open (a := z) (by simp) (hl z (by simp)) h2).2).symm
      rcases List.mem_append.1 hf with hf | hf
      · rw [ih z (fun f hf => hl f (by simp [hf])) h1 f hf, hz]
      · rw [List.mem_singleton.1 hf]
  rw [key ini last ho h.packets f hf, key ini last ho h.packets g hg]

theorem Made.ne {p : List BsFlit} (h : Made m rng Wel p) : p ≠ [] := by
  obtain ⟨ini, last, rfl, -⟩ := h.closed
  simp

theorem Made.net {p : List BsFlit} (h : Made m rng Wel p) (u : Nat) {κ : Type} {key : Flit (Msg BsFlit) → κ}
    (hk : ∀ f g : BsFlit, (f.pid, f.dest, f.type, f.destInterface) = (g.pid, g.dest, g.type, g.destInterface) →
      key (toNet u f) = key (toNet u g)) :
    Packets Flit.head Flit.tail key (p.map (toNet u)) ∧ Closed Flit.tail (p.map (toNet u)) := by
  refine ⟨⟨?_, ?_⟩, ?_⟩
  · intro a ha
    have h1 := h.packets.1
    cases p with
    | nil => cases ha
    | cons f p =>
      simp only [List.map_cons, List.head?_cons, Option.mem_def, Option.some.injEq] at ha
      subst ha
      exact h1 f rfl
  · rw [List.isChain_map]
    refine h.packets.2.imp fun a b hab => ⟨hab.1, fun ht => ?_⟩
    exact hk _ _ (hab.2 ht)
  · intro a ha
    obtain ⟨ini, last, rfl, hl, -⟩ := h.closed
    simp at ha
    rw [← ha]
    exact hl

/-- The packets of a sequence on a channel. -/
theorem onVc_flatten {ps : List (List BsFlit)} (hp : ∀ p ∈ ps, Made m rng Wel p) (u v : Nat) :
    Net.onVc (ps.flatten.map (toNet u)) v =
      ((ps.filter fun p => p.head?.any fun f => f.vc = v).map (List.map (toNet u))).flatten := by
  induction ps with
  | nil => rfl
  | cons p ps ih =>
    have hm := hp p (by simp)
    have hv : ∀ f ∈ p, ∀ g ∈ p, f.vc = g.vc := by
      intro f hf g hg
      have := hm.same hf hg
      simp only [Prod.mk.injEq] at this
      rw [hm.vc f hf, hm.vc g hg, this.2.2.1]
    rw [List.flatten_cons, List.map_append]
    unfold Net.onVc at ih ⊢
    rw [List.filter_append, ih fun q hq => hp q (by simp [hq]), List.filter_cons]
    cases p with
    | nil => exact absurd rfl hm.ne
    | cons f p =>
      by_cases hf : f.vc = v
      · rw [List.filter_eq_self.2]
        · simp [hf]
        · intro g' hg'
          obtain ⟨g, hg, rfl⟩ := List.mem_map.1 hg'
          have := hv g hg f (by simp)
          simp [toNet, this, hf]
      · rw [List.filter_eq_nil_iff.2]
        · simp [hf]
        · intro g' hg'
          obtain ⟨g, hg, rfl⟩ := List.mem_map.1 hg'
          have := hv g hg f (by simp)
          simp [toNet, this, hf]

theorem packets_flatten {ps : List (List BsFlit)} (hp : ∀ p ∈ ps, Made m rng Wel p) (u v : Nat) {κ : Type}
    {key : Flit (Msg BsFlit) → κ}
    (hk : ∀ f g : BsFlit, (f.pid, f.dest, f.type, f.destInterface) = (g.pid, g.dest, g.type, g.destInterface) →
      key (toNet u f) = key (toNet u g)) {sent : List BsFlit} (hs : sent <+: ps.flatten) :
    Packets Flit.head Flit.tail key (Net.onVc (sent.map (toNet u)) v) := by
  have h1 : Packets Flit.head Flit.tail key (Net.onVc (ps.flatten.map (toNet u)) v) := by
    rw [onVc_flatten hp, ← List.flatMap_def]
    exact packets_flatMap fun p h => (hp p (List.mem_of_mem_filter h)).net u hk
  obtain ⟨z, hz⟩ := (hs.map (toNet u)).filter fun f => decide (f.vc = v)
  unfold Net.onVc at h1 ⊢
  rw [← hz] at h1
  exact packets_prefix h1

end

variable {VA : Alloc.Cls σ ρ} {SA : Alloc.Cls τ ρ'} {c : Cfg ι S ε} {va : Nat → σ} {sa : Nat → τ} {i : Nat → In ρ ρ' ι}
  {rng : Nat → Nat × Nat} {Wel : Nat → FlitType → Nat → Prop} {N n : Nat} {pks : Nat → S → List (List BsFlit)}
  {Good : Nat → Nat → S → List BsFlit → List Nat → List BsFlit → List Nat → Prop}

theorem uses (hs : Setup c rng) (n : Nat) : Uses (dimOrderMesh c.m rng) (envs VA SA c va sa i n) := by
  intro r p f
  refine ⟨(i n).rnd r p f, ?_⟩
  rw [← hs.rf]
  rfl

theorem legal (hs : Setup c rng) (ht : InTime (i n)) : Legal (mesh c.m) c.b (envs VA SA c va sa i n) :=
  mesh_legal (steps_dim hs.n rng) hs.vcs (uses hs n) ht.1 ht.2

section
variable {inp : Nat → Nat → ι}

/-- A flit written belongs to a packet. -/
theorem Inv.flit (hl : Laws c rng Wel N inp pks Good) (h : Inv VA SA c va sa i Good n) {u : Nat} (hu : u < c.m.nodes)
    {f : Flit (Msg BsFlit)} (hf : f ∈ injected (envs VA SA c va sa i) (injLink c.m u) n) :
    ∃ p ∈ pks u ((st VA SA c va sa i n).ad u), Made c.m rng Wel p ∧ ∃ g ∈ p, f = toNet u g := by
  rw [h.wrote u hu] at hf
  obtain ⟨g, hg, rfl⟩ := List.mem_map.1 hf
  obtain ⟨h1, h2⟩ := hl.sent u hu _ _ _ _ _ _ (h.good u hu)
  obtain ⟨p, hp, hgp⟩ := List.mem_flatten.1 (h1.subset hg)
  exact ⟨p, hp, h2 p hp, g, hgp, rfl⟩

theorem Inv.packets (hl : Laws c rng Wel N inp pks Good) (h : Inv VA SA c va sa i Good n) {κ : Type}
    {key : Nat → Flit (Msg BsFlit) → κ}
    (hk : ∀ u, ∀ f g : BsFlit, (f.pid, f.dest, f.type, f.destInterface) = (g.pid, g.dest, g.type, g.destInterface) →
      key u (toNet u f) = key u (toNet u g)) {u : Nat} (hu : u < c.m.nodes) (v : Nat) :
    Packets Flit.head Flit.tail (key u) (Net.onVc (injected (envs VA SA c va sa i) (injLink c.m u) n) v) := by
  rw [h.wrote u hu]
  obtain ⟨h1, h2⟩ := hl.sent u hu _ _ _ _ _ _ (h.good u hu)
  exact packets_flatten h2 u v (hk u) h1

theorem Inv.keys (hl : Laws c rng Wel N inp pks Good) (h : Inv VA SA c va sa i Good n) (l : Nat) (hl' : (mesh c.m).Source l)
    (v : Nat) :
    Packets Flit.head Flit.tail (fun f => keyOf f.data) (Net.onVc (injected (envs VA SA c va sa i) l n) v) := by
  obtain ⟨u, hu, rfl⟩ := mesh_source.1 hl'
  refine h.packets hl (key := fun _ f => keyOf f.data) (fun u f g e => ?_) hu v
  simp only [Prod.mk.injEq] at e
  simp only [keyOf, toNet, e]

theorem Inv.sends (hs : Setup c rng) (hl : Laws c rng Wel N inp pks Good) (h : Inv VA SA c va sa i Good n) :
    Sends c.m rng n (envs VA SA c va sa i) where
  heads u hu f hf _ := by
    obtain ⟨p, -, hm, g, hg, rfl⟩ := h.flit hl hu hf
    refine ⟨rfl, (hm.wel g hg).1, ?_, rfl⟩
    show (rng (clsOf g.type)).1 ≤ g.vc ∧ g.vc ≤ (rng (clsOf g.type)).2
    rw [hm.vc g hg]
    exact ⟨Nat.le_refl _, hs.few _⟩
  same u hu v := h.packets hl (key := fun _ f => (f.data.src, f.data.dest)) (fun u f g e => by
    simp only [Prod.mk.injEq] at e
    simp only [toNet, e]) hu v

/-- What is known of the contents of a flit on its way. -/
def Known (m : Shape) (Wel : Nat → FlitType → Nat → Prop) (d : Msg BsFlit) : Prop :=
  d.src < m.nodes ∧ d.cls = clsOf d.load.type ∧ Wel d.dest d.load.type d.load.destInterface

theorem Inv.guided (hs : Setup c rng) (hl : Laws c rng Wel N inp pks Good) (h : Inv VA SA c va sa i Good n) :
    Guided (mesh c.m) n (envs VA SA c va sa i) fun l f => mayTrail c.m rng l f ∧ Known c.m Wel f.data :=
  guided_data (trail_guided hs.k hs.n (h.sends hs hl) fun k _ => uses hs k) (P := Known c.m Wel)
    (fun l hl' f hf => by
      obtain ⟨u, hu, rfl⟩ := mesh_source.1 hl'
      obtain ⟨p, -, hm, g, hg, rfl⟩ := h.flit hl hu hf
      exact ⟨hu, rfl, (hm.wel g hg).2⟩)

/-- What is known of a flit that a node has read or is about to read. -/
theorem Inv.reads (hs : Setup c rng) (ha : Allocs VA SA (mesh c.m) c.b va sa) (hl : Laws c rng Wel N inp pks Good)
    (h : Inv VA SA c va sa i Good n) {u : Nat} (hu : u < c.m.nodes) {f : Flit (Msg BsFlit)}
    (hf : f ∈ entered (nets VA SA c va sa i) (ejLink c.m u) n) :
    f.data.dest = u ∧ Known c.m Wel f.data ∧ (rng f.data.cls).1 ≤ f.vc ∧ f.vc ≤ (rng f.data.cls).2 := by
  have hsink : (mesh c.m).Sink (ejLink c.m u) := (mesh_sink hs.k).2 ⟨u, hu, rfl⟩
  obtain ⟨g, -, -, hv, hk, hm, hd⟩ := head_of (mesh_wired hs.k) hs.ok ha h.ticks (h.guided hs hl) (key := keyOf)
    (h.keys hl) (Nat.le_refl n) hsink.1 hf
  have h1 := hk
  simp only [keyOf, Prod.mk.injEq] at h1
  have h2 : vcOk rng (pkt g) := hm.1.2.2.1
  unfold vcOk pkt at h2
  dsimp only at h2
  rw [h1.2.2.1, hv] at h2
  refine ⟨by rw [← h1.2.1]; exact mayMesh_link hs.k hm.1, ?_, h2⟩
  unfold Known at hd ⊢
  rw [h1.1, h1.2.1, h1.2.2.1, h1.2.2.2.1, h1.2.2.2.2] at hd
  exact hd

theorem comes_of (hs : Setup c rng) (ha : Allocs VA SA (mesh c.m) c.b va sa) (hl : Laws c rng Wel N inp pks Good)
    (h : Inv VA SA c va sa i Good n) {u : Nat} (hu : u < c.m.nodes) {l : List (Flit (Msg BsFlit))}
    (hpre : l <+: entered (nets VA SA c va sa i) (ejLink c.m u) n) (hv : ∀ f ∈ l, f.vc < c.b.vcs) :
    Comes c.b rng Wel u (l.map toBs) := by
  have hsink : (mesh c.m).Sink (ejLink c.m u) := (mesh_sink hs.k).2 ⟨u, hu, rfl⟩
  refine ⟨?_, ?_, ?_, fun v => ?_⟩
  · intro b hb
    obtain ⟨f, hf, rfl⟩ := List.mem_map.1 hb
    exact hv f hf
  · intro b hb
    obtain ⟨f, hf, rfl⟩ := List.mem_map.1 hb
    obtain ⟨h1, h2, -⟩ := h.reads hs ha hl hu (hpre.subset hf)
    have := h2.2.2
    rw [h1] at this
    exact this
  · intro b hb
    obtain ⟨f, hf, rfl⟩ := List.mem_map.1 hb
    obtain ⟨h1, h2, h3⟩ := h.reads hs ha hl hu (hpre.subset hf)
    rw [h2.2.1] at h3
    exact h3
  · have h1 := keyed (mesh_wired hs.k) hs.ok ha h.ticks (h.keys hl) n (Nat.le_refl n) _ hsink.1 v
    obtain ⟨z, hz⟩ := hpre.filter fun f => decide (f.vc = v)
    unfold Net.onVc at h1
    rw [← hz] at h1
    have h2 := packets_prefix h1
    have e : (l.map toBs).filter (fun f => decide (f.vc = v)) = (l.filter fun f => decide (f.vc = v)).map toBs := by
      rw [List.filter_map]
      rfl
    rw [e]
    refine ⟨?_, ?_⟩
    · intro a ha'
      have := h2.1
      generalize l.filter _ = q at ha' this
      cases q with
      | nil => cases ha'
      | cons f q =>
        simp only [List.map_cons, List.head?_cons, Option.mem_def, Option.some.injEq] at ha'
        subst ha'
        exact this f rfl
    · rw [List.isChain_map]
      refine h2.2.imp fun a b hab => ⟨hab.1, fun ht => ?_⟩
      have := hab.2 ht
      simp only [keyOf, Prod.mk.injEq] at this
      simp only [toBs, this]

theorem inv_init (hs : Setup c rng) (hl : Laws c rng Wel N inp pks Good) : Inv VA SA c va sa i Good 0 where
  ok := rfl
  ticks :=
    { start := rfl
      legal := fun n hn => absurd hn (Nat.not_lt_zero _)
      step := fun n hn => absurd hn (Nat.not_lt_zero _)
      nodes := fun n hn => by
        obtain rfl : n = 0 := by omega
        refine ⟨fun l _ f hf => (by cases hf), fun l _ v => packets_nil, fun l _ v => ?_, fun l _ c hc => (by cases hc),
          fun l _ v => Nat.zero_le _⟩
        have := hs.ok.buf.perVc_pos
        simp [injected, Net.onVc, Router.upto]
        omega }
  good u hu := hl.init u hu
  wrote u hu := rfl

/-! ## a period -/

theorem st_succ {x : Sys σ τ S} (h : after VA SA c va sa i n = .ok (st VA SA c va sa i n))
    (hx : step VA SA c (i n) (st VA SA c va sa i n) = .ok x) :
    after VA SA c va sa i (n + 1) = .ok x ∧ st VA SA c va sa i (n + 1) = x := by
  have : after VA SA c va sa i (n + 1) = .ok x := by
    unfold after
    rw [h]
    exact hx
  exact ⟨this, by unfold st; rw [this]⟩

theorem step_parts {x : Sys σ τ S} {j : In ρ ρ' ι} {net : Net.S (Msg BsFlit) σ τ}
    (h1 : Net.tick VA SA (mesh c.m) c.b (env c j x) x.net = .ok net)
    (h2 : ∀ u < c.m.nodes, ∃ y, nodePart c j net x u = .ok y) :
    ∃ out : Nat → S × List BsFlit, (∀ u < c.m.nodes, nodePart c j net x u = .ok (out u)) ∧
      step VA SA c j x = .ok (Sys.mk (written c out net) (fun u => (out u).1) (fun u => x.sent u ++ (out u).2)) := by
  obtain ⟨out, ho⟩ := each_exists (d := (x.ad 0, [])) h2
  refine ⟨out, (each_ok ho).1, ?_⟩
  unfold step
  rw [h1]
  dsimp only
  rw [ho]

theorem node_part {x : Sys σ τ S} {j : In ρ ρ' ι} {net : Net.S (Msg BsFlit) σ τ} {u : Nat} {y : S × List BsFlit}
    (h : nodePart c j net x u = .ok y) :
    c.ad.step u (j.ad u) ((net.cOut (injLink c.m u)).getD []) ((net.fOut (ejLink c.m u)).map toBs) (x.ad u) = .ok y := by
  unfold nodePart at h
  split at h
  · cases h
  · rename_i hr; cases h; exact hr

theorem written_net (out : Nat → S × List BsFlit) (net : Net.S (Msg BsFlit) σ τ) :
    written c out net = { net with fIn := fun l =>
      if l < (mesh c.m).links ∧ (mesh c.m).driver l = none then (written c out net).fIn l else net.fIn l } := by
  unfold written
  congr 1
  funext l
  by_cases h : injLink c.m 0 ≤ l ∧ l < injLink c.m 0 + c.m.nodes
  · have hsrc : (mesh c.m).Source l :=
      mesh_source.2 ⟨l - injLink c.m 0, by omega, by unfold injLink at h ⊢; omega⟩
    simp [h, hsrc.1, (driver_none hsrc.1).2 hsrc]
  · simp [h]

theorem inv_step (hs : Setup c rng) (ha : Allocs VA SA (mesh c.m) c.b va sa)
    (hl : Laws c rng Wel N (fun n => (i n).ad) pks Good) (h : Inv VA SA c va sa i Good n) (hn : n < N) (ht : InTime (i n)) :
    Inv VA SA c va sa i Good (n + 1) := by
  have hw := mesh_wired (s := c.m) hs.k
  obtain ⟨s', hs'⟩ := never_fails hw hs.ok ha h.ticks (legal hs ht)
  obtain ⟨net, hnet⟩ : ∃ net, Net.tick VA SA (mesh c.m) c.b (env c (i n) (st VA SA c va sa i n))
      (st VA SA c va sa i n).net = .ok net := ⟨_, tick_inject hs' fun _ => none⟩
  clear hs' s'
  have hsrc : ∀ u < c.m.nodes, (mesh c.m).Source (injLink c.m u) := fun u hu => mesh_source.2 ⟨u, hu, rfl⟩
  have hsink : ∀ u < c.m.nodes, (mesh c.m).Sink (ejLink c.m u) := fun u hu => (mesh_sink hs.k).2 ⟨u, hu, rfl⟩
  have hol : ∀ a : Option (Flit (Msg BsFlit)), (a.map toBs).toList = a.toList.map toBs := fun a => by cases a <;> rfl
  have hS : ∀ u < c.m.nodes, ∃ s' out, c.ad.step u ((i n).ad u) ((net.cOut (injLink c.m u)).getD [])
        ((net.fOut (ejLink c.m u)).map toBs) ((st VA SA c va sa i n).ad u) = .ok (s', out) ∧ out.length ≤ 1 ∧
      Good u (n + 1) s' ((st VA SA c va sa i n).sent u ++ out)
        ((creditsAt (nets VA SA c va sa i) (injLink c.m u) (n + 1)).flatten ++ (net.cOut (injLink c.m u)).getD [])
        ((flitsAt (nets VA SA c va sa i) (ejLink c.m u) (n + 1) ++ (net.fOut (ejLink c.m u)).toList).map toBs)
        ((credited (envs VA SA c va sa i) (ejLink c.m u) n).flatten ++ (c.ad.credit ((st VA SA c va sa i n).ad u)).toList) := by
    intro u hu
    obtain ⟨h1, h2⟩ := source_sees hw hs.ok ha h.ticks hnet (hsrc u hu)
    obtain ⟨h3, h4⟩ := sink_sees hw hs.ok ha h.ticks hnet (hsink u hu)
    have := hl.step u hu n hn _ _ _ _ _ (h.good u hu) ((net.cOut (injLink c.m u)).getD [])
      ((net.fOut (ejLink c.m u)).map toBs) ?_ ?_ ?_ ?_
    · rw [hol, ← List.map_append] at this
      exact this
    · cases hc : net.cOut (injLink c.m u) with
      | none => exact List.nodup_nil
      | some l => exact h1 l hc
    · intro v
      have := h2 v
      rw [List.flatten_append, toList_flatten, h.wrote u hu, count_toNet] at this
      exact this
    · rw [hol, ← List.map_append]
      exact comes_of hs ha hl h hu (flitsAt_next h.ticks hnet (hsink u hu).1) h3
    · intro v
      rw [hol, ← List.map_append, count_toBs]
      exact h4 v
  obtain ⟨out, hout, hstep⟩ := step_parts hnet (fun u hu => by
      obtain ⟨s', o, h1, _⟩ := hS u hu
      exact ⟨(s', o), by unfold nodePart; rw [h1]⟩)
  obtain ⟨hafter, hst⟩ := st_succ h.ok hstep
  have hn1 : nets VA SA c va sa i (n + 1) = written c out net := by unfold nets; rw [hst]
  have htick : Net.tick VA SA (mesh c.m) c.b (envs VA SA c va sa i n) (nets VA SA c va sa i n) =
      .ok (nets VA SA c va sa i (n + 1)) := by
    have := tick_inject hnet (nets VA SA c va sa i (n + 1)).fIn
    rw [hn1] at this ⊢
    rw [← written_net] at this
    exact (show envs VA SA c va sa i n = _ by unfold envs; rw [hn1]) ▸ this
  have hcr : ∀ u < c.m.nodes, (creditsAt (nets VA SA c va sa i) (injLink c.m u) (n + 2)).flatten =
      (creditsAt (nets VA SA c va sa i) (injLink c.m u) (n + 1)).flatten ++ (net.cOut (injLink c.m u)).getD [] := by
    intro u _
    rw [creditsAt_succ, List.flatten_append, toList_flatten, hn1]
    rfl
  have hfl : ∀ u < c.m.nodes, flitsAt (nets VA SA c va sa i) (ejLink c.m u) (n + 2) =
      flitsAt (nets VA SA c va sa i) (ejLink c.m u) (n + 1) ++ (net.fOut (ejLink c.m u)).toList := by
    intro u _
    rw [flitsAt_succ, hn1]
    rfl
  have hre : ∀ u < c.m.nodes, (credited (envs VA SA c va sa i) (ejLink c.m u) (n + 1)).flatten =
      (credited (envs VA SA c va sa i) (ejLink c.m u) n).flatten ++ (c.ad.credit ((st VA SA c va sa i n).ad u)).toList := by
    intro u _
    rw [credited_succ, List.flatten_append]
    congr 1
    show (Option.map (fun x => [x]) (c.ad.credit ((st VA SA c va sa i n).ad (ejLink c.m u - ejLink c.m 0)))).toList.flatten = _
    rw [show ejLink c.m u - ejLink c.m 0 = u by unfold ejLink; omega]
    cases c.ad.credit ((st VA SA c va sa i n).ad u) <;> rfl
  have hS' : ∀ u < c.m.nodes, (out u).2.length ≤ 1 ∧
      Good u (n + 1) (out u).1 ((st VA SA c va sa i n).sent u ++ (out u).2)
        (creditsAt (nets VA SA c va sa i) (injLink c.m u) (n + 2)).flatten
        ((flitsAt (nets VA SA c va sa i) (ejLink c.m u) (n + 2)).map toBs)
        (credited (envs VA SA c va sa i) (ejLink c.m u) (n + 1)).flatten := by
    intro u hu
    obtain ⟨s', o, h1, h2, h3⟩ := hS u hu
    have := node_part (hout u hu)
    rw [h1] at this
    injection this with e
    rw [← e, hcr u hu, hfl u hu, hre u hu]
    exact ⟨h2, h3⟩
  have hwrote : ∀ u < c.m.nodes, injected (envs VA SA c va sa i) (injLink c.m u) (n + 1) =
      ((st VA SA c va sa i n).sent u ++ (out u).2).map (toNet u) := by
    intro u hu
    have hin : (envs VA SA c va sa i n).inject (injLink c.m u) = (out u).2.getLast?.map (toNet u) := by
      show (nets VA SA c va sa i (n + 1)).fIn _ = _
      rw [hn1]
      have h0 : injLink c.m u - injLink c.m 0 = u := by unfold injLink; omega
      have h1 : injLink c.m 0 ≤ injLink c.m u ∧ injLink c.m u < injLink c.m 0 + c.m.nodes := by unfold injLink; omega
      simp only [written, if_pos h1, h0]
    rw [injected_succ, h.wrote u hu, List.map_append, hin]
    congr 1
    have := (hS' u hu).1
    match (out u).2, this with
    | [], _ => rfl
    | [f], _ => rfl
  refine ⟨by rw [hst]; exact hafter, h.ticks.snoc (legal hs ht) ⟨?_, ?_, ?_, ?_, ?_⟩ htick, ?_, ?_⟩
  · intro l hl' f hf
    obtain ⟨u, hu, rfl⟩ := mesh_source.1 hl'
    rw [hwrote u hu] at hf
    obtain ⟨b, hb, rfl⟩ := List.mem_map.1 hf
    obtain ⟨h1, h2⟩ := hl.sent u hu _ _ _ _ _ _ (hS' u hu).2
    obtain ⟨p, hp, hbp⟩ := List.mem_flatten.1 (h1.subset hb)
    show b.vc < _
    rw [(h2 p hp).vc b hbp]
    exact Nat.lt_of_le_of_lt (hs.few _) (hs.vcs _)
  · intro l hl' v
    obtain ⟨u, hu, rfl⟩ := mesh_source.1 hl'
    rw [hwrote u hu]
    obtain ⟨h1, h2⟩ := hl.sent u hu _ _ _ _ _ _ (hS' u hu).2
    refine packets_flatten h2 u v (fun f g e => ?_) h1
    simp only [Prod.mk.injEq] at e
    simp only [toNet, e]
  · intro l hl' v
    obtain ⟨u, hu, rfl⟩ := mesh_source.1 hl'
    rw [hwrote u hu, count_toNet, show n + 1 + 1 = n + 2 from rfl]
    exact hl.occ u hu _ _ _ _ _ _ (hS' u hu).2 v
  · intro l hl' cr hcr'
    obtain ⟨u, hu, rfl⟩ := (mesh_sink hs.k).1 hl'
    obtain ⟨x, hx, h1⟩ := List.mem_filterMap.1 hcr'
    have h2 : ∃ v, cr = [v] := by
      obtain ⟨k, _, rfl⟩ := List.mem_map.1 hx
      obtain ⟨v, _, h2⟩ := Option.map_eq_some_iff.1 h1
      exact ⟨v, h2.symm⟩
    obtain ⟨v, rfl⟩ := h2
    refine ⟨List.nodup_singleton v, fun w hw' => ?_⟩
    obtain rfl := List.mem_singleton.1 hw'
    have h3 := hl.ret u hu _ _ _ _ _ _ (hS' u hu).2 w
    have h4 : 0 < (credited (envs VA SA c va sa i) (ejLink c.m u) (n + 1)).flatten.count w :=
      List.count_pos_iff.2 (List.mem_flatten.2 ⟨_, hcr', hw'⟩)
    obtain ⟨g, hg, hgw⟩ := List.countP_pos_iff.1 (Nat.lt_of_lt_of_le h4 h3)
    obtain ⟨f, hf, rfl⟩ := List.mem_map.1 hg
    rw [hfl u hu] at hf
    have h5 := (sink_sees hw hs.ok ha h.ticks hnet (hsink u hu)).1 f hf
    simp only [beq_iff_eq] at hgw
    rw [← hgw]
    exact h5
  · intro l hl' v
    obtain ⟨u, hu, rfl⟩ := (mesh_sink hs.k).1 hl'
    have h1 := hl.ret u hu _ _ _ _ _ _ (hS' u hu).2 v
    rw [count_toBs] at h1
    exact h1
  · intro u hu; rw [hst]; exact (hS' u hu).2
  · intro u hu; rw [hst]; exact hwrote u hu

theorem inv_all (hs : Setup c rng) (ha : Allocs VA SA (mesh c.m) c.b va sa)
    (hl : Laws c rng Wel N (fun n => (i n).ad) pks Good) :
    ∀ n ≤ N, (∀ k < n, InTime (i k)) → Inv VA SA c va sa i Good n := by
  intro n
  induction n with
  | zero => intro _ _; exact inv_init hs hl
  | succ n ih =>
    intro hn ht
    exact inv_step hs ha hl (ih (by omega) fun k hk => ht k (by omega)) (by omega) (ht n (by omega))

end

/-! ## order -/

/-- A flit that has arrived on the first channel of its type, from what does not change on the way. -/
def unbody (rng : Nat → Nat × Nat) (x : Bool × Bool × Int × Msg BsFlit) : BsFlit :=
  { x.2.2.2.load with head := x.1, tail := x.2.1, pid := x.2.2.1.toNat, dest := x.2.2.2.dest,
                      vc := (rng (clsOf x.2.2.2.load.type)).1 }

/-- What is known of a flit that a node has read. -/
theorem Inv.read {inp : Nat → Nat → ι} (hs : Setup c rng) (ha : Allocs VA SA (mesh c.m) c.b va sa)
    (hl : Laws c rng Wel N inp pks Good) (h : Inv VA SA c va sa i Good n) {u : Nat} (hu : u < c.m.nodes)
    {f : Flit (Msg BsFlit)} (hf : f ∈ flitsAt (nets VA SA c va sa i) (ejLink c.m u) (n + 1)) :
    f.data.dest = u ∧ Known c.m Wel f.data ∧ (rng f.data.cls).1 ≤ f.vc ∧ f.vc ≤ (rng f.data.cls).2 :=
  h.reads hs ha hl hu ((flitsAt_prefix h.ticks (Nat.le_refl _) ((mesh_sink hs.k).2 ⟨u, hu, rfl⟩).1).subset hf)

/-- What a node has read. -/
theorem Inv.comes {inp : Nat → Nat → ι} (hs : Setup c rng) (ha : Allocs VA SA (mesh c.m) c.b va sa)
    (hl : Laws c rng Wel N inp pks Good) (h : Inv VA SA c va sa i Good n) {u : Nat} (hu : u < c.m.nodes) :
    Comes c.b rng Wel u ((flitsAt (nets VA SA c va sa i) (ejLink c.m u) (n + 1)).map toBs) :=
  comes_of hs ha hl h hu (flitsAt_prefix h.ticks (Nat.le_refl _) ((mesh_sink hs.k).2 ⟨u, hu, rfl⟩).1) fun f hf => by
    obtain ⟨-, h2, h3⟩ := h.read hs ha hl hu hf
    exact Nat.lt_of_le_of_lt h3.2 (hs.vcs _)

/-- With one channel for a type, the packets of a node arrive in order. -/
theorem Inv.ordered {inp : Nat → Nat → ι} (hs : Setup c rng) (ha : Allocs VA SA (mesh c.m) c.b va sa)
    (hl : Laws c rng Wel N inp pks Good) (h : Inv VA SA c va sa i Good n) {u : Nat} (hu : u < c.m.nodes) {w : Nat}
    (hw : w < c.m.nodes) {ty : FlitType} (hone : (rng (clsOf ty)).1 = (rng (clsOf ty)).2) :
    whole BsFlit.tail (((flitsAt (nets VA SA c va sa i) (ejLink c.m u) (n + 1)).filter fun f =>
        f.data.src = w ∧ f.data.load.type = ty).map toBs) <+:
      (pks w ((st VA SA c va sa i n).ad w)).filter fun p => p.head?.any fun f => f.dest = u ∧ f.type = ty := by
  have hsink : (mesh c.m).Sink (ejLink c.m u) := (mesh_sink hs.k).2 ⟨u, hu, rfl⟩
  let key : Msg BsFlit → Nat × Nat × Nat := fun x => (x.src, x.dest, x.cls)
  have hkey : ∀ l, (mesh c.m).Source l → ∀ v, Packets Flit.head Flit.tail (fun f => key f.data)
      (Net.onVc (injected (envs VA SA c va sa i) l n) v) := by
    intro l hl' v
    obtain ⟨x, hx, rfl⟩ := mesh_source.1 hl'
    refine h.packets hl (key := fun _ f => key f.data) (fun u f g e => ?_) hx v
    simp only [Prod.mk.injEq] at e
    simp only [key, toNet, e]
  have hA := flitsAt_prefix h.ticks (Nat.le_refl _) hsink.1
  have hord := (lane_prefix (key := key) (k := (w, u, clsOf ty)) hA).trans
    (in_order (mesh_wired hs.k) hs.ok ha h.ticks (trail_guided hs.k hs.n (h.sends hs hl) fun k _ => uses hs k) hkey
      (trail_lanes hs.k (h.sends hs hl) hone) n (Nat.le_refl _) _ hsink.1)
  obtain ⟨hpre, hmade⟩ := hl.sent w hw _ _ _ _ _ _ (h.good w hw)
  rw [h.wrote w hw] at hord
  have hlane := hord.trans (lane_prefix (key := key) (k := (w, u, clsOf ty)) (hpre.map (toNet w)))
  have hread := fun f hf => h.read hs ha hl hu (f := f) hf
  generalize flitsAt (nets VA SA c va sa i) (ejLink c.m u) (n + 1) = A at *
  generalize pks w ((st VA SA c va sa i n).ad w) = ps at *
  have e1 : (A.filter fun f => decide (f.data.src = w ∧ f.data.load.type = ty)).map toBs =
      ((lane key (w, u, clsOf ty) A).filter fun x => decide (x.2.2.2.load.type = ty)).map (unbody rng) := by
    unfold lane
    rw [List.filter_map, List.filter_filter, List.map_map]
    have : A.filter (fun f => ((fun x => decide (x.2.2.2.load.type = ty)) ∘ body) f && decide (key f.data = (w, u, clsOf ty))) =
        A.filter fun f => decide (f.data.src = w ∧ f.data.load.type = ty) := by
      refine List.filter_congr fun f hf => ?_
      obtain ⟨h1, h2, -⟩ := hread f hf
      rw [Bool.eq_iff_iff]
      simp only [Function.comp, body, key, Prod.mk.injEq, Bool.and_eq_true, decide_eq_true_eq]
      constructor
      · rintro ⟨a1, a2, -⟩; exact ⟨a2, of_decide_eq_true a1⟩
      · rintro ⟨a1, a2⟩; exact ⟨decide_eq_true a2, a1, h1, by rw [h2.2.1, a2]⟩
    rw [this]
    refine List.map_congr_left fun f hf => ?_
    obtain ⟨hf1, hf2⟩ := List.mem_filter.1 hf
    simp only [decide_eq_true_eq] at hf2
    obtain ⟨h1, h2, h3⟩ := hread f hf1
    rw [h2.2.1, hf2.2] at h3
    have h4 : f.vc = (rng (clsOf ty)).1 := by omega
    simp only [toBs, Function.comp, unbody, body, hf2.2, h4]
  have e2 : ((lane key (w, u, clsOf ty) (ps.flatten.map (toNet w))).filter fun x => decide (x.2.2.2.load.type = ty)).map
      (unbody rng) = (ps.filter fun p => p.head?.any fun f => decide (f.dest = u ∧ f.type = ty)).flatten := by
    unfold lane
    rw [List.filter_map, List.filter_filter, List.map_map, List.filter_map, List.map_map]
    clear hlane hord hpre
    induction ps with
    | nil => rfl
    | cons p ps ih =>
      have hm := hmade p (by simp)
      rw [List.flatten_cons, List.filter_append, List.map_append, ih fun q hq => hmade q (by simp [hq]), List.filter_cons]
      have hback : ∀ f ∈ p, ((unbody rng ∘ body) ∘ toNet w) f = f := by
        intro f hf
        simp only [Function.comp, unbody, body, toNet, ← hm.vc f hf]
        rfl
      have hall : ∀ f ∈ p, ∀ g ∈ p, (f.dest = u ∧ f.type = ty) ↔ (g.dest = u ∧ g.type = ty) := by
        intro f hf g hg
        have := hm.same hf hg
        simp only [Prod.mk.injEq] at this
        rw [this.2.1, this.2.2.1]
      have hfun : ∀ f, (((fun f => ((fun x => decide (x.2.2.2.load.type = ty)) ∘ body) f &&
          decide (key f.data = (w, u, clsOf ty))) ∘ toNet w) f) = decide (f.dest = u ∧ f.type = ty) := by
        intro f
        rw [Bool.eq_iff_iff]
        simp only [Function.comp, body, key, toNet, Prod.mk.injEq, Bool.and_eq_true, decide_eq_true_eq]
        constructor
        · rintro ⟨a1, -, a2, -⟩; exact ⟨a2, of_decide_eq_true a1⟩
        · rintro ⟨a1, a2⟩; exact ⟨decide_eq_true a2, trivial, a1, by rw [a2]⟩
      rw [List.filter_congr fun f _ => hfun f]
      cases p with
      | nil => exact absurd rfl hm.ne
      | cons f p =>
        by_cases hf : f.dest = u ∧ f.type = ty
        · rw [List.filter_eq_self.2 fun g hg => by simpa using (hall f (by simp) g hg).1 hf,
            List.map_congr_left hback, List.map_id']
          simp [hf]
        · rw [List.filter_eq_nil_iff.2 fun g hg => by
            have := fun e => hf ((hall f (by simp) g hg).2 e)
            simpa using this]
          simp [hf]
  have h1 := (hlane.filter fun x => decide (x.2.2.2.load.type = ty)).map (unbody rng)
  rw [← e1, e2] at h1
  have h2 := whole_prefix (tail := BsFlit.tail) h1
  have h3 := MmSink.whole_flatten_append BsFlit.tail
    (ps.filter fun p => p.head?.any fun f => decide (f.dest = u ∧ f.type = ty)) []
    (fun p hp => (hmade p (List.mem_of_mem_filter hp)).closed)
  have h0 : whole BsFlit.tail [] = [] := rfl
  rw [List.append_nil, h0, List.append_nil] at h3
  rw [h3] at h2
  exact h2

/-- What a node has received of a type with one channel, with its origin. -/
theorem Inv.marked {inp : Nat → Nat → ι} (hs : Setup c rng) (ha : Allocs VA SA (mesh c.m) c.b va sa)
    (hl : Laws c rng Wel N inp pks Good) (h : Inv VA SA c va sa i Good n) {u : Nat} (hu : u < c.m.nodes) {ty : FlitType}
    (hone : (rng (clsOf ty)).1 = (rng (clsOf ty)).2) :
    ∃ G : List (Nat × List BsFlit), G.map (·.2) = whole BsFlit.tail
        (((flitsAt (nets VA SA c va sa i) (ejLink c.m u) (n + 1)).map toBs).filter fun f => f.type = ty) ∧
      (∀ x ∈ G, x.1 < c.m.nodes) ∧
      ∀ w < c.m.nodes, (G.filter fun x => x.1 = w).map (·.2) <+:
        (pks w ((st VA SA c va sa i n).ad w)).filter fun p => p.head?.any fun f => f.dest = u ∧ f.type = ty := by
  have hsink : (mesh c.m).Sink (ejLink c.m u) := (mesh_sink hs.k).2 ⟨u, hu, rfl⟩
  have hA := flitsAt_prefix h.ticks (Nat.le_refl _) hsink.1
  have hpk := keyed (mesh_wired hs.k) hs.ok ha h.ticks (h.keys hl) n (Nat.le_refl n) _ hsink.1 (rng (clsOf ty)).1
  have hpk' : Packets Flit.head Flit.tail (fun f => keyOf f.data)
      (Net.onVc (flitsAt (nets VA SA c va sa i) (ejLink c.m u) (n + 1)) (rng (clsOf ty)).1) := by
    obtain ⟨z, hz⟩ := hA.filter fun f => decide (f.vc = (rng (clsOf ty)).1)
    unfold Net.onVc at hpk ⊢
    rw [← hz] at hpk
    exact packets_prefix hpk
  have hread := fun f hf => h.read hs ha hl hu (f := f) hf
  have hord := fun w hw => h.ordered hs ha hl hu (w := w) hw hone
  generalize flitsAt (nets VA SA c va sa i) (ejLink c.m u) (n + 1) = A at *
  have hvc : ∀ f ∈ A, f.data.load.type = ty → f.vc = (rng (clsOf ty)).1 := by
    intro f hf hty
    obtain ⟨-, h2, h3⟩ := hread f hf
    rw [h2.2.1, hty] at h3
    omega
  have hone' : ∀ q : Flit (Msg BsFlit) → Prop, [DecidablePred q] → (∀ f, q f → f.data.load.type = ty) →
      A.filter q = (Net.onVc A (rng (clsOf ty)).1).filter q := by
    intro q _ hq
    unfold Net.onVc
    rw [List.filter_filter]
    refine List.filter_congr fun f hf => ?_
    by_cases hqf : q f
    · simp [hqf, hvc f hf (hq f hqf)]
    · simp [hqf]
  have hk1 : Packets Flit.head Flit.tail (fun f : Flit (Msg BsFlit) => f.data.load.type) (Net.onVc A (rng (clsOf ty)).1) :=
    ⟨hpk'.1, hpk'.2.imp fun a b hab => ⟨hab.1, fun ht => by
      have := hab.2 ht; simp only [keyOf, Prod.mk.injEq] at this; exact this.2.2.2.1⟩⟩
  have hk2 : Packets Flit.head Flit.tail (fun f : Flit (Msg BsFlit) => (f.data.src, f.data.load.type))
      (Net.onVc A (rng (clsOf ty)).1) :=
    ⟨hpk'.1, hpk'.2.imp fun a b hab => ⟨hab.1, fun ht => by
      have := hab.2 ht; simp only [keyOf, Prod.mk.injEq] at this; exact Prod.ext this.1 this.2.2.2.1⟩⟩
  let src : List (Flit (Msg BsFlit)) → Nat := fun p => match p with | [] => 0 | f :: _ => f.data.src
  refine ⟨(whole Flit.tail (A.filter fun f => f.data.load.type = ty)).map fun p => (src p, p.map toBs), ?_, ?_, ?_⟩
  · rw [List.map_map, List.filter_map, MmSink.whole_map]
    rfl
  · intro x hx
    obtain ⟨p, hp, rfl⟩ := List.mem_map.1 hx
    have h1 := MmSink.whole_mem Flit.tail _ (fun f => f ∈ A) (fun f hf => List.mem_of_mem_filter hf) p hp
    cases p with
    | nil => exact Nat.lt_of_le_of_lt (Nat.zero_le u) hu
    | cons f p => exact (hread f (h1.2 f (by simp))).2.1.1
  · intro w hw
    have key := hord w hw
    rw [List.filter_map, List.map_map]
    rw [MmSink.whole_map] at key
    have e1 : (whole Flit.tail (A.filter fun f => decide (f.data.load.type = ty))).filter
        (((fun x : Nat × List BsFlit => decide (x.1 = w))) ∘ fun p => (src p, p.map toBs)) =
        whole Flit.tail (A.filter fun f => decide (f.data.src = w ∧ f.data.load.type = ty)) := by
      rw [hone' (fun f => f.data.load.type = ty) fun f hf => hf,
        hone' (fun f => f.data.src = w ∧ f.data.load.type = ty) fun f hf => hf.2, whole_filter hk1]
      have e2 : (Net.onVc A (rng (clsOf ty)).1).filter (fun f => decide (f.data.src = w ∧ f.data.load.type = ty)) =
          (Net.onVc A (rng (clsOf ty)).1).filter fun f => decide ((f.data.src, f.data.load.type) = (w, ty)) :=
        List.filter_congr fun f _ => by simp
      rw [e2, whole_filter hk2, List.filter_filter]
      refine List.filter_congr fun p hp => ?_
      have hne := MmSink.whole_mem Flit.tail _ (fun f => f ∈ A) (fun f hf => List.mem_of_mem_filter hf) p hp
      cases p with
      | nil => exact absurd rfl hne.1
      | cons f p => simp [src, Function.comp]
    rw [e1]
    exact key

end RadSim.Noc
