import Verif.Lemmas.NiMesh
import Verif.Props.MinAdapt
import Verif.Props.MeshLive

/-!
# C146: dimension-order routing with virtual channels by destination

`dim_order_ni_mesh` gives every destination its own virtual channels, `dim_order_pni_mesh` every coordinate of the
destination in the dimension of the link.
-/

namespace RadSim.Routing

open Worms Grid

variable {s : Shape} {rng : Nat → Nat × Nat}

/-- A channel that a packet has taken was taken by a head on the way to the destination of the packet. -/
theorem taken {rf : Rf} {pt : Parts} (hk : 0 < s.k) (hc : Cut s rng rf pt) (hpt : ∀ r f p, pt r { f with ph := p } = pt r f)
    {p : Packet Head (Nat × Nat)} (hp : p.Valid (Enters s rf) (Takes s rf)) {c : Nat × Nat} (h : c ∈ p.moves.map Prod.fst) :
    ∃ t t', GoodC s rng pt p.src.pkt.dest t ∧ Takes s rf t c t' := by
  obtain ⟨⟨u, f, hu, hf, -, ha⟩, hm⟩ := hp
  have g := (arrivesC hc hpt hu hf ha).1
  rw [← g.dest] at g
  obtain ⟨t, t', h1, h2, -⟩ := mem_moves (r := fun _ => 0) (Good := GoodC s rng pt p.src.pkt.dest)
    (fun _ _ _ hg ht => (takesC hk hc hpt hg ht).1) (fun _ _ _ _ _ => Nat.le_refl _) c p.moves p.src g hm h
  exact ⟨t, t', h1, h2⟩

/-- C146. With `dim_order_ni_mesh`, two packets that have ever taken the same virtual channel of the same link between
routers have the same destination, when the ranges of two classes are equal or disjoint: packets to different destinations
do not wait for each other's channels. -/
theorem C146_no_interference (hk : 0 < s.k) (hs : Separate rng) {p q : Packet Head (Nat × Nat)}
    (hp : p.Valid (Enters s (dimOrderNiMesh s rng)) (Takes s (dimOrderNiMesh s rng)))
    (hq : q.Valid (Enters s (dimOrderNiMesh s rng)) (Takes s (dimOrderNiMesh s rng))) {c : Nat × Nat}
    (h1 : c ∈ p.moves.map Prod.fst) (h2 : c ∈ q.moves.map Prod.fst) : p.src.pkt.dest = q.src.pkt.dest := by
  obtain ⟨t, t', g1, k1⟩ := taken hk (cut_ni hk) (fun _ _ _ => rfl) hp h1
  obtain ⟨v, v', g2, k2⟩ := taken hk (cut_ni hk) (fun _ _ _ => rfl) hq h2
  have := (same_part hk (cut_ni hk) (fun _ _ _ => rfl) hs (fun _ _ _ _ => rfl) g1 g2 k1 k2).2.2.2.2
  exact g1.dest.symm.trans (this.trans g2.dest)

/-- C146. With `dim_order_pni_mesh`, two packets that have ever taken the same virtual channel of a link along dimension
`d` have destinations with the same coordinate in this dimension. -/
theorem C146_coordinates (hk : 0 < s.k) (hs : Separate rng) {p q : Packet Head (Nat × Nat)}
    (hp : p.Valid (Enters s (dimOrderPniMesh s rng)) (Takes s (dimOrderPniMesh s rng)))
    (hq : q.Valid (Enters s (dimOrderPniMesh s rng)) (Takes s (dimOrderPniMesh s rng))) {d u vc : Nat} (hd : d < s.n)
    {l : Nat} (hl : l = rightChannel s u d ∨ l = leftChannel s u d)
    (h1 : (l, vc) ∈ p.moves.map Prod.fst) (h2 : (l, vc) ∈ q.moves.map Prod.fst) :
    coord s.k p.src.pkt.dest d = coord s.k q.src.pkt.dest d := by
  obtain ⟨t, t', g1, k1⟩ := taken hk (cut_pni hk) (fun _ _ _ => rfl) hp h1
  obtain ⟨v, v', g2, k2⟩ := taken hk (cut_pni hk) (fun _ _ _ => rfl) hq h2
  obtain ⟨n1, n2, e1, e2, e3⟩ := same_part hk (cut_pni hk) (fun _ _ _ => rfl) hs (fun _ _ _ _ => rfl) g1 g2 k1 k2
  have hport : t.out.port / 2 = d := by
    obtain ⟨a, b, -⟩ := (takes_iff hk g1.node).mp k1
    dsimp only at b
    rcases hl with rfl | rfl
    · have := (enc_inj (m := 2 * s.n) (a := u) (b := t.node) (x := 2 * d) (by omega) a b).2
      omega
    · have := (enc_inj (m := 2 * s.n) (a := u) (b := t.node) (x := 2 * d + 1) (by omega) a b).2
      omega
  unfold pniParts at e3
  dsimp only at e3
  rw [g1.dest, g2.dest, ← g1.port n1, ← g2.port n2, e2, hport] at e3
  exact e3

/-- C146, where it fails: with fewer virtual channels in a class than routers, a packet cannot leave its router: the
assertion fails. -/
theorem C146_few_channels_violated {u q : Nat} {f : Pkt} {h : Head} (hn : (rng f.cls).2 + 1 - (rng f.cls).1 < s.nodes)
    (hne : u ≠ f.dest) : ¬ Arrives (dimOrderNiMesh s rng) u q f h := by
  rintro ⟨rnd, o, ho, -⟩
  unfold dimOrderNiMesh at ho
  split at ho
  · simp only at ho
    rw [Nat.div_eq_of_lt hn, if_neg (fun h => absurd h.1 (Nat.lt_irrefl 0))] at ho
    cases ho
  · cases ho

/-- Two packets to router 3 of a mesh of two by two, from routers 0 and 1, both on channel 3 of the link from 1 to 3. -/
example : ∃ p q : Packet Head (Nat × Nat),
    p.Valid (Enters ⟨2, 2⟩ (dimOrderNiMesh ⟨2, 2⟩ fun _ => (0, 3))) (Takes ⟨2, 2⟩ (dimOrderNiMesh ⟨2, 2⟩ fun _ => (0, 3))) ∧
    q.Valid (Enters ⟨2, 2⟩ (dimOrderNiMesh ⟨2, 2⟩ fun _ => (0, 3))) (Takes ⟨2, 2⟩ (dimOrderNiMesh ⟨2, 2⟩ fun _ => (0, 3))) ∧
    (6, 3) ∈ p.moves.map Prod.fst ∧ (6, 3) ∈ q.moves.map Prod.fst ∧ p.src.node ≠ q.src.node :=
  ⟨⟨⟨0, 4, ⟨3, 0, 1, -1⟩, ⟨0, 3, 3, -1⟩⟩, [((0, 3), ⟨1, 1, ⟨3, 0, 3, -1⟩, ⟨2, 3, 3, -1⟩⟩),
      ((6, 3), ⟨3, 3, ⟨3, 0, 3, -1⟩, ⟨4, 0, 3, -1⟩⟩)], 0⟩,
    ⟨⟨1, 4, ⟨3, 0, 2, -1⟩, ⟨2, 3, 3, -1⟩⟩, [((6, 3), ⟨3, 3, ⟨3, 0, 3, -1⟩, ⟨4, 0, 3, -1⟩⟩)], 0⟩,
    ⟨⟨0, ⟨3, 0, 1, -1⟩, by decide, by decide, rfl, false, ⟨0, 3, 3, -1⟩, by decide, rfl⟩,
      ⟨by decide, by decide, by decide, by decide, 1, 1, by decide, false, ⟨2, 3, 3, -1⟩, by decide, rfl⟩,
      ⟨by decide, by decide, by decide, by decide, 3, 3, by decide, false, ⟨4, 0, 3, -1⟩, by decide, rfl⟩, trivial⟩,
    ⟨⟨1, ⟨3, 0, 2, -1⟩, by decide, by decide, rfl, false, ⟨2, 3, 3, -1⟩, by decide, rfl⟩,
      ⟨by decide, by decide, by decide, by decide, 3, 3, by decide, false, ⟨4, 0, 3, -1⟩, by decide, rfl⟩, trivial⟩,
    by decide, by decide, by decide⟩

/-- With the coordinates, the same packets are on channel 2 or 3 of the link, which is of dimension 1. -/
example : ∃ p : Packet Head (Nat × Nat),
    p.Valid (Enters ⟨2, 2⟩ (dimOrderPniMesh ⟨2, 2⟩ fun _ => (0, 3))) (Takes ⟨2, 2⟩ (dimOrderPniMesh ⟨2, 2⟩ fun _ => (0, 3))) ∧
    (rightChannel ⟨2, 2⟩ 1 1, 2) ∈ p.moves.map Prod.fst :=
  ⟨⟨⟨1, 4, ⟨3, 0, 2, -1⟩, ⟨2, 2, 3, -1⟩⟩, [((6, 2), ⟨3, 3, ⟨3, 0, 2, -1⟩, ⟨4, 0, 3, -1⟩⟩)], 0⟩,
    ⟨⟨1, ⟨3, 0, 2, -1⟩, by decide, by decide, rfl, false, ⟨2, 2, 3, -1⟩, by decide, rfl⟩,
      ⟨by decide, by decide, by decide, by decide, 3, 3, by decide, false, ⟨4, 0, 3, -1⟩, by decide, rfl⟩, trivial⟩,
    by decide⟩

example := C146_few_channels_violated (s := ⟨4, 2⟩) (rng := fun _ => (0, 14)) (u := 0) (q := 4) (f := ⟨5, 0, 0, -1⟩)
  (h := ⟨0, 4, ⟨5, 0, 0, -1⟩, ⟨0, 0, 0, -1⟩⟩) (by decide) (by decide)

end RadSim.Routing

namespace RadSim.Net

open Router (Flit Hop Cfg upto)
open Routing (Shape Pkt Rs dimOrderNiMesh dimOrderPniMesh vcOk)
open Grid (manhattan Separate)
open Alloc (islip Islip)

variable {δ σ τ ρ ρ' : Type} {VA : Alloc.Cls σ ρ} {SA : Alloc.Cls τ ρ'} {m : Shape} {b : Cfg} {va : Nat → σ} {sa : Nat → τ}
  {N : Nat} {e : Nat → Env (Msg δ) ρ ρ'} {s : Nat → S (Msg δ) σ τ} {rng : Nat → Nat × Nat}

/-- C146. A mesh with `dim_order_ni_mesh`: no part of it ever stops the program, every flit received is for this node and
has gone a shortest way, and two heads that have come over the same link between routers on the same virtual channel have the
same destination. -/
theorem C146_mesh (hk : 0 < m.k) (hn : 0 < m.n) (hw : ∀ c, m.nodes ≤ (rng c).2 + 1 - (rng c).1) (hb : b.Ok)
    (hv : ∀ c, (rng c).2 < b.vcs) (hsep : Separate rng)
    (ha : Allocs VA SA (mesh m) b va sa) (h : Ticks VA SA (mesh m) b va sa N e s) (hs : Sends m rng N e)
    (hu : ∀ n ≤ N, Uses (dimOrderNiMesh m rng) (e n)) (ht : 0 ≤ (e N).now) (hm : (e N).now + 1 ≤ Channel.intMax) :
    (∃ s', tick VA SA (mesh m) b (e N) (s N) = .ok s') ∧
    (∀ u < m.nodes, ∀ f ∈ flitsAt s (ejLink m u) (N + 1),
      f.data.dest = u ∧ (f.head = true → f.hops = manhattan m.k m.n f.data.src u + 1)) ∧
    ∀ l < 2 * m.n * m.nodes, ∀ f ∈ flitsAt s l (N + 1), ∀ g ∈ flitsAt s l (N + 1), f.head = true → g.head = true →
      f.vc = g.vc → f.data.dest = g.data.dest := by
  have hf := follows_ni (rng := rng) hk hn hw
  have hus : ∀ n ≤ N, UsesSet (single (dimOrderNiMesh m rng)) (e n) := fun n hn => uses_single (fun _ _ _ _ => rfl) (hu n hn)
  have hu' : ∀ n < N, UsesSet (single (dimOrderNiMesh m rng)) (e n) := fun n hn => hus n (Nat.le_of_lt hn)
  refine ⟨C78_network_never_fails (mesh_wired hk) hb ha h (follows_legal hf hv (hus N (Nat.le_refl _)) ht hm),
    fun u hu'' f hf' => follows_right hk hn hf hb ha h hs hu' hu'' hf', fun l hl f hf' g hg hh hh' hvc => ?_⟩
  have hlinks : l < (mesh m).links := Nat.lt_of_lt_of_le hl (by simp only [mesh]; omega)
  have may := fun (x : Flit (Msg δ)) hx hh => heads_guided (mesh_wired hk) hb ha h (follows_guided hk hn hf hs hu') N
    (Nat.le_refl _) l hlinks x ((flitsAt_prefix h (Nat.le_refl _) hlinks).subset hx) hh
  have m1 := may f hf' hh
  have m2 := may g hg hh'
  have p1 := m1.2 hl
  have p2 := m2.2 hl
  have v1 : vcOk rng (pkt f) := m1.1.1.2.2.1
  have v2 : vcOk rng (pkt g) := m2.1.1.2.2.1
  have hr : rng f.data.cls = rng g.data.cls := Routing.same_class hsep v1.1 v1.2 (by
    have := v2.1; simp only [pkt] at this ⊢; omega) (by have := v2.2; simp only [pkt] at this ⊢; omega)
  simp only [pkt] at p1 p2
  rw [hr, hvc] at p1
  exact Routing.part_unique p1 p2

/-- C146. A mesh with `dim_order_pni_mesh`: no part of it ever stops the program, and every flit received is for this node
and has gone a shortest way. -/
theorem C146_mesh_coordinates (hk : 0 < m.k) (hn : 0 < m.n) (hw : ∀ c, m.k ≤ (rng c).2 + 1 - (rng c).1) (hb : b.Ok)
    (hv : ∀ c, (rng c).2 < b.vcs)
    (ha : Allocs VA SA (mesh m) b va sa) (h : Ticks VA SA (mesh m) b va sa N e s) (hs : Sends m rng N e)
    (hu : ∀ n ≤ N, Uses (dimOrderPniMesh m rng) (e n)) (ht : 0 ≤ (e N).now) (hm : (e N).now + 1 ≤ Channel.intMax) :
    (∃ s', tick VA SA (mesh m) b (e N) (s N) = .ok s') ∧
    ∀ u < m.nodes, ∀ f ∈ flitsAt s (ejLink m u) (N + 1),
      f.data.dest = u ∧ (f.head = true → f.hops = manhattan m.k m.n f.data.src u + 1) := by
  have hf := follows_pni (rng := rng) hk hn hw
  have hus : ∀ n ≤ N, UsesSet (single (dimOrderPniMesh m rng)) (e n) := fun n hn => uses_single (fun _ _ _ _ => rfl) (hu n hn)
  have hu' : ∀ n < N, UsesSet (single (dimOrderPniMesh m rng)) (e n) := fun n hn => hus n (Nat.le_of_lt hn)
  exact ⟨C78_network_never_fails (mesh_wired hk) hb ha h (follows_legal hf hv (hus N (Nat.le_refl _)) ht hm),
    fun u hu'' f hf' => follows_right hk hn hf hb ha h hs hu' hu'' hf'⟩

/-- C146. A mesh with `dim_order_ni_mesh` delivers everything when every class has as many virtual channels as there are
routers. -/
theorem C146_delivers (hk : 0 < m.k) (hn : 0 < m.n) (hw : ∀ c, m.nodes ≤ (rng c).2 + 1 - (rng c).1) (hb : b.Ok)
    (ho : b.outSize ≠ 0)
    (ha : Allocs VA SA (mesh m) b va sa) (hg : Grants VA SA (mesh m) b va sa) (h : Ticks VA SA (mesh m) b va sa N e s)
    (hs : Sends m rng N e) (hu : ∀ n < N, Uses (dimOrderNiMesh m rng) (e n)) {n₀ D K : Nat}
    (hd : Drains (mesh m) b N n₀ D K e s)
    (hN : n₀ + ((m.n * m.k + 1) * flitsIn (mesh m) e n₀ + 1) * (3 * K + D + 2 * (m.nodes * ((2 * m.n + 1) * b.vcs)) + 6) ≤ N)
    {u : Nat} (hu' : u < m.nodes) (P : List (Bool × Bool × Int × Msg δ) → Bool) :
    receivedBy m b s (N + 1) u P = sentTo m b e N u P :=
  follows_delivers hk hn (follows_ni hk hn hw) hb ho ha hg h hs (fun n hn => uses_single (fun _ _ _ _ => rfl) (hu n hn)) hd
    hN hu' P

/-- C146. A mesh with `dim_order_pni_mesh` delivers everything when every class has as many virtual channels as there are
routers along a dimension. -/
theorem C146_delivers_coordinates (hk : 0 < m.k) (hn : 0 < m.n) (hw : ∀ c, m.k ≤ (rng c).2 + 1 - (rng c).1) (hb : b.Ok)
    (ho : b.outSize ≠ 0)
    (ha : Allocs VA SA (mesh m) b va sa) (hg : Grants VA SA (mesh m) b va sa) (h : Ticks VA SA (mesh m) b va sa N e s)
    (hs : Sends m rng N e) (hu : ∀ n < N, Uses (dimOrderPniMesh m rng) (e n)) {n₀ D K : Nat}
    (hd : Drains (mesh m) b N n₀ D K e s)
    (hN : n₀ + ((m.n * m.k + 1) * flitsIn (mesh m) e n₀ + 1) * (3 * K + D + 2 * (m.nodes * ((2 * m.n + 1) * b.vcs)) + 6) ≤ N)
    {u : Nat} (hu' : u < m.nodes) (P : List (Bool × Bool × Int × Msg δ) → Bool) :
    receivedBy m b s (N + 1) u P = sentTo m b e N u P :=
  follows_delivers hk hn (follows_pni hk hn hw) hb ho ha hg h hs (fun n hn => uses_single (fun _ _ _ _ => rfl) (hu n hn)) hd
    hN hu' P

/-! ## An example

A mesh of two by two with four virtual channels, with the packets of the example of C81 and nodes that return all
credits. -/

namespace NiExample

open MeshExample (shape a0 a1 b0 keep keep_ok)

def cfg : Cfg := ⟨0, 0, ⟨4, -1, 2, false⟩, -1, 1, 1, 1, 1, 1⟩

def vcs (_ : Nat) : Nat × Nat := (0, 3)

def env (rs : Rs) (n : Nat) : Env (Msg String) Unit Unit where
  now := 1000 * n
  inject := (MeshExample.env MeshExample.dim n).inject
  credit := fun l => if (n = 20 ∧ l = 20) ∨ ((n = 20 ∨ n = 21) ∧ l = 23) then some [0] else none
  rf := fun r i f => (rs r (pkt f) i).getD []
  rva := fun _ => ()
  rsa := fun _ => ()

def st (rs : Rs) : Nat → S (Msg String) Islip Islip
  | 0 => .init (fun _ => Islip.init 20 20 1) (fun _ => Islip.init 5 5 1)
  | n + 1 => keep (tick islip islip (mesh shape) cfg (env rs n) (st rs n)) (st rs n)

abbrev ni : Rs := single (dimOrderNiMesh shape vcs)

abbrev pni : Rs := single (dimOrderPniMesh shape vcs)

/-- The flits arrive after three routers. -/
theorem arrive_ni : (flitsAt (st ni) (ejLink shape 3) 20, flitsAt (st ni) (ejLink shape 0) 20) =
    ([⟨0, true, false, 7, 3, 0, 3, 0, "a0"⟩, ⟨0, false, true, 7, 3, 0, 3, 0, "a1"⟩],
     [⟨0, true, true, 8, 3, 3, 0, 0, "b0"⟩]) := by decide +kernel

theorem arrive_pni : (flitsAt (st pni) (ejLink shape 3) 20, flitsAt (st pni) (ejLink shape 0) 20) =
    ([⟨0, true, false, 7, 3, 0, 3, 0, "a0"⟩, ⟨0, false, true, 7, 3, 0, 3, 0, "a1"⟩],
     [⟨0, true, true, 8, 3, 3, 0, 0, "b0"⟩]) := by decide +kernel

/-- The virtual channels of the first packet on the channel from router 0 to router 1. -/
theorem between : ((flitsAt (st ni) 0 20).map (·.vc), (flitsAt (st pni) 0 20).map (·.vc)) = ([3, 3], [2, 2]) := by
  decide +kernel

theorem cfg_ok : cfg.Ok :=
  ⟨⟨by decide, by decide, by decide⟩, rfl, .inl rfl, rfl, rfl, rfl, rfl⟩

theorem allocs : Allocs islip islip (mesh shape) cfg (fun _ => Islip.init 20 20 1) (fun _ => Islip.init 5 5 1) where
  va := fun _ _ => Alloc.C44_islip 20 20 1
  sa := fun _ _ => Alloc.C44_islip 5 5 1

theorem grants : Grants islip islip (mesh shape) cfg (fun _ => Islip.init 20 20 1) (fun _ => Islip.init 5 5 1) where
  va := fun _ _ => (Alloc.C68_islip 20 20 1 (by decide)).mono fun _ _ h => h.1
  sa := fun _ _ => (Alloc.C68_islip 5 5 1 (by decide)).mono fun _ _ h => h.1

variable {rs : Rs} {good : Pkt → Prop}

theorem uses (rs : Rs) (n : Nat) : UsesSet rs (env rs n) := fun _ _ _ => rfl

theorem silent (rs : Rs) (n : Nat) (hn : 26 ≤ n) : Silent (mesh shape) (env rs n) := by
  constructor
  · intro l _
    simp only [env, MeshExample.env]
    repeat' rw [if_neg (by omega)]
  · intro l _
    simp only [env]
    rw [if_neg (by omega)]

instance (s : S (Msg String) Islip Islip) : Decidable (Rests (mesh shape) s) := inferInstanceAs (Decidable (_ ∧ _))

theorem step (rs : Rs) (n : Nat) (s') (h : tick islip islip (mesh shape) cfg (env rs n) (st rs n) = .ok s') :
    st rs (n + 1) = s' := by
  change keep (tick islip islip (mesh shape) cfg (env rs n) (st rs n)) (st rs n) = s'
  rw [h]
  rfl

theorem legal (hf : Follows shape vcs rs good) (n : Nat) (hn : n ≤ 3100) : Legal (mesh shape) cfg (env rs n) :=
  follows_legal hf (fun _ => Nat.le_refl _) (uses rs n) (by simp only [env]; omega)
    (by simp only [env, Channel.intMax]; omega)

/-- What is computed of the first ticks. -/
structure First (rs : Rs) : Prop where
  rests : Rests (mesh shape) (st rs 26)
  ok : ∀ n ∈ List.range 26, (tick islip islip (mesh shape) cfg (env rs n) (st rs n)).isOk = true
  inj : ∀ n ∈ List.range 27, ∀ l < (mesh shape).links, (mesh shape).Source l →
    (∀ f ∈ injected (env rs) l n, f.vc < cfg.vcs) ∧
    ∀ v < cfg.vcs, Packets Flit.head Flit.tail Flit.pid (onVc (injected (env rs) l n) v) ∧
      ((onVc (injected (env rs) l n) v).length : Int) ≤ cfg.buf.perVc + (creditsAt (st rs) l (n + 1)).flatten.count v
  cred : ∀ n ∈ List.range 27, ∀ l < (mesh shape).links, (mesh shape).Sink l →
    (∀ c ∈ credited (env rs) l n, c.Nodup ∧ ∀ v ∈ c, v < cfg.vcs) ∧
    (∀ f ∈ flitsAt (st rs) l (n + 1), f.vc < cfg.vcs) ∧
    ∀ v < cfg.vcs, (credited (env rs) l n).flatten.count v ≤ (onVc (flitsAt (st rs) l (n + 1)) v).length
  prompt : ∀ n ∈ List.range 27, 2 ≤ n → ∀ l < (mesh shape).links, (mesh shape).Sink l → ∀ v < cfg.vcs,
    (onVc (flitsAt (st rs) l (n + 1)) v).length ≤ (credited (env rs) l (n + 20)).flatten.count v

theorem first_ni : First ni where
  rests := by decide +kernel
  ok := by decide +kernel
  inj := by decide +kernel
  cred := by decide +kernel
  prompt := by decide +kernel

theorem first_pni : First pni where
  rests := by decide +kernel
  ok := by decide +kernel
  inj := by decide +kernel
  cred := by decide +kernel
  prompt := by decide +kernel

theorem ticks (hf : Follows shape vcs rs good) (h : First rs) :
    Ticks islip islip (mesh shape) cfg (fun _ => Islip.init 20 20 1) (fun _ => Islip.init 5 5 1) 3100 (env rs) (st rs) :=
  ticks_rest (M := 26) (mesh_wired (by decide))
    { start := rfl
      legal := fun n hn => legal hf n (by omega)
      nodes := fun n hn => Example.nodes_of (h.inj n (by simp; omega)) (fun l hl hs =>
        ⟨(h.cred n (by simp; omega) l hl hs).1, (h.cred n (by simp; omega) l hl hs).2.2⟩) (by decide)
      step := fun n hn => keep_ok (h.ok n (by simp; omega)) _ }
    h.rests (silent rs) (fun n _ => step rs n) fun n hn => legal hf n (by omega)

theorem rest (h : First rs) (n : Nat) (hn : 26 ≤ n) : Rests (mesh shape) (st rs n) :=
  (rest_on (VA := islip) (SA := islip) (b := cfg) (mesh_wired (by decide)) h.rests (silent rs) (fun n _ => step rs n) n hn).1

theorem inj_eq (rs : Rs) (n l : Nat) :
    injected (env rs) l n = injected (MeshLiveExample.env MeshExample.dim) l n := by
  unfold injected upto
  rw [List.filterMap_map, List.filterMap_map]
  rfl

theorem sends (rs : Rs) : Sends shape vcs 3100 (env rs) where
  heads := by
    intro u hu f hf hh
    rw [inj_eq, MeshLiveExample.inj_eq _ 3100 _ (by decide) (mesh_source.2 ⟨u, hu, rfl⟩)] at hf
    have := (MeshExample.sends MeshExample.dim).heads u hu f hf hh
    exact ⟨this.1, this.2.1, ⟨Nat.zero_le _, Nat.le_trans this.2.2.1.2 (show 1 ≤ 3 by decide)⟩, this.2.2.2⟩
  same := by
    intro u hu v
    rw [inj_eq, MeshLiveExample.inj_eq _ 3100 _ (by decide) (mesh_source.2 ⟨u, hu, rfl⟩)]
    exact (MeshExample.sends MeshExample.dim).same u hu v

theorem drains (h : First rs) : Drains (mesh shape) cfg 3100 2 20 1 (env rs) (st rs) where
  quiet := by
    intro n h1 _ l _
    simp only [env, MeshExample.env]
    repeat' rw [if_neg (by omega)]
  whole := by
    intro l hl v
    rw [inj_eq]
    exact (MeshLiveExample.drains (steps_dim (by decide) _) MeshLiveExample.first_dim).whole l hl v
  prompt := by
    have hz : ∀ {l : List (Flit (Msg String))} {v : Nat}, (∀ f ∈ l, f.vc < cfg.vcs) → ¬ v < cfg.vcs → onVc l v = [] := by
      intro l v hl hv
      rw [onVc, List.filter_eq_nil_iff]
      intro f hf
      have := hl f hf
      simp only [decide_eq_true_eq]
      omega
    intro n hn hN l hl v
    by_cases hn' : n < 26
    · by_cases hv : v < cfg.vcs
      · exact h.prompt n (by simp; omega) hn l hl.1 hl v hv
      · rw [hz (h.cred n (by simp; omega) l hl.1 hl).2.1 hv]
        exact Nat.zero_le _
    · rw [flitsAt_rest (rest h) (by omega) hl.1, credited_rest (silent rs) (by omega) hl]
      by_cases hv : v < cfg.vcs
      · have := h.prompt 26 (by decide) (by decide) l hl.1 hl v hv
        rwa [credited_rest (silent rs) (by decide) hl] at this
      · rw [hz (h.cred 26 (by decide) l hl.1 hl).2.1 hv]
        exact Nat.zero_le _
  credit := by
    intro n _ l _
    simp only [env]
    split <;> simp
  time := by
    intro a n ha _
    simp only [env, cfg, mesh]
    exact ⟨by omega, fun l _ => by omega⟩

theorem long (rs : Rs) : 2 + ((shape.n * shape.k + 1) * flitsIn (mesh shape) (env rs) 2 + 1) *
    (3 * 1 + 20 + 2 * (shape.nodes * ((2 * shape.n + 1) * cfg.vcs)) + 6) ≤ 3100 := by
  have : flitsIn (mesh shape) (env rs) 2 = flitsIn (mesh shape) (MeshLiveExample.env MeshExample.dim) 2 :=
    Finset.sum_congr rfl fun l _ => by rw [inj_eq]
  rw [this]
  decide +kernel

theorem uses_fn (rf : Routing.Rf) (n : Nat) : Uses rf (env (single rf) n) := fun r i f => ⟨false, by
  simp only [env, single]
  cases rf r (pkt f) i false <;> rfl⟩

theorem wide (k : Nat) (hk : k ≤ 4) : ∀ c, k ≤ (vcs c).2 + 1 - (vcs c).1 := fun _ => hk

theorem follows_ni' : Follows shape vcs ni fun f => Routing.InPart (vcs f.cls) shape.nodes f.dest f.vc :=
  follows_ni (m := shape) (rng := vcs) (by decide) (by decide) (wide 4 (by decide))

theorem follows_pni' : Follows shape vcs pni fun _ => True :=
  follows_pni (m := shape) (rng := vcs) (by decide) (by decide) (wide 2 (by decide))

/-- The hypotheses of C146 are met, with both functions. -/
example := C146_mesh (m := shape) (rng := vcs) (by decide) (by decide) (wide 4 (by decide)) cfg_ok
  (fun _ => Nat.le_refl _) (fun _ _ => .inl rfl) allocs (ticks follows_ni' first_ni) (sends ni)
  (fun n _ => uses_fn _ n) (by decide) (by decide)

example := C146_mesh_coordinates (m := shape) (rng := vcs) (by decide) (by decide) (wide 2 (by decide)) cfg_ok
  (fun _ => Nat.le_refl _) allocs (ticks follows_pni' first_pni) (sends pni)
  (fun n _ => uses_fn _ n) (by decide) (by decide)

/-- Node 3 has received the packet of two flits. -/
example : receivedBy shape cfg (st ni) 3101 3 (· = [body a0, body a1]) = 1 := by
  rw [C146_delivers (m := shape) (rng := vcs) (by decide) (by decide) (wide 4 (by decide)) cfg_ok (by decide) allocs
    grants (ticks follows_ni' first_ni) (sends ni) (fun n _ => uses_fn _ n) (drains first_ni) (long ni) (by decide)]
  have : sentTo shape cfg (env ni) 26 3 (· = [body a0, body a1]) = 1 := by decide +kernel
  rw [← this]
  exact Finset.sum_congr rfl fun w hw => Finset.sum_congr rfl fun v _ => by
    rw [injected_rest (silent ni) (by decide) (mesh_source.2 ⟨w, Finset.mem_range.1 hw, rfl⟩)]

example : receivedBy shape cfg (st pni) 3101 0 (· = [body b0]) = 1 := by
  rw [C146_delivers_coordinates (m := shape) (rng := vcs) (by decide) (by decide) (wide 2 (by decide)) cfg_ok (by decide) allocs
    grants (ticks follows_pni' first_pni) (sends pni) (fun n _ => uses_fn _ n) (drains first_pni) (long pni) (by decide)]
  have : sentTo shape cfg (env pni) 26 0 (· = [body b0]) = 1 := by decide +kernel
  rw [← this]
  exact Finset.sum_congr rfl fun w hw => Finset.sum_congr rfl fun v _ => by
    rw [injected_rest (silent pni) (by decide) (mesh_source.2 ⟨w, Finset.mem_range.1 hw, rfl⟩)]

end NiExample

end RadSim.Net
