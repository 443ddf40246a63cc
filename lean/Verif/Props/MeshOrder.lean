import Verif.Lemmas.MeshOrder
import Verif.Props.Mesh

/-! # Order of the packets in a network -/

namespace RadSim.Net

open Router (Flit Hop Cfg upto)
open Routing (Shape Pkt Rf dimOrderMesh)
open Alloc (Holds Valid asked islip Islip)

variable {δ σ τ ρ ρ' κ : Type} {VA : Alloc.Cls σ ρ} {SA : Alloc.Cls τ ρ'} {m : Shape} {b : Cfg} {va : Nat → σ} {sa : Nat → τ}
  {N : Nat} {s : Nat → S (Msg δ) σ τ} {rng : Nat → Nat × Nat}

/-- C92 for any network: packets with one way through it arrive in order. -/
theorem C92_one_way [DecidableEq κ] {t : Topo} {e : Nat → Env δ ρ ρ'} {s : Nat → S δ σ τ} (ht : t.Wired) (hb : b.Ok)
    (ha : Allocs VA SA t b va sa) (h : Ticks VA SA t b va sa N e s) {may : Nat → Flit δ → Prop} (hg : Guided t N e may)
    {key : δ → κ}
    (hk : ∀ l, t.Source l → ∀ v, Packets Flit.head Flit.tail (fun f => key f.data) (onVc (injected e l N) v))
    {k : κ} {l₀ : Nat} (hlane : Lanes t N e may key k l₀) {l : Nat} (hl : t.Sink l) :
    lane key k (flitsAt s l (N + 1)) <+: lane key k (injected e l₀ N) :=
  (lane_prefix (flitsAt_prefix h (Nat.le_refl _) hl.1)).trans (in_order ht hb ha h hg hk hlane N (Nat.le_refl _) l hl.1)

/-- C92. In a mesh with dimension-order routing and one virtual channel for a type, the flits of this type that node `u`
has received from node `w` are the first ones of those that `w` has sent to `u`, in this order. -/
theorem C92_mesh_in_order_partial {e : Nat → Env (Msg δ) ρ ρ'} (hk : 0 < m.k) (hn : 0 < m.n) (hb : b.Ok)
    (ha : Allocs VA SA (mesh m) b va sa) (h : Ticks VA SA (mesh m) b va sa N e s) (hs : Sends m rng N e)
    (ht : ∀ u < m.nodes, ∀ v, Packets Flit.head Flit.tail (fun f => f.data.cls) (onVc (injected e (injLink m u) N) v))
    (hu : ∀ n < N, Uses (dimOrderMesh m rng) (e n)) {c : Nat} (hone : (rng c).1 = (rng c).2) {u w : Nat} (hu' : u < m.nodes) :
    ((flitsAt s (ejLink m u) (N + 1)).filter fun f => f.data.src = w ∧ f.data.cls = c).map body <+:
      ((injected e (injLink m w) N).filter fun f => f.data.dest = u ∧ f.data.cls = c).map body := by
  by_cases hw : w < m.nodes
  swap
  · have hnone : (flitsAt s (ejLink m u) (N + 1)).filter (fun f => f.data.src = w ∧ f.data.cls = c) = [] := by
      rw [List.filter_eq_nil_iff]
      intro f hf
      have hsink : (mesh m).Sink (ejLink m u) := (mesh_sink hk).2 ⟨u, hu', rfl⟩
      obtain ⟨g, -, -, -, h1, h2⟩ := head_of (mesh_wired hk) hb ha h (mesh_guided hk (steps_dim hn rng) hs hu)
        (key := fun x => (x.src, x.dest)) (fun l hl v => by
          obtain ⟨w, hw, rfl⟩ := mesh_source.1 hl
          exact hs.same w hw v) (Nat.le_refl N) hsink.1 ((flitsAt_prefix h (Nat.le_refl _) hsink.1).subset hf)
      have h3 := h2.2.1
      simp only [Prod.mk.injEq] at h1
      simp only [decide_eq_true_eq]
      omega
    rw [hnone]
    exact List.nil_prefix
  have hsink : (mesh m).Sink (ejLink m u) := (mesh_sink hk).2 ⟨u, hu', rfl⟩
  have hg := trail_guided hk hn hs hu
  have := C92_one_way (key := fun x : Msg δ => (x.src, x.dest, x.cls)) (k := (w, u, c)) (mesh_wired hk) hb ha h hg
    (fun l hl v => by
      obtain ⟨x, hx, rfl⟩ := mesh_source.1 hl
      have h1 := packets_pair (hs.same x hx v) (ht x hx v)
      refine ⟨h1.1, h1.2.imp fun a b hab => ⟨hab.1, fun ht => ?_⟩⟩
      have := hab.2 ht
      simp only [Prod.mk.injEq] at this ⊢
      exact ⟨this.1.1, this.1.2, this.2⟩) (trail_lanes hk hs hone) hsink
  unfold lane at this
  have e1 : (flitsAt s (ejLink m u) (N + 1)).filter (fun f => (f.data.src, f.data.dest, f.data.cls) = (w, u, c)) =
      (flitsAt s (ejLink m u) (N + 1)).filter fun f => f.data.src = w ∧ f.data.cls = c := by
    refine List.filter_congr fun f hf => ?_
    have := (right_of (fd := fun _ => 1) (cd := fun _ => 1) hk hb ha h hs hg
      (fun u _ g hg => mayMesh_link hk hg.1) hu' hf).1
    simp [this]
  have e2 : (injected e (injLink m w) N).filter (fun f => (f.data.src, f.data.dest, f.data.cls) = (w, u, c)) =
      (injected e (injLink m w) N).filter fun f => f.data.dest = u ∧ f.data.cls = c := by
    refine List.filter_congr fun f hf => ?_
    have := (sends_src hs hw hf).1
    simp [this]
  rw [e1, e2] at this
  exact this

/-! ## An example

A mesh of two by two with two types of one virtual channel each. Node 0 sends two packets of type 1 to node 3, one to node
1, and one of type 0 to node 3. -/

namespace OrderExample

open MeshExample (keep keep_ok)

def shape : Shape := ⟨2, 2⟩

def cfg : Cfg := ⟨0, 0, ⟨2, -1, 2, false⟩, -1, 1, 1, 1, 1, 1⟩

def vcs (c : Nat) : Nat × Nat := (min c 1, min c 1)

def sent : List (Flit (Msg String)) :=
  [⟨1, true, false, 7, 0, 0, 3, 1, "a0"⟩, ⟨1, false, true, 7, 0, 0, 3, 1, "a1"⟩, ⟨0, true, true, 8, 0, 0, 3, 0, "b"⟩,
   ⟨1, true, true, 9, 0, 0, 1, 1, "c"⟩, ⟨1, true, true, 10, 0, 0, 3, 1, "d"⟩]

def times : List Nat := [0, 1, 2, 12, 14]

def env (n : Nat) : Env (Msg String) Unit Unit where
  now := 1000 * n
  inject := fun l => if l = 16 then (times.zip sent).lookup n else none
  credit := fun l => if l = 23 ∧ n = 20 then some [1] else none
  rf := fun r i f => hop (dimOrderMesh shape vcs r (pkt f) i false)
  rva := fun _ => ()
  rsa := fun _ => ()

def st : Nat → S (Msg String) Islip Islip
  | 0 => .init (fun _ => Islip.init 10 10 1) (fun _ => Islip.init 5 5 1)
  | n + 1 => keep (tick islip islip (mesh shape) cfg (env n) (st n)) (st n)

theorem arrive : (flitsAt st (ejLink shape 3) 34).map (fun f => f.data.load) = ["a0", "a1", "b", "d"] := by decide +kernel

theorem allocs : Allocs islip islip (mesh shape) cfg (fun _ => Islip.init 10 10 1) (fun _ => Islip.init 5 5 1) where
  va := fun _ _ => Alloc.C44_islip 10 10 1
  sa := fun _ _ => Alloc.C44_islip 5 5 1

theorem uses (n : Nat) : Uses (dimOrderMesh shape vcs) (env n) := fun _ _ _ => ⟨false, rfl⟩

theorem ticks : Ticks islip islip (mesh shape) cfg (fun _ => Islip.init 10 10 1) (fun _ => Islip.init 5 5 1) 33 env st where
  start := rfl
  legal := fun n hn => mesh_legal (steps_dim (by decide) vcs) (b := cfg)
    (fun c => show min c 1 < 2 by omega) (uses n) (by simp only [env]; omega) (by simp only [env, Channel.intMax]; omega)
  nodes := by
    have h1 : ∀ n ∈ List.range 34, ∀ l < (mesh shape).links, (mesh shape).Source l →
      (∀ f ∈ injected env l n, f.vc < cfg.vcs) ∧
      ∀ v < cfg.vcs, Packets Flit.head Flit.tail Flit.pid (onVc (injected env l n) v) ∧
        ((onVc (injected env l n) v).length : Int) ≤ cfg.buf.perVc + (creditsAt st l (n + 1)).flatten.count v := by
      decide +kernel
    have h2 : ∀ n ∈ List.range 34, ∀ l < (mesh shape).links, (mesh shape).Sink l →
      (∀ c ∈ credited env l n, c.Nodup ∧ ∀ v ∈ c, v < cfg.vcs) ∧
      ∀ v < cfg.vcs, (credited env l n).flatten.count v ≤ (onVc (flitsAt st l (n + 1)) v).length := by
      decide +kernel
    intro n hn
    exact Example.nodes_of (h1 n (by simp; omega)) (h2 n (by simp; omega)) (by decide)
  step := by
    have h : ∀ n ∈ List.range 33, (tick islip islip (mesh shape) cfg (env n) (st n)).isOk = true := by decide +kernel
    intro n hn
    exact keep_ok (h n (by simp; omega)) _

theorem all_sent : ∀ u < 4, injected env (injLink shape u) 33 = if u = 0 then sent else [] := by decide +kernel

theorem packets (key : Flit (Msg String) → Nat × Nat × Nat) (hk : ∀ v < 2, Packets Flit.head Flit.tail key (onVc sent v))
    {u : Nat} (hu : u < 4) (v : Nat) : Packets Flit.head Flit.tail key (onVc (injected env (injLink shape u) 33) v) := by
  rw [all_sent u hu]
  split
  · by_cases hv : v < 2
    · exact hk v hv
    · rw [onVc, List.filter_eq_nil_iff.2]
      · exact packets_nil
      · simp [sent]; omega
  · exact packets_nil

theorem packets_of {α : Type} {f : Nat × Nat × Nat → α} {key : Flit (Msg String) → Nat × Nat × Nat} {l : List (Flit (Msg String))}
    (h : Packets Flit.head Flit.tail key l) : Packets Flit.head Flit.tail (fun x => f (key x)) l :=
  ⟨h.1, h.2.imp fun _ _ hab => ⟨hab.1, fun ht => congrArg f (hab.2 ht)⟩⟩

theorem sends : Sends shape vcs 33 env where
  heads := by
    have : ∀ u < 4, ∀ f ∈ injected env (injLink shape u) 33, f.head = true →
      f.data.src = u ∧ f.data.dest < 4 ∧ ((vcs f.data.cls).1 ≤ f.vc ∧ f.vc ≤ (vcs f.data.cls).2) ∧ f.hops = 0 := by
      decide +kernel
    exact this
  same := fun u hu v => packets_of (f := fun x => (x.1, x.2.1))
    (packets (fun f => (f.data.src, f.data.dest, f.data.cls)) (by decide) hu v)

/-- The hypotheses of C92 are met. -/
example := C92_mesh_in_order_partial (m := shape) (rng := vcs) (c := 1) (u := 3) (w := 0) (by decide) (by decide)
  MeshExample.cfg_ok allocs ticks sends (fun u hu v => packets_of (f := fun x => x.2.2)
    (packets (fun f => (f.data.src, f.data.dest, f.data.cls)) (by decide) hu v)) (fun n _ => uses n) rfl (by decide)

/-! ## A network that does not keep the order

Two nodes in a line with one type of two virtual channels and buffers of one flit. The receiver frees the place of the
first packet late: the second waits for it on its virtual channel, and the third overtakes the second on the other. -/

namespace Overtaken

def shape : Shape := ⟨2, 1⟩

def cfg : Cfg := ⟨0, 0, ⟨2, -1, 1, false⟩, -1, 1, 1, 1, 1, 1⟩

def vcs (_ : Nat) : Nat × Nat := (0, 1)

def sent : List (Flit (Msg String)) :=
  [⟨0, true, true, 7, 0, 0, 1, 0, "first"⟩, ⟨0, true, true, 8, 0, 0, 1, 0, "second"⟩, ⟨0, true, true, 9, 0, 0, 1, 0, "third"⟩]

def times : List Nat := [0, 8, 16]

def env (n : Nat) : Env (Msg String) Unit Unit where
  now := 1000 * n
  inject := fun l => if l = 4 then (times.zip sent).lookup n else none
  credit := fun l => if l = 7 ∧ n = 28 then some [0] else none
  rf := fun r i f => hop (dimOrderMesh shape vcs r (pkt f) i false)
  rva := fun _ => ()
  rsa := fun _ => ()

def st : Nat → S (Msg String) Islip Islip
  | 0 => .init (fun _ => Islip.init 6 6 1) (fun _ => Islip.init 3 3 1)
  | n + 1 => keep (tick islip islip (mesh shape) cfg (env n) (st n)) (st n)

theorem uses (n : Nat) : Uses (dimOrderMesh shape vcs) (env n) := fun _ _ _ => ⟨false, rfl⟩

theorem cfg_ok : cfg.Ok :=
  ⟨⟨by decide, by decide, by decide⟩, rfl, .inl rfl, rfl, rfl, rfl, rfl⟩

theorem allocs : Allocs islip islip (mesh shape) cfg (fun _ => Islip.init 6 6 1) (fun _ => Islip.init 3 3 1) where
  va := fun _ _ => Alloc.C44_islip 6 6 1
  sa := fun _ _ => Alloc.C44_islip 3 3 1

theorem ticks : Ticks islip islip (mesh shape) cfg (fun _ => Islip.init 6 6 1) (fun _ => Islip.init 3 3 1) 36 env st where
  start := rfl
  legal := fun n hn => mesh_legal (steps_dim (by decide) vcs) (fun _ => Nat.le_refl _) (uses n)
    (by simp only [env]; omega) (by simp only [env, Channel.intMax]; omega)
  nodes := by
    have h1 : ∀ n ∈ List.range 37, ∀ l < (mesh shape).links, (mesh shape).Source l →
      (∀ f ∈ injected env l n, f.vc < cfg.vcs) ∧
      ∀ v < cfg.vcs, Packets Flit.head Flit.tail Flit.pid (onVc (injected env l n) v) ∧
        ((onVc (injected env l n) v).length : Int) ≤ cfg.buf.perVc + (creditsAt st l (n + 1)).flatten.count v := by
      decide +kernel
    have h2 : ∀ n ∈ List.range 37, ∀ l < (mesh shape).links, (mesh shape).Sink l →
      (∀ c ∈ credited env l n, c.Nodup ∧ ∀ v ∈ c, v < cfg.vcs) ∧
      ∀ v < cfg.vcs, (credited env l n).flatten.count v ≤ (onVc (flitsAt st l (n + 1)) v).length := by
      decide +kernel
    intro n hn
    exact Example.nodes_of (h1 n (by simp; omega)) (h2 n (by simp; omega)) (by decide)
  step := by
    have h : ∀ n ∈ List.range 36, (tick islip islip (mesh shape) cfg (env n) (st n)).isOk = true := by decide +kernel
    intro n hn
    exact keep_ok (h n (by simp; omega)) _

theorem all_sent : ∀ u < 2, injected env (injLink shape u) 36 = if u = 0 then sent else [] := by decide +kernel

theorem sends : Sends shape vcs 36 env where
  heads := by
    have : ∀ u < 2, ∀ f ∈ injected env (injLink shape u) 36, f.head = true →
      f.data.src = u ∧ f.data.dest < 2 ∧ ((vcs f.data.cls).1 ≤ f.vc ∧ f.vc ≤ (vcs f.data.cls).2) ∧ f.hops = 0 := by
      decide +kernel
    exact this
  same := by
    intro u hu v
    rw [all_sent u hu]
    split
    · by_cases hv : v = 0
      · subst hv; decide
      · rw [onVc, List.filter_eq_nil_iff.2]
        · exact packets_nil
        · simp [sent]; omega
    · exact packets_nil

end Overtaken

/-- With two virtual channels per type a packet overtakes another one of the same type, source and destination, although
both were sent on the same virtual channel. -/
theorem C92_two_vcs_violated : ∃ (e : Nat → Env (Msg String) Unit Unit) (s : Nat → S (Msg String) Islip Islip),
    Ticks islip islip (mesh ⟨2, 1⟩) ⟨0, 0, ⟨2, -1, 1, false⟩, -1, 1, 1, 1, 1, 1⟩ (fun _ => Islip.init 6 6 1)
      (fun _ => Islip.init 3 3 1) 36 e s ∧
    Sends ⟨2, 1⟩ (fun _ => (0, 1)) 36 e ∧ (∀ n < 36, Uses (dimOrderMesh ⟨2, 1⟩ fun _ => (0, 1)) (e n)) ∧
    (injected e (injLink ⟨2, 1⟩ 0) 36).map (fun f => (f.vc, f.data)) =
      [(0, ⟨0, 1, 0, "first"⟩), (0, ⟨0, 1, 0, "second"⟩), (0, ⟨0, 1, 0, "third"⟩)] ∧
    (flitsAt s (ejLink ⟨2, 1⟩ 1) 37).map (fun f => f.data) =
      [⟨0, 1, 0, "first"⟩, ⟨0, 1, 0, "third"⟩, ⟨0, 1, 0, "second"⟩] :=
  ⟨Overtaken.env, Overtaken.st, Overtaken.ticks, Overtaken.sends, fun n _ => Overtaken.uses n, by decide +kernel,
    by decide +kernel⟩

end OrderExample

end RadSim.Net
