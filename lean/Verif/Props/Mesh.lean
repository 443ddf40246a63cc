import Verif.Lemmas.MeshNet

/-! # Properties of a mesh of routers

Any radix and number of dimensions, `dim_order_mesh` or `xy_yx_mesh` in all routers. -/

namespace RadSim.Net

open Router (Flit Hop Cfg upto)
open Routing (Shape Pkt Rf dimOrderMesh xyYxMesh vcOk available)
open Grid (manhattan)
open Alloc (Holds Valid asked islip Islip)

variable {δ σ τ ρ ρ' : Type} {VA : Alloc.Cls σ ρ} {SA : Alloc.Cls τ ρ'} {m : Shape} {b : Cfg} {va : Nat → σ} {sa : Nat → τ}
  {N : Nat} {e : Nat → Env (Msg δ) ρ ρ'} {s : Nat → S (Msg δ) σ τ} {rng : Nat → Nat × Nat}

/-- Heads on the inputs of routers of a mesh are where they may be. -/
theorem mesh_heads (hk : 0 < m.k) {fn : Rf} (hf : Steps m rng fn) (hb : b.Ok) (ha : Allocs VA SA (mesh m) b va sa)
    (h : Ticks VA SA (mesh m) b va sa N e s) (hs : Sends m rng N e) (hu : ∀ n < N, Uses fn (e n)) {l : Nat}
    (hl : l < (mesh m).links) {f : Flit (Msg δ)} (hm : f ∈ flitsAt s l (N + 1)) (hh : f.head = true) : mayMesh m rng l f :=
  heads_guided (mesh_wired hk) hb ha h (mesh_guided hk hf hs hu) N (Nat.le_refl _) l hl f
    ((flitsAt_prefix h (Nat.le_refl _) hl).subset hm) hh

/-- The part of C81 that is common to all routing functions of a mesh. -/
theorem mesh_right (hk : 0 < m.k) {fn : Rf} (hf : Steps m rng fn) (hb : b.Ok) (ha : Allocs VA SA (mesh m) b va sa)
    (h : Ticks VA SA (mesh m) b va sa N e s) (hs : Sends m rng N e) (hu : ∀ n < N, Uses fn (e n)) {u : Nat}
    (hu' : u < m.nodes) {f : Flit (Msg δ)} (hm : f ∈ flitsAt s (ejLink m u) (N + 1)) :
    f.data.dest = u ∧ (f.head = true → f.hops = manhattan m.k m.n f.data.src u + 1) := by
  have hmay : ∀ u, ∀ g : Flit (Msg δ), mayMesh m rng (ejLink m u) g →
      g.data.dest = u ∧ g.hops = manhattan m.k m.n g.data.src u + 1 := by
    rintro u g ⟨h1, h2, -, ⟨e, -⟩ | ⟨w, p, hw, e, ⟨_, _, hd⟩, -⟩ | ⟨e, hh⟩⟩
    · unfold injLink ejLink at e; omega
    · have := enc_lt hw (Routing.dor_step hk hd).1
      unfold ejLink at e; omega
    · have : g.data.dest = u := by unfold ejLink at e; omega
      rw [this] at hh
      exact ⟨this, hh⟩
  have := right_of (fd := fun _ => 1) (cd := fun _ => 1) hk hb ha h hs (mesh_guided hk hf hs hu)
    (fun u _ g hg => (hmay u g hg).1) hu' hm
  exact ⟨this.1, fun hh => (hmay u f (this.2 hh)).2⟩

/-- C81. A mesh with dimension-order routing: no part of it ever stops the program, the routing function does not fail for
any head that comes in at a router, and every flit that a node receives is for this node and, if a head, has passed one
router more than the distance. -/
theorem C81_mesh (hk : 0 < m.k) (hn : 0 < m.n) (hb : b.Ok) (hv : ∀ c, (rng c).2 < b.vcs)
    (ha : Allocs VA SA (mesh m) b va sa) (h : Ticks VA SA (mesh m) b va sa N e s) (hs : Sends m rng N e)
    (hu : ∀ n ≤ N, Uses (dimOrderMesh m rng) (e n)) (ht : 0 ≤ (e N).now) (hm : (e N).now + 1 ≤ Channel.intMax) :
    (∃ s', tick VA SA (mesh m) b (e N) (s N) = .ok s') ∧
    (∀ r < m.nodes, ∀ i < 2 * m.n + 1, ∀ f ∈ flitsAt s ((mesh m).inLink r i) (N + 1), f.head = true →
      ∀ rnd, dimOrderMesh m rng r (pkt f) i rnd ≠ none) ∧
    ∀ u < m.nodes, ∀ f ∈ flitsAt s (ejLink m u) (N + 1),
      f.data.dest = u ∧ (f.head = true → f.hops = manhattan m.k m.n f.data.src u + 1) := by
  have hf := steps_dim hn rng
  refine ⟨C78_network_never_fails (mesh_wired hk) hb ha h (mesh_legal hf hv (hu N (Nat.le_refl _)) ht hm), ?_, ?_⟩
  · intro r hr i hi f hf' hh rnd
    have := mesh_heads hk hf hb ha h hs (fun n hn => hu n (Nat.le_of_lt hn)) ((mesh_wired hk).inLt r hr i hi) hf' hh
    unfold dimOrderMesh
    rw [if_pos this.2.2.1]
    simp
  · intro u hu' f hf'
    exact mesh_right hk hf hb ha h hs (fun n hn => hu n (Nat.le_of_lt hn)) hu' hf'

/-- C81 for `xy_yx_mesh` with any random draws, for classes with two virtual channels or more. -/
theorem C81_mesh_two_orders (hk : 0 < m.k) (hn : 0 < m.n) (hb : b.Ok) (hv : ∀ c, (rng c).2 < b.vcs)
    (hav : ∀ c, 0 < available (rng c))
    (ha : Allocs VA SA (mesh m) b va sa) (h : Ticks VA SA (mesh m) b va sa N e s) (hs : Sends m rng N e)
    (hu : ∀ n ≤ N, Uses (xyYxMesh m rng) (e n)) (ht : 0 ≤ (e N).now) (hm : (e N).now + 1 ≤ Channel.intMax) :
    (∃ s', tick VA SA (mesh m) b (e N) (s N) = .ok s') ∧
    (∀ r < m.nodes, ∀ i < 2 * m.n + 1, ∀ f ∈ flitsAt s ((mesh m).inLink r i) (N + 1), f.head = true →
      ∀ rnd, xyYxMesh m rng r (pkt f) i rnd ≠ none) ∧
    ∀ u < m.nodes, ∀ f ∈ flitsAt s (ejLink m u) (N + 1),
      f.data.dest = u ∧ (f.head = true → f.hops = manhattan m.k m.n f.data.src u + 1) := by
  have hf := steps_xy hn rng
  refine ⟨C78_network_never_fails (mesh_wired hk) hb ha h (mesh_legal hf hv (hu N (Nat.le_refl _)) ht hm), ?_, ?_⟩
  · intro r hr i hi f hf' hh rnd
    have := mesh_heads hk hf hb ha h hs (fun n hn => hu n (Nat.le_of_lt hn)) ((mesh_wired hk).inLt r hr i hi) hf' hh
    unfold xyYxMesh
    simp only [if_pos this.2.2.1, if_pos (hav _)]
    repeat' split
    all_goals simp
  · intro u hu' f hf'
    exact mesh_right hk hf hb ha h hs (fun n hn => hu n (Nat.le_of_lt hn)) hu' hf'

/-! ## An example

A mesh of two by two with iSLIP allocators and one class with two virtual channels. Node 0 sends a packet of two flits to
node 3, and node 3 one of one flit to node 0. -/

namespace MeshExample

def shape : Shape := ⟨2, 2⟩

def cfg : Cfg := ⟨0, 0, ⟨2, -1, 2, false⟩, -1, 1, 1, 1, 1, 1⟩

def vcs (_ : Nat) : Nat × Nat := (0, 1)

def a0 : Flit (Msg String) := ⟨1, true, false, 7, 0, 0, 3, 0, "a0"⟩
def a1 : Flit (Msg String) := ⟨1, false, true, 7, 0, 0, 3, 0, "a1"⟩
def b0 : Flit (Msg String) := ⟨0, true, true, 8, 0, 3, 0, 0, "b0"⟩

def env (fn : Rf) (n : Nat) : Env (Msg String) Unit Unit where
  now := 1000 * n
  inject := fun l => if n = 0 ∧ l = 16 then some a0 else if n = 1 ∧ l = 16 then some a1
    else if n = 0 ∧ l = 19 then some b0 else none
  credit := fun _ => none
  rf := fun r i f => hop (fn r (pkt f) i (n % 2 == 0))
  rva := fun _ => ()
  rsa := fun _ => ()

def keep {ε α : Type} (x : Except ε α) (y : α) : α :=
  match x with
  | .ok z => z
  | .error _ => y

theorem keep_ok {ε α : Type} {x : Except ε α} (h : x.isOk = true) (y : α) : x = .ok (keep x y) := by
  cases x with
  | ok z => rfl
  | error z => cases h

def st (fn : Rf) : Nat → S (Msg String) Islip Islip
  | 0 => .init (fun _ => Islip.init 10 10 1) (fun _ => Islip.init 5 5 1)
  | n + 1 => keep (tick islip islip (mesh shape) cfg (env fn n) (st fn n)) (st fn n)

abbrev dim : Rf := dimOrderMesh shape vcs

abbrev xy : Rf := xyYxMesh shape vcs

/-- The flits arrive after three routers. -/
theorem arrive : (flitsAt (st dim) (ejLink shape 3) 20, flitsAt (st dim) (ejLink shape 0) 20) =
    ([⟨0, true, false, 7, 3, 0, 3, 0, "a0"⟩, ⟨0, false, true, 7, 3, 0, 3, 0, "a1"⟩],
     [⟨0, true, true, 8, 3, 3, 0, 0, "b0"⟩]) := by decide +kernel

theorem arrive_xy : (flitsAt (st xy) (ejLink shape 3) 20, flitsAt (st xy) (ejLink shape 0) 20) =
    ([⟨0, true, false, 7, 3, 0, 3, 0, "a0"⟩, ⟨0, false, true, 7, 3, 0, 3, 0, "a1"⟩],
     [⟨0, true, true, 8, 3, 3, 0, 0, "b0"⟩]) := by decide +kernel

theorem cfg_ok : cfg.Ok :=
  ⟨⟨by decide, by decide, by decide⟩, rfl, .inl rfl, rfl, rfl, rfl, rfl⟩

theorem allocs : Allocs islip islip (mesh shape) cfg (fun _ => Islip.init 10 10 1) (fun _ => Islip.init 5 5 1) where
  va := fun _ _ => Alloc.C44_islip 10 10 1
  sa := fun _ _ => Alloc.C44_islip 5 5 1

theorem uses (fn : Rf) (n : Nat) : Uses fn (env fn n) := fun _ _ _ => ⟨n % 2 == 0, rfl⟩

theorem ticks {fn : Rf} (hf : Steps shape vcs fn)
    (h1 : ∀ n ∈ List.range 20, ∀ l < (mesh shape).links, (mesh shape).Source l →
      (∀ f ∈ injected (env fn) l n, f.vc < cfg.vcs) ∧
      ∀ v < cfg.vcs, Packets Flit.head Flit.tail Flit.pid (onVc (injected (env fn) l n) v) ∧
        ((onVc (injected (env fn) l n) v).length : Int) ≤ cfg.buf.perVc + (creditsAt (st fn) l (n + 1)).flatten.count v)
    (h2 : ∀ n ∈ List.range 19, (tick islip islip (mesh shape) cfg (env fn n) (st fn n)).isOk = true) :
    Ticks islip islip (mesh shape) cfg (fun _ => Islip.init 10 10 1) (fun _ => Islip.init 5 5 1) 19 (env fn) (st fn) where
  start := rfl
  legal := fun n hn => mesh_legal hf (fun _ => Nat.le_refl _) (uses fn n) (by simp only [env]; omega)
    (by simp only [env, Channel.intMax]; omega)
  nodes := by
    intro n hn
    have hz : ∀ l, credited (env fn) l n = [] := by
      intro l
      rw [credited, List.filterMap_eq_nil_iff]
      intro a ha
      obtain ⟨_, _, rfl⟩ := Router.upto_mem.1 ha
      rfl
    refine Example.nodes_of (h1 n (by simp; omega)) (fun l hl _ => ?_) (by decide)
    rw [hz]
    simp
  step := by
    intro n hn
    exact keep_ok (h2 n (by simp; omega)) _

theorem sends (fn : Rf) : Sends shape vcs 19 (env fn) := by
  have key : ∀ u < 4, injected (env fn) (injLink shape u) 19 = if u = 0 then [a0, a1] else if u = 3 then [b0] else [] := by
    intro u hu
    have : injected (env fn) (injLink shape u) 19 = injected (env dim) (injLink shape u) 19 := by
      unfold injected upto
      rw [List.filterMap_map, List.filterMap_map]
      rfl
    rw [this]
    have : ∀ u < 4, injected (env dim) (injLink shape u) 19 = if u = 0 then [a0, a1] else if u = 3 then [b0] else [] := by
      decide +kernel
    exact this u hu
  refine ⟨?_, ?_⟩
  · intro u hu f hf _
    change u < 4 at hu
    rw [key u hu] at hf
    split at hf
    · subst u
      rcases List.mem_cons.1 hf with rfl | hf
      · decide
      · rw [List.mem_singleton.1 hf]; decide
    · split at hf
      · subst u
        rw [List.mem_singleton.1 hf]; decide
      · cases hf
  · intro u hu v
    change u < 4 at hu
    rw [key u hu]
    split
    · by_cases hv : v = 1
      · subst v; decide
      · rw [onVc, List.filter_eq_nil_iff.2]
        · exact packets_nil
        · simp [a0, a1]; omega
    · split
      · by_cases hv : v = 0
        · subst v; decide
        · rw [onVc, List.filter_eq_nil_iff.2]
          · exact packets_nil
          · simp [b0]; omega
      · exact packets_nil

theorem ticks_dim : Ticks islip islip (mesh shape) cfg (fun _ => Islip.init 10 10 1) (fun _ => Islip.init 5 5 1) 19 (env dim)
    (st dim) :=
  ticks (steps_dim (by decide) vcs) (by decide +kernel) (by decide +kernel)

theorem ticks_xy : Ticks islip islip (mesh shape) cfg (fun _ => Islip.init 10 10 1) (fun _ => Islip.init 5 5 1) 19 (env xy)
    (st xy) :=
  ticks (steps_xy (by decide) vcs) (by decide +kernel) (by decide +kernel)

/-- The hypotheses of C81 are met. -/
example := C81_mesh (m := shape) (rng := vcs) (by decide) (by decide) cfg_ok (fun _ => Nat.le_refl _) allocs ticks_dim (sends dim)
  (fun n _ => uses dim n) (by decide) (by decide)

example := C81_mesh_two_orders (m := shape) (rng := vcs) (by decide) (by decide) cfg_ok (fun _ => Nat.le_refl _)
  (fun _ => show 0 < available (0, 1) by decide) allocs ticks_xy (sends xy) (fun n _ => uses xy n) (by decide) (by decide)

/-- The head of the first packet has passed three routers, as C81 says. -/
example : ∀ f ∈ flitsAt (st dim) (ejLink shape 3) 20, f.head = true → f.hops = 3 := by
  intro f hf hh
  have := ((C81_mesh (m := shape) (rng := vcs) (by decide) (by decide) cfg_ok (fun _ => Nat.le_refl _) allocs ticks_dim (sends dim)
    (fun n _ => uses dim n) (by decide) (by decide)).2.2 3 (by decide) f hf).2 hh
  have h0 : ∀ f ∈ flitsAt (st dim) (ejLink shape 3) 20, f.data.src = 0 := by decide +kernel
  rw [this, h0 f hf]
  decide

end MeshExample

end RadSim.Net
