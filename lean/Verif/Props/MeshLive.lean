import Verif.Lemmas.MeshLive
import Verif.Props.NetworkLive
import Verif.Props.Mesh

/-! # Meshes deliver everything -/

namespace RadSim.Net

open Router (Flit Hop Cfg upto)
open Routing (Shape Pkt Rf dimOrderMesh xyYxMesh vcOk available)
open Grid (Separate)
open Alloc (islip Islip)

variable {δ σ τ ρ ρ' : Type} {VA : Alloc.Cls σ ρ} {SA : Alloc.Cls τ ρ'} {m : Shape} {b : Cfg} {va : Nat → σ} {sa : Nat → τ}
  {N : Nat} {e : Nat → Env (Msg δ) ρ ρ'} {s : Nat → S (Msg δ) σ τ} {rng : Nat → Nat × Nat}

/-- The part of C83 that is common to all routing functions of a mesh. -/
theorem mesh_delivers (hk : 0 < m.k) {fn : Rf} {ord : Nat × Nat → Nat → Bool} (hf : Steps m rng fn) (hor : Orders m rng fn ord)
    (hb : b.Ok) (ho : b.outSize ≠ 0) (ha : Allocs VA SA (mesh m) b va sa) (hg : Grants VA SA (mesh m) b va sa)
    (h : Ticks VA SA (mesh m) b va sa N e s) (hs : Sends m rng N e) (hu : ∀ n < N, Uses fn (e n)) {n₀ D K : Nat}
    (hd : Drains (mesh m) b N n₀ D K e s)
    (hN : n₀ + ((m.n * m.k + 1) * flitsIn (mesh m) e n₀ + 1) * (3 * K + D + 2 * (m.nodes * ((2 * m.n + 1) * b.vcs)) + 6) ≤ N)
    {u : Nat} (hu' : u < m.nodes) (P : List (Bool × Bool × Int × Msg δ) → Bool) :
    receivedBy m b s (N + 1) u P = sentTo m b e N u P := by
  rw [← mesh_slots] at hN
  exact delivers_to hk (C82_network_drains (mesh_wired hk) hb ho ha hg h (ord_guided hk hf hor hs hu)
    (mesh_ranked hk hf hor hu) hd hN) (fun w hw f hf' => (mesh_right hk hf hb ha h hs hu hw hf').1) hu' P

/-- C83. A mesh with dimension-order routing delivers everything: once the nodes send no more flits and return their
credits within `D` ticks, every node has received all packets that were sent to it, and nothing else, after a number of
ticks that is known from the size of the mesh, the number of virtual channels and the number of flits sent. -/
theorem C83_mesh_delivers (hk : 0 < m.k) (hn : 0 < m.n) (hb : b.Ok) (ho : b.outSize ≠ 0)
    (ha : Allocs VA SA (mesh m) b va sa) (hg : Grants VA SA (mesh m) b va sa) (h : Ticks VA SA (mesh m) b va sa N e s)
    (hs : Sends m rng N e) (hu : ∀ n < N, Uses (dimOrderMesh m rng) (e n)) {n₀ D K : Nat}
    (hd : Drains (mesh m) b N n₀ D K e s)
    (hN : n₀ + ((m.n * m.k + 1) * flitsIn (mesh m) e n₀ + 1) * (3 * K + D + 2 * (m.nodes * ((2 * m.n + 1) * b.vcs)) + 6) ≤ N)
    {u : Nat} (hu' : u < m.nodes) (P : List (Bool × Bool × Int × Msg δ) → Bool) :
    receivedBy m b s (N + 1) u P = sentTo m b e N u P :=
  mesh_delivers hk (steps_dim hn rng) (orders_dim m rng) hb ho ha hg h hs hu hd hN hu' P

/-- C83 for `xy_yx_mesh` with any random draws, for classes with an even number of virtual channels. -/
theorem C83_two_orders_partial (hk : 0 < m.k) (hn : 0 < m.n) (hb : b.Ok) (ho : b.outSize ≠ 0)
    (hsep : Separate rng) (he : ∀ c, 0 < available (rng c) ∧ (rng c).2 + 1 = (rng c).1 + 2 * available (rng c))
    (ha : Allocs VA SA (mesh m) b va sa) (hg : Grants VA SA (mesh m) b va sa) (h : Ticks VA SA (mesh m) b va sa N e s)
    (hs : Sends m rng N e) (hu : ∀ n < N, Uses (xyYxMesh m rng) (e n)) {n₀ D K : Nat}
    (hd : Drains (mesh m) b N n₀ D K e s)
    (hN : n₀ + ((m.n * m.k + 1) * flitsIn (mesh m) e n₀ + 1) * (3 * K + D + 2 * (m.nodes * ((2 * m.n + 1) * b.vcs)) + 6) ≤ N)
    {u : Nat} (hu' : u < m.nodes) (P : List (Bool × Bool × Int × Msg δ) → Bool) :
    receivedBy m b s (N + 1) u P = sentTo m b e N u P :=
  mesh_delivers hk (steps_xy hn rng) (orders_xy m hsep he) hb ho ha hg h hs hu hd hN hu' P

/-! ## An example

The mesh of the example of C81 with nodes that return all credits. -/

namespace MeshLiveExample

open MeshExample (shape cfg vcs a0 a1 b0 keep keep_ok cfg_ok allocs dim xy)

def env (fn : Rf) (n : Nat) : Env (Msg String) Unit Unit where
  now := 1000 * n
  inject := (MeshExample.env fn n).inject
  credit := fun l => if (n = 20 ∧ l = 20) ∨ ((n = 20 ∨ n = 21) ∧ l = 23) then some [0] else none
  rf := (MeshExample.env fn n).rf
  rva := fun _ => ()
  rsa := fun _ => ()

def st (fn : Rf) : Nat → S (Msg String) Islip Islip
  | 0 => .init (fun _ => Islip.init 10 10 1) (fun _ => Islip.init 5 5 1)
  | n + 1 => keep (tick islip islip (mesh shape) cfg (env fn n) (st fn n)) (st fn n)

theorem uses (fn : Rf) (n : Nat) : Uses fn (env fn n) := fun _ _ _ => ⟨n % 2 == 0, rfl⟩

theorem silent (fn : Rf) (n : Nat) (hn : 26 ≤ n) : Silent (mesh shape) (env fn n) := by
  constructor
  · intro l _
    simp only [env, MeshExample.env]
    repeat' rw [if_neg (by omega)]
  · intro l _
    simp only [env]
    rw [if_neg (by omega)]

instance (s : S (Msg String) Islip Islip) : Decidable (Rests (mesh shape) s) := inferInstanceAs (Decidable (_ ∧ _))

theorem step (fn : Rf) (n : Nat) (s') (h : tick islip islip (mesh shape) cfg (env fn n) (st fn n) = .ok s') :
    st fn (n + 1) = s' := by
  change keep (tick islip islip (mesh shape) cfg (env fn n) (st fn n)) (st fn n) = s'
  rw [h]
  rfl

theorem legal {fn : Rf} (hf : Steps shape vcs fn) (n : Nat) (hn : n ≤ 2000) : Legal (mesh shape) cfg (env fn n) :=
  mesh_legal hf (fun _ => Nat.le_refl _) (uses fn n) (by simp only [env]; omega) (by simp only [env, Channel.intMax]; omega)

theorem grants : Grants islip islip (mesh shape) cfg (fun _ => Islip.init 10 10 1) (fun _ => Islip.init 5 5 1) where
  va := fun _ _ => (Alloc.C68_islip 10 10 1 (by decide)).mono fun _ _ h => h.1
  sa := fun _ _ => (Alloc.C68_islip 5 5 1 (by decide)).mono fun _ _ h => h.1

/-- What is computed of the first ticks. -/
structure First (fn : Rf) : Prop where
  rests : Rests (mesh shape) (st fn 26)
  ok : ∀ n ∈ List.range 26, (tick islip islip (mesh shape) cfg (env fn n) (st fn n)).isOk = true
  inj : ∀ n ∈ List.range 27, ∀ l < (mesh shape).links, (mesh shape).Source l →
    (∀ f ∈ injected (env fn) l n, f.vc < cfg.vcs) ∧
    ∀ v < cfg.vcs, Packets Flit.head Flit.tail Flit.pid (onVc (injected (env fn) l n) v) ∧
      ((onVc (injected (env fn) l n) v).length : Int) ≤ cfg.buf.perVc + (creditsAt (st fn) l (n + 1)).flatten.count v
  cred : ∀ n ∈ List.range 27, ∀ l < (mesh shape).links, (mesh shape).Sink l →
    (∀ c ∈ credited (env fn) l n, c.Nodup ∧ ∀ v ∈ c, v < cfg.vcs) ∧
    (∀ f ∈ flitsAt (st fn) l (n + 1), f.vc < cfg.vcs) ∧
    ∀ v < cfg.vcs, (credited (env fn) l n).flatten.count v ≤ (onVc (flitsAt (st fn) l (n + 1)) v).length
  prompt : ∀ n ∈ List.range 27, 2 ≤ n → ∀ l < (mesh shape).links, (mesh shape).Sink l → ∀ v < cfg.vcs,
    (onVc (flitsAt (st fn) l (n + 1)) v).length ≤ (credited (env fn) l (n + 20)).flatten.count v

theorem first_dim : First dim where
  rests := by decide +kernel
  ok := by decide +kernel
  inj := by decide +kernel
  cred := by decide +kernel
  prompt := by decide +kernel

theorem first_xy : First xy where
  rests := by decide +kernel
  ok := by decide +kernel
  inj := by decide +kernel
  cred := by decide +kernel
  prompt := by decide +kernel

theorem ticks {fn : Rf} (hf : Steps shape vcs fn) (h : First fn) :
    Ticks islip islip (mesh shape) cfg (fun _ => Islip.init 10 10 1) (fun _ => Islip.init 5 5 1) 2000 (env fn) (st fn) :=
  ticks_rest (M := 26) (mesh_wired (by decide))
    { start := rfl
      legal := fun n hn => legal hf n (by omega)
      nodes := fun n hn => Example.nodes_of (h.inj n (by simp; omega)) (fun l hl hs =>
        ⟨(h.cred n (by simp; omega) l hl hs).1, (h.cred n (by simp; omega) l hl hs).2.2⟩) (by decide)
      step := fun n hn => keep_ok (h.ok n (by simp; omega)) _ }
    h.rests (silent fn) (fun n _ => step fn n) fun n hn => legal hf n (by omega)

theorem rest {fn : Rf} (h : First fn) (n : Nat) (hn : 26 ≤ n) : Rests (mesh shape) (st fn n) :=
  (rest_on (VA := islip) (SA := islip) (b := cfg) (mesh_wired (by decide)) h.rests (silent fn) (fun n _ => step fn n) n hn).1

theorem inj_eq (fn : Rf) (n l : Nat) (hn : 2 ≤ n) (hl : (mesh shape).Source l) :
    injected (env fn) l n = injected (MeshExample.env fn) l 19 := by
  have h1 : ∀ k, injected (env fn) l k = injected (MeshExample.env fn) l k := by
    intro k
    unfold injected upto
    rw [List.filterMap_map, List.filterMap_map]
    rfl
  have h2 : ∀ k, 2 ≤ k → injected (MeshExample.env fn) l k = injected (MeshExample.env fn) l 2 := by
    intro k hk
    refine filterMap_upto hk fun j hj _ => ?_
    simp only [MeshExample.env]
    repeat' rw [if_neg (by omega)]
  rw [h1, h2 n hn, h2 19 (by decide)]

theorem sends (fn : Rf) : Sends shape vcs 2000 (env fn) where
  heads := by
    intro u hu f hf
    rw [inj_eq fn 2000 _ (by decide) (mesh_source.2 ⟨u, hu, rfl⟩)] at hf
    exact (MeshExample.sends fn).heads u hu f hf
  same := by
    intro u hu v
    rw [inj_eq fn 2000 _ (by decide) (mesh_source.2 ⟨u, hu, rfl⟩)]
    exact (MeshExample.sends fn).same u hu v

theorem drains {fn : Rf} (hf : Steps shape vcs fn) (h : First fn) : Drains (mesh shape) cfg 2000 2 20 1 (env fn) (st fn) where
  quiet := by
    intro n h1 _ l _
    simp only [env, MeshExample.env]
    repeat' rw [if_neg (by omega)]
  whole := by
    have key : ∀ l < (mesh shape).links, (mesh shape).Source l → ∀ v < cfg.vcs,
        ∀ f ∈ (onVc (injected (env dim) l 2) v).getLast?, f.tail = true := by decide +kernel
    intro l hl v
    have he : injected (env fn) l 2 = injected (env dim) l 2 := by
      unfold injected upto
      rw [List.filterMap_map, List.filterMap_map]
      rfl
    rw [he]
    by_cases hv : v < cfg.vcs
    · exact key l hl.1 hl v hv
    · have hz : onVc (injected (env dim) l 2) v = [] := by
        rw [onVc, List.filter_eq_nil_iff]
        intro f hf'
        rw [← he] at hf'
        have := ((ticks hf h).nodes 2 (by decide)).vcs l hl f hf'
        simp only [decide_eq_true_eq]
        omega
      rw [hz]
      simp
  prompt := by
    have hz : ∀ {l : List (Flit (Msg String))} {v : Nat}, (∀ f ∈ l, f.vc < cfg.vcs) → ¬ v < cfg.vcs → onVc l v = [] := by
      intro l v hl hv
      rw [onVc, List.filter_eq_nil_iff]
      intro f hf
      have := hl f hf
      simp only [decide_eq_true_eq]
      omega
    intro n hn hN l hl v
    by_cases hn' : n < 26
    · by_cases hv : v < cfg.vcs
      · exact h.prompt n (by simp; omega) hn l hl.1 hl v hv
      · rw [hz (h.cred n (by simp; omega) l hl.1 hl).2.1 hv]
        exact Nat.zero_le _
    · rw [flitsAt_rest (rest h) (by omega) hl.1, credited_rest (silent fn) (by omega) hl]
      by_cases hv : v < cfg.vcs
      · have := h.prompt 26 (by decide) (by decide) l hl.1 hl v hv
        rwa [credited_rest (silent fn) (by decide) hl] at this
      · rw [hz (h.cred 26 (by decide) l hl.1 hl).2.1 hv]
        exact Nat.zero_le _
  credit := by
    intro n _ l _
    simp only [env]
    split <;> simp
  time := by
    intro a n ha _
    simp only [env, cfg, mesh]
    exact ⟨by omega, fun l _ => by omega⟩

theorem long (fn : Rf) : 2 + ((shape.n * shape.k + 1) * flitsIn (mesh shape) (env fn) 2 + 1) *
    (3 * 1 + 20 + 2 * (shape.nodes * ((2 * shape.n + 1) * cfg.vcs)) + 6) ≤ 2000 := by
  have : flitsIn (mesh shape) (env fn) 2 = flitsIn (mesh shape) (env dim) 2 := by
    refine Finset.sum_congr rfl fun l _ => ?_
    unfold injected upto
    rw [List.filterMap_map, List.filterMap_map]
    rfl
  rw [this]
  decide +kernel

/-- Node 3 has received the packet of two flits. -/
example : receivedBy shape cfg (st dim) 2001 3 (· = [body a0, body a1]) = 1 := by
  rw [C83_mesh_delivers (m := shape) (rng := vcs) (by decide) (by decide) cfg_ok (by decide) allocs grants
    (ticks (steps_dim (by decide) vcs) first_dim) (sends dim) (fun n _ => uses dim n)
    (drains (steps_dim (by decide) vcs) first_dim) (long dim) (by decide)]
  have : sentTo shape cfg (env dim) 26 3 (· = [body a0, body a1]) = 1 := by decide +kernel
  rw [← this]
  exact Finset.sum_congr rfl fun w hw => Finset.sum_congr rfl fun v _ => by
    rw [injected_rest (silent dim) (by decide) (mesh_source.2 ⟨w, Finset.mem_range.1 hw, rfl⟩)]

theorem vcs_separate : Separate vcs := fun _ _ => .inl rfl

example : receivedBy shape cfg (st xy) 2001 0 (· = [body b0]) = 1 := by
  rw [C83_two_orders_partial (m := shape) (rng := vcs) (by decide) (by decide) cfg_ok (by decide) vcs_separate
    (fun _ => show 0 < available (0, 1) ∧ 1 + 1 = 0 + 2 * available (0, 1) by decide) allocs grants
    (ticks (steps_xy (by decide) vcs) first_xy) (sends xy) (fun n _ => uses xy n)
    (drains (steps_xy (by decide) vcs) first_xy) (long xy) (by decide)]
  have : sentTo shape cfg (env xy) 26 0 (· = [body b0]) = 1 := by decide +kernel
  rw [← this]
  exact Finset.sum_congr rfl fun w hw => Finset.sum_congr rfl fun v _ => by
    rw [injected_rest (silent xy) (by decide) (mesh_source.2 ⟨w, Finset.mem_range.1 hw, rfl⟩)]

end MeshLiveExample

end RadSim.Net
