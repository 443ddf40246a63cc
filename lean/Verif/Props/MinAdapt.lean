import Verif.Lemmas.MinAdapt
import Verif.Props.MeshLive

/-! # Adaptive routing of a mesh -/

namespace RadSim.Routing

open Router (Hop)
open Grid (manhattan)

/-- C144. What is in an output set: of the elements added with a priority only the first, higher priorities first. -/
theorem C144_set (hs : List Hop) : ((hs.foldl addRange []).Pairwise fun a b => a.pri > b.pri) ∧
    ∀ h, h ∈ hs.foldl addRange [] ↔ hs.find? (fun x => x.pri = h.pri) = some h :=
  fold_addRange hs

/-- Four additions; the last two have priorities that are there. -/
example : [(⟨0, 0, 0, 0⟩ : Hop), ⟨2, 1, 3, 1⟩, ⟨4, 1, 3, 1⟩, ⟨1, 0, 3, 0⟩].foldl addRange [] = [⟨2, 1, 3, 1⟩, ⟨0, 0, 0, 0⟩] := by
  decide

/-- C144, where it fails: at no router do the adaptive routing functions offer more than one direction, whatever the
destination. So no packet ever goes around a busy output. -/
theorem C144_one_direction_violated {s : Shape} (hk : 0 < s.k) {rng : Nat → Nat × Nat} {r i : Nat} {f : Pkt}
    (hr : r < s.nodes) (hd : f.dest < s.nodes) (hv : vcOk rng f) :
    (∀ l, minAdaptMesh s rng r f i = some l → ∀ p ∈ l, ∀ q ∈ l, p.port = q.port) ∧
    ∀ l, planarAdaptMesh s rng r f i = some l → l.length = 1 := by
  refine ⟨fun l hl p hp q hq => ?_, fun l hl => ?_⟩
  · by_cases hne : r = f.dest
    · unfold minAdaptMesh at hl
      rw [if_pos hv] at hl
      dsimp only at hl
      rw [if_pos hne] at hl
      cases hl
      rw [List.mem_singleton.1 hp, List.mem_singleton.1 hq]
    · rw [minAdapt_eq hk hr hd hv hne] at hl
      cases hl
      have : ∀ x, x ∈ (if (if i = 2 * s.n then (rng f.cls).2 else f.vc) ≠ (rng f.cls).1 then
          addRange [⟨dorNextMesh s r f.dest false, 0, (rng f.cls).1, (rng f.cls).1⟩]
            ⟨dorNextMesh s r f.dest false, (rng f.cls).1 + 1, (rng f.cls).2, 1⟩
          else [⟨dorNextMesh s r f.dest false, 0, (rng f.cls).1, (rng f.cls).1⟩]) → x.port = dorNextMesh s r f.dest false := by
        generalize (if i = 2 * s.n then (rng f.cls).2 else f.vc) = z
        intro x hx
        split at hx
        · rcases addRange_mem hx with h | rfl
          · rw [List.mem_singleton.1 h]
          · rfl
        · rw [List.mem_singleton.1 hx]
      rw [this p hp, this q hq]
  · by_cases hne : r = f.dest
    · unfold planarAdaptMesh at hl
      rw [if_pos hv] at hl
      dsimp only at hl
      rw [if_neg (fun h => h hne)] at hl
      cases hl
      rfl
    · rw [planar_map hv hne] at hl
      obtain ⟨x, -, rfl⟩ := Option.map_eq_some_iff.1 hl
      rfl

/-- At router 0 of a mesh of three by three, for a packet to router 4, both ports 0 and 2 lead to routers that are nearer,
and both functions offer port 0 only. -/
example : manhattan 3 2 0 4 = 2 ∧ manhattan 3 2 1 4 = 1 ∧ manhattan 3 2 3 4 = 1 ∧
    receivers ⟨3, 2⟩ (outputChannel ⟨3, 2⟩ 0 0) = [(1, 1)] ∧ receivers ⟨3, 2⟩ (outputChannel ⟨3, 2⟩ 0 2) = [(3, 3)] ∧
    (minAdaptMesh ⟨3, 2⟩ (fun _ => (0, 3)) 0 ⟨4, 0, 2, -1⟩ 4).map (·.map (·.port)) = some [0, 0] ∧
    (planarAdaptMesh ⟨3, 2⟩ (fun _ => (0, 3)) 0 ⟨4, 0, 2, -1⟩ 4).map (·.map (·.port)) = some [0] := by decide +kernel

/-- C144, where it fails: for a class whose virtual channels do not begin at 0, `min_adapt_mesh` offers channel 0 at every
router on the way, and a flit of the class that takes it makes the assertion fail at the next router. -/
theorem C144_foreign_channel_violated {s : Shape} (hk : 0 < s.k) {rng : Nat → Nat × Nat} {r i : Nat} {f : Pkt}
    (hr : r < s.nodes) (hd : f.dest < s.nodes) (hv : vcOk rng f) (hne : r ≠ f.dest) (hb : 0 < (rng f.cls).1) :
    ∃ l, minAdaptMesh s rng r f i = some l ∧ (∃ p ∈ l, p.vcStart = 0) ∧
      ∀ r' i', minAdaptMesh s rng r' { f with vc := 0 } i' = none := by
  refine ⟨_, minAdapt_eq hk hr hd hv hne, ?_, fun r' i' => ?_⟩
  · generalize (if i = 2 * s.n then (rng f.cls).2 else f.vc) = z
    split
    · exact ⟨_, addRange_old (List.mem_singleton.2 rfl), rfl⟩
    · exact ⟨_, List.mem_singleton.2 rfl, rfl⟩
  · unfold minAdaptMesh
    rw [if_neg]
    intro h
    have := h.1
    dsimp only at this
    omega

/-- Two classes with two virtual channels each, the packet is of the second. -/
example : minAdaptMesh ⟨3, 2⟩ (fun c => (2 * c, 2 * c + 1)) 0 ⟨4, 1, 3, -1⟩ 4 = some [⟨0, 0, 2, 2⟩, ⟨0, 3, 3, 1⟩] := by decide

example := C144_foreign_channel_violated (s := ⟨3, 2⟩) (rng := fun c => (2 * c, 2 * c + 1)) (r := 0) (i := 4)
  (f := ⟨4, 1, 3, -1⟩) (by decide) (by decide) (by decide) (by decide) (by decide) (by decide)

end RadSim.Routing

namespace RadSim.Net

open Router (Flit Hop Cfg upto)
open Routing (Shape Pkt Rs minAdaptMesh planarAdaptMesh vcOk)
open Grid (manhattan)
open Alloc (islip Islip)

variable {δ σ τ ρ ρ' : Type} {VA : Alloc.Cls σ ρ} {SA : Alloc.Cls τ ρ'} {m : Shape} {b : Cfg} {va : Nat → σ} {sa : Nat → τ}
  {N : Nat} {e : Nat → Env (Msg δ) ρ ρ'} {s : Nat → S (Msg δ) σ τ} {rng : Nat → Nat × Nat}

/-- C144. A mesh with `planar_adapt_mesh` and no faults: no part of it ever stops the program, the assertions of the routing
function hold for all heads, and every flit received is for this node and has gone a shortest way. -/
theorem C144_planar_mesh (hk : 0 < m.k) (hn : 0 < m.n) (hb : b.Ok) (hv : ∀ c, (rng c).2 < b.vcs)
    (ha : Allocs VA SA (mesh m) b va sa) (h : Ticks VA SA (mesh m) b va sa N e s) (hs : Sends m rng N e)
    (hu : ∀ n ≤ N, UsesSet (planarAdaptMesh m rng) (e n)) (ht : 0 ≤ (e N).now) (hm : (e N).now + 1 ≤ Channel.intMax) :
    (∃ s', tick VA SA (mesh m) b (e N) (s N) = .ok s') ∧
    (∀ r < m.nodes, ∀ i < 2 * m.n + 1, ∀ f ∈ flitsAt s ((mesh m).inLink r i) (N + 1), f.head = true →
      planarAdaptMesh m rng r (pkt f) i ≠ none) ∧
    ∀ u < m.nodes, ∀ f ∈ flitsAt s (ejLink m u) (N + 1),
      f.data.dest = u ∧ (f.head = true → f.hops = manhattan m.k m.n f.data.src u + 1) := by
  have hf := follows_planar (rng := rng) hk hn
  have hu' : ∀ n < N, UsesSet (planarAdaptMesh m rng) (e n) := fun n hn => hu n (Nat.le_of_lt hn)
  exact ⟨C78_network_never_fails (mesh_wired hk) hb ha h (follows_legal hf hv (hu N (Nat.le_refl _)) ht hm),
    fun r hr i hi f hf' hh => follows_never_fails hk hn hf hb ha h hs hu' hr hi hf' hh,
    fun u hu'' f hf' => follows_right hk hn hf hb ha h hs hu' hu'' hf'⟩

/-- C144. The same for `min_adapt_mesh`, when all classes begin at virtual channel 0. Missing: other classes, for which it
is false. -/
theorem C144_min_adapt_mesh_partial (hk : 0 < m.k) (hn : 0 < m.n) (h0 : ∀ c, (rng c).1 = 0) (hb : b.Ok)
    (hv : ∀ c, (rng c).2 < b.vcs)
    (ha : Allocs VA SA (mesh m) b va sa) (h : Ticks VA SA (mesh m) b va sa N e s) (hs : Sends m rng N e)
    (hu : ∀ n ≤ N, UsesSet (minAdaptMesh m rng) (e n)) (ht : 0 ≤ (e N).now) (hm : (e N).now + 1 ≤ Channel.intMax) :
    (∃ s', tick VA SA (mesh m) b (e N) (s N) = .ok s') ∧
    (∀ r < m.nodes, ∀ i < 2 * m.n + 1, ∀ f ∈ flitsAt s ((mesh m).inLink r i) (N + 1), f.head = true →
      minAdaptMesh m rng r (pkt f) i ≠ none) ∧
    ∀ u < m.nodes, ∀ f ∈ flitsAt s (ejLink m u) (N + 1),
      f.data.dest = u ∧ (f.head = true → f.hops = manhattan m.k m.n f.data.src u + 1) := by
  have hf := follows_minAdapt hk hn h0
  have hu' : ∀ n < N, UsesSet (minAdaptMesh m rng) (e n) := fun n hn => hu n (Nat.le_of_lt hn)
  exact ⟨C78_network_never_fails (mesh_wired hk) hb ha h (follows_legal hf hv (hu N (Nat.le_refl _)) ht hm),
    fun r hr i hi f hf' hh => follows_never_fails hk hn hf hb ha h hs hu' hr hi hf' hh,
    fun u hu'' f hf' => follows_right hk hn hf hb ha h hs hu' hu'' hf'⟩

/-- The part of C144 that is common to the two routing functions. -/
theorem follows_delivers {rs : Rs} {good : Pkt → Prop} (hk : 0 < m.k) (hn : 0 < m.n) (hf : Follows m rng rs good)
    (hb : b.Ok) (ho : b.outSize ≠ 0) (ha : Allocs VA SA (mesh m) b va sa) (hg : Grants VA SA (mesh m) b va sa)
    (h : Ticks VA SA (mesh m) b va sa N e s) (hs : Sends m rng N e) (hu : ∀ n < N, UsesSet rs (e n)) {n₀ D K : Nat}
    (hd : Drains (mesh m) b N n₀ D K e s)
    (hN : n₀ + ((m.n * m.k + 1) * flitsIn (mesh m) e n₀ + 1) * (3 * K + D + 2 * (m.nodes * ((2 * m.n + 1) * b.vcs)) + 6) ≤ N)
    {u : Nat} (hu' : u < m.nodes) (P : List (Bool × Bool × Int × Msg δ) → Bool) :
    receivedBy m b s (N + 1) u P = sentTo m b e N u P := by
  rw [← mesh_slots] at hN
  exact delivers_to hk (C82_network_drains (mesh_wired hk) hb ho ha hg h (follows_guided hk hn hf hs hu)
    (follows_ranked hk hn hf hu) hd hN) (fun w hw f hf' => (follows_right hk hn hf hb ha h hs hu hw hf').1) hu' P

/-- C144. A mesh with `planar_adapt_mesh` and no faults delivers everything, for all classes. -/
theorem C144_planar_delivers (hk : 0 < m.k) (hn : 0 < m.n) (hb : b.Ok) (ho : b.outSize ≠ 0)
    (ha : Allocs VA SA (mesh m) b va sa) (hg : Grants VA SA (mesh m) b va sa) (h : Ticks VA SA (mesh m) b va sa N e s)
    (hs : Sends m rng N e) (hu : ∀ n < N, UsesSet (planarAdaptMesh m rng) (e n)) {n₀ D K : Nat}
    (hd : Drains (mesh m) b N n₀ D K e s)
    (hN : n₀ + ((m.n * m.k + 1) * flitsIn (mesh m) e n₀ + 1) * (3 * K + D + 2 * (m.nodes * ((2 * m.n + 1) * b.vcs)) + 6) ≤ N)
    {u : Nat} (hu' : u < m.nodes) (P : List (Bool × Bool × Int × Msg δ) → Bool) :
    receivedBy m b s (N + 1) u P = sentTo m b e N u P :=
  follows_delivers hk hn (follows_planar (rng := rng) hk hn) hb ho ha hg h hs hu hd hN hu' P

/-- C144. A mesh with `min_adapt_mesh` delivers everything when all classes begin at virtual channel 0. Missing: other
classes, for which the assertion of the routing function fails. -/
theorem C144_min_adapt_delivers_partial (hk : 0 < m.k) (hn : 0 < m.n) (h0 : ∀ c, (rng c).1 = 0) (hb : b.Ok)
    (ho : b.outSize ≠ 0)
    (ha : Allocs VA SA (mesh m) b va sa) (hg : Grants VA SA (mesh m) b va sa) (h : Ticks VA SA (mesh m) b va sa N e s)
    (hs : Sends m rng N e) (hu : ∀ n < N, UsesSet (minAdaptMesh m rng) (e n)) {n₀ D K : Nat}
    (hd : Drains (mesh m) b N n₀ D K e s)
    (hN : n₀ + ((m.n * m.k + 1) * flitsIn (mesh m) e n₀ + 1) * (3 * K + D + 2 * (m.nodes * ((2 * m.n + 1) * b.vcs)) + 6) ≤ N)
    {u : Nat} (hu' : u < m.nodes) (P : List (Bool × Bool × Int × Msg δ) → Bool) :
    receivedBy m b s (N + 1) u P = sentTo m b e N u P :=
  follows_delivers hk hn (follows_minAdapt hk hn h0) hb ho ha hg h hs hu hd hN hu' P

/-! ## An example

A mesh of two by two with three virtual channels, with the packets of the example of C81 and nodes that return all
credits. -/

namespace AdaptExample

open MeshExample (shape a0 a1 b0 keep keep_ok)

def cfg : Cfg := ⟨0, 0, ⟨3, -1, 2, false⟩, -1, 1, 1, 1, 1, 1⟩

def vcs (_ : Nat) : Nat × Nat := (0, 2)

def env (rs : Rs) (n : Nat) : Env (Msg String) Unit Unit where
  now := 1000 * n
  inject := (MeshExample.env MeshExample.dim n).inject
  credit := fun l => if (n = 20 ∧ l = 20) ∨ ((n = 20 ∨ n = 21) ∧ l = 23) then some [0] else none
  rf := fun r i f => (rs r (pkt f) i).getD []
  rva := fun _ => ()
  rsa := fun _ => ()

def st (rs : Rs) : Nat → S (Msg String) Islip Islip
  | 0 => .init (fun _ => Islip.init 15 15 1) (fun _ => Islip.init 5 5 1)
  | n + 1 => keep (tick islip islip (mesh shape) cfg (env rs n) (st rs n)) (st rs n)

abbrev min : Rs := minAdaptMesh shape vcs

abbrev planar : Rs := planarAdaptMesh shape vcs

/-- The flits arrive after three routers. -/
theorem arrive_min : (flitsAt (st min) (ejLink shape 3) 20, flitsAt (st min) (ejLink shape 0) 20) =
    ([⟨0, true, false, 7, 3, 0, 3, 0, "a0"⟩, ⟨0, false, true, 7, 3, 0, 3, 0, "a1"⟩],
     [⟨0, true, true, 8, 3, 3, 0, 0, "b0"⟩]) := by decide +kernel

theorem arrive_planar : (flitsAt (st planar) (ejLink shape 3) 20, flitsAt (st planar) (ejLink shape 0) 20) =
    ([⟨0, true, false, 7, 3, 0, 3, 0, "a0"⟩, ⟨0, false, true, 7, 3, 0, 3, 0, "a1"⟩],
     [⟨0, true, true, 8, 3, 3, 0, 0, "b0"⟩]) := by decide +kernel

/-- The virtual channels of the first packet on the channel from router 0 to router 1. -/
theorem between : ((flitsAt (st min) 0 20).map (·.vc), (flitsAt (st planar) 0 20).map (·.vc)) = ([0, 0], [2, 2]) := by
  decide +kernel

theorem cfg_ok : cfg.Ok :=
  ⟨⟨by decide, by decide, by decide⟩, rfl, .inl rfl, rfl, rfl, rfl, rfl⟩

theorem allocs : Allocs islip islip (mesh shape) cfg (fun _ => Islip.init 15 15 1) (fun _ => Islip.init 5 5 1) where
  va := fun _ _ => Alloc.C44_islip 15 15 1
  sa := fun _ _ => Alloc.C44_islip 5 5 1

theorem grants : Grants islip islip (mesh shape) cfg (fun _ => Islip.init 15 15 1) (fun _ => Islip.init 5 5 1) where
  va := fun _ _ => (Alloc.C68_islip 15 15 1 (by decide)).mono fun _ _ h => h.1
  sa := fun _ _ => (Alloc.C68_islip 5 5 1 (by decide)).mono fun _ _ h => h.1

variable {rs : Rs} {good : Pkt → Prop}

theorem uses (rs : Rs) (n : Nat) : UsesSet rs (env rs n) := fun _ _ _ => rfl

theorem silent (rs : Rs) (n : Nat) (hn : 26 ≤ n) : Silent (mesh shape) (env rs n) := by
  constructor
  · intro l _
    simp only [env, MeshExample.env]
    repeat' rw [if_neg (by omega)]
  · intro l _
    simp only [env]
    rw [if_neg (by omega)]

instance (s : S (Msg String) Islip Islip) : Decidable (Rests (mesh shape) s) := inferInstanceAs (Decidable (_ ∧ _))

theorem step (rs : Rs) (n : Nat) (s') (h : tick islip islip (mesh shape) cfg (env rs n) (st rs n) = .ok s') :
    st rs (n + 1) = s' := by
  change keep (tick islip islip (mesh shape) cfg (env rs n) (st rs n)) (st rs n) = s'
  rw [h]
  rfl

theorem legal (hf : Follows shape vcs rs good) (n : Nat) (hn : n ≤ 2400) : Legal (mesh shape) cfg (env rs n) :=
  follows_legal hf (fun _ => Nat.le_refl _) (uses rs n) (by simp only [env]; omega)
    (by simp only [env, Channel.intMax]; omega)

/-- What is computed of the first ticks. -/
structure First (rs : Rs) : Prop where
  rests : Rests (mesh shape) (st rs 26)
  ok : ∀ n ∈ List.range 26, (tick islip islip (mesh shape) cfg (env rs n) (st rs n)).isOk = true
  inj : ∀ n ∈ List.range 27, ∀ l < (mesh shape).links, (mesh shape).Source l →
    (∀ f ∈ injected (env rs) l n, f.vc < cfg.vcs) ∧
    ∀ v < cfg.vcs, Packets Flit.head Flit.tail Flit.pid (onVc (injected (env rs) l n) v) ∧
      ((onVc (injected (env rs) l n) v).length : Int) ≤ cfg.buf.perVc + (creditsAt (st rs) l (n + 1)).flatten.count v
  cred : ∀ n ∈ List.range 27, ∀ l < (mesh shape).links, (mesh shape).Sink l →
    (∀ c ∈ credited (env rs) l n, c.Nodup ∧ ∀ v ∈ c, v < cfg.vcs) ∧
    (∀ f ∈ flitsAt (st rs) l (n + 1), f.vc < cfg.vcs) ∧
    ∀ v < cfg.vcs, (credited (env rs) l n).flatten.count v ≤ (onVc (flitsAt (st rs) l (n + 1)) v).length
  prompt : ∀ n ∈ List.range 27, 2 ≤ n → ∀ l < (mesh shape).links, (mesh shape).Sink l → ∀ v < cfg.vcs,
    (onVc (flitsAt (st rs) l (n + 1)) v).length ≤ (credited (env rs) l (n + 20)).flatten.count v

theorem first_min : First min where
  rests := by decide +kernel
  ok := by decide +kernel
  inj := by decide +kernel
  cred := by decide +kernel
  prompt := by decide +kernel

theorem first_planar : First planar where
  rests := by decide +kernel
  ok := by decide +kernel
  inj := by decide +kernel
  cred := by decide +kernel
  prompt := by decide +kernel

theorem ticks (hf : Follows shape vcs rs good) (h : First rs) :
    Ticks islip islip (mesh shape) cfg (fun _ => Islip.init 15 15 1) (fun _ => Islip.init 5 5 1) 2400 (env rs) (st rs) :=
  ticks_rest (M := 26) (mesh_wired (by decide))
    { start := rfl
      legal := fun n hn => legal hf n (by omega)
      nodes := fun n hn => Example.nodes_of (h.inj n (by simp; omega)) (fun l hl hs =>
        ⟨(h.cred n (by simp; omega) l hl hs).1, (h.cred n (by simp; omega) l hl hs).2.2⟩) (by decide)
      step := fun n hn => keep_ok (h.ok n (by simp; omega)) _ }
    h.rests (silent rs) (fun n _ => step rs n) fun n hn => legal hf n (by omega)

theorem rest (h : First rs) (n : Nat) (hn : 26 ≤ n) : Rests (mesh shape) (st rs n) :=
  (rest_on (VA := islip) (SA := islip) (b := cfg) (mesh_wired (by decide)) h.rests (silent rs) (fun n _ => step rs n) n hn).1

theorem inj_eq (rs : Rs) (n l : Nat) :
    injected (env rs) l n = injected (MeshLiveExample.env MeshExample.dim) l n := by
  unfold injected upto
  rw [List.filterMap_map, List.filterMap_map]
  rfl

theorem sends (rs : Rs) : Sends shape vcs 2400 (env rs) where
  heads := by
    intro u hu f hf hh
    rw [inj_eq, MeshLiveExample.inj_eq _ 2400 _ (by decide) (mesh_source.2 ⟨u, hu, rfl⟩)] at hf
    have := (MeshExample.sends MeshExample.dim).heads u hu f hf hh
    exact ⟨this.1, this.2.1, ⟨Nat.zero_le _, Nat.le_trans this.2.2.1.2 (show 1 ≤ 2 by decide)⟩, this.2.2.2⟩
  same := by
    intro u hu v
    rw [inj_eq, MeshLiveExample.inj_eq _ 2400 _ (by decide) (mesh_source.2 ⟨u, hu, rfl⟩)]
    exact (MeshExample.sends MeshExample.dim).same u hu v

theorem drains (h : First rs) : Drains (mesh shape) cfg 2400 2 20 1 (env rs) (st rs) where
  quiet := by
    intro n h1 _ l _
    simp only [env, MeshExample.env]
    repeat' rw [if_neg (by omega)]
  whole := by
    intro l hl v
    rw [inj_eq]
    exact (MeshLiveExample.drains (steps_dim (by decide) _) MeshLiveExample.first_dim).whole l hl v
  prompt := by
    have hz : ∀ {l : List (Flit (Msg String))} {v : Nat}, (∀ f ∈ l, f.vc < cfg.vcs) → ¬ v < cfg.vcs → onVc l v = [] := by
      intro l v hl hv
      rw [onVc, List.filter_eq_nil_iff]
      intro f hf
      have := hl f hf
      simp only [decide_eq_true_eq]
      omega
    intro n hn hN l hl v
    by_cases hn' : n < 26
    · by_cases hv : v < cfg.vcs
      · exact h.prompt n (by simp; omega) hn l hl.1 hl v hv
      · rw [hz (h.cred n (by simp; omega) l hl.1 hl).2.1 hv]
        exact Nat.zero_le _
    · rw [flitsAt_rest (rest h) (by omega) hl.1, credited_rest (silent rs) (by omega) hl]
      by_cases hv : v < cfg.vcs
      · have := h.prompt 26 (by decide) (by decide) l hl.1 hl v hv
        rwa [credited_rest (silent rs) (by decide) hl] at this
      · rw [hz (h.cred 26 (by decide) l hl.1 hl).2.1 hv]
        exact Nat.zero_le _
  credit := by
    intro n _ l _
    simp only [env]
    split <;> simp
  time := by
    intro a n ha _
    simp only [env, cfg, mesh]
    exact ⟨by omega, fun l _ => by omega⟩

theorem long (rs : Rs) : 2 + ((shape.n * shape.k + 1) * flitsIn (mesh shape) (env rs) 2 + 1) *
    (3 * 1 + 20 + 2 * (shape.nodes * ((2 * shape.n + 1) * cfg.vcs)) + 6) ≤ 2400 := by
  have : flitsIn (mesh shape) (env rs) 2 = flitsIn (mesh shape) (MeshLiveExample.env MeshExample.dim) 2 :=
    Finset.sum_congr rfl fun l _ => by rw [inj_eq]
  rw [this]
  decide +kernel

/-- The hypotheses of C144 are met, with both functions. -/
example := C144_min_adapt_mesh_partial (m := shape) (rng := vcs) (by decide) (by decide) (fun _ => rfl) cfg_ok
  (fun _ => Nat.le_refl _) allocs (ticks (follows_minAdapt (by decide) (by decide) fun _ => rfl) first_min) (sends min)
  (fun n _ => uses min n) (by decide) (by decide)

example := C144_planar_mesh (m := shape) (rng := vcs) (by decide) (by decide) cfg_ok
  (fun _ => Nat.le_refl _) allocs (ticks (follows_planar (by decide) (by decide)) first_planar) (sends planar)
  (fun n _ => uses planar n) (by decide) (by decide)

/-- Node 3 has received the packet of two flits. -/
example : receivedBy shape cfg (st min) 2401 3 (· = [body a0, body a1]) = 1 := by
  have hf := follows_minAdapt (m := shape) (rng := vcs) (by decide) (by decide) fun _ => rfl
  rw [C144_min_adapt_delivers_partial (m := shape) (rng := vcs) (by decide) (by decide) (fun _ => rfl) cfg_ok (by decide) allocs
    grants (ticks hf first_min) (sends min) (fun n _ => uses min n) (drains first_min) (long min) (by decide)]
  have : sentTo shape cfg (env min) 26 3 (· = [body a0, body a1]) = 1 := by decide +kernel
  rw [← this]
  exact Finset.sum_congr rfl fun w hw => Finset.sum_congr rfl fun v _ => by
    rw [injected_rest (silent min) (by decide) (mesh_source.2 ⟨w, Finset.mem_range.1 hw, rfl⟩)]

example : receivedBy shape cfg (st planar) 2401 0 (· = [body b0]) = 1 := by
  have hf := follows_planar (m := shape) (rng := vcs) (by decide) (by decide)
  rw [C144_planar_delivers (m := shape) (rng := vcs) (by decide) (by decide) cfg_ok (by decide) allocs
    grants (ticks hf first_planar) (sends planar) (fun n _ => uses planar n) (drains first_planar) (long planar) (by decide)]
  have : sentTo shape cfg (env planar) 26 0 (· = [body b0]) = 1 := by decide +kernel
  rw [← this]
  exact Finset.sum_congr rfl fun w hw => Finset.sum_congr rfl fun v _ => by
    rw [injected_rest (silent planar) (by decide) (mesh_source.2 ⟨w, Finset.mem_range.1 hw, rfl⟩)]

end AdaptExample

end RadSim.Net
