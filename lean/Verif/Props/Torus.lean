import Verif.Lemmas.Torus
import Verif.Props.NetworkLive
import Verif.Props.Mesh

/-! # Properties of a torus of routers -/

namespace RadSim.Net

open Router (Flit Hop Cfg upto)
open Routing (Shape Pkt dimOrderTorus vcOk available)
open Grid (Separate torusDist)
open Alloc (islip Islip)

variable {δ σ τ ρ ρ' : Type} {VA : Alloc.Cls σ ρ} {SA : Alloc.Cls τ ρ'} {m : Shape} {b : Cfg} {va : Nat → σ} {sa : Nat → τ}
  {N : Nat} {e : Nat → Env (Msg δ) ρ ρ'} {s : Nat → S (Msg δ) σ τ} {rng : Nat → Nat × Nat} {ul : Bool}

theorem torus_legal (hv : ∀ c, (rng c).2 < b.vcs) {x : Env (Msg δ) ρ ρ'} (hu : UsesTorus m rng x) (ht : 0 ≤ x.now)
    (hm : x.now + 2 ≤ Channel.intMax) : Legal (torus m ul) b x where
  time := ht
  fits := fun l _ => by
    simp only [torus]
    split <;> omega
  offers := by
    intro r _ i f p hp
    obtain ⟨rnd, e⟩ := hu r i f
    rw [e] at hp
    obtain ⟨o, ho, rfl⟩ := mem_hop hp
    have := torus_range ho
    exact ⟨torus_port ho, this.1, Nat.lt_of_le_of_lt this.2.2 (hv _)⟩
  once := by
    intro r _ i f
    obtain ⟨rnd, e⟩ := hu r i f
    rw [e]
    cases dimOrderTorus m rng r (pktT rng f) i rnd with
    | none => exact List.nodup_nil
    | some o =>
      simp only [hop, List.flatMap_cons, List.flatMap_nil, List.append_nil]
      exact (List.nodup_range' ..).map fun a b h => (Prod.ext_iff.1 h).2

theorem torus_wired (hk : 0 < m.k) : (torus m ul).Wired := timed_wired hk _ _

theorem torus_right (hk : 0 < m.k) (he : Even rng) (hb : b.Ok) (ha : Allocs VA SA (torus m ul) b va sa)
    (h : Ticks VA SA (torus m ul) b va sa N e s) (hs : Sends m rng N e) (hu : ∀ n < N, UsesTorus m rng (e n)) {u : Nat}
    (hu' : u < m.nodes) {f : Flit (Msg δ)} (hm : f ∈ flitsAt s (ejLink m u) (N + 1)) :
    f.data.dest = u ∧ (f.head = true → f.hops = torusDist m.k m.n f.data.src u + 1) := by
  have hmay : ∀ u, ∀ g : Flit (Msg δ), mayTorus m rng (ejLink m u) g →
      g.data.dest = u ∧ g.hops = torusDist m.k m.n g.data.src u + 1 := by
    rintro u g ⟨h1, h2, -, ⟨e, -⟩ | ⟨h, hg, hp, e, -⟩ | ⟨e, hh⟩⟩
    · unfold injLink ejLink at e; omega
    · have := enc_lt hg.node hp
      unfold ejLink at e; omega
    · have : g.data.dest = u := by unfold ejLink at e; omega
      rw [this] at hh
      exact ⟨this, hh⟩
  have := right_of hk hb ha h hs (torus_guided hk he hs hu) (fun u _ g hg => (hmay u g hg).1) hu' hm
  exact ⟨this.1, fun hh => (hmay u f (this.2 hh)).2⟩

/-- C84, first part, for classes with an even number of virtual channels: no part of a torus ever stops the program, the
routing function does not fail for any head that comes in at a router, and every flit that a node receives is for this node
and, if a head, has passed one router more than the length of the shortest way around the rings. What is missing: classes
with an odd number of virtual channels. -/
theorem C84_torus_partial (hk : 0 < m.k) (he : ∀ c, 0 < available (rng c) ∧ (rng c).2 + 1 = (rng c).1 + 2 * available (rng c))
    (hb : b.Ok) (hv : ∀ c, (rng c).2 < b.vcs)
    (ha : Allocs VA SA (torus m ul) b va sa) (h : Ticks VA SA (torus m ul) b va sa N e s) (hs : Sends m rng N e)
    (hu : ∀ n ≤ N, UsesTorus m rng (e n)) (ht : 0 ≤ (e N).now) (hm : (e N).now + 2 ≤ Channel.intMax) :
    (∃ s', tick VA SA (torus m ul) b (e N) (s N) = .ok s') ∧
    (∀ r < m.nodes, ∀ i < 2 * m.n + 1, ∀ f ∈ flitsAt s ((torus m ul).inLink r i) (N + 1), f.head = true →
      ∀ rnd, dimOrderTorus m rng r (pktT rng f) i rnd ≠ none) ∧
    ∀ u < m.nodes, ∀ f ∈ flitsAt s (ejLink m u) (N + 1),
      f.data.dest = u ∧ (f.head = true → f.hops = torusDist m.k m.n f.data.src u + 1) := by
  refine ⟨C78_network_never_fails (torus_wired hk) hb ha h (torus_legal hv (hu N (Nat.le_refl _)) ht hm), ?_, ?_⟩
  · intro r hr i hi f hf' hh rnd
    have hl := (torus_wired (ul := ul) hk).inLt r hr i hi
    have := heads_guided (torus_wired hk) hb ha h (torus_guided hk he hs fun n hn => hu n (Nat.le_of_lt hn)) N (Nat.le_refl _)
      _ hl f ((flitsAt_prefix h (Nat.le_refl _) hl).subset hf') hh
    exact torus_total he this.2.2.1
  · intro u hu' f hf'
    exact torus_right hk he hb ha h hs (fun n hn => hu n (Nat.le_of_lt hn)) hu' hf'

/-- C84, second part, again for classes with an even number of virtual channels, and channel ranges of two types that are
equal or disjoint: once the nodes send no more flits and return their credits within `D` ticks, every node has received all
packets that were sent to it, and nothing else, after a number of ticks that is known from the size of the torus, the number
of virtual channels and the number of flits sent. -/
theorem C84_torus_delivers_partial (hk : 0 < m.k)
    (he : ∀ c, 0 < available (rng c) ∧ (rng c).2 + 1 = (rng c).1 + 2 * available (rng c)) (hsep : Separate rng)
    (hb : b.Ok) (ho : b.outSize ≠ 0) (ha : Allocs VA SA (torus m ul) b va sa) (hg : Grants VA SA (torus m ul) b va sa)
    (h : Ticks VA SA (torus m ul) b va sa N e s) (hs : Sends m rng N e) (hu : ∀ n < N, UsesTorus m rng (e n)) {n₀ D K : Nat}
    (hd : Drains (torus m ul) b N n₀ D K e s)
    (hN : n₀ + ((m.n * (2 * m.k) + 1) * flitsIn (torus m ul) e n₀ + 1) *
      (3 * K + D + 2 * (m.nodes * ((2 * m.n + 1) * b.vcs)) + 6) ≤ N)
    {u : Nat} (hu' : u < m.nodes) (P : List (Bool × Bool × Int × Msg δ) → Bool) :
    receivedBy m b s (N + 1) u P = sentTo m b e N u P := by
  rw [← mesh_slots] at hN
  have key := C82_network_drains (t := torus m ul) (torus_wired hk) hb ho ha hg h (torus_guided hk he hs hu)
    (torus_ranked hk hsep he hu) hd hN
  exact delivers_to hk key (fun w hw f hf' => (torus_right hk he hb ha h hs hu hw hf').1) hu' P

/-! ## An example

A ring of four routers with iSLIP allocators, one class with two virtual channels and links of latency 2. Node 3 sends a
packet of two flits to node 1, across the end of the ring, and node 0 one of one flit to node 3 the other way. -/

namespace TorusExample

open MeshExample (cfg vcs keep keep_ok cfg_ok)

def shape : Shape := ⟨4, 1⟩

abbrev net : Topo := torus shape true

def a0 : Flit (Msg String) := ⟨1, true, false, 7, 0, 3, 1, 0, "a0"⟩
def a1 : Flit (Msg String) := ⟨1, false, true, 7, 0, 3, 1, 0, "a1"⟩
def b0 : Flit (Msg String) := ⟨0, true, true, 8, 0, 0, 3, 0, "b0"⟩

def env (n : Nat) : Env (Msg String) Unit Unit where
  now := 1000 * n
  inject := fun l => if n = 0 ∧ l = 11 then some a0 else if n = 1 ∧ l = 11 then some a1
    else if n = 0 ∧ l = 8 then some b0 else none
  credit := fun l => if (n = 28 ∧ l = 15) ∨ ((n = 28 ∨ n = 29) ∧ l = 13) then some [0] else none
  rf := fun r i f => hop (dimOrderTorus shape vcs r (pktT vcs f) i (n % 2 == 0))
  rva := fun _ => ()
  rsa := fun _ => ()

def st : Nat → S (Msg String) Islip Islip
  | 0 => .init (fun _ => Islip.init 6 6 1) (fun _ => Islip.init 3 3 1)
  | n + 1 => keep (tick islip islip net cfg (env n) (st n)) (st n)

theorem uses (n : Nat) : UsesTorus shape vcs (env n) := fun _ _ _ => ⟨n % 2 == 0, rfl⟩

theorem silent (n : Nat) (hn : 34 ≤ n) : Silent net (env n) := by
  constructor
  · intro l _
    simp only [env]
    repeat' rw [if_neg (by omega)]
  · intro l _
    simp only [env]
    rw [if_neg (by omega)]

instance (s : S (Msg String) Islip Islip) : Decidable (Rests net s) := inferInstanceAs (Decidable (_ ∧ _))

theorem step (n : Nat) (s') (h : tick islip islip net cfg (env n) (st n) = .ok s') : st (n + 1) = s' := by
  change keep (tick islip islip net cfg (env n) (st n)) (st n) = s'
  rw [h]
  rfl

theorem legal (n : Nat) (hn : n ≤ 3000) : Legal net cfg (env n) :=
  torus_legal (fun _ => Nat.le_refl _) (uses n) (by simp only [env]; omega) (by simp only [env, Channel.intMax]; omega)

theorem allocs : Allocs islip islip net cfg (fun _ => Islip.init 6 6 1) (fun _ => Islip.init 3 3 1) where
  va := fun _ _ => Alloc.C44_islip 6 6 1
  sa := fun _ _ => Alloc.C44_islip 3 3 1

theorem grants : Grants islip islip net cfg (fun _ => Islip.init 6 6 1) (fun _ => Islip.init 3 3 1) where
  va := fun _ _ => (Alloc.C68_islip 6 6 1 (by decide)).mono fun _ _ h => h.1
  sa := fun _ _ => (Alloc.C68_islip 3 3 1 (by decide)).mono fun _ _ h => h.1

theorem rests : Rests net (st 34) := by decide +kernel

theorem ok : ∀ n ∈ List.range 34, (tick islip islip net cfg (env n) (st n)).isOk = true := by decide +kernel

theorem inj : ∀ n ∈ List.range 35, ∀ l < net.links, net.Source l →
    (∀ f ∈ injected env l n, f.vc < cfg.vcs) ∧
    ∀ v < cfg.vcs, Packets Flit.head Flit.tail Flit.pid (onVc (injected env l n) v) ∧
      ((onVc (injected env l n) v).length : Int) ≤ cfg.buf.perVc + (creditsAt st l (n + 1)).flatten.count v := by
  decide +kernel

theorem cred : ∀ n ∈ List.range 35, ∀ l < net.links, net.Sink l →
    (∀ c ∈ credited env l n, c.Nodup ∧ ∀ v ∈ c, v < cfg.vcs) ∧
    (∀ f ∈ flitsAt st l (n + 1), f.vc < cfg.vcs) ∧
    ∀ v < cfg.vcs, (credited env l n).flatten.count v ≤ (onVc (flitsAt st l (n + 1)) v).length := by decide +kernel

theorem prompt : ∀ n ∈ List.range 35, 2 ≤ n → ∀ l < net.links, net.Sink l → ∀ v < cfg.vcs,
    (onVc (flitsAt st l (n + 1)) v).length ≤ (credited env l (n + 30)).flatten.count v := by decide +kernel

theorem ticks : Ticks islip islip net cfg (fun _ => Islip.init 6 6 1) (fun _ => Islip.init 3 3 1) 3000 env st :=
  ticks_rest (M := 34) (torus_wired (by decide))
    { start := rfl
      legal := fun n hn => legal n (by omega)
      nodes := fun n hn => Example.nodes_of (inj n (by simp; omega)) (fun l hl hs =>
        ⟨(cred n (by simp; omega) l hl hs).1, (cred n (by simp; omega) l hl hs).2.2⟩) (by decide)
      step := fun n hn => keep_ok (ok n (by simp; omega)) _ }
    rests silent (fun n _ => step n) fun n hn => legal n (by omega)

theorem rest (n : Nat) (hn : 34 ≤ n) : Rests net (st n) :=
  (rest_on (VA := islip) (SA := islip) (b := cfg) (torus_wired (by decide)) rests silent (fun n _ => step n) n hn).1

theorem inj_eq (n l : Nat) (hn : 2 ≤ n) : injected env l n = injected env l 2 := by
  refine filterMap_upto hn fun j hj _ => ?_
  simp only [env]
  repeat' rw [if_neg (by omega)]

theorem sends : Sends shape vcs 3000 env := by
  have key : ∀ u < 4, injected env (injLink shape u) 2 = if u = 3 then [a0, a1] else if u = 0 then [b0] else [] := by
    decide +kernel
  refine ⟨?_, ?_⟩
  · intro u hu f hf _
    change u < 4 at hu
    rw [inj_eq _ _ (by decide), key u hu] at hf
    split at hf
    · subst u
      rcases List.mem_cons.1 hf with rfl | hf
      · decide
      · rw [List.mem_singleton.1 hf]; decide
    · split at hf
      · subst u
        rw [List.mem_singleton.1 hf]; decide
      · cases hf
  · intro u hu v
    change u < 4 at hu
    rw [inj_eq _ _ (by decide), key u hu]
    split
    · by_cases hv : v = 1
      · subst v; decide
      · rw [onVc, List.filter_eq_nil_iff.2]
        · exact packets_nil
        · simp [a0, a1]; omega
    · split
      · by_cases hv : v = 0
        · subst v; decide
        · rw [onVc, List.filter_eq_nil_iff.2]
          · exact packets_nil
          · simp [b0]; omega
      · exact packets_nil

theorem vcs_even : ∀ c, 0 < available (vcs c) ∧ (vcs c).2 + 1 = (vcs c).1 + 2 * available (vcs c) :=
  fun _ => show 0 < available (0, 1) ∧ 1 + 1 = 0 + 2 * available (0, 1) by decide

theorem drains : Drains net cfg 3000 2 30 2 env st where
  quiet := by
    intro n h1 _ l _
    simp only [env]
    repeat' rw [if_neg (by omega)]
  whole := by
    have key : ∀ l < net.links, net.Source l → ∀ v < cfg.vcs,
        ∀ f ∈ (onVc (injected env l 2) v).getLast?, f.tail = true := by decide +kernel
    intro l hl v
    by_cases hv : v < cfg.vcs
    · exact key l hl.1 hl v hv
    · have hz : onVc (injected env l 2) v = [] := by
        rw [onVc, List.filter_eq_nil_iff]
        intro f hf'
        have := (ticks.nodes 2 (by decide)).vcs l hl f hf'
        simp only [decide_eq_true_eq]
        omega
      rw [hz]
      simp
  prompt := by
    have hz : ∀ {l : List (Flit (Msg String))} {v : Nat}, (∀ f ∈ l, f.vc < cfg.vcs) → ¬ v < cfg.vcs → onVc l v = [] := by
      intro l v hl hv
      rw [onVc, List.filter_eq_nil_iff]
      intro f hf
      have := hl f hf
      simp only [decide_eq_true_eq]
      omega
    intro n hn hN l hl v
    by_cases hn' : n < 34
    · by_cases hv : v < cfg.vcs
      · exact prompt n (by simp; omega) hn l hl.1 hl v hv
      · rw [hz (cred n (by simp; omega) l hl.1 hl).2.1 hv]
        exact Nat.zero_le _
    · rw [flitsAt_rest rest (by omega) hl.1, credited_rest silent (by omega) hl]
      by_cases hv : v < cfg.vcs
      · have := prompt 34 (by decide) (by decide) l hl.1 hl v hv
        rwa [credited_rest silent (by decide) hl] at this
      · rw [hz (cred 34 (by decide) l hl.1 hl).2.1 hv]
        exact Nat.zero_le _
  credit := by
    intro n _ l _
    simp only [env]
    split <;> simp
  time := by
    intro a n ha _
    simp only [env, cfg, torus]
    refine ⟨by omega, fun l _ => ?_⟩
    split <;> omega

/-- The hypotheses of the first part are met. -/
example := C84_torus_partial (m := shape) (rng := vcs) (by decide) vcs_even cfg_ok (fun _ => Nat.le_refl _) allocs ticks sends
  (fun n _ => uses n) (by decide) (by decide)

/-- Node 1 has received the packet of two flits. -/
example : receivedBy shape cfg st 3001 1 (· = [body a0, body a1]) = 1 := by
  rw [C84_torus_delivers_partial (m := shape) (rng := vcs) (by decide) vcs_even (fun _ _ => .inl rfl) cfg_ok (by decide) allocs
    grants ticks sends (fun n _ => uses n) drains (by decide +kernel) (by decide)]
  have : sentTo shape cfg env 34 1 (· = [body a0, body a1]) = 1 := by decide +kernel
  refine Eq.trans ?_ this
  exact Finset.sum_congr rfl fun w hw => Finset.sum_congr rfl fun v _ => by
    rw [inj_eq _ _ (by decide), inj_eq 34 _ (by decide)]

end TorusExample

end RadSim.Net
