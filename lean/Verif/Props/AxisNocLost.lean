import Verif.Lemmas.AxisNocLost
import Verif.Lemmas.AxisNocDrain
import Verif.Props.AxisNoc

/-! # AXI-Stream over a mesh NoC: an adapter clock that is faster than the NoC clock

`axis_master_adapter` returns at most one credit per period of the NoC clock
(`rad-sim/sim/noc/axis_master_adapter.cpp:182`: `map::insert` keeps an entry that is there). With two edges of the adapter
clock in a period credits are lost (C17). Here: what becomes of the whole system, and that C95 needs its restriction. -/

namespace RadSim.AxisNoc

open Router (Flit Hop)
open Routing (Shape Rf dimOrderMesh)
open Net

variable {σ τ ρ ρ' : Type} {VA : Alloc.Cls σ ρ} {SA : Alloc.Cls τ ρ'} {c : Cfg} {va : Nat → σ} {sa : Nat → τ} {i : Nat → In ρ ρ'}
  {rng : Nat → Nat × Nat}

/-- C96. Let the sink side adapter of node `u` have got the flits `w ++ q` on virtual channel `v`, where `q` are flits of a
packet whose last flit has not come yet. If so many credits have been lost that the rest of the packet has no place, that
is, the flits taken and those of `q` are not less than the places plus the credits returned (one of them perhaps waiting),
then the adapter never again gets a flit on this channel: whatever the environment does, what it has got on the channel is
the same in every later period. -/
theorem C96_lost_credits_block {n m : Nat} (hs : Setup c rng) (ha : Allocs VA SA (mesh c.m) c.b va sa)
    (ht : ∀ k < m, InTime (i k)) (ho : ∀ k < m, Offered c (Exists c) (i k)) (hnm : n ≤ m)
    {x y : Sys σ τ} (hx : after VA SA c va sa i n = .ok x) (hy : after VA SA c va sa i m = .ok y)
    {u v : Nat} (hu : u < c.m.nodes) (hv : v < c.b.vcs) {w q : List BsFlit}
    (hacc : (x.hist u).accepted.filter (fun f => f.vc == v) = w ++ q) (hq : ∀ f ∈ q, f.tail = false)
    (hlost : c.b.buf.perVc + ((x.hist u).credits.count v + (x.master u).credit.toList.count v : Nat) ≤
      (((x.hist u).pops.count v + q.length : Nat) : Int)) :
    (y.hist u).accepted.filter (fun f => f.vc == v) = w ++ q := by
  have hinv : ∀ k ≤ m, Inv VA SA c va sa i (Exists c) k := fun k hk =>
    inv_all hs ha (fun _ _ _ h => h) k (fun j hj => ht j (by omega)) fun j hj => ho j (by omega)
  have hst : ∀ {k : Nat} {z : Sys σ τ}, k ≤ m → after VA SA c va sa i k = .ok z → z = st VA SA c va sa i k := by
    intro k z hk hz
    have := (hinv k hk).ok
    rw [hz] at this
    exact Except.ok.inj this
  have ex := hst hnm hx
  have ey := hst (Nat.le_refl m) hy
  subst ex ey
  have hd := (hinv n hnm).master u hu
  obtain ⟨_, _, hd⟩ := hd
  have hcr := hd.credit v
  obtain ⟨L, hL⟩ := Nat.exists_eq_add_of_le hcr
  have hq' : ∀ f ∈ q.map ejectFlit, f.tail = false := by
    intro f hf
    obtain ⟨g, hg, rfl⟩ := List.mem_map.1 hf
    exact hq g hg
  have key : ∀ d, n + d ≤ m → ((st VA SA c va sa i (n + d)).hist u).accepted.filter (fun f => f.vc == v) = w ++ q ∧
      Owes L v ((st VA SA c va sa i (n + d)).master u) ((st VA SA c va sa i (n + d)).hist u) := by
    intro d
    induction d with
    | zero => exact fun _ => ⟨hacc, by unfold Owes; simp only [Nat.add_zero]; omega⟩
    | succ d ih =>
      intro hd
      obtain ⟨h1, h2⟩ := ih (by omega)
      have hA : RadSim.onVc v ((st VA SA c va sa i (n + d)).hist u).accepted = w.map ejectFlit ++ q.map ejectFlit := by
        rw [RadSim.onVc, h1, List.map_append]
      have h3 := (hinv (n + d) (by omega)).blocked hs ha (fun _ _ _ h => h) (hinv (n + d + 1) hd) hu hv hA hq'
        (by rw [List.length_map]; omega) h2
      refine ⟨?_, h3.2⟩
      have h4 := ((hinv (n + d) (by omega)).accepted_mono (hinv (n + d + 1) hd) hu).filter fun f => f.vc == v
      rw [h1] at h4
      refine (h4.eq_of_length ?_).symm
      have h5 := congrArg List.length h3.1
      rw [RadSim.onVc, List.length_map, ← List.map_append, List.length_map] at h5
      exact h5.symm
  obtain ⟨d, rfl⟩ := Nat.exists_eq_add_of_le hnm
  exact (key d (Nat.le_refl _)).1

/-! ## An example

Two nodes in a line, buffers of two places, and packets of two flits. The adapter clock is twice as fast as the NoC clock. Of
the two credits for the first packet one is lost; the second packet cannot come whole, and nothing is delivered any more. -/

namespace LostExample

open Alloc (islip Islip)
open RadSim.AxisNoc.Example (beat)

def chans (_ : Nat) : Nat × Nat := (0, 0)

def cfg : Cfg where
  m := ⟨2, 1⟩
  b := ⟨0, 0, ⟨1, -1, 2, false⟩, -1, 1, 1, 1, 1, 1⟩
  rf := dimOrderMesh ⟨2, 1⟩ chans
  sc := fun _ => ⟨1, fun _ => 8, fun _ => .readRequest, ⟨0, 0, 0, 0, 0⟩, 8, 0, 0, ⟨1, -1, 2, false⟩⟩
  mc := fun _ => ⟨1, fun _ => 8, 1, 2, 2⟩

theorem setup : Setup cfg chans where
  k := by decide
  n := by decide
  ok := ⟨⟨by decide, by decide, by decide⟩, rfl, .inl rfl, rfl, rfl, rfl, rfl⟩
  rf := rfl
  vcs := fun _ => show 0 < 1 by decide
  buf := fun _ _ => rfl
  types := by
    intro u _ t
    cases t <;> rfl
  few := fun _ => show 0 ≤ 0 ∧ 0 < 8 by decide
  ports := fun _ _ => ⟨Nat.zero_lt_succ _, Nat.zero_lt_succ _⟩
  sameVcs := fun _ _ => rfl
  deep := fun _ _ => show (2 : Int) ≤ 2 by decide

theorem allocs : Allocs islip islip (mesh cfg.m) cfg.b (fun _ => Islip.init 3 3 1) (fun _ => Islip.init 3 3 1) where
  va := fun _ _ => Alloc.C44_islip 3 3 1
  sa := fun _ _ => Alloc.C44_islip 3 3 1

theorem grants : Grants islip islip (mesh cfg.m) cfg.b (fun _ => Islip.init 3 3 1) (fun _ => Islip.init 3 3 1) where
  va := fun _ _ => (Alloc.C68_islip 3 3 1 (by decide)).mono fun _ _ h => h.1
  sa := fun _ _ => (Alloc.C68_islip 3 3 1 (by decide)).mono fun _ _ h => h.1

def offer (k u : Nat) : Option AxisTxn :=
  if u = 0 ∧ k < 12 then some (beat (100 + k) 1 0 false) else none

def inp (k : Nat) : In Unit Unit where
  now := k
  rnd := fun _ _ _ => false
  rva := fun _ => ()
  rsa := fun _ => ()
  sPre := fun u => [.node (fun _ => offer k u) false, .adapter]
  sPost := fun _ => [.adapter]
  mPre := fun _ => []
  mPost := fun _ => [.adapter true, .adapter true, .node fun _ => true]

def run (n : Nat) : Except Err (Sys Islip Islip) :=
  after islip islip cfg (fun _ => Islip.init 3 3 1) (fun _ => Islip.init 3 3 1) inp n

theorem offers : ∀ k u, u < 2 → ∀ t ∈ offer k u, Exists cfg u 0 t ∧ FitsPort cfg u 0 t := by
  have : ∀ k < 12, ∀ u < 2, ((offer k u).all fun t => decide (Exists cfg u 0 t ∧ FitsPort cfg u 0 t)) = true := by decide +kernel
  intro k u hu t ht
  by_cases hk : k < 12
  · have := this k hk u hu
    rw [Option.mem_def.1 ht] at this
    simpa using this
  · unfold offer at ht
    rw [if_neg (by omega)] at ht
    cases ht

theorem only_offer {k u : Nat} {beats : Nat → Option AxisTxn} {seen : Bool}
    (h : SlaveEdge.node beats seen ∈ (inp k).sPre u ++ (inp k).sPost u) : beats = fun _ => offer k u := by
  simp only [inp, List.mem_append, List.mem_cons, List.not_mem_nil, or_false, reduceCtorEq, or_self, SlaveEdge.node.injEq] at h
  exact h.1

theorem offered (k : Nat) : Offered cfg (fun u p t => Exists cfg u p t ∧ FitsPort cfg u p t) (inp k) := by
  intro u hu beats seen h p hp t ht
  rw [only_offer h] at ht
  have : p = 0 := by
    have : p < 1 := hp
    omega
  subst this
  exact offers k u hu t ht

theorem in_time {N : Nat} (hN : N < 2 ^ 31) : ∀ k < N, InTime (inp k) := by
  intro k hk
  show (0 : Int) ≤ (k : Int) ∧ (k : Int) + 1 ≤ 2147483647
  omega

/-- After 21 periods: the number of beats accepted, channels of the flits that have come, the places of tails, channels of
flits taken, of credits returned and waiting, and the beats delivered. -/
theorem start : (match run 21 with
    | .ok x => [[(acceptedFor cfg x 0 1 0 .readRequest).length], (x.hist 1).accepted.map fun f => f.vc,
        (x.hist 1).accepted.map fun f => if f.tail then 1 else 0, (x.hist 1).pops, (x.hist 1).credits,
        (x.master 1).credit.toList, (deliveredAt x 1 0).map fun b => b.tdata.toNat]
    | .error _ => []) = [[8], [0, 0, 0], [0, 1, 0], [0, 0], [0], [], [100]] := by decide +kernel

/-- The state after 21 periods meets the hypotheses of C96. -/
theorem stuck {N : Nat} (h1 : 21 ≤ N) (h2 : N < 2 ^ 31) {y : Sys Islip Islip} (hy : run N = .ok y) :
    (y.hist 1).accepted.length = 3 := by
  have hinv : ∀ n ≤ N, Inv islip islip cfg (fun _ => Islip.init 3 3 1) (fun _ => Islip.init 3 3 1) inp (Exists cfg) n := fun n h =>
    inv_all setup allocs (fun _ _ _ h => h) n (fun k hk => in_time h2 k (by omega)) fun k _ u hu beats seen h p hp t ht =>
      (offered k u hu beats seen h p hp t ht).1
  have hs := start
  have hx : run 21 = .ok _ := (hinv 21 h1).ok
  rw [hx] at hs
  dsimp only at hs
  generalize hxs : st islip islip cfg (fun _ => Islip.init 3 3 1) (fun _ => Islip.init 3 3 1) inp 21 = x at hs hx
  simp only [List.cons.injEq, and_true] at hs
  obtain ⟨-, hvc, htl, hp, hc, hw, -⟩ := hs
  obtain ⟨f0, f1, f2, hacc⟩ : ∃ f0 f1 f2, (x.hist 1).accepted = [f0, f1, f2] := by
    have := congrArg List.length hvc
    rw [List.length_map] at this
    exact List.length_eq_three.1 this
  rw [hacc] at hvc htl
  simp only [List.map_cons, List.map_nil, List.cons.injEq, and_true] at hvc htl
  have ht2 : f2.tail = false := by
    by_contra h
    rw [Bool.not_eq_false] at h
    rw [h, if_pos rfl] at htl
    omega
  have hall : ∀ f ∈ (y.hist 1).accepted, f.vc = 0 := by
    intro f hf
    have hi := hinv N (Nat.le_refl N)
    have e : y = _ := Except.ok.inj (hy.symm.trans hi.ok)
    subst e
    obtain ⟨n, rfl⟩ : ∃ n, N = n + 1 := ⟨N - 1, by omega⟩
    have := ((hinv n (by omega)).good_arrivals setup allocs (fun _ _ _ h => h) hi (u := 1) (by decide)).1 f hf
    exact Nat.lt_one_iff.1 this
  have := C96_lost_credits_block (w := [f0, f1]) (q := [f2]) (v := 0) (u := 1) setup allocs (in_time h2) (fun k _ u hu beats seen h p hp t ht =>
      (offered k u hu beats seen h p hp t ht).1) h1 hx hy (by decide) (by decide)
    (by rw [hacc]; simp [hvc]) (by simp [ht2]) (by rw [hp, hc, hw, List.length_singleton]; decide)
  rw [List.filter_eq_self.2 fun f hf => by simp [hall f hf]] at this
  rw [this]
  rfl

theorem got_mono {n : Nat} {x : Sys Islip Islip} (hx : run n = .ok x) : ∀ d y, run (n + d) = .ok y → x.got 0 <+: y.got 0 := by
  intro d
  induction d with
  | zero =>
    intro y hy
    rw [Nat.add_zero, hx] at hy
    cases hy
    exact List.prefix_refl _
  | succ d ih =>
    intro y hy
    unfold run at hy ih
    rw [show n + (d + 1) = n + d + 1 from rfl, after] at hy
    split at hy
    · cases hy
    · rename_i z hz
      refine (ih z hz).trans ?_
      unfold step at hy
      split at hy
      · cases hy
      · split at hy
        · cases hy
        · split at hy
          · cases hy
          · cases hy
            exact List.prefix_append _ _

end LostExample

open LostExample in
/-- C95 does not hold if the adapter clock has two edges in every period of the NoC clock. There is a system (buffers of two
places, packets of two flits, allocators that serve requests) in which the modules stop sending after 12 periods and are
ready in every period, all adapters have edges in every period, and at least 8 beats are accepted for a port; but however
long one waits, the port hands over at most 3. -/
theorem C96_fast_adapter_violated : ∃ (c : Cfg) (rng : Nat → Nat × Nat) (i : Nat → In Unit Unit) (va sa : Nat → Alloc.Islip),
    Setup c rng ∧ Allocs Alloc.islip Alloc.islip (mesh c.m) c.b va sa ∧ Grants Alloc.islip Alloc.islip (mesh c.m) c.b va sa ∧
    c.b.outSize ≠ 0 ∧ (∀ u < c.m.nodes, ∀ p < (c.sc u).n, (numFlits ((c.sc u).dataw p) : Int) ≤ c.b.buf.perVc) ∧
    (∀ u < c.m.nodes, 0 < (c.sc u).depth ∧ 0 < (c.mc u).outDepth) ∧
    (∀ k, Offered c (fun u p t => Exists c u p t ∧ FitsPort c u p t) (i k)) ∧
    (∀ k, 12 ≤ k → Offered c (fun _ _ _ => False) (i k)) ∧
    (∀ k, (i k).now = (k : Int)) ∧
    (∀ k u, .adapter ∈ (i k).sPre u ++ (i k).sPost u) ∧
    (∀ k u, ((i k).mPre u ++ (i k).mPost u).countP MasterEdge.isAdapter = 2) ∧
    (∀ k u, ∃ r, .node r ∈ (i k).mPre u ++ (i k).mPost u ∧ ∀ p, r p = true) ∧
    ∀ N, 21 ≤ N → N < 2 ^ 31 → ∃ x, after Alloc.islip Alloc.islip c va sa i N = .ok x ∧
      8 ≤ (acceptedFor c x 0 1 0 .readRequest).length ∧ (deliveredAt x 1 0).length ≤ 3 := by
  refine ⟨cfg, chans, inp, _, _, setup, allocs, grants, by decide, by decide, by decide, offered, ?_, fun _ => rfl, ?_, ?_, ?_, ?_⟩
  · intro k h1 u _ beats seen h p _ t ht
    rw [only_offer h] at ht
    dsimp only [offer] at ht
    rw [if_neg (by omega)] at ht
    cases ht
  · intro k u
    simp [inp]
  · intro k u
    rfl
  · intro k u
    exact ⟨fun _ => true, by simp [inp], fun _ => rfl⟩
  · intro N h1 h2
    have hinv : ∀ n ≤ N, Inv Alloc.islip Alloc.islip cfg (fun _ => Alloc.Islip.init 3 3 1) (fun _ => Alloc.Islip.init 3 3 1) inp
        (Exists cfg) n := fun n h =>
      inv_all setup allocs (fun _ _ _ h => h) n (fun k hk => in_time h2 k (by omega)) fun k _ u hu beats seen h p hp t ht =>
        (offered k u hu beats seen h p hp t ht).1
    have hy := (hinv N (Nat.le_refl N)).ok
    refine ⟨_, hy, ?_, ?_⟩
    · have hs := start
      have hx : run 21 = .ok _ := (hinv 21 h1).ok
      rw [hx] at hs
      dsimp only at hs
      injection hs with hs
      injection hs with hs
      obtain ⟨d, rfl⟩ := Nat.exists_eq_add_of_le h1
      have hg := got_mono hx d _ hy
      rw [← hs]
      unfold acceptedFor
      exact ((hg.filter _).map _).length_le
    · refine Nat.le_trans ?_ (Nat.le_of_eq (stuck h1 h2 hy))
      obtain ⟨hist, hm, -⟩ := (hinv N (Nat.le_refl N)).master 1 (by decide)
      refine Nat.le_trans ?_ (few_beats hm)
      rw [show (cfg.mc 1).n = 1 from rfl, Finset.sum_range_one]
      unfold deliveredAt beatsOn
      rw [List.length_map, List.length_map]
      refine Nat.le_of_eq (congrArg List.length (List.filter_congr fun x _ => ?_))
      rw [Bool.eq_iff_iff]
      simp

end RadSim.AxisNoc
