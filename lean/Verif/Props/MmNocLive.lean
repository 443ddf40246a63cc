import Verif.Lemmas.MmNocDrain
import Verif.Props.Alloc

/-! # Everything handed to a NoC with AXI memory-mapped adapters arrives -/

namespace RadSim.MmNoc

open Net
open MmSink (Beat)

/-- Parts that are prefixes and together as long as the wholes are the wholes. -/
theorem parts_eq {α : Type} {V : Nat} {p q : Nat → List α} (h : ∀ w < V, p w <+: q w)
    (hl : ∑ w ∈ Finset.range V, (q w).length ≤ ∑ w ∈ Finset.range V, (p w).length) : ∀ w < V, p w = q w := by
  have hle : ∀ w ∈ Finset.range V, (p w).length ≤ (q w).length := fun w hw => (h w (Finset.mem_range.1 hw)).length_le
  have e := (Finset.sum_eq_sum_iff_of_le hle).1 (Nat.le_antisymm (Finset.sum_le_sum hle) hl)
  exact fun w hw => (h w hw).eq_of_length (e w (Finset.mem_range.2 hw))

theorem sum_sources {α : Type} (src : List Nat) (l : List α) (V : Nat) (hl : src.length = l.length) (hv : ∀ w ∈ src, w < V) :
    ∑ w ∈ Finset.range V, ((src.zip l).filter fun y => y.1 = w).length = l.length := by
  have := sum_fibre (src.zip l) (·.1) (fun _ => true) V
  simp only [List.countP_true] at this
  rw [this]
  rw [List.countP_eq_length.2, List.length_zip]
  · omega
  · intro y hy
    simpa using hv y.1 (List.of_mem_zip hy).1

theorem runs_mono {ρ ρ' : Type} {c : Cfg} {r : Nat → Nat} {i : Nat → In ρ ρ'} {N n : Nat} (h : Runs c r N i) (hn : n ≤ N) : Runs c r n i where
  time k hk := h.time k (by omega)
  offers k hk := h.offers k (by omega)
  clocks u hu := by
    have := h.clocks u hu
    obtain ⟨d, rfl⟩ := Nat.exists_eq_add_of_le hn
    unfold clocksTo at this
    rw [List.range_add, List.flatMap_append] at this
    exact this.append_left

section
variable {σ τ ρ ρ' : Type} {VA : Alloc.Cls σ ρ} {SA : Alloc.Cls τ ρ'} {c : Cfg} {va : Nat → σ} {sa : Nat → τ} {i : Nat → In ρ ρ'}
  {rng : Nat → Nat × Nat} {r : Nat → Nat} {N n₀ J K : Nat}

theorem state_of (hs : Setup c rng r) (ha : Allocs VA SA (mesh c.m) c.b va sa) (hr : Runs c r N i) {n : Nat} (hn : n ≤ N) {x : Sys σ τ}
    (hx : after VA SA c va sa i n = .ok x) : x = Noc.st VA SA c.noc va sa i n := by
  have := (inv_of hs ha (runs_mono hr hn)).ok
  unfold after at hx
  rw [hx] at this
  injection this

/-- As many as there are means all of them. -/
theorem exact_of (hs : Setup c rng r) (ha : Allocs VA SA (mesh c.m) c.b va sa) (hr : Runs c r N i) {n : Nat} (hn : n ≤ N)
    {x : Sys σ τ} (hx : after VA SA c va sa i n = .ok x) {u : Nat} (hu : u < c.m.nodes) {k : MmType} (hk : k ∈ shows (c.nc u).kind)
    (hl : ∑ w ∈ Finset.range c.m.nodes, (givenFor c x w u k).length ≤ (shownAt x u k).length) :
    ∃ src : List Nat, src.length = (shownAt x u k).length ∧ (∀ w ∈ src, w < c.m.nodes) ∧
      ∀ w < c.m.nodes, (((src.zip (shownAt x u k)).filter fun y => y.1 = w).map (·.2)).map core = (givenFor c x w u k).map core := by
  obtain ⟨src, h1, h2, h3⟩ := (C109_in_order_partial hs ha (runs_mono hr hn) hx hu).2 k hk
  refine ⟨src, h1, h2, parts_eq h3 ?_⟩
  simp only [List.length_map]
  rw [sum_sources src (shownAt x u k) c.m.nodes h1 h2]
  exact hl

/-! ## C110: everything arrives -/

/-- **C110** for one virtual channel per packet type and the clock ratio of `Setup`, allocators that do not leave a request
ungranted that nothing competes with, packets that fit into a buffer of a virtual channel, and modules and clocks that are fair:
if the modules hand over at most `B` flits, then within a number of periods that can be computed there is one after which every
beat handed over so far has been shown to the module it was for, from every source exactly what it sent and in this order.
Missing: as for C108, and several edges of the adapter clock at the sink side in a period of the NoC clock. -/
theorem C110_drains_partial (hs : Setup c rng r) (ha : Allocs VA SA (mesh c.m) c.b va sa) (hg : Grants VA SA (mesh c.m) c.b va sa)
    (ho : c.b.outSize ≠ 0) (hsh : ∀ u < c.m.nodes, (c.nc u).kind ≠ .none → ∀ k, (mmFlits (c.nc u).dataw k : Int) ≤ c.b.buf.perVc)
    (hr : Runs c r N i) (hf : Fair c N n₀ J K i) {x : Sys σ τ} (hx : after VA SA c va sa i N = .ok x) {B : Nat} (hB : flitsOf c x ≤ B)
    (hN : n₀ + ((5 * (c.m.n * c.m.k + 1) + 2) * B + 1) *
      (3 * K + 2 * J + 2 * (c.m.nodes * ((2 * c.m.n + 1) * c.b.vcs)) + 7) ≤ N) :
    ∃ n y, n₀ ≤ n ∧ n ≤ N ∧ after VA SA c va sa i n = .ok y ∧ ∀ u < c.m.nodes, ∀ k ∈ shows (c.nc u).kind,
      ∃ src : List Nat, src.length = (shownAt y u k).length ∧ (∀ w ∈ src, w < c.m.nodes) ∧ ∀ w < c.m.nodes,
        (((src.zip (shownAt y u k)).filter fun z => z.1 = w).map (·.2)).map core = (givenFor c y w u k).map core := by
  have hinv : ∀ n ≤ N, Holds VA SA c va sa i n := fun n hn => inv_of hs ha (runs_mono hr hn)
  rw [state_of hs ha hr (Nat.le_refl N) hx] at hB
  obtain ⟨n, h1, h2, h3⟩ := all_shown hs ha hr hinv hf hg ho hsh hB (by rw [mesh_slots]; exact hN)
  refine ⟨n, _, h1, h2, (hinv n h2).ok, fun u hu k hk => ?_⟩
  exact exact_of hs ha hr h2 (hinv n h2).ok hu hk (Nat.le_of_eq (h3 u hu k hk).symm)

/-- **C110**: if the modules offer nothing from period `n₀` on, then, within a number of periods that depends on the flits handed
over until then, every beat has been shown to the module it was for, from every source exactly what it sent and in this order. -/
theorem C110_everything_arrives_partial (hs : Setup c rng r) (ha : Allocs VA SA (mesh c.m) c.b va sa)
    (hg : Grants VA SA (mesh c.m) c.b va sa)
    (ho : c.b.outSize ≠ 0) (hsh : ∀ u < c.m.nodes, (c.nc u).kind ≠ .none → ∀ k, (mmFlits (c.nc u).dataw k : Int) ≤ c.b.buf.perVc)
    (hr : Runs c r N i) (hf : Fair c N n₀ J K i) (hoff : ∀ k, n₀ ≤ k → k < N → ∀ u < c.m.nodes, Offerless ((i k).ad u))
    {y : Sys σ τ} (hy : after VA SA c va sa i (n₀ + J) = .ok y)
    (hN : n₀ + J + ((5 * (c.m.n * c.m.k + 1) + 2) * flitsOf c y + 1) *
      (3 * K + 2 * J + 2 * (c.m.nodes * ((2 * c.m.n + 1) * c.b.vcs)) + 7) ≤ N) :
    ∃ x, after VA SA c va sa i N = .ok x ∧ (∀ u < c.m.nodes, given (c.nc u).kind (x.ad u) = given (c.nc u).kind (y.ad u)) ∧
      ∀ u < c.m.nodes, ∀ k ∈ shows (c.nc u).kind,
        ∃ src : List Nat, src.length = (shownAt x u k).length ∧ (∀ w ∈ src, w < c.m.nodes) ∧ ∀ w < c.m.nodes,
          (((src.zip (shownAt x u k)).filter fun z => z.1 = w).map (·.2)).map core = (givenFor c x w u k).map core := by
  have hinv : ∀ n ≤ N, Holds VA SA c va sa i n := fun n hn => inv_of hs ha (runs_mono hr hn)
  have hJ : n₀ + J ≤ N := by omega
  have hsame : ∀ n, n₀ + J ≤ n → n ≤ N → ∀ u < c.m.nodes,
      given (c.nc u).kind ((Noc.st VA SA c.noc va sa i n).ad u) = given (c.nc u).kind (y.ad u) := by
    intro n h1 h2 u hu
    obtain ⟨e1, e2⟩ := nothing_new hinv hf hoff h1 h2 hu
    rw [state_of hs ha hr hJ hy]
    show given _ (node VA SA c va sa i n u) = given _ (node VA SA c va sa i (n₀ + J) u)
    unfold given
    rw [e1, e2]
  have hB : flitsOf c (Noc.st VA SA c.noc va sa i N) ≤ flitsOf c y := by
    refine Nat.le_of_eq (Finset.sum_congr rfl fun u hu => ?_)
    rw [hsame N hJ (Nat.le_refl N) u (Finset.mem_range.1 hu)]
  have hf' : Fair c N (n₀ + J) J K i := ⟨hf.one, fun k hk => hf.source k (by omega), fun k hk => hf.sink k (by omega),
    fun k hk => hf.ready k (by omega), hf.time⟩
  obtain ⟨n, h1, h2, h3⟩ := all_shown hs ha hr hinv hf' hg ho hsh hB (by rw [mesh_slots]; exact hN)
  refine ⟨_, (hinv N (Nat.le_refl N)).ok, fun u hu => hsame N hJ (Nat.le_refl N) u hu, fun u hu k hk => ?_⟩
  refine exact_of hs ha hr (Nat.le_refl N) (hinv N (Nat.le_refl N)).ok hu hk ?_
  have e1 : ∑ w ∈ Finset.range c.m.nodes, (givenFor c (Noc.st VA SA c.noc va sa i N) w u k).length =
      ∑ w ∈ Finset.range c.m.nodes, (givenFor c (Noc.st VA SA c.noc va sa i n) w u k).length := by
    refine Finset.sum_congr rfl fun w hw => ?_
    unfold givenFor
    rw [hsame N hJ (Nat.le_refl N) w (Finset.mem_range.1 hw), hsame n h1 h2 w (Finset.mem_range.1 hw)]
  rw [e1, ← h3 u hu k hk]
  have := (onward hs hinv h2 (Nat.le_refl N) hu).shown
  exact (List.IsPrefix.filter _ (this.map _)).length_le

end

/-! ## An example

The system of the example for C108 with modules that stop offering: a read, a write address and write data, and responses that the
module at node 1 makes up. -/

namespace LiveExample

open Alloc (islip Islip)
open RadSim.MmNoc.Example (cfg chans setup allocs regular reqs)

/-- Responses until period 24. -/
def rsps (k : Nat) : RspOffer := if k < 24 then Example.rsps k else ⟨none, none⟩

def inp (k : Nat) : In Unit Unit where
  now := k
  rnd := fun _ _ _ => false
  rva := fun _ => ()
  rsa := fun _ => ()
  ad := fun _ => ⟨[(decide (k % 4 = 0), true, reqs k)], [], [(decide (k % 4 = 0), true, rsps k)], [],
    [.adapter true], if k % 4 = 0 then [.node fun _ => true] else []⟩

def run (n : Nat) : Except (Noc.Err Err) (Sys Islip Islip) :=
  after islip islip cfg (fun _ => Islip.init 15 15 1) (fun _ => Islip.init 3 3 1) inp n

theorem grants : Grants islip islip (mesh cfg.m) cfg.b (fun _ => Islip.init 15 15 1) (fun _ => Islip.init 3 3 1) where
  va := fun _ _ => (Alloc.C68_islip 15 15 1 (by decide)).mono fun _ _ h => h.1
  sa := fun _ _ => (Alloc.C68_islip 3 3 1 (by decide)).mono fun _ _ h => h.1

theorem clocks (k : Kind) (u N : Nat) : GapOk 4 none (clocksTo k (fun n => (inp n).ad u) N) := by
  have h : clocksTo k (fun n => (inp n).ad u) N = clocksTo k (fun n => (Example.inp n).ad u) N := by
    unfold clocksTo
    cases k <;> rfl
  rw [h]
  exact Example.clocks k u N

theorem none_late {k : Nat} (hk : 28 ≤ k) : reqs k = ⟨none, none, none⟩ ∧ rsps k = ⟨none, none⟩ := by
  unfold reqs rsps
  rw [if_neg (by omega), if_neg (by omega), if_neg (by omega), if_neg (by omega)]
  exact ⟨rfl, rfl⟩

theorem in_reqs {k u : Nat} {x : Bool × Bool × ReqOffer} (hx : x ∈ ((inp k).ad u).reqPre ++ ((inp k).ad u).reqPost) :
    x.2.2 = reqs k := by
  change x ∈ [(_, _, reqs k)] ++ [] at hx
  simp only [List.append_nil, List.mem_singleton] at hx
  rw [hx]

theorem in_rsps {k u : Nat} {x : Bool × Bool × RspOffer} (hx : x ∈ ((inp k).ad u).rspPre ++ ((inp k).ad u).rspPost) :
    x.2.2 = rsps k := by
  change x ∈ [(_, _, rsps k)] ++ [] at hx
  simp only [List.append_nil, List.mem_singleton] at hx
  rw [hx]

theorem runs {N : Nat} (hN : N < 2 ^ 31) : Runs cfg (fun _ => 4) N inp where
  time := by
    intro k hk
    show (0 : Int) ≤ (k : Int) ∧ (k : Int) + 1 ≤ 2147483647
    omega
  offers := by
    intro k hk
    refine ⟨fun u hu h0 x hx => ?_, fun u hu h0 x hx => ?_⟩
    · rw [in_reqs hx]
      by_cases hk' : 28 ≤ k
      · rw [(none_late hk').1]
        exact ⟨fun a ha => (by cases ha), fun a ha => (by cases ha), fun a ha => (by cases ha)⟩
      · obtain ⟨h1, h2, h3⟩ := Example.req_fits k (by omega)
        have hu0 : u = 0 := by
          by_contra h
          simp [cfg, Example.node, h] at h0
        subst hu0
        exact ⟨fun a ha => by simpa [ha] using h1, fun a ha => by simpa [ha] using h2, fun a ha => by simpa [ha] using h3⟩
    · rw [in_rsps hx]
      unfold rsps
      split
      · obtain ⟨h1, h2⟩ := Example.rsp_fits k (by omega)
        have hu1 : u = 1 := by
          have : u < 2 := hu
          by_contra h
          have : u = 0 := by omega
          simp [cfg, Example.node, this] at h0
        subst hu1
        exact ⟨fun a ha => by simpa [ha] using h1, fun a ha => by simpa [ha] using h2⟩
      · exact ⟨fun a ha => (by cases ha), fun a ha => (by cases ha)⟩
  clocks := fun u _ => clocks _ u N

theorem fair (N : Nat) : Fair cfg N 28 4 1 inp where
  one := by
    intro k _ u _
    show ([SinkEdge.adapter true] ++ if k % 4 = 0 then [SinkEdge.node fun _ => true] else []).countP isAdapter ≤ 1
    split <;> exact Nat.le_refl 1
  source := by
    intro k _ _ u _ hk
    refine ⟨k, Nat.le_refl _, by omega, ?_⟩
    have hu : (cfg.nc u).kind = .slave ∨ (cfg.nc u).kind = .master := by
      cases h : (cfg.nc u).kind
      · exact absurd h hk
      · exact .inl rfl
      · exact .inr rfl
    rcases hu with h | h <;> rw [h] <;> exact ⟨_, List.mem_cons_self, rfl⟩
  sink := fun k _ _ u _ _ => ⟨k, Nat.le_refl _, by omega, true, by simp [inp]⟩
  ready := by
    intro k _ _ u _ t _
    refine ⟨k + (4 - k % 4) % 4, by omega, by omega, fun _ => true, ?_, rfl⟩
    have : (k + (4 - k % 4) % 4) % 4 = 0 := by omega
    simp [inp, this]
  time := by
    intro m n h _
    show (m : Int) + 1 ≤ (n : Int) ∧ (m : Int) ≤ n
    omega

theorem offerless {k : Nat} (hk : 28 ≤ k) (u : Nat) : Offerless ((inp k).ad u) :=
  ⟨fun _ hx => (in_reqs hx).trans (none_late hk).1, fun _ hx => (in_rsps hx).trans (none_late hk).2⟩

/-- After 32 periods 14 flits have been handed over, and not all beats have been shown. -/
theorem at32 : (match run 32 with
    | .ok y => (flitsOf cfg y, [shownAt y 1 .ar, shownAt y 1 .aw, shownAt y 1 .w, shownAt y 0 .r, shownAt y 0 .b].map List.length)
    | .error _ => (0, [])) = (14, [1, 0, 0, 1, 0]) := by
  decide +kernel

theorem short : ∀ u < cfg.m.nodes, (cfg.nc u).kind ≠ .none → ∀ k, (mmFlits (cfg.nc u).dataw k : Int) ≤ cfg.b.buf.perVc := by
  intro u _ _ k
  show ((mmFlits 128 k : Nat) : Int) ≤ 4
  cases k <;> decide

example : ∃ x, run 18674 = .ok x ∧ ∀ u < 2, ∀ k ∈ shows (cfg.nc u).kind,
    ∃ src : List Nat, src.length = (shownAt x u k).length ∧ (∀ w ∈ src, w < 2) ∧ ∀ w < 2,
      (((src.zip (shownAt x u k)).filter fun z => z.1 = w).map (·.2)).map core = (givenFor cfg x w u k).map core := by
  obtain ⟨y, hy, -⟩ := C108_system_never_fails_partial setup allocs (runs (N := 32) (by decide))
  have h32 := at32
  have hy' : run 32 = .ok y := hy
  rw [hy'] at h32
  have hB : flitsOf cfg y = 14 := congrArg Prod.fst h32
  obtain ⟨x, h1, -, h2⟩ := C110_everything_arrives_partial setup allocs grants (by decide) short (runs (N := 18674) (by decide))
    (fair 18674) (fun k hk _ u _ => offerless hk u) hy (by rw [hB]; decide)
  exact ⟨x, h1, h2⟩

end LiveExample

end RadSim.MmNoc
