import Verif.Spec.Mesh
import Verif.Lemmas.NetworkPackets
import Verif.Lemmas.RoutingNet

/-! # The mesh as a network -/

namespace RadSim.Net

open Router (Flit Hop Cfg upto)
open Routing (Shape Pkt Rf nbr opp Dor inputChannel_eq outputChannel_eq enc_inj nbr_lt nbr_opp opp_lt opp_opp dorNextMesh
  dimOrderMesh xyYxMesh vcOk available)
open Grid (manhattan coord gap)

variable {δ σ τ ρ ρ' : Type} {s : Shape}

theorem enc_lt {m a x b : Nat} (ha : a < b) (hx : x < m) : m * a + x < m * b := by
  have : m * (a + 1) ≤ m * b := Nat.mul_le_mul_left m ha
  rw [Nat.mul_add, Nat.mul_one] at this
  omega

theorem mesh_in {r i : Nat} (h : i < 2 * s.n) : (mesh s).inLink r i = 2 * s.n * nbr s r i + opp i := by
  simp only [mesh, if_pos h]
  exact inputChannel_eq s r i

theorem mesh_inj {r i : Nat} (h : ¬ i < 2 * s.n) : (mesh s).inLink r i = injLink s r := by
  simp only [mesh, if_neg h]

theorem mesh_out {r o : Nat} (h : o < 2 * s.n) : (mesh s).outLink r o = 2 * s.n * r + o := by
  simp only [mesh, if_pos h]
  exact outputChannel_eq s r o

theorem mesh_ej {r o : Nat} (h : ¬ o < 2 * s.n) : (mesh s).outLink r o = ejLink s r := by
  simp only [mesh, if_neg h]

theorem mesh_wired (hk : 0 < s.k) : (mesh s).Wired where
  outLt := by
    intro r hr o ho
    change r < s.nodes at hr
    change _ < 2 * s.n * s.nodes + s.nodes + s.nodes
    by_cases h : o < 2 * s.n
    · rw [mesh_out h]
      have := enc_lt hr h
      omega
    · rw [mesh_ej h]; unfold ejLink; omega
  inLt := by
    intro r hr i hi
    change r < s.nodes at hr
    change _ < 2 * s.n * s.nodes + s.nodes + s.nodes
    by_cases h : i < 2 * s.n
    · rw [mesh_in h]
      have := enc_lt (nbr_lt hk h hr) (opp_lt h)
      omega
    · rw [mesh_inj h]; unfold injLink; omega
  outInj := by
    intro r hr o ho r' hr' o' ho' e
    change r < s.nodes at hr
    change r' < s.nodes at hr'
    change o < 2 * s.n + 1 at ho
    change o' < 2 * s.n + 1 at ho'
    by_cases h : o < 2 * s.n <;> by_cases h' : o' < 2 * s.n
    · rw [mesh_out h, mesh_out h'] at e
      exact enc_inj h h' e
    · rw [mesh_out h, mesh_ej h'] at e
      have := enc_lt hr h
      unfold ejLink at e; omega
    · rw [mesh_ej h, mesh_out h'] at e
      have := enc_lt hr' h'
      unfold ejLink at e; omega
    · rw [mesh_ej h, mesh_ej h'] at e
      unfold ejLink at e; omega
  inInj := by
    intro r hr o ho r' hr' o' ho' e
    change r < s.nodes at hr
    change r' < s.nodes at hr'
    change o < 2 * s.n + 1 at ho
    change o' < 2 * s.n + 1 at ho'
    by_cases h : o < 2 * s.n <;> by_cases h' : o' < 2 * s.n
    · rw [mesh_in h, mesh_in h'] at e
      obtain ⟨e1, e2⟩ := enc_inj (opp_lt h) (opp_lt h') e
      have e3 : o = o' := by rw [← opp_opp o, e2, opp_opp]
      refine ⟨?_, e3⟩
      have := congrArg (fun x => nbr s x (opp o)) e1
      rw [nbr_opp hk h hr, e3, nbr_opp hk h' hr'] at this
      exact this
    · rw [mesh_in h, mesh_inj h'] at e
      have := enc_lt (nbr_lt hk h hr) (opp_lt h)
      unfold injLink at e; omega
    · rw [mesh_inj h, mesh_in h'] at e
      have := enc_lt (nbr_lt hk h' hr') (opp_lt h')
      unfold injLink at e; omega
    · rw [mesh_inj h, mesh_inj h'] at e
      unfold injLink at e; omega

/-- Every channel between routers has a driver. -/
theorem chan_of {l : Nat} (h : l < 2 * s.n * s.nodes) : ∃ u p, u < s.nodes ∧ p < 2 * s.n ∧ l = 2 * s.n * u + p := by
  have hn : 0 < 2 * s.n := by
    rcases Nat.eq_zero_or_pos (2 * s.n) with h0 | h0
    · rw [h0, Nat.zero_mul] at h; omega
    · exact h0
  exact ⟨l / (2 * s.n), l % (2 * s.n), (Nat.div_lt_iff_lt_mul hn).2 (by rw [Nat.mul_comm]; exact h), Nat.mod_lt _ hn,
    (Nat.div_add_mod _ _).symm⟩

theorem mesh_source {l : Nat} : (mesh s).Source l ↔ ∃ u < s.nodes, l = injLink s u := by
  constructor
  · rintro ⟨h1, h2⟩
    change l < 2 * s.n * s.nodes + s.nodes + s.nodes at h1
    by_cases h : l < 2 * s.n * s.nodes
    · obtain ⟨u, p, hu, hp, rfl⟩ := chan_of h
      exact absurd (mesh_out hp) (h2 u hu p (Nat.lt_succ_of_lt hp))
    · by_cases h' : l < 2 * s.n * s.nodes + s.nodes
      · exact ⟨l - 2 * s.n * s.nodes, by omega, by unfold injLink; omega⟩
      · refine absurd ?_ (h2 (l - (2 * s.n * s.nodes + s.nodes)) (show _ < s.nodes by omega) (2 * s.n) (Nat.lt_succ_self _))
        rw [mesh_ej (Nat.lt_irrefl _)]
        unfold ejLink; omega
  · rintro ⟨u, hu, rfl⟩
    refine ⟨show _ < 2 * s.n * s.nodes + s.nodes + s.nodes by unfold injLink; omega, ?_⟩
    intro r hr o ho e
    change r < s.nodes at hr
    by_cases h : o < 2 * s.n
    · rw [mesh_out h] at e
      have := enc_lt hr h
      unfold injLink at e; omega
    · rw [mesh_ej h] at e
      unfold injLink ejLink at e; omega

theorem mesh_sink (hk : 0 < s.k) {l : Nat} : (mesh s).Sink l ↔ ∃ u < s.nodes, l = ejLink s u := by
  constructor
  · rintro ⟨h1, h2⟩
    change l < 2 * s.n * s.nodes + s.nodes + s.nodes at h1
    by_cases h : l < 2 * s.n * s.nodes
    · obtain ⟨u, p, hu, hp, rfl⟩ := chan_of h
      refine absurd ?_ (h2 (nbr s u p) (nbr_lt hk hp hu) (opp p) (Nat.lt_succ_of_lt (opp_lt hp)))
      rw [mesh_in (opp_lt hp), nbr_opp hk hp hu, opp_opp]
    · by_cases h' : l < 2 * s.n * s.nodes + s.nodes
      · refine absurd ?_ (h2 (l - 2 * s.n * s.nodes) (show _ < s.nodes by omega) (2 * s.n) (Nat.lt_succ_self _))
        rw [mesh_inj (Nat.lt_irrefl _)]
        unfold injLink; omega
      · exact ⟨l - (2 * s.n * s.nodes + s.nodes), by omega, by unfold ejLink; omega⟩
  · rintro ⟨u, hu, rfl⟩
    refine ⟨show _ < 2 * s.n * s.nodes + s.nodes + s.nodes by unfold ejLink; omega, ?_⟩
    intro r hr o ho e
    change r < s.nodes at hr
    by_cases h : o < 2 * s.n
    · rw [mesh_in h] at e
      have := enc_lt (nbr_lt hk h hr) (opp_lt h)
      unfold ejLink at e; omega
    · rw [mesh_inj h] at e
      unfold injLink ejLink at e; omega

/-! ## Routing functions -/

/-- What mesh routing functions have in common: they leave at the destination, go one step in some dimension order
otherwise, and offer virtual channels of the class of the flit. -/
structure Steps (s : Shape) (rng : Nat → Nat × Nat) (fn : Rf) : Prop where
  port : ∀ {r f i rnd o}, fn r f i rnd = some o → o.port < 2 * s.n + 1
  lo : ∀ {r f i rnd o}, fn r f i rnd = some o → (rng f.cls).1 ≤ o.vcBegin
  le : ∀ {r f i rnd o}, fn r f i rnd = some o → o.vcBegin ≤ o.vcEnd
  hi : ∀ {r f i rnd o}, fn r f i rnd = some o → o.vcEnd ≤ (rng f.cls).2
  home : ∀ {f i rnd o}, fn f.dest f i rnd = some o → o.port = 2 * s.n
  step : ∀ {r f i rnd o}, fn r f i rnd = some o → r ≠ f.dest → ∃ desc, o.port = dorNextMesh s r f.dest desc

theorem ascLoop_le (k : Nat) : ∀ m d a b, (Routing.ascLoop k m d a b).1 ≤ d + m
  | 0, _, _, _ => Nat.le_refl _
  | m + 1, d, a, b => by
    unfold Routing.ascLoop
    split
    · exact Nat.le_add_right _ _
    · have := ascLoop_le k m (d + 1) (a / k) (b / k); omega

theorem descLoop_le (s : Shape) : ∀ d a b, (Routing.descLoop s d a b).1 ≤ d
  | 0, _, _ => Nat.le_refl _
  | d + 1, a, b => by
    unfold Routing.descLoop
    split
    · exact Nat.le_refl _
    · have := descLoop_le s d (a * s.k % s.nodes) (b * s.k % s.nodes); omega

theorem dorNextMesh_lt (hn : 0 < s.n) (u v : Nat) (desc : Bool) : dorNextMesh s u v desc < 2 * s.n + 1 := by
  unfold dorNextMesh
  split
  · omega
  · split
    · have := descLoop_le s (s.n - 1) u v
      dsimp only
      split <;> omega
    · have := ascLoop_le s.k (s.n - 1) 0 u v
      dsimp only
      split <;> omega

theorem steps_dim (hn : 0 < s.n) (rng : Nat → Nat × Nat) : Steps s rng (dimOrderMesh s rng) := by
  have key : ∀ {r f i rnd o}, dimOrderMesh s rng r f i rnd = some o →
      vcOk rng f ∧ o = ⟨dorNextMesh s r f.dest false, (rng f.cls).1, (rng f.cls).2, f.ph⟩ := by
    intro r f i rnd o h
    unfold dimOrderMesh at h
    by_cases hv : vcOk rng f
    · rw [if_pos hv] at h; cases h; exact ⟨hv, rfl⟩
    · rw [if_neg hv] at h; cases h
  refine ⟨fun h => ?_, fun h => ?_, fun h => ?_, fun h => ?_, fun h => ?_, fun h _ => ?_⟩ <;> obtain ⟨h1, rfl⟩ := key h
  · exact dorNextMesh_lt hn _ _ _
  · exact Nat.le_refl _
  · exact Nat.le_trans h1.1 h1.2
  · exact Nat.le_refl _
  · unfold dorNextMesh; rw [if_pos rfl]
  · exact ⟨false, rfl⟩

theorem steps_xy (hn : 0 < s.n) (rng : Nat → Nat × Nat) : Steps s rng (xyYxMesh s rng) := by
  have key : ∀ {r f i rnd o}, xyYxMesh s rng r f i rnd = some o →
      vcOk rng f ∧ ((r = f.dest ∧ o = ⟨2 * s.n, (rng f.cls).1, (rng f.cls).2, f.ph⟩) ∨
        (r ≠ f.dest ∧ 0 < available (rng f.cls) ∧
          (o = ⟨dorNextMesh s r f.dest false, (rng f.cls).1, (rng f.cls).2 - available (rng f.cls), f.ph⟩ ∨
           o = ⟨dorNextMesh s r f.dest true, (rng f.cls).1 + available (rng f.cls), (rng f.cls).2, f.ph⟩))) := by
    intro r f i rnd o h
    unfold xyYxMesh at h
    by_cases hv : vcOk rng f
    · rw [if_pos hv] at h
      refine ⟨hv, ?_⟩
      dsimp only at h
      by_cases hd : r = f.dest
      · rw [if_pos hd] at h; cases h; exact .inl ⟨hd, rfl⟩
      · rw [if_neg hd] at h
        by_cases ha : available (rng f.cls) > 0
        · rw [if_pos ha] at h
          refine .inr ⟨hd, ha, ?_⟩
          split at h
          · split at h <;> cases h
            · exact .inl rfl
            · exact .inr rfl
          · split at h <;> cases h
            · exact .inl rfl
            · exact .inr rfl
        · rw [if_neg ha] at h; cases h
    · rw [if_neg hv] at h; cases h
  have hav : ∀ {x : Nat × Nat}, 0 < available x → x.1 + 2 * available x ≤ x.2 + 1 := Routing.available_le
  refine ⟨fun h => ?_, fun h => ?_, fun h => ?_, fun h => ?_, fun h => ?_, fun h hne => ?_⟩ <;>
    obtain ⟨h1, ⟨h2, rfl⟩ | ⟨h2, h3, rfl | rfl⟩⟩ := key h
  · exact Nat.lt_succ_self _
  · exact dorNextMesh_lt hn _ _ _
  · exact dorNextMesh_lt hn _ _ _
  · exact Nat.le_refl _
  · exact Nat.le_refl _
  · exact Nat.le_add_right _ _
  · exact Nat.le_trans h1.1 h1.2
  · have := hav h3; dsimp only; omega
  · have := hav h3; dsimp only; omega
  · exact Nat.le_refl _
  · exact Nat.sub_le _ _
  · exact Nat.le_refl _
  · rfl
  · exact absurd rfl h2
  · exact absurd rfl h2
  · exact absurd h2 hne
  · exact ⟨false, rfl⟩
  · exact ⟨true, rfl⟩

theorem mem_hop {o : Option Routing.Out} {p : Hop} (h : p ∈ hop o) :
    ∃ x, o = some x ∧ p = ⟨x.port, x.vcBegin, x.vcEnd, 0⟩ := by
  cases o with
  | none => cases h
  | some x => exact ⟨x, rfl, List.mem_singleton.1 h⟩

theorem mesh_legal {rng : Nat → Nat × Nat} {fn : Rf} (hf : Steps s rng fn) {b : Cfg} (hv : ∀ c, (rng c).2 < b.vcs)
    {x : Env (Msg δ) ρ ρ'} (hu : Uses fn x) (ht : 0 ≤ x.now) (hm : x.now + 1 ≤ Channel.intMax) : Legal (mesh s) b x where
  time := ht
  fits := fun _ _ => ⟨hm, hm⟩
  offers := by
    intro r _ i f p hp
    obtain ⟨rnd, e⟩ := hu r i f
    rw [e] at hp
    obtain ⟨o, ho, rfl⟩ := mem_hop hp
    exact ⟨hf.port ho, hf.le ho, Nat.lt_of_le_of_lt (hf.hi ho) (hv _)⟩
  once := by
    intro r _ i f
    obtain ⟨rnd, e⟩ := hu r i f
    rw [e]
    cases fn r (pkt f) i rnd with
    | none => exact List.nodup_nil
    | some o =>
      simp only [hop, List.flatMap_cons, List.flatMap_nil, List.append_nil]
      exact (List.nodup_range' ..).map fun a b h => (Prod.ext_iff.1 h).2

/-- Where a head may be. -/
def mayMesh (s : Shape) (rng : Nat → Nat × Nat) (l : Nat) (f : Flit (Msg δ)) : Prop :=
  f.data.dest < s.nodes ∧ f.data.src < s.nodes ∧ vcOk rng (pkt f) ∧
    ((l = injLink s f.data.src ∧ f.hops = 0) ∨
     (∃ u p, u < s.nodes ∧ l = 2 * s.n * u + p ∧ (∃ desc d, Dor s desc u f.data.dest p d) ∧
        f.hops + manhattan s.k s.n u f.data.dest = manhattan s.k s.n f.data.src f.data.dest + 1) ∨
     (l = ejLink s f.data.dest ∧ f.hops = manhattan s.k s.n f.data.src f.data.dest + 1))

theorem manhattan_self (k n u : Nat) : manhattan k n u u = 0 := by
  unfold manhattan gap
  exact Finset.sum_eq_zero fun x _ => by omega

/-- Where a head is when it may be on an input of a router. -/
theorem may_here (hk : 0 < s.k) {rng : Nat → Nat × Nat} {r i : Nat} {f : Flit (Msg δ)} (hr : r < s.nodes)
    (hm : mayMesh s rng ((mesh s).inLink r i) f) :
    f.hops + manhattan s.k s.n r f.data.dest = manhattan s.k s.n f.data.src f.data.dest := by
  obtain ⟨h1, h2, -, h4⟩ := hm
  by_cases hi : i < 2 * s.n
  · rw [mesh_in hi] at h4
    have hlt := enc_lt (nbr_lt hk hi hr) (opp_lt hi)
    rcases h4 with ⟨e, -⟩ | ⟨u, p, hu, e, ⟨desc, d, hd⟩, hh⟩ | ⟨e, -⟩
    · unfold injLink at e; omega
    · have hp := (Routing.dor_step hk hd).1
      obtain ⟨rfl, rfl⟩ := enc_inj (opp_lt hi) hp e
      have := Routing.manhattan_step hk hd
      rw [nbr_opp hk hi hr] at this
      omega
    · unfold ejLink at e; omega
  · rw [mesh_inj hi] at h4
    rcases h4 with ⟨e, h0⟩ | ⟨u, p, hu, e, ⟨desc, d, hd⟩, hh⟩ | ⟨e, -⟩
    · have : r = f.data.src := by unfold injLink at e; omega
      rw [this, h0]; omega
    · have := enc_lt hu (Routing.dor_step hk hd).1
      unfold injLink at e; omega
    · unfold injLink ejLink at e; omega

theorem may_hop (hk : 0 < s.k) {rng : Nat → Nat × Nat} {fn : Rf} (hf : Steps s rng fn) {r i : Nat} {f : Flit (Msg δ)}
    (hr : r < s.nodes) (hm : mayMesh s rng ((mesh s).inLink r i) f) {rnd : Bool} {o : Routing.Out}
    (ho : fn r (pkt f) i rnd = some o) {u : Nat} (h1 : o.vcBegin ≤ u) (h2 : u ≤ o.vcEnd) :
    mayMesh s rng ((mesh s).outLink r o.port) { f with vc := u, hops := f.hops + 1 } := by
  have hh := may_here hk hr hm
  obtain ⟨m1, m2, m3, -⟩ := hm
  refine ⟨m1, m2, ⟨Nat.le_trans (hf.lo (f := pkt f) ho) h1, Nat.le_trans h2 (hf.hi (f := pkt f) ho)⟩, ?_⟩
  by_cases hd : r = f.data.dest
  · have hp : o.port = 2 * s.n := by
      subst hd
      exact hf.home (f := pkt f) ho
    rw [hp, mesh_ej (Nat.lt_irrefl _), hd]
    refine .inr (.inr ⟨rfl, ?_⟩)
    rw [hd, manhattan_self] at hh
    dsimp only; omega
  · obtain ⟨desc, hp⟩ := hf.step ho hd
    change o.port = dorNextMesh s r f.data.dest desc at hp
    obtain ⟨d, hdor⟩ := Routing.dor_spec hk hr m1 hd desc
    rw [← hp] at hdor
    have hlt := (Routing.dor_step hk hdor).1
    rw [mesh_out hlt]
    refine .inr (.inl ⟨r, o.port, hr, rfl, ⟨desc, d, hdor⟩, ?_⟩)
    dsimp only; omega

theorem mesh_guided (hk : 0 < s.k) {rng : Nat → Nat × Nat} {fn : Rf} (hf : Steps s rng fn) {N : Nat}
    {e : Nat → Env (Msg δ) ρ ρ'} (hs : Sends s rng N e) (hu : ∀ n < N, Uses fn (e n)) :
    Guided (mesh s) N e (mayMesh s rng) where
  enter := by
    intro l hl f hf hh
    obtain ⟨u, hu, rfl⟩ := mesh_source.1 hl
    obtain ⟨h1, h2, h3, h4⟩ := hs.heads u hu f hf hh
    exact ⟨h2, h1 ▸ hu, h3, .inl ⟨by rw [h1], h4⟩⟩
  hop := by
    intro n hn r hr i hi f hh hm p hp u h1 h2
    obtain ⟨rnd, e⟩ := hu n hn r i f
    rw [e] at hp
    obtain ⟨o, ho, rfl⟩ := mem_hop hp
    exact may_hop hk hf hr hm ho h1 h2

end RadSim.Net
