import Verif.Model.MinAdapt
import Verif.Lemmas.MeshLive
import Verif.Lemmas.MeshNet

/-! # Output sets and the adaptive routing functions of a mesh -/

namespace RadSim.Routing

open Router (Hop)
open Grid (coord)

/-! ## Output sets -/

theorem addRange_mem {l : List Hop} {h x : Hop} (hx : x ∈ addRange l h) : x ∈ l ∨ x = h := by
  induction l with
  | nil => exact .inr (List.mem_singleton.1 hx)
  | cons y l ih =>
    unfold addRange at hx
    split at hx
    · rcases List.mem_cons.1 hx with rfl | hx
      · exact .inl (List.mem_cons_self ..)
      · rcases ih hx with h1 | h1
        · exact .inl (List.mem_cons_of_mem _ h1)
        · exact .inr h1
    · split at hx
      · rcases List.mem_cons.1 hx with rfl | hx
        · exact .inr rfl
        · exact .inl hx
      · exact .inl hx

theorem addRange_old {l : List Hop} {h x : Hop} (hx : x ∈ l) : x ∈ addRange l h := by
  induction l with
  | nil => cases hx
  | cons y l ih =>
    unfold addRange
    split
    · rcases List.mem_cons.1 hx with rfl | hx
      · exact List.mem_cons_self ..
      · exact List.mem_cons_of_mem _ (ih hx)
    · split
      · exact List.mem_cons_of_mem _ hx
      · exact hx

theorem addRange_sorted {l : List Hop} {h : Hop} (hl : l.Pairwise fun a b => a.pri > b.pri) :
    (addRange l h).Pairwise fun a b => a.pri > b.pri := by
  induction l with
  | nil => exact List.pairwise_singleton _ _
  | cons y l ih =>
    rw [List.pairwise_cons] at hl
    unfold addRange
    split
    · rename_i hy
      rw [List.pairwise_cons]
      refine ⟨fun a ha => ?_, ih hl.2⟩
      rcases addRange_mem ha with h1 | rfl
      · exact hl.1 a h1
      · exact hy
    · split
      · rename_i hy
        rw [List.pairwise_cons, List.pairwise_cons]
        refine ⟨fun a ha => ?_, hl⟩
        rcases List.mem_cons.1 ha with rfl | ha
        · exact hy
        · have := hl.1 a ha; omega
      · rw [List.pairwise_cons]; exact hl

/-- A priority that is there already hides the new element. -/
theorem addRange_same {l : List Hop} {h : Hop} (hl : l.Pairwise fun a b => a.pri > b.pri) {x : Hop} (hx : x ∈ l)
    (he : x.pri = h.pri) : addRange l h = l := by
  induction l with
  | nil => cases hx
  | cons y l ih =>
    rw [List.pairwise_cons] at hl
    unfold addRange
    rcases List.mem_cons.1 hx with rfl | hx
    · rw [if_neg (by omega), if_neg (by omega)]
    · rw [if_pos (by have := hl.1 x hx; omega), ih hl.2 hx]

theorem addRange_new {l : List Hop} {h : Hop} (hn : ∀ x ∈ l, x.pri ≠ h.pri) : h ∈ addRange l h := by
  induction l with
  | nil => exact List.mem_singleton.2 rfl
  | cons y l ih =>
    unfold addRange
    split
    · exact List.mem_cons_of_mem _ (ih fun x hx => hn x (List.mem_cons_of_mem _ hx))
    · split
      · exact List.mem_cons_self ..
      · exact absurd (by omega) (hn y (List.mem_cons_self ..))

/-- Elements of an output set after any additions. -/
theorem fold_addRange (hs : List Hop) : ((hs.foldl addRange []).Pairwise fun a b => a.pri > b.pri) ∧
    ∀ h, h ∈ hs.foldl addRange [] ↔ hs.find? (fun x => x.pri = h.pri) = some h := by
  induction hs using List.reverseRecOn with
  | nil => exact ⟨List.Pairwise.nil, fun h => by simp⟩
  | append_singleton hs y ih =>
    rw [List.foldl_append]
    obtain ⟨h1, h2⟩ := ih
    refine ⟨addRange_sorted h1, fun h => ?_⟩
    change h ∈ addRange (hs.foldl addRange []) y ↔ _
    rw [List.find?_append]
    cases hf : hs.find? (fun x => x.pri = h.pri) with
    | some z =>
      have hz : z.pri = h.pri := by simpa using List.find?_some hf
      have hz' : z ∈ hs.foldl addRange [] := (h2 z).2 (by rw [hz]; exact hf)
      simp only [Option.some_or, Option.some.injEq]
      constructor
      · intro hm
        rcases addRange_mem hm with hm | rfl
        · have := (h2 h).1 hm
          rw [hf] at this
          exact Option.some.inj this
        · rw [addRange_same h1 hz' hz] at hm
          have := (h2 h).1 hm
          rw [hf] at this
          exact Option.some.inj this
      · rintro rfl
        exact addRange_old hz'
    | none =>
      simp only [Option.none_or]
      have hno : ∀ x ∈ hs.foldl addRange [], x.pri ≠ h.pri := by
        intro x hx e
        have := (h2 x).1 hx
        rw [e, hf] at this
        cases this
      constructor
      · intro hm
        rcases addRange_mem hm with hm | rfl
        · exact absurd rfl (hno h hm)
        · simp
      · intro e
        rw [List.find?_singleton] at e
        split at e
        · cases e; exact addRange_new hno
        · cases e

/-! ## `min_adapt_mesh` -/

theorem minDirs_done (k vb ve : Nat) : ∀ (m n cur dest : Nat) {out : List Hop},
    (out.Pairwise fun a b => a.pri > b.pri) → (∃ x ∈ out, x.pri = 1) → minDirs k vb ve m n cur dest out = out
  | 0, _, _, _, _, _, _ => rfl
  | m + 1, n, cur, dest, out, hs, ⟨x, hx, he⟩ => by
    unfold minDirs
    have : (if cur % k ≠ dest % k then
        addRange out ⟨if cur % k < dest % k then 2 * n else 2 * n + 1, vb + 1, ve, 1⟩ else out) = out := by
      split
      · exact addRange_same hs hx he
      · rfl
    rw [this]
    exact minDirs_done k vb ve m _ _ _ hs ⟨x, hx, he⟩

theorem addRange_pri {l : List Hop} {h : Hop} :
    ∃ x ∈ addRange l h, x.pri = h.pri := by
  by_cases e : ∃ x ∈ l, x.pri = h.pri
  · obtain ⟨x, hx, he⟩ := e
    exact ⟨x, addRange_old hx, he⟩
  · exact ⟨h, addRange_new fun x hx he => e ⟨x, hx, he⟩, rfl⟩

theorem minDirs_eq {k vb ve u v : Nat} {d : Nat} (hne : coord k u d ≠ coord k v d) : ∀ (m n : Nat) {out : List Hop},
    (out.Pairwise fun a b => a.pri > b.pri) → n ≤ d → d < n + m → (∀ d', d' < d → coord k u d' = coord k v d') →
    minDirs k vb ve m n (u / k ^ n) (v / k ^ n) out =
      addRange out ⟨if coord k u d < coord k v d then 2 * d else 2 * d + 1, vb + 1, ve, 1⟩
  | 0, _, _, _, _, _, _ => by omega
  | m + 1, n, out, hs, h1, h2, h3 => by
    unfold minDirs
    by_cases e : n = d
    · subst e
      rw [if_pos (show u / k ^ n % k ≠ v / k ^ n % k from hne)]
      rw [minDirs_done _ _ _ _ _ _ _ (addRange_sorted hs) addRange_pri]
      rfl
    · rw [if_neg (show ¬ u / k ^ n % k ≠ v / k ^ n % k from fun h => h (h3 n (by omega))), Nat.div_div_eq_div_mul,
        Nat.div_div_eq_div_mul, ← Nat.pow_succ]
      exact minDirs_eq hne m (n + 1) hs (by omega) (by omega) h3

variable {s : Shape} {rng : Nat → Nat × Nat}

/-- What `min_adapt_mesh` offers on the way. -/
theorem minAdapt_eq (hk : 0 < s.k) {r i : Nat} {f : Pkt} (hr : r < s.nodes) (hd : f.dest < s.nodes) (hv : vcOk rng f)
    (hne : r ≠ f.dest) : minAdaptMesh s rng r f i =
      some (if (if i = 2 * s.n then (rng f.cls).2 else f.vc) ≠ (rng f.cls).1 then
        addRange [⟨dorNextMesh s r f.dest false, 0, (rng f.cls).1, (rng f.cls).1⟩]
          ⟨dorNextMesh s r f.dest false, (rng f.cls).1 + 1, (rng f.cls).2, 1⟩
      else [⟨dorNextMesh s r f.dest false, 0, (rng f.cls).1, (rng f.cls).1⟩]) := by
  unfold minAdaptMesh
  rw [if_pos hv]
  dsimp only
  rw [if_neg hne]
  congr 1
  generalize (if i = 2 * s.n then (rng f.cls).2 else f.vc) = z
  by_cases hz : z ≠ (rng f.cls).1
  · rw [if_pos hz, if_pos hz]
    obtain ⟨d, hdor⟩ := dor_spec hk hr hd hne false
    have := minDirs_eq (k := s.k) (vb := (rng f.cls).1) (ve := (rng f.cls).2) hdor.ne s.n 0
      (out := addRange [] ⟨dorNextMesh s r f.dest false, 0, (rng f.cls).1, (rng f.cls).1⟩)
      (List.pairwise_singleton _ _) (Nat.zero_le _) (by have := hdor.dim; omega)
      fun d' h => hdor.before d' (Nat.lt_trans h hdor.dim) (by simpa using h)
    rw [Nat.pow_zero, Nat.div_one, Nat.div_one] at this
    rw [this, hdor.port.symm]
    rfl
  · rw [if_neg hz, if_neg hz]
    rfl

theorem minDirs_mem {k vb ve : Nat} {x : Hop} : ∀ (m n cur dest : Nat) {out : List Hop},
    x ∈ minDirs k vb ve m n cur dest out →
      x ∈ out ∨ (x.port < 2 * (n + m) ∧ x.vcStart = vb + 1 ∧ x.vcEnd = ve ∧ x.pri = 1)
  | 0, _, _, _, _, h => .inl h
  | m + 1, n, cur, dest, out, h => by
    unfold minDirs at h
    rcases minDirs_mem m _ _ _ h with h | ⟨h1, h2⟩
    · split at h
      · rcases addRange_mem h with h | rfl
        · exact .inl h
        · refine .inr ⟨?_, rfl, rfl, rfl⟩
          dsimp only
          split <;> omega
      · exact .inl h
    · exact .inr ⟨by omega, h2⟩

theorem minDirs_sorted {k vb ve : Nat} : ∀ (m n cur dest : Nat) {out : List Hop},
    (out.Pairwise fun a b => a.pri > b.pri) → (minDirs k vb ve m n cur dest out).Pairwise fun a b => a.pri > b.pri
  | 0, _, _, _, _, h => h
  | m + 1, n, cur, dest, out, h => by
    unfold minDirs
    refine minDirs_sorted m _ _ _ ?_
    split
    · exact addRange_sorted h
    · exact h

/-! ## `planar_adapt_mesh` -/

theorem planarDim_eq {k u v d : Nat} (hne : coord k u d ≠ coord k v d) : ∀ (m n : Nat), n ≤ d → d < n + m →
    (∀ d', d' < d → coord k u d' = coord k v d') →
    planarDim k false m n (u / k ^ n) (v / k ^ n) = some (d, u / k ^ d, v / k ^ d)
  | 0, _, _, _, _ => by omega
  | m + 1, n, h1, h2, h3 => by
    unfold planarDim
    by_cases e : n = d
    · subst e
      rw [if_pos ⟨hne, by simp⟩]
    · rw [if_neg (show ¬ (u / k ^ n % k ≠ v / k ^ n % k ∧ _) from fun h => h.1 (h3 n (by omega))),
        Nat.div_div_eq_div_mul, Nat.div_div_eq_div_mul, ← Nat.pow_succ]
      exact planarDim_eq hne m (n + 1) (by omega) (by omega) h3

theorem planarDim_lt {k : Nat} {skip : Bool} : ∀ (m n cur dest : Nat) {x : Nat × Nat × Nat},
    planarDim k skip m n cur dest = some x → x.1 < n + m
  | 0, _, _, _, _, h => by cases h
  | m + 1, n, cur, dest, x, h => by
    unfold planarDim at h
    split at h
    · cases h; dsimp only; omega
    · have := planarDim_lt m _ _ _ h; omega

theorem addRange_zero (a b : Hop) (ha : a.pri = 0) (hb : b.pri = 0) : addRange (addRange [] a) b = [a] :=
  addRange_same (List.pairwise_singleton _ _) (List.mem_singleton.2 rfl) (by omega)

/-- The number of virtual channels in a third of a class. -/
def third (r : Nat × Nat) : Nat := (r.2 + 1 - r.1) / 3

theorem planar_map {r f i} (hv : vcOk rng f) (hne : r ≠ f.dest) : planarAdaptMesh s rng r f i =
    (planarDim s.k (decide (i / 2 = 0 ∧ f.vc < (rng f.cls).1 + 2 * third (rng f.cls))) s.n 0 r f.dest).map fun x =>
      [⟨if x.2.1 % s.k < x.2.2 % s.k then 2 * x.1 else 2 * x.1 + 1, (rng f.cls).1 + 2 * third (rng f.cls),
        (rng f.cls).2, 0⟩] := by
  unfold planarAdaptMesh
  rw [if_pos hv]
  dsimp only
  rw [if_pos hne]
  congr 1
  funext x
  split
  · rfl
  · exact addRange_zero _ _ rfl rfl

theorem planar_eq (hk : 0 < s.k) {r i : Nat} {f : Pkt} (hr : r < s.nodes) (hd : f.dest < s.nodes) (hv : vcOk rng f)
    (hg : i < 2 → (rng f.cls).1 + 2 * third (rng f.cls) ≤ f.vc) (hne : r ≠ f.dest) :
    planarAdaptMesh s rng r f i =
      some [⟨dorNextMesh s r f.dest false, (rng f.cls).1 + 2 * third (rng f.cls), (rng f.cls).2, 0⟩] := by
  rw [planar_map hv hne]
  have hskip : decide (i / 2 = 0 ∧ f.vc < (rng f.cls).1 + 2 * third (rng f.cls)) = false := by
    refine decide_eq_false fun h => ?_
    have := hg (by omega)
    omega
  obtain ⟨d, hdor⟩ := dor_spec hk hr hd hne false
  have := planarDim_eq (k := s.k) hdor.ne s.n 0 (Nat.zero_le _) (by have := hdor.dim; omega)
    fun d' h => hdor.before d' (Nat.lt_trans h hdor.dim) (by simpa using h)
  rw [Nat.pow_zero, Nat.div_one, Nat.div_one] at this
  rw [hskip, this]
  simp only [Option.map_some]
  exact congrArg (fun p => some [(⟨p, (rng f.cls).1 + 2 * third (rng f.cls), (rng f.cls).2, 0⟩ : Hop)]) hdor.port.symm

end RadSim.Routing

namespace RadSim.Net

open Router (Flit Hop Cfg upto)
open Routing (Shape Pkt Rs dorNextMesh dimOrderMesh minAdaptMesh planarAdaptMesh vcOk third addRange)
open Grid (manhattan)

variable {δ σ τ ρ ρ' : Type} {VA : Alloc.Cls σ ρ} {SA : Alloc.Cls τ ρ'} {m : Shape} {b : Cfg} {va : Nat → σ} {sa : Nat → τ}
  {N : Nat} {e : Nat → Env (Msg δ) ρ ρ'} {s : Nat → S (Msg δ) σ τ} {rng : Nat → Nat × Nat} {rs : Rs} {good : Pkt → Prop}

/-- A routing function whose output sets have nothing but the port of dimension-order routing, on virtual channels of the
class; `good` holds of the flits on channels between routers. -/
structure Follows (m : Shape) (rng : Nat → Nat × Nat) (rs : Rs) (good : Pkt → Prop) : Prop where
  offers : ∀ {r f i}, r < m.nodes → f.dest < m.nodes → vcOk rng f → (i < 2 * m.n → good f) → ∃ l, rs r f i = some l ∧ l ≠ [] ∧
    ∀ p ∈ l, p.port = dorNextMesh m r f.dest false ∧ (rng f.cls).1 ≤ p.vcStart ∧ p.vcEnd ≤ (rng f.cls).2 ∧
      (r ≠ f.dest → ∀ u, p.vcStart ≤ u → u ≤ p.vcEnd → good { f with vc := u })
  legal : ∀ {r f i l}, rs r f i = some l →
    (∀ p ∈ l, p.port < 2 * m.n + 1 ∧ p.vcStart ≤ p.vcEnd ∧ p.vcEnd ≤ (rng f.cls).2) ∧
    (l.flatMap fun p => (List.range' p.vcStart (p.vcEnd + 1 - p.vcStart)).map (Prod.mk p.port)).Nodup

/-- The routers with dimension-order routing instead. -/
def asDim (m : Shape) (rng : Nat → Nat × Nat) (x : Env (Msg δ) ρ ρ') : Env (Msg δ) ρ ρ' :=
  { x with rf := fun r i f => hop (dimOrderMesh m rng r (pkt f) i false) }

theorem asDim_uses (x : Env (Msg δ) ρ ρ') : Uses (dimOrderMesh m rng) (asDim m rng x) := fun _ _ _ => ⟨false, rfl⟩

theorem asDim_injected (l k : Nat) : injected (fun n => asDim m rng (e n)) l k = injected e l k := by
  unfold injected upto
  rw [List.filterMap_map, List.filterMap_map]
  rfl

theorem asDim_sends (h : Sends m rng N e) : Sends m rng N fun n => asDim m rng (e n) where
  heads := fun u hu f hf => h.heads u hu f (by rwa [asDim_injected] at hf)
  same := fun u hu v => by rw [asDim_injected]; exact h.same u hu v

theorem asDim_rf {x : Env (Msg δ) ρ ρ'} {r i : Nat} {f : Flit (Msg δ)} (hv : vcOk rng (pkt f)) :
    (asDim m rng x).rf r i f = [⟨dorNextMesh m r f.data.dest false, (rng f.data.cls).1, (rng f.data.cls).2, 0⟩] := by
  simp only [asDim, dimOrderMesh, if_pos hv, hop]
  rfl

/-- Where a head may be. -/
def mayGood (m : Shape) (rng : Nat → Nat × Nat) (good : Pkt → Prop) (l : Nat) (f : Flit (Msg δ)) : Prop :=
  mayOrd m rng (fun _ _ => false) l f ∧ (l < 2 * m.n * m.nodes → good (pkt f))

theorem good_in (hk : 0 < m.k) {r i : Nat} (hr : r < m.nodes) {f : Flit (Msg δ)}
    (hm : mayGood m rng good ((mesh m).inLink r i) f) (hi : i < 2 * m.n) : good (pkt f) := by
  refine hm.2 ?_
  rw [mesh_in hi]
  exact enc_lt (Routing.nbr_lt hk hi hr) (Routing.opp_lt hi)

theorem follows_guided (hk : 0 < m.k) (hn : 0 < m.n) (hf : Follows m rng rs good) (hs : Sends m rng N e)
    (hu : ∀ n < N, UsesSet rs (e n)) : Guided (mesh m) N e (mayGood m rng good) where
  enter := by
    intro l hl f hf' hh
    refine ⟨(ord_guided hk (steps_dim hn rng) (orders_dim m rng) (asDim_sends hs)
      fun n _ => asDim_uses (e n)).enter l hl f (by rwa [asDim_injected]) hh, fun h => ?_⟩
    obtain ⟨w, hw, rfl⟩ := mesh_source.1 hl
    unfold injLink at h; omega
  hop := by
    intro n hn' r hr i hi f hh hm p hp u h1 h2
    rw [hu n hn' r i f] at hp
    have m3 := hm.1.1.2.2.1
    obtain ⟨l, e1, -, e2⟩ := hf.offers (r := r) (f := pkt f) (i := i) hr hm.1.1.1 m3 (good_in hk hr hm)
    rw [e1] at hp
    obtain ⟨p1, p2, p3, p4⟩ := e2 p hp
    have := (ord_guided hk (steps_dim hn rng) (orders_dim m rng) (asDim_sends hs)
      fun n _ => asDim_uses (e n)).hop n hn' r hr i hi f hh hm.1 _ (by
        rw [asDim_rf m3]; exact List.mem_singleton.2 rfl) u (Nat.le_trans p2 h1) (Nat.le_trans h2 p3)
    refine ⟨by rw [p1]; exact this, fun h => ?_⟩
    refine p4 (fun e => ?_) u h1 h2
    rw [p1, e] at h
    rw [show dorNextMesh m (pkt f).dest (pkt f).dest false = 2 * m.n by unfold dorNextMesh; rw [if_pos rfl],
      mesh_ej (Nat.lt_irrefl _)] at h
    unfold ejLink at h; omega

theorem follows_ranked (hk : 0 < m.k) (hn : 0 < m.n) (hf : Follows m rng rs good) (hu : ∀ n < N, UsesSet rs (e n)) :
    Ranked (mesh m) b N e (mayGood m rng good) (meshRank m rng fun _ _ => false) (m.n * m.k + 1) where
  le := (mesh_ranked (b := b) (N := N) hk (steps_dim hn rng) (orders_dim m rng) fun n _ => asDim_uses (e n)).le
  down := by
    intro n hn' r hr i hi f hh hm hv
    rw [hu n hn' r i f]
    have m3 := hm.1.1.2.2.1
    obtain ⟨l, e1, e0, e2⟩ := hf.offers (r := r) (f := pkt f) (i := i) hr hm.1.1.1 m3 (good_in hk hr hm)
    rw [e1]
    refine ⟨e0, fun p hp u h1 h2 => ?_⟩
    obtain ⟨p1, p2, p3, -⟩ := e2 p hp
    have := ((mesh_ranked (b := b) (N := N) hk (steps_dim hn rng) (orders_dim m rng)
      fun n _ => asDim_uses (e n)).down n hn' r hr i hi f hh hm.1 hv).2 _ (by
        rw [asDim_rf m3]; exact List.mem_singleton.2 rfl) u (Nat.le_trans p2 h1) (Nat.le_trans h2 p3)
    rw [p1]
    exact this

theorem follows_legal (hf : Follows m rng rs good) (hv : ∀ c, (rng c).2 < b.vcs) {x : Env (Msg δ) ρ ρ'} (hu : UsesSet rs x)
    (ht : 0 ≤ x.now) (hm : x.now + 1 ≤ Channel.intMax) : Legal (mesh m) b x where
  time := ht
  fits := fun _ _ => ⟨hm, hm⟩
  offers := by
    intro r _ i f p hp
    rw [hu r i f] at hp
    cases e : rs r (pkt f) i with
    | none => rw [e] at hp; cases hp
    | some l =>
      rw [e] at hp
      have := (hf.legal e).1 p hp
      exact ⟨this.1, this.2.1, Nat.lt_of_le_of_lt this.2.2 (hv _)⟩
  once := by
    intro r _ i f
    rw [hu r i f]
    cases e : rs r (pkt f) i with
    | none => exact List.nodup_nil
    | some l => exact (hf.legal e).2

theorem follows_right (hk : 0 < m.k) (hn : 0 < m.n) (hf : Follows m rng rs good) (hb : b.Ok)
    (ha : Allocs VA SA (mesh m) b va sa) (h : Ticks VA SA (mesh m) b va sa N e s) (hs : Sends m rng N e)
    (hu : ∀ n < N, UsesSet rs (e n)) {u : Nat} (hu' : u < m.nodes) {f : Flit (Msg δ)}
    (hm : f ∈ flitsAt s (ejLink m u) (N + 1)) :
    f.data.dest = u ∧ (f.head = true → f.hops = manhattan m.k m.n f.data.src u + 1) := by
  have hmay : ∀ u, ∀ g : Flit (Msg δ), mayGood m rng good (ejLink m u) g →
      g.data.dest = u ∧ g.hops = manhattan m.k m.n g.data.src u + 1 := by
    rintro u g ⟨⟨⟨h1, h2, -, ⟨e, -⟩ | ⟨w, p, hw, e, ⟨_, _, hd⟩, -⟩ | ⟨e, hh⟩⟩, -⟩, -⟩
    · unfold injLink ejLink at e; omega
    · have := enc_lt hw (Routing.dor_step hk hd).1
      unfold ejLink at e; omega
    · have : g.data.dest = u := by unfold ejLink at e; omega
      rw [this] at hh
      exact ⟨this, hh⟩
  have := right_of (fd := fun _ => 1) (cd := fun _ => 1) hk hb ha h hs (follows_guided hk hn hf hs hu)
    (fun u _ g hg => (hmay u g hg).1) hu' hm
  exact ⟨this.1, fun hh => (hmay u f (this.2 hh)).2⟩

theorem follows_never_fails (hk : 0 < m.k) (hn : 0 < m.n) (hf : Follows m rng rs good) (hb : b.Ok)
    (ha : Allocs VA SA (mesh m) b va sa) (h : Ticks VA SA (mesh m) b va sa N e s) (hs : Sends m rng N e)
    (hu : ∀ n < N, UsesSet rs (e n)) {r i : Nat} (hr : r < m.nodes) (hi : i < 2 * m.n + 1) {f : Flit (Msg δ)}
    (hm : f ∈ flitsAt s ((mesh m).inLink r i) (N + 1)) (hh : f.head = true) : rs r (pkt f) i ≠ none := by
  have hl := (mesh_wired hk).inLt r hr i hi
  have hm := heads_guided (mesh_wired hk) hb ha h (follows_guided hk hn hf hs hu) N (Nat.le_refl _) _ hl f
    ((flitsAt_prefix h (Nat.le_refl _) hl).subset hm) hh
  obtain ⟨l, e1, -⟩ := hf.offers (r := r) (f := pkt f) (i := i) hr hm.1.1.1 hm.1.1.2.2.1 (good_in hk hr hm)
  rw [e1]
  simp

theorem once_one (h : Hop) :
    ([h].flatMap fun p => (List.range' p.vcStart (p.vcEnd + 1 - p.vcStart)).map (Prod.mk p.port)).Nodup := by
  simp only [List.flatMap_cons, List.flatMap_nil, List.append_nil]
  exact (List.nodup_range' ..).map fun a b h => (Prod.ext_iff.1 h).2

/-- Sets of elements with disjoint ranges, higher ones first. -/
theorem once_two {l : List Hop} (h : l.Pairwise fun a b => b.vcEnd < a.vcStart) :
    (l.flatMap fun p => (List.range' p.vcStart (p.vcEnd + 1 - p.vcStart)).map (Prod.mk p.port)).Nodup := by
  induction l with
  | nil => exact List.nodup_nil
  | cons x l ih =>
    rw [List.pairwise_cons] at h
    rw [List.flatMap_cons, List.nodup_append]
    refine ⟨(List.nodup_range' ..).map fun a b h => (Prod.ext_iff.1 h).2, ih h.2, ?_⟩
    rintro a ha c hc rfl
    obtain ⟨y, hy, rfl⟩ := List.mem_map.1 ha
    obtain ⟨z, hz, hc⟩ := List.mem_flatMap.1 hc
    obtain ⟨w, hw, e⟩ := List.mem_map.1 hc
    have := h.1 z hz
    have e2 : w = y := (Prod.ext_iff.1 e).2
    rw [List.mem_range'_1] at hy hw
    omega

theorem follows_minAdapt (hk : 0 < m.k) (hn : 0 < m.n) (h0 : ∀ c, (rng c).1 = 0) :
    Follows m rng (minAdaptMesh m rng) fun _ => True where
  offers := by
    intro r f i hr hd hv _
    by_cases hne : r = f.dest
    · refine ⟨_, by unfold minAdaptMesh; rw [if_pos hv]; dsimp only; rw [if_pos hne], by simp [addRange], fun p hp => ?_⟩
      rw [List.mem_singleton.1 hp]
      refine ⟨?_, Nat.le_refl _, Nat.le_refl _, fun h => absurd hne h⟩
      unfold dorNextMesh; rw [if_pos hne]
    · rw [Routing.minAdapt_eq hk hr hd hv hne]
      generalize (if i = 2 * m.n then (rng f.cls).2 else f.vc) = z
      refine ⟨_, rfl, ?_, fun p hp => ?_⟩
      · split
        · unfold addRange
          repeat' split
          all_goals simp
        · simp
      · have : p = ⟨dorNextMesh m r f.dest false, 0, (rng f.cls).1, (rng f.cls).1⟩ ∨
            p = ⟨dorNextMesh m r f.dest false, (rng f.cls).1 + 1, (rng f.cls).2, 1⟩ := by
          split at hp
          · rcases Routing.addRange_mem hp with h | h
            · exact .inl (List.mem_singleton.1 h)
            · exact .inr h
          · exact .inl (List.mem_singleton.1 hp)
        have hb := h0 f.cls
        rcases this with rfl | rfl
        · exact ⟨rfl, by dsimp only; omega, by dsimp only; omega, fun _ _ _ _ => trivial⟩
        · exact ⟨rfl, by dsimp only; omega, by dsimp only; omega, fun _ _ _ _ => trivial⟩
  legal := by
    intro r f i l h
    unfold minAdaptMesh at h
    by_cases hv : vcOk rng f
    · rw [if_pos hv] at h
      dsimp only at h
      have hle := Nat.le_trans hv.1 hv.2
      have hb := h0 f.cls
      split at h
      · cases h
        refine ⟨fun p hp => ?_, once_one _⟩
        rw [List.mem_singleton.1 hp]
        exact ⟨Nat.lt_succ_self _, hle, Nat.le_refl _⟩
      · have hz : (if i = 2 * m.n then (rng f.cls).2 else f.vc) ≤ (rng f.cls).2 := by
          split
          · exact Nat.le_refl _
          · exact hv.2
        revert h hz
        generalize (if i = 2 * m.n then (rng f.cls).2 else f.vc) = z
        intro h hz
        have hesc : ∀ p ∈ addRange [] ⟨dorNextMesh m r f.dest false, 0, (rng f.cls).1, ((rng f.cls).1 : Int)⟩,
            p = ⟨dorNextMesh m r f.dest false, 0, (rng f.cls).1, ((rng f.cls).1 : Int)⟩ :=
          fun p hp => List.mem_singleton.1 hp
        have hlt := dorNextMesh_lt hn r f.dest false
        split at h
        · rename_i hzb
          cases h
          have hall : ∀ p ∈ Routing.minDirs m.k (rng f.cls).1 (rng f.cls).2 m.n 0 r f.dest
              (addRange [] ⟨dorNextMesh m r f.dest false, 0, (rng f.cls).1, ((rng f.cls).1 : Int)⟩),
              p.port < 2 * m.n + 1 ∧ ((p.vcStart = 0 ∧ p.vcEnd = 0 ∧ p.pri = 0) ∨
                (p.vcStart = 1 ∧ p.vcEnd = (rng f.cls).2 ∧ p.pri = 1)) := by
            intro p hp
            rcases Routing.minDirs_mem _ _ _ _ hp with h | ⟨h1, h2, h3, h4⟩
            · rw [hesc p h]
              exact ⟨hlt, .inl ⟨rfl, hb, by dsimp only; omega⟩⟩
            · exact ⟨by omega, .inr ⟨by omega, h3, h4⟩⟩
          refine ⟨fun p hp => ?_, once_two ?_⟩
          · obtain ⟨h1, ⟨h2, h3, -⟩ | ⟨h2, h3, -⟩⟩ := hall p hp
            · exact ⟨h1, by omega, by omega⟩
            · exact ⟨h1, by omega, by omega⟩
          · refine (Routing.minDirs_sorted m.n 0 r f.dest (List.pairwise_singleton _ _)).imp_of_mem ?_
            intro a c ha hc hlt
            obtain ⟨-, ⟨h2, h3, h4⟩ | ⟨h2, h3, h4⟩⟩ := hall a ha <;> obtain ⟨-, ⟨g2, g3, g4⟩ | ⟨g2, g3, g4⟩⟩ := hall c hc <;>
              omega
        · cases h
          refine ⟨fun p hp => ?_, once_one _⟩
          rw [hesc p hp]
          exact ⟨hlt, Nat.zero_le _, hle⟩
    · rw [if_neg hv] at h; cases h

theorem third_le {r : Nat × Nat} (h : r.1 ≤ r.2) : r.1 + 2 * third r ≤ r.2 := by
  unfold third; omega

theorem follows_planar (hk : 0 < m.k) (hn : 0 < m.n) :
    Follows m rng (planarAdaptMesh m rng) fun f => (rng f.cls).1 + 2 * third (rng f.cls) ≤ f.vc where
  offers := by
    intro r f i hr hd hv hg
    by_cases hne : r = f.dest
    · refine ⟨_, by unfold planarAdaptMesh; rw [if_pos hv]; dsimp only; rw [if_neg (fun h => h hne)], by simp [addRange],
        fun p hp => ?_⟩
      rw [List.mem_singleton.1 hp]
      refine ⟨?_, Nat.le_refl _, Nat.le_refl _, fun h => absurd hne h⟩
      unfold dorNextMesh; rw [if_pos hne]
    · rw [Routing.planar_eq hk hr hd hv (fun h => hg (by omega)) hne]
      refine ⟨_, rfl, by simp, fun p hp => ?_⟩
      rw [List.mem_singleton.1 hp]
      exact ⟨rfl, Nat.le_add_right _ _, Nat.le_refl _, fun _ u h1 _ => h1⟩
  legal := by
    intro r f i l h
    by_cases hv : vcOk rng f
    · have hle := Nat.le_trans hv.1 hv.2
      by_cases hne : r = f.dest
      · unfold planarAdaptMesh at h
        rw [if_pos hv] at h
        dsimp only at h
        rw [if_neg (fun h => h hne)] at h
        cases h
        refine ⟨fun p hp => ?_, once_one _⟩
        rw [List.mem_singleton.1 hp]
        exact ⟨Nat.lt_succ_self _, hle, Nat.le_refl _⟩
      · rw [Routing.planar_map hv hne] at h
        obtain ⟨x, hx, rfl⟩ := Option.map_eq_some_iff.1 h
        have := Routing.planarDim_lt _ _ _ _ hx
        refine ⟨fun p hp => ?_, once_one _⟩
        rw [List.mem_singleton.1 hp]
        refine ⟨?_, third_le hle, Nat.le_refl _⟩
        dsimp only
        split <;> omega
    · unfold planarAdaptMesh at h
      rw [if_neg hv] at h; cases h

end RadSim.Net
