import Verif.Lemmas.RouterTick

/-! # A router drains -/

namespace RadSim.Router

variable {δ σ τ ρ ρ' : Type}

theorem upto_succ {α : Type} (f : Nat → α) (n : Nat) : upto f (n + 1) = upto f n ++ [f n] := by
  simp [upto, List.range_succ]

theorem upto_mem {α : Type} {f : Nat → α} {n : Nat} {x : α} : x ∈ upto f n ↔ ∃ m < n, f m = x := by
  simp [upto]

theorem sent_snoc (outs : List (Out δ)) (x : Out δ) (o : Nat) : sent (outs ++ [x]) o = sent outs o ++ (x.flit o).toList := by
  simp only [sent, List.filterMap_append, List.filterMap_cons, List.filterMap_nil]
  cases x.flit o <;> rfl

/-- What is true before every tick of a run. -/
structure Live (VA : Alloc.Cls σ ρ) (SA : Alloc.Cls τ ρ') (c : Cfg) (ins : List (In δ ρ ρ')) (outs : List (Out δ))
    (s : R δ σ τ) (l : List (Pass δ)) : Prop where
  inv : TInv true VA SA c s (ghost ins outs l)
  cred : ∀ x ∈ s.credQ, ∃ e ∈ ins, x.time = e.now + c.creditDelay ∧ e.credit x.o = some x.vcs

/-- The work left, with the flits in the crossbar. -/
def load (c : Cfg) (s : R δ σ τ) : Int := work c s.vcs + s.xbQ.length

theorem load_nonneg (c : Cfg) (s : R δ σ τ) : 0 ≤ load c s := by
  have := work_nonneg c s.vcs
  unfold load
  omega

theorem suffix_mem {α : Type} {a b d : List α} (h : a = b ++ d) {x : α} (hx : x ∈ d) : x ∈ a := by
  rw [h]; simp [hx]

theorem mem_creditArrivals_time {c : Cfg} {e : In δ ρ ρ'} {x : Cred} (h : x ∈ creditArrivals c e) :
    x.time = e.now + c.creditDelay := by
  simp only [creditArrivals, List.mem_filterMap, List.mem_range, Option.map_eq_some_iff] at h
  obtain ⟨i, _, f, _, rfl⟩ := h
  rfl

/-- A run of ticks as a sequence of steps with the facts about each. -/
theorem live_run {VA : Alloc.Cls σ ρ} {SA : Alloc.Cls τ ρ'} {c : Cfg} (hc : c.Ok) {va : σ} {sa : τ}
    (hva : Serves true VA (c.inputs * c.vcs) (c.outputs * c.vcs) va) (hsa : Serves true SA c.inputs c.outputs sa)
    {N : Nat} {e : Nat → In δ ρ ρ'} {out : Nat → Out δ} {s : Nat → R δ σ τ} (h : Ticks VA SA c va sa N e out s) :
    ∀ n ≤ N, ∃ l, Live VA SA c (upto e n) (upto out n) (s n) l := by
  intro n
  induction n with
  | zero =>
    intro _
    refine ⟨[], ?_, ?_⟩
    · rw [h.start]; exact init_inv hc hva hsa
    · rw [h.start]; intro x hx; cases hx
  | succ n ih =>
    intro hn
    obtain ⟨l, hl⟩ := ih (by omega)
    obtain ⟨s', o', L, e1, t, m1, m2, ⟨A, hA⟩, q2, q3, _⟩ := tick_ok hc hl.inv (h.admits n (by omega))
    rw [h.step n (by omega)] at e1
    cases e1
    refine ⟨l ++ L, ?_, ?_⟩
    · rw [upto_succ, upto_succ]; exact t
    · intro x hx
      have := suffix_mem hA hx
      rcases List.mem_append.1 this with hx | hx
      · obtain ⟨y, hy, he⟩ := hl.cred x hx
        exact ⟨y, by rw [upto_succ]; simp [hy], he⟩
      · exact ⟨e n, by rw [upto_succ]; simp, mem_creditArrivals_time hx, mem_creditArrivals hx⟩

/-- The facts about one quiet tick. -/
theorem live_step {VA : Alloc.Cls σ ρ} {SA : Alloc.Cls τ ρ'} {c : Cfg} (hc : c.Ok) {va : σ} {sa : τ}
    (hva : Serves true VA (c.inputs * c.vcs) (c.outputs * c.vcs) va) (hsa : Serves true SA c.inputs c.outputs sa)
    {N : Nat} {e : Nat → In δ ρ ρ'} {out : Nat → Out δ} {s : Nat → R δ σ τ} (h : Ticks VA SA c va sa N e out s)
    {n : Nat} (hn : n < N) (hq : ∀ i, (e n).flit i = none) :
    load c (s (n + 1)) + (s n).xbQ.length ≤ load c (s n) ∧
    (Ready c (s n) → load c (s (n + 1)) < load c (s n)) ∧
    (∃ A, (s n).credQ ++ creditArrivals c (e n) = A ++ (s (n + 1)).credQ) ∧
    (∀ x ∈ (s (n + 1)).credQ.head?, (e n).now < x.time) ∧
    ((s n).xbQ = [] → ∀ o, (out n).flit o = none) := by
  obtain ⟨l, hl⟩ := live_run hc hva hsa h n (by omega)
  obtain ⟨s', o', L, e1, t, m1, m2, q1, q2, q3, _⟩ := tick_ok hc hl.inv (h.admits n hn)
  rw [h.step n hn] at e1
  cases e1
  have ha : arrivals c (e n) = [] := by
    simp only [arrivals, List.filterMap_eq_nil_iff]
    intro i _; rw [hq]; rfl
  have := m1 ha
  have h2 := m2 ha rfl
  unfold load
  refine ⟨by omega, fun hr => ?_, q1, q2, q3⟩
  have := h2 hr
  omega

/-- A router with work left, complete packets and free output buffers can make a step. -/
theorem ready_of_load {VA : Alloc.Cls σ ρ} {SA : Alloc.Cls τ ρ'} {c : Cfg} (hc : c.Ok) (ho : c.outSize ≠ 0)
    {ins : List (In δ ρ ρ')} {outs : List (Out δ)} {s : R δ σ τ} {l : List (Pass δ)}
    (h : TInv true VA SA c s (ghost ins outs l)) (hx : s.xbQ = []) (hw : 0 < load c s)
    (hcl : ∀ i v, Closed Flit.tail (received ins i v)) (hrt : ∀ e ∈ ins, ∀ i f, e.rf i f ≠ [])
    (hfree : ∀ o u, o < c.outputs → u < c.vcs → (s.next o).vcOcc u = 0) : Ready c s := by
  have hact : ∀ i v, (s.vcs i v).st = .active → Ready c s := by
    intro i v hst
    obtain ⟨o, u, e1, hown⟩ := (h.inv.vc i v).act hst
    have hne : (s.vcs i v).q ≠ [] := by
      rcases hown.link with ⟨_, _, f, hf, _⟩ | ⟨a, ha, _, ht⟩
      · intro h0; rw [h0] at hf; cases hf
      · intro h0
        have hr := (h.inv.vc i v).recv
        rw [h0, List.append_nil] at hr
        have h1 := hcl i v a.f
        change (passedFrom l i v).map Pass.f = received ins i v at hr
        rw [← hr, List.getLast?_map] at h1
        change (passedFrom l i v).getLast? = some a at ha
        rw [ha] at h1
        have := h1 rfl
        rw [ht] at this
        cases this
    have hm := (h.inv.q.saM i v).2 ⟨hst, hne⟩
    obtain ⟨w, hw, hk⟩ := List.mem_map.1 hm
    simp only [Wait.key, Prod.mk.injEq] at hk
    obtain ⟨rfl, rfl⟩ := hk
    refine .inr (.inr ⟨w, hw, o, u, e1, ?_⟩)
    have hp := hc.buf.perVc_pos
    have h0 := hfree o u hown.o_lt hown.u_lt
    have := hc.outSize
    simp only [blocked, BufState.isFullFor, Bool.or_eq_false_iff, decide_eq_false_iff_not, h0, h.ob, List.length_nil,
      Bool.and_eq_false_iff]
    refine ⟨by omega, ?_⟩
    rcases this with h1 | h1
    · left; omega
    · right; omega
  have hva : ∀ i v, (s.vcs i v).st = .vcAlloc → Ready c s := by
    intro i v hst
    have hro := (h.inv.vc i v).hops hst
    have hm := (h.inv.q.vaM i v).2 hst
    obtain ⟨w, hw, hk⟩ := List.mem_map.1 hm
    simp only [Wait.key, Prod.mk.injEq] at hk
    obtain ⟨rfl, rfl⟩ := hk
    have hne : (s.vcs w.i w.v).route ≠ [] := by
      obtain ⟨f, q, hq⟩ := List.exists_cons_of_ne_nil ((h.inv.vc w.i w.v).pre (.inr hst)).1
      obtain ⟨e, he, hf⟩ := hro.src f (by rw [hq]; rfl)
      rw [hf]; exact hrt e he w.i f
    obtain ⟨p, t, hpt⟩ := List.exists_cons_of_ne_nil hne
    have hp := hro.hop p (by rw [hpt]; simp)
    by_cases hu : (s.next p.port).inUse p.vcStart < 0
    · refine .inr (.inl ⟨w, hw, ?_⟩)
      have : (⟨w.i * c.vcs + w.v, p.port * c.vcs + p.vcStart, ⟨0, p.pri, 0⟩⟩ : Alloc.Ask) ∈ vaAsks c s w.i w.v := by
        simp only [vaAsks, List.mem_flatMap, List.mem_map, List.mem_filter]
        exact ⟨p, by rw [hpt]; simp, p.vcStart, ⟨(mem_outVcs hp.2.1).2 ⟨Nat.le_refl _, hp.2.1⟩,
          by simpa [BufState.isAvailableFor] using hu⟩, rfl⟩
      intro h0; rw [h0] at this; cases this
    · obtain ⟨i', v', _, _, _, hst', _⟩ := (h.inv.out p.port p.vcStart).own (by omega)
      exact hact i' v' hst'
  have hrq : ∀ i v, (s.vcs i v).st = .routing → Ready c s := by
    intro i v hst
    have hm := (h.inv.q.rqM i v).2 hst
    exact .inl fun h0 => by rw [h0] at hm; cases hm
  by_contra hn
  have hz : ∀ i v, weight (s.vcs i v) = 0 := by
    intro i v
    have hst : (s.vcs i v).st = .idle := by
      cases hst : (s.vcs i v).st with
      | idle => rfl
      | routing => exact absurd (hrq i v hst) hn
      | vcAlloc => exact absurd (hva i v hst) hn
      | active => exact absurd (hact i v hst) hn
    have := ((h.inv.vc i v).idle hst).1
    simp [weight, this, hst, stage]
  have : work c s.vcs = 0 := by
    unfold work
    have hsum : ∀ n, sumTo n (fun _ => 0) = 0 := by
      intro n; induction n with
      | zero => rfl
      | succ n ih => simp [sumTo, ih]
    simp [hz, hsum]
  unfold load at hw
  rw [this, hx] at hw
  simp at hw

/-- Within `D + K + 1` quiet ticks the work becomes less. -/
theorem load_window {VA : Alloc.Cls σ ρ} {SA : Alloc.Cls τ ρ'} {c : Cfg} (hc : c.Ok) (ho : c.outSize ≠ 0) {va : σ} {sa : τ}
    (hva : Serves true VA (c.inputs * c.vcs) (c.outputs * c.vcs) va) (hsa : Serves true SA c.inputs c.outputs sa)
    {N n₀ D K : Nat} {e : Nat → In δ ρ ρ'} {out : Nat → Out δ} {s : Nat → R δ σ τ} (h : Ticks VA SA c va sa N e out s)
    (hd : Drains c N n₀ D K e out) {n : Nat} (hn0 : n₀ ≤ n) (hn : n + (D + K + 1) ≤ N) (hw : 0 < load c (s n)) :
    load c (s (n + (D + K + 1))) < load c (s n) := by
  have hstep := fun m (h1 : n₀ ≤ m) (h2 : m < N) => live_step hc hva hsa h h2 (hd.quiet m h1 h2)
  have hmono : ∀ d, n + d ≤ N → load c (s (n + d)) ≤ load c (s n) := by
    intro d
    induction d with
    | zero => intro _; exact Int.le_refl _
    | succ d ih =>
      intro hd'
      have h1 := ih (by omega)
      have h2 := (hstep (n + d) (by omega) (by omega)).1
      have : n + (d + 1) = n + d + 1 := by omega
      rw [this]
      omega
  by_contra hcon
  have hW : load c (s (n + (D + K + 1))) = load c (s n) := by
    have := hmono _ hn
    omega
  have hback : ∀ d d', d ≤ d' → n + d' ≤ N → load c (s (n + d')) ≤ load c (s (n + d)) := by
    intro d d' hdd
    obtain ⟨j, rfl⟩ := Nat.exists_eq_add_of_le hdd
    induction j with
    | zero => intro _; exact Int.le_refl _
    | succ j ih =>
      intro hd'
      have h1 := ih (by omega) (by omega)
      have h2 := (hstep (n + (d + j)) (by omega) (by omega)).1
      have : n + (d + (j + 1)) = n + (d + j) + 1 := by omega
      rw [this]
      omega
  have hconst : ∀ d ≤ D + K + 1, load c (s (n + d)) = load c (s n) := by
    intro d hd'
    have h1 := hmono d (by omega)
    have h2 := hback d (D + K + 1) hd' hn
    omega
  have hxb : ∀ d ≤ D + K, (s (n + d)).xbQ = [] := by
    intro d hd'
    have h1 := (hstep (n + d) (by omega) (by omega)).1
    have h2 := hconst d (by omega)
    have h3 := hconst (d + 1) (by omega)
    have : n + (d + 1) = n + d + 1 := by omega
    rw [this] at h3
    exact List.length_eq_zero_iff.1 (by omega)
  have hsent : ∀ d ≤ D + K + 1, ∀ o, sent (upto out (n + d)) o = sent (upto out n) o := by
    intro d
    induction d with
    | zero => intro _ _; rfl
    | succ d ih =>
      intro hd' o
      have h1 := (hstep (n + d) (by omega) (by omega)).2.2.2.2 (hxb d (by omega)) o
      have : n + (d + 1) = n + d + 1 := by omega
      rw [this, upto_succ, sent_snoc, ih (by omega), h1]
      simp
  have hgr : ∀ d, D ≤ d → d ≤ D + K + 1 → ∀ o u, granted (upto e (n + d)) o u = sentOn (upto out n) o u := by
    intro d h1 h2 o u
    have hge : sentOn (upto out n) o u ≤ granted (upto e (n + d)) o u := by
      refine Nat.le_trans (hd.prompt n hn0 (by omega) o u) ?_
      obtain ⟨j, rfl⟩ := Nat.exists_eq_add_of_le h1
      clear h1 h2
      induction j with
      | zero => exact Nat.le_refl _
      | succ j ih =>
        have : n + (D + (j + 1)) = n + (D + j) + 1 := by omega
        rw [this, upto_succ, granted_snoc]
        omega
    obtain ⟨l, hl⟩ := live_run hc hva hsa h (n + d) (by omega)
    have := (hl.inv.inv.out o u).le
    change granted (upto e (n + d)) o u ≤ ((sent (upto out (n + d)) o).filter fun f => f.vc = u).length at this
    rw [hsent d h2] at this
    exact Nat.le_antisymm this hge
  have hnc : ∀ d, D ≤ d → d ≤ D + K → creditArrivals c (e (n + d)) = [] := by
    intro d h1 h2
    by_contra hne
    obtain ⟨x, t, hx⟩ := List.exists_cons_of_ne_nil hne
    have hm := mem_creditArrivals (x := x) (by rw [hx]; simp)
    have hnil : x.vcs ≠ [] := fun h0 => by rw [h0] at hm; exact hd.credit (n + d) (by omega) _ hm
    obtain ⟨u, us, hu⟩ := List.exists_cons_of_ne_nil hnil
    have a1 := hgr d h1 (by omega) x.o u
    have a2 := hgr (d + 1) (by omega) (by omega) x.o u
    have : n + (d + 1) = n + d + 1 := by omega
    rw [this, upto_succ, granted_snoc, hm, hu, a1] at a2
    simp at a2
  have hcq : ∀ j ≤ K, ∀ x ∈ (s (n + (D + j))).credQ, ∃ m < n + D, x.time = (e m).now + c.creditDelay := by
    intro j
    induction j with
    | zero =>
      intro _ x hx
      obtain ⟨l, hl⟩ := live_run hc hva hsa h (n + D) (by omega)
      obtain ⟨y, hy, ht, _⟩ := hl.cred x hx
      obtain ⟨m, hm, rfl⟩ := upto_mem.1 hy
      exact ⟨m, hm, ht⟩
    | succ j ih =>
      intro hj x hx
      obtain ⟨A, hA⟩ := (hstep (n + (D + j)) (by omega) (by omega)).2.2.1
      rw [hnc (D + j) (by omega) (by omega), List.append_nil] at hA
      exact ih (by omega) x (suffix_mem hA hx)
  have hempty : (s (n + (D + K))).credQ = [] := by
    by_contra hne
    obtain ⟨x, t, hx⟩ := List.exists_cons_of_ne_nil hne
    obtain ⟨m, hm, ht⟩ := hcq K (Nat.le_refl _) x (by rw [hx]; simp)
    cases hDK : D + K with
    | zero =>
      -- then the delay is not positive, and the credit would have been processed before
      have hn1 : 0 < n := by omega
      obtain ⟨n', rfl⟩ : ∃ n', n = n' + 1 := ⟨n - 1, by omega⟩
      obtain ⟨l, hl⟩ := live_run hc hva hsa h n' (by omega)
      obtain ⟨s', o', L, e1, t', m1, m2, q1, q2, q3, _⟩ := tick_ok hc hl.inv (h.admits n' (by omega))
      rw [h.step n' (by omega)] at e1
      cases e1
      rw [hDK] at hx
      have := q2 x (by simp only [Nat.add_zero] at hx; rw [hx]; rfl)
      have := hd.time m n' (by omega) (by omega)
      omega
    | succ d =>
      have hlt : n + d < N := by omega
      obtain ⟨l, hl⟩ := live_run hc hva hsa h (n + d) (by omega)
      obtain ⟨s', o', L, e1, t', m1, m2, q1, q2, q3, _⟩ := tick_ok hc hl.inv (h.admits (n + d) hlt)
      rw [h.step (n + d) hlt] at e1
      cases e1
      rw [hDK] at hx
      have h1 := q2 x (by rw [show n + d + 1 = n + (d + 1) by omega, hx]; rfl)
      have := hd.time m (n + d) (by omega) hlt
      omega
  obtain ⟨l, hl⟩ := live_run hc hva hsa h (n + (D + K)) (by omega)
  have hrec : ∀ d, n₀ + d ≤ N → ∀ i v, received (upto e (n₀ + d)) i v = received (upto e n₀) i v := by
    intro d
    induction d with
    | zero => intro _ _ _; rfl
    | succ d ih =>
      intro hd' i v
      have : n₀ + (d + 1) = n₀ + d + 1 := by omega
      rw [this, upto_succ, received_snoc, hd.quiet (n₀ + d) (by omega) (by omega), ih (by omega)]
      simp
  have hready := ready_of_load hc ho hl.inv (hxb (D + K) (Nat.le_refl _)) (by rw [hconst _ (by omega)]; exact hw)
    (by
      intro i v f hf
      obtain ⟨d, hd'⟩ := Nat.exists_eq_add_of_le (show n₀ ≤ n + (D + K) by omega)
      rw [hd', hrec d (by omega)] at hf
      exact hd.whole i v f hf)
    (by
      intro x hx
      obtain ⟨m, hm, rfl⟩ := upto_mem.1 hx
      exact hd.routes m (by omega))
    (by
      intro o u _ _
      have h1 := (hl.inv.inv.out o u).occ
      have h2 := (hl.inv.inv.port).stream o
      simp only [hl.inv.ob, hxb (D + K) (Nat.le_refl _), List.filter_nil, List.map_nil, List.append_nil] at h2
      simp only [hempty, pend, List.filter_nil, List.flatMap_nil, List.count_nil] at h1
      change (l.filter fun e => e.o = o).map Pass.flit = sent (upto out (n + (D + K))) o at h2
      change _ + ((granted (upto e (n + (D + K))) o u : Nat) : Int) = ((passedTo l o u).length : Int) + _ at h1
      rw [hgr (D + K) (by omega) (by omega)] at h1
      rw [hsent (D + K) (by omega)] at h2
      have h3 : (passedTo l o u).length = sentOn (upto out n) o u := by
        unfold sentOn passedTo
        rw [← h2, List.filter_map, List.length_map, List.filter_filter]
        congr 2
        funext e
        simp only [Function.comp, Pass.flit]
        by_cases h4 : e.o = o <;> by_cases h5 : e.u = u <;> simp [h4, h5]
      rw [h3] at h1
      omega)
  have h1 := (hstep (n + (D + K)) (by omega) (by omega)).2.1 hready
  have h2 := hconst (D + K) (by omega)
  have h3 := hconst (D + K + 1) (by omega)
  have : n + (D + K + 1) = n + (D + K) + 1 := by omega
  rw [this] at h3
  omega

theorem sumTo_add (n : Nat) (f g : Nat → Int) : sumTo n (fun i => f i + g i) = sumTo n f + sumTo n g := by
  induction n with
  | zero => rfl
  | succ n ih => simp only [sumTo, ih]; omega

theorem sumTo_zero (n : Nat) : sumTo n (fun _ => 0) = 0 := by
  induction n with
  | zero => rfl
  | succ n ih => simp [sumTo, ih]

/-- A single one. -/
theorem sumTo_one (n : Nat) (k : Nat) (h : k < n) : sumTo n (fun i => if k = i then 1 else 0) = 1 := by
  have h1 := sumTo_upd (n := n) (fun _ => 0) k 1 h
  rw [sumTo_zero] at h1
  have : (fun i => if k = i then (1 : Int) else 0) = upd (fun _ => 0) k 1 := by
    funext i
    rw [upd_apply]
    by_cases h2 : i = k
    · simp [h2]
    · simp [h2, Ne.symm h2]
  rw [this, h1]
  omega

/-- The elements of a list counted by a key. -/
theorem sumTo_filter {α : Type} (n : Nat) (key : α → Nat) (l : List α) (h : ∀ x ∈ l, key x < n) :
    sumTo n (fun i => ((l.filter fun x => key x = i).length : Int)) = l.length := by
  induction l with
  | nil => simpa using sumTo_zero n
  | cons x l ih =>
    have h1 := ih fun y hy => h y (by simp [hy])
    have h2 := sumTo_one n (key x) (h x (by simp))
    have : (fun i => (((x :: l).filter fun x => key x = i).length : Int)) =
        fun i => ((l.filter fun x => key x = i).length : Int) + if key x = i then 1 else 0 := by
      funext i
      by_cases h3 : key x = i <;> simp [h3]
    rw [this, sumTo_add, h1, h2]
    simp

theorem length_filterMap_range {α : Type} (n : Nat) (f : Nat → Option α) :
    (((List.range n).filterMap f).length : Int) = sumTo n fun i => ((f i).toList.length : Int) := by
  induction n with
  | zero => rfl
  | succ n ih =>
    rw [List.range_succ, List.filterMap_append, List.length_append]
    simp only [sumTo]
    push_cast
    rw [ih]
    cases h : f n <;> simp [h]

theorem total_received {c : Cfg} (ins : List (In δ ρ ρ')) (h : ∀ e ∈ ins, ∀ i f, e.flit i = some f → i < c.inputs ∧ f.vc < c.vcs) :
    (sumTo c.inputs fun i => sumTo c.vcs fun v => ((received ins i v).length : Int)) =
      ((ins.map fun x => ((List.range c.inputs).filterMap x.flit).length).sum : Nat) := by
  induction ins using List.reverseRecOn with
  | nil => simp [received, sumTo_zero]
  | append_singleton ins e ih =>
    have h1 := ih fun x hx => h x (by simp [hx])
    simp only [received_snoc, List.length_append, List.map_append, List.sum_append]
    push_cast
    simp only [sumTo_add]
    rw [h1]
    simp only [List.map_cons, List.map_nil, List.sum_cons, List.sum_nil]
    rw [Nat.add_zero, length_filterMap_range]
    congr 1
    apply sumTo_congr
    intro i _
    cases hf : e.flit i with
    | none => simp [sumTo_zero]
    | some f =>
      have := sumTo_one c.vcs f.vc (h e (by simp) i f hf).2
      simp only [Option.filter, Option.toList_some, List.length_singleton]
      rw [show (fun v => (((if decide (f.vc = v) = true then some f else none : Option (Flit δ)).toList.length : Nat) : Int)) =
        fun v => if f.vc = v then 1 else 0 by funext v; by_cases h4 : f.vc = v <;> simp [h4]]
      simpa using this

theorem total_sent {c : Cfg} (outs : List (Out δ)) :
    (sumTo c.outputs fun o => ((sent outs o).length : Int)) =
      ((outs.map fun x => ((List.range c.outputs).filterMap x.flit).length).sum : Nat) := by
  induction outs using List.reverseRecOn with
  | nil => simp [sent, sumTo_zero]
  | append_singleton outs e ih =>
    simp only [sent_snoc, List.length_append, List.map_append, List.sum_append]
    push_cast
    simp only [sumTo_add]
    rw [ih]
    simp only [List.map_cons, List.map_nil, List.sum_cons, List.sum_nil]
    rw [Nat.add_zero, length_filterMap_range]

theorem sumTo_mono {n : Nat} {f g : Nat → Int} (h : ∀ i, i < n → f i ≤ g i) : sumTo n f ≤ sumTo n g := by
  induction n with
  | zero => exact Int.le_refl _
  | succ n ih =>
    have h1 := ih fun i hi => h i (by omega)
    have h2 := h n (by omega)
    simp only [sumTo]
    omega

theorem sumTo_mul (n : Nat) (k : Int) (f : Nat → Int) : sumTo n (fun i => k * f i) = k * sumTo n f := by
  induction n with
  | zero => simp [sumTo]
  | succ n ih => simp only [sumTo, ih, Int.mul_add]

/-- The work left is at most six steps for every flit inside. -/
theorem load_le {VA : Alloc.Cls σ ρ} {SA : Alloc.Cls τ ρ'} {k : Bool} {c : Cfg}
    {ins : List (In δ ρ ρ')} {outs : List (Out δ)} {s : R δ σ τ} {l : List (Pass δ)}
    (h : TInv k VA SA c s (ghost ins outs l)) (hp : ∀ e ∈ ins, ∀ i f, e.flit i = some f → i < c.inputs ∧ f.vc < c.vcs) :
    load c s ≤ 6 * inside c ins outs := by
  have h1 := total_received ins hp
  have h2 := total_sent (c := c) outs
  have hlog := h.inv.port.logOk
  have e1 : (sumTo c.inputs fun i => sumTo c.vcs fun v => ((passedFrom l i v).length : Int)) = l.length := by
    rw [← sumTo_filter c.inputs Pass.i l fun x hx => (hlog x hx).1.1]
    apply sumTo_congr
    intro i _
    rw [← sumTo_filter c.vcs Pass.v (l.filter fun x => x.i = i) fun x hx => (hlog x (List.mem_filter.1 hx).1).1.2]
    apply sumTo_congr
    intro v _
    simp only [passedFrom, List.filter_filter]
    congr 3
    funext e
    by_cases h4 : e.i = i <;> by_cases h5 : e.v = v <;> simp [h4, h5]
  have e2 : (sumTo c.inputs fun i => sumTo c.vcs fun v => ((received ins i v).length : Int)) =
      l.length + sumTo c.inputs fun i => sumTo c.vcs fun v => ((s.vcs i v).q.length : Int) := by
    rw [← e1, ← sumTo_add]
    apply sumTo_congr
    intro i _
    rw [← sumTo_add]
    apply sumTo_congr
    intro v _
    have := congrArg List.length (h.inv.vc i v).recv
    change _ = (received ins i v).length at this
    rw [← this]
    simp [ghost]
  have e3 : (l.length : Int) = (sumTo c.outputs fun o => ((sent outs o).length : Int)) + s.xbQ.length := by
    rw [← sumTo_filter c.outputs Pass.o l fun x hx => (hlog x hx).2.1,
      ← sumTo_filter c.outputs Cross.o s.xbQ fun x hx => (h.inv.port.xb x hx).2, ← sumTo_add]
    apply sumTo_congr
    intro o _
    have := congrArg List.length (h.inv.port.stream o)
    rw [h.ob] at this
    simp only [List.length_map, List.length_append, List.length_nil] at this
    change (l.filter fun e => e.o = o).length = (sent outs o).length + 0 + _ at this
    rw [this]
    push_cast
    omega
  have e4 : work c s.vcs ≤ 6 * sumTo c.inputs fun i => sumTo c.vcs fun v => ((s.vcs i v).q.length : Int) := by
    rw [← sumTo_mul]
    unfold work
    apply sumTo_mono
    intro i _
    rw [← sumTo_mul]
    apply sumTo_mono
    intro v _
    have hv := h.inv.vc i v
    unfold weight
    cases hst : (s.vcs i v).st with
    | idle => simp only [stage]; omega
    | active => simp only [stage]; omega
    | routing =>
      have := List.length_pos_iff.2 (hv.pre (.inl hst)).1
      simp only [stage]
      omega
    | vcAlloc =>
      have := List.length_pos_iff.2 (hv.pre (.inr hst)).1
      simp only [stage]
      omega
  rw [h1] at e2
  rw [h2] at e3
  unfold load inside
  omega

theorem explains_of {VA : Alloc.Cls σ ρ} {SA : Alloc.Cls τ ρ'} {k : Bool} {c : Cfg}
    {ins : List (In δ ρ ρ')} {outs : List (Out δ)} {s : R δ σ τ} {l : List (Pass δ)}
    (h : TInv k VA SA c s (ghost ins outs l)) : Explains ins outs l where
  from_input i v := ⟨_, (h.inv.vc i v).recv⟩
  to_output o := by
    have := h.inv.port.stream o
    rw [List.append_assoc] at this
    exact ⟨_, this.symm⟩
  routed := h.inv.port.routed
  together i v := (h.inv.vc i v).fromPk
  credited i v := by
    have := h.inv.port.cred i v
    rw [h.cb, h.oc] at this
    simpa [ghost] using this
  unmixed o u := by
    have := (h.inv.out o u).toPk
    refine ⟨this.1, this.2.imp ?_⟩
    intro a b hab
    exact ⟨hab.1, fun ht => (Prod.ext_iff.1 (hab.2 ht)).1⟩

/-- A router without work has passed on everything. -/
theorem delivered_of {VA : Alloc.Cls σ ρ} {SA : Alloc.Cls τ ρ'} {k : Bool} {c : Cfg}
    {ins : List (In δ ρ ρ')} {outs : List (Out δ)} {s : R δ σ τ} {l : List (Pass δ)}
    (h : TInv k VA SA c s (ghost ins outs l)) (hw : load c s ≤ 0) : Delivered ins outs l := by
  have h0 := work_nonneg c s.vcs
  unfold load at hw
  have hx : s.xbQ = [] := List.length_eq_zero_iff.1 (by omega)
  have hwz : work c s.vcs = 0 := by omega
  have hq : ∀ i v, (s.vcs i v).q = [] := by
    intro i v
    by_cases hst : (s.vcs i v).st = .idle
    · exact ((h.inv.vc i v).idle hst).1
    · obtain ⟨hi, hv⟩ := (h.inv.vc i v).range hst
      have hnn : ∀ i, 0 ≤ sumTo c.vcs fun v => weight (s.vcs i v) := fun i => sumTo_nonneg fun v _ => by
        unfold weight; omega
      have k1 := le_sumTo (fun i _ => hnn i) hi
      have k2 := le_sumTo (f := fun v => weight (s.vcs i v)) (fun v _ => by unfold weight; omega) hv
      unfold work at hwz
      simp only [weight] at k1 k2 hwz
      exact List.length_eq_zero_iff.1 (by omega)
  refine ⟨explains_of h, ?_, ?_⟩
  · intro i v
    have := (h.inv.vc i v).recv
    rw [hq, List.append_nil] at this
    exact this
  · intro o
    have := h.inv.port.stream o
    rw [hx, h.ob] at this
    simp only [List.filter_nil, List.map_nil, List.append_nil] at this
    exact this.symm

/-- The router drains. -/
theorem drain {VA : Alloc.Cls σ ρ} {SA : Alloc.Cls τ ρ'} {c : Cfg} (hc : c.Ok) (ho : c.outSize ≠ 0) {va : σ} {sa : τ}
    (hva : Serves true VA (c.inputs * c.vcs) (c.outputs * c.vcs) va) (hsa : Serves true SA c.inputs c.outputs sa)
    {N n₀ D K : Nat} {e : Nat → In δ ρ ρ'} {out : Nat → Out δ} {s : Nat → R δ σ τ} (h : Ticks VA SA c va sa N e out s)
    (hd : Drains c N n₀ D K e out) (hN : n₀ + 6 * inside c (upto e n₀) (upto out n₀) * (D + K + 1) ≤ N) :
    ∃ l, Delivered (upto e N) (upto out N) l := by
  have hn : n₀ ≤ N := Nat.le_trans (Nat.le_add_right _ _) hN
  obtain ⟨l, hl⟩ := live_run hc hva hsa h n₀ hn
  have hle := load_le hl.inv (by
    intro x hx
    obtain ⟨m, hm, rfl⟩ := upto_mem.1 hx
    exact (h.admits m (by omega)).port)
  have stays : ∀ p d, n₀ ≤ p → p + d ≤ N → load c (s p) ≤ 0 → load c (s (p + d)) ≤ 0 := by
    intro p d hp
    induction d with
    | zero => intro _ h0; exact h0
    | succ d ih =>
      intro hd' h0
      have h1 := ih (by omega) h0
      have h2 := (live_step hc hva hsa h (n := p + d) (by omega) (hd.quiet _ (by omega) (by omega))).1
      have : p + (d + 1) = p + d + 1 := by omega
      rw [this]
      omega
  have hdec : ∀ j, n₀ + j * (D + K + 1) ≤ N → load c (s (n₀ + j * (D + K + 1))) ≤ max 0 (load c (s n₀) - j) := by
    intro j
    induction j with
    | zero => intro _; simp only [Nat.zero_mul, Nat.add_zero]; omega
    | succ j ih =>
      intro hj
      have e1 : n₀ + (j + 1) * (D + K + 1) = n₀ + j * (D + K + 1) + (D + K + 1) := by rw [Nat.succ_mul]; omega
      rw [e1] at hj ⊢
      have h1 := ih (by omega)
      by_cases hw : 0 < load c (s (n₀ + j * (D + K + 1)))
      · have := load_window hc ho hva hsa h hd (Nat.le_add_right _ _) hj hw
        push_cast
        omega
      · have h2 := fun d hd' => stays (n₀ + j * (D + K + 1)) d (Nat.le_add_right _ _) hd' (by omega)
        have := h2 _ hj
        omega
  have h1 := hdec (6 * inside c (upto e n₀) (upto out n₀)) hN
  have h2 : load c (s (n₀ + 6 * inside c (upto e n₀) (upto out n₀) * (D + K + 1))) ≤ 0 := by
    push_cast at h1
    omega
  obtain ⟨d, hd'⟩ := Nat.exists_eq_add_of_le hN
  have h4 := stays _ d (Nat.le_add_right _ _) (by omega) h2
  rw [← hd'] at h4
  obtain ⟨l, hl⟩ := live_run hc hva hsa h N (Nat.le_refl _)
  exact ⟨l, delivered_of hl.inv h4⟩

end RadSim.Router
