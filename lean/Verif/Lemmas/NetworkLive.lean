import Verif.Lemmas.NetworkPackets
import Mathlib.Tactic.Ring
import Mathlib.Algebra.BigOperators.Ring.Finset
import Mathlib.Algebra.Order.BigOperators.Group.Finset

/-! # A network drains -/

namespace RadSim

namespace Router

variable {δ σ τ ρ ρ' : Type} {VA : Alloc.Cls σ ρ} {SA : Alloc.Cls τ ρ'} {c : Cfg}
  {ins : List (In δ ρ ρ')} {outs : List (Out δ)} {s : R δ σ τ} {l : List (Pass δ)}

/-- The elements of a list counted by a key. -/
theorem sum_filter {α : Type} (n : Nat) (key : α → Nat) (l : List α) (h : ∀ x ∈ l, key x < n) :
    ∑ i ∈ Finset.range n, (l.filter fun x => key x = i).length = l.length := by
  induction l with
  | nil => simp
  | cons x l ih =>
    have h1 := ih fun y hy => h y (by simp [hy])
    have : ∀ i, ((x :: l).filter fun x => key x = i).length =
        (l.filter fun x => key x = i).length + if key x = i then 1 else 0 := by
      intro i
      by_cases h3 : key x = i <;> simp [h3]
    simp only [this, Finset.sum_add_distrib, h1, Finset.sum_ite_eq, Finset.mem_range, h x (by simp), if_true,
      List.length_cons]

/-- A weighted sum over the elements of a list by their key. -/
theorem sum_filter_mul {α : Type} (n : Nat) (key : α → Nat) (w : Nat → Nat) (l : List α) (h : ∀ x ∈ l, key x < n) :
    ∑ i ∈ Finset.range n, w i * (l.filter fun x => key x = i).length = (l.map fun x => w (key x)).sum := by
  induction l with
  | nil => simp
  | cons x l ih =>
    have h1 := ih fun y hy => h y (by simp [hy])
    have : ∀ i, w i * ((x :: l).filter fun x => key x = i).length =
        w i * (l.filter fun x => key x = i).length + if key x = i then w i else 0 := by
      intro i
      by_cases h3 : key x = i <;> simp [h3, Nat.mul_add]
    simp only [this, Finset.sum_add_distrib, h1, Finset.sum_ite_eq, Finset.mem_range, h x (by simp), if_true,
      List.map_cons, List.sum_cons]
    omega

theorem sum_from (w : Nat → Nat → Nat) {I V : Nat} (h : ∀ e ∈ l, e.i < I ∧ e.v < V) :
    ∑ i ∈ Finset.range I, ∑ v ∈ Finset.range V, w i v * (passedFrom l i v).length = (l.map fun e => w e.i e.v).sum := by
  induction l with
  | nil => simp [passedFrom]
  | cons x l ih =>
    have h1 := ih fun y hy => h y (by simp [hy])
    have hx := h x (by simp)
    have : ∀ i v, w i v * (passedFrom (x :: l) i v).length =
        w i v * (passedFrom l i v).length + if x.i = i then (if x.v = v then w i v else 0) else 0 := by
      intro i v
      unfold passedFrom
      by_cases h3 : x.i = i <;> by_cases h4 : x.v = v <;> simp [h3, h4, Nat.mul_add]
    have h5 : ∀ i, ∑ v ∈ Finset.range V, (if x.i = i then (if x.v = v then w i v else 0) else 0) =
        if x.i = i then w i x.v else 0 := by
      intro i
      by_cases h3 : x.i = i <;> simp [h3, hx.2]
    simp only [this, Finset.sum_add_distrib, h1, h5, Finset.sum_ite_eq, Finset.mem_range, hx.1, if_true,
      List.map_cons, List.sum_cons]
    omega

theorem sum_to (w : Nat → Nat → Nat) {O V : Nat} (h : ∀ e ∈ l, e.o < O ∧ e.u < V) :
    ∑ o ∈ Finset.range O, ∑ u ∈ Finset.range V, w o u * (passedTo l o u).length = (l.map fun e => w e.o e.u).sum := by
  induction l with
  | nil => simp [passedTo]
  | cons x l ih =>
    have h1 := ih fun y hy => h y (by simp [hy])
    have hx := h x (by simp)
    have : ∀ o u, w o u * (passedTo (x :: l) o u).length =
        w o u * (passedTo l o u).length + if x.o = o then (if x.u = u then w o u else 0) else 0 := by
      intro i v
      unfold passedTo
      by_cases h3 : x.o = i <;> by_cases h4 : x.u = v <;> simp [h3, h4, Nat.mul_add]
    have h5 : ∀ i, ∑ v ∈ Finset.range V, (if x.o = i then (if x.u = v then w i v else 0) else 0) =
        if x.o = i then w i x.u else 0 := by
      intro i
      by_cases h3 : x.o = i <;> simp [h3, hx.2]
    simp only [this, Finset.sum_add_distrib, h1, h5, Finset.sum_ite_eq, Finset.mem_range, hx.1, if_true,
      List.map_cons, List.sum_cons]
    omega

/-- The credits returned are the flits sent and those in the crossbar. -/
theorem returned_total {k : Bool} (h : TInv k VA SA c s (ghost ins outs l)) :
    ∑ i ∈ Finset.range c.inputs, ∑ v ∈ Finset.range c.vcs, returned outs i v =
      (∑ o ∈ Finset.range c.outputs, (sent outs o).length) + s.xbQ.length := by
  have hlog := h.inv.port.logOk
  have h1 := sum_from (fun _ _ => 1) (fun e he => (hlog e he).1)
  have h2 : ∀ i v, returned outs i v = (passedFrom l i v).length := (explains_of h).credited
  simp only [h2]
  change ∑ i ∈ Finset.range c.inputs, ∑ v ∈ Finset.range c.vcs, (passedFrom l i v).length = _
  have h1' : ∑ i ∈ Finset.range c.inputs, ∑ v ∈ Finset.range c.vcs, (passedFrom l i v).length = l.length := by
    simpa [ghost, List.map_const'] using h1
  rw [h1', ← sum_filter c.outputs Pass.o l fun x hx => (hlog x hx).2.1,
    ← sum_filter c.outputs Cross.o s.xbQ fun x hx => (h.inv.port.xb x hx).2, ← Finset.sum_add_distrib]
  refine Finset.sum_congr rfl fun o _ => ?_
  have := congrArg List.length (h.inv.port.stream o)
  rw [h.ob] at this
  simpa [ghost] using this

/-- The measure of a router with the same numbers of flits in its buffers. -/
theorem work_close {vcs vcs' : Nat → Nat → Vc δ} (h : ∀ i v, (vcs i v).q.length = (vcs' i v).q.length) :
    work c vcs ≤ work c vcs' + 2 * (c.inputs * c.vcs : Nat) := by
  have hst : ∀ st, stage st ≤ 2 := fun st => by cases st <;> simp [stage]
  have h1 : ∀ n (f g : Nat → Int) (d : Int), (∀ i, i < n → f i ≤ g i + d) → sumTo n f ≤ sumTo n g + n * d := by
    intro n f g d hfg
    induction n with
    | zero => simp [sumTo]
    | succ n ih =>
      have a := ih fun i hi => hfg i (by omega)
      have b := hfg n (by omega)
      simp only [sumTo]
      push_cast
      rw [Int.add_mul]
      omega
  unfold work
  have := h1 c.inputs (fun i => sumTo c.vcs fun v => weight (vcs i v)) (fun i => sumTo c.vcs fun v => weight (vcs' i v))
    (c.vcs * 2) (fun i _ => h1 c.vcs _ _ 2 fun v _ => by
      have a := h i v
      have b := hst (vcs i v).st
      unfold weight
      omega)
  push_cast
  have e1 : (c.inputs : Int) * (c.vcs * 2) = 2 * (c.inputs * c.vcs) := by ring
  omega

/-- More about one tick. -/
theorem tick_facts (hc : c.Ok) {va : σ} {sa : τ}
    (hva : Serves true VA (c.inputs * c.vcs) (c.outputs * c.vcs) va) (hsa : Serves true SA c.inputs c.outputs sa)
    {N : Nat} {e : Nat → In δ ρ ρ'} {out : Nat → Out δ} {s : Nat → R δ σ τ} (h : Ticks VA SA c va sa N e out s)
    {n : Nat} (hn : n < N) :
    (∀ x ∈ (s n).xbQ, x.o < c.outputs ∧ (out n).flit x.o ≠ none) ∧ (∀ x ∈ (s (n + 1)).credQ.head?, (e n).now < x.time) ∧
      ∀ i r, (out n).credit i = some r → i < c.inputs ∧ r ≠ [] ∧ ∀ v ∈ r, v < c.vcs := by
  obtain ⟨l, hl⟩ := live_run hc hva hsa h n (by omega)
  obtain ⟨s', o', L, e1, t, _, _, _, q2, _, q4, q5⟩ := tick_ok hc hl.inv (h.admits n hn)
  rw [h.step n hn] at e1
  cases e1
  refine ⟨fun x hx => ⟨(hl.inv.inv.port.xb x hx).2, q4 x hx⟩, q2, fun i r hr => ?_⟩
  obtain ⟨a1, a2, _, a4⟩ := q5 i r hr
  exact ⟨a1, a2, a4⟩

theorem returned_snoc (outs : List (Out δ)) (x : Out δ) (i v : Nat) :
    returned (outs ++ [x]) i v = returned outs i v + ((x.credit i).getD []).count v := by
  simp only [returned, List.filterMap_append, List.filterMap_cons, List.filterMap_nil]
  cases x.credit i <;> simp

end Router

namespace Net

open Router (R In Out Flit Hop Cfg upto received sent granted returned sentOn Pass passedFrom passedTo Explains TInv ghost
  Live Ready load)
open Alloc (Holds Valid asked)
open Channel (Queue)

variable {δ σ τ ρ ρ' : Type}

/-- What waits in a channel came in during the last `K` ticks. -/
theorem channel_recent {α : Type} {d : Int} {now : Nat → Int} {x y : Nat → Option α} {q : Nat → Queue α} {N K : Nat}
    (hq : q 0 = []) (h : ∀ n < N, Channel.tick d (now n) (x n) (q n) = some (q (n + 1), y (n + 1)))
    (ht : ∀ m n, m + K ≤ n → n < N → now m + d - 1 ≤ now n) :
    ∀ n ≤ N, ∃ M : List Nat, M.Pairwise (· < ·) ∧ (∀ m ∈ M, m < n ∧ n ≤ m + K ∧ x m ≠ none) ∧
      (q n).map Prod.fst = M.map fun m => now m + d - 1 := by
  intro n
  induction n with
  | zero => intro _; exact ⟨[], .nil, by simp, by simp [hq]⟩
  | succ n ih =>
    intro hn
    obtain ⟨M, h1, h2, h3⟩ := ih (by omega)
    have hst := h n (by omega)
    unfold Channel.tick at hst
    -- the queue after reading
    have hread : ∃ (M' : List Nat) (q' : Queue α), Channel.read d (now n) (x n) (q n) = some q' ∧ M'.Pairwise (· < ·) ∧
        (∀ m ∈ M', m < n + 1 ∧ (m = n ∨ n ≤ m + K) ∧ x m ≠ none) ∧ q'.map Prod.fst = M'.map fun m => now m + d - 1 := by
      unfold Channel.read at hst ⊢
      cases hx : x n with
      | none =>
        exact ⟨M, q n, rfl, h1, fun m hm => ⟨by have := h2 m hm; omega, .inr (h2 m hm).2.1, (h2 m hm).2.2⟩, h3⟩
      | some z =>
        rw [hx] at hst
        simp only at hst ⊢
        split at hst
        · refine ⟨M ++ [n], q n ++ [(now n + d - 1, z)], by rename_i hc; rw [if_pos hc], ?_, ?_, ?_⟩
          · rw [List.pairwise_append]
            exact ⟨h1, by simp, fun a ha c hc => by rw [List.mem_singleton.1 hc]; exact (h2 a ha).1⟩
          · intro m hm
            rcases List.mem_append.1 hm with hm | hm
            · exact ⟨by have := h2 m hm; omega, .inr (h2 m hm).2.1, (h2 m hm).2.2⟩
            · rw [List.mem_singleton.1 hm]
              exact ⟨by omega, .inl rfl, by rw [hx]; simp⟩
          · rw [List.map_append, List.map_append, h3]; rfl
        · cases hst
    obtain ⟨M', q', e1, p1, p2, p3⟩ := hread
    rw [e1] at hst
    simp only [Option.map_some, Option.some.injEq] at hst
    cases M' with
    | nil =>
      have hq' : q' = [] := by simpa using p3
      rw [hq'] at hst
      simp only [Channel.write, Prod.mk.injEq] at hst
      exact ⟨[], .nil, by simp, by rw [← hst.1]; rfl⟩
    | cons m M' =>
      cases q' with
      | nil => simp at p3
      | cons a q' =>
        obtain ⟨ta, a⟩ := a
        simp only [List.map_cons, List.cons.injEq] at p3
        rw [List.pairwise_cons] at p1
        have hm := p2 m (by simp)
        by_cases hlt : now n < ta
        · simp only [Channel.write, hlt, if_true, Prod.mk.injEq] at hst
          have hk : n + 1 ≤ m + K := by
            by_contra hc
            have := ht m n (by omega) (by omega)
            omega
          refine ⟨m :: M', List.pairwise_cons.2 p1, ?_, ?_⟩
          · intro m' hm'
            have h4 := p2 m' hm'
            refine ⟨h4.1, ?_, h4.2.2⟩
            rcases List.mem_cons.1 hm' with rfl | hm'
            · exact hk
            · have := p1.1 m' hm'; omega
          · rw [← hst.1]; simp [p3.1, p3.2]
        · simp only [Channel.write, hlt, if_false, Prod.mk.injEq] at hst
          refine ⟨M', p1.2, ?_, ?_⟩
          · intro m' hm'
            have h4 := p2 m' (by simp [hm'])
            have h5 := p1.1 m' hm'
            exact ⟨h4.1, by omega, h4.2.2⟩
          · rw [← hst.1]; exact p3.2

/-- A channel is empty `K` ticks after the last item. -/
theorem channel_empty {α : Type} {d : Int} {now : Nat → Int} {x y : Nat → Option α} {q : Nat → Queue α} {N K : Nat}
    (hq : q 0 = []) (h : ∀ n < N, Channel.tick d (now n) (x n) (q n) = some (q (n + 1), y (n + 1)))
    (ht : ∀ m n, m + K ≤ n → n < N → now m + d - 1 ≤ now n) {a n : Nat} (hx : ∀ m, a ≤ m → m < n → x m = none)
    (hn : n ≤ N) (ha : a + K ≤ n) : q n = [] := by
  obtain ⟨M, _, h2, h3⟩ := channel_recent hq h ht n hn
  cases M with
  | nil => simpa using h3
  | cons m M =>
    obtain ⟨a1, a2, a3⟩ := h2 m (by simp)
    exact absurd (hx m (by omega) a1) a3

/-- Nothing comes out of an empty channel. -/
theorem channel_silent {α : Type} {d now : Int} {y : Option α} {q : Queue α}
    (h : Channel.tick d now none [] = some (q, y)) : y = none := by
  simp only [Channel.tick, Channel.read, Option.map_some, Channel.write, Option.some.injEq, Prod.mk.injEq] at h
  exact h.2.symm

/-- A bounded number that only grows stands still in one of sufficiently many windows. -/
theorem stands_still {f : Nat → Nat} {N B T n₀ : Nat} (hm : ∀ n m, n ≤ m → m ≤ N → f n ≤ f m) (hB : f N ≤ B)
    (hN : n₀ + (B + 1) * T ≤ N) : ∃ a, n₀ ≤ a ∧ a + T ≤ N ∧ f (a + T) = f a := by
  by_contra hc
  have hgrow : ∀ j ≤ B + 1, j ≤ f (n₀ + j * T) := by
    intro j
    induction j with
    | zero => intro _; exact Nat.zero_le _
    | succ j ih =>
      intro hj
      have h1 := ih (by omega)
      have e1 : n₀ + (j + 1) * T = n₀ + j * T + T := by rw [Nat.succ_mul]; omega
      have hle : (j + 1) * T ≤ (B + 1) * T := Nat.mul_le_mul_right _ hj
      have h2 := hm (n₀ + j * T) (n₀ + j * T + T) (by omega) (by omega)
      have h3 : f (n₀ + j * T + T) ≠ f (n₀ + j * T) := fun h4 => hc ⟨_, by omega, by omega, h4⟩
      rw [e1]
      omega
  have h1 := hgrow (B + 1) (Nat.le_refl _)
  have h2 := hm _ N hN (Nat.le_refl _)
  omega

section run
variable {VA : Alloc.Cls σ ρ} {SA : Alloc.Cls τ ρ'} {t : Topo} {b : Cfg} {va : Nat → σ} {sa : Nat → τ} {N : Nat}
  {e : Nat → Env δ ρ ρ'} {s : Nat → S δ σ τ} {may : Nat → Flit δ → Prop} {rank : Nat → Nat → Nat} {R : Nat}

/-- A head that has been received is offered virtual channels of lower rank. -/
theorem offered_down (ht : t.Wired) (hb : b.Ok) (ha : Allocs VA SA t b va sa) (h : Ticks VA SA t b va sa N e s)
    (hg : Guided t N e may) (hk : Ranked t b N e may rank R) {n r i v : Nat} (hn : n ≤ N) (hr : r < t.size)
    (hi : i < t.inputs r) {f : Flit δ} (hf : f ∈ received (upto (insOf t e s r) n) i v) (hh : f.head = true) :
    (∀ m < n, (e m).rf r i f ≠ []) ∧
      ∀ o u, Router.Offered (upto (insOf t e s r) n) i f o u → rank (t.outLink r o) u < rank (t.inLink r i) v := by
  have hli := ht.inLt r hr i hi
  rw [received_eq hi, mem_onVc] at hf
  obtain ⟨hf, rfl⟩ := hf
  have hent : f ∈ entered s (t.inLink r i) n := by
    refine (flitsAt_prefix h hn hli).subset ?_
    rw [flitsAt_succ]
    exact List.mem_append_left _ hf
  have hm := heads_guided ht hb ha h hg n hn _ hli f hent hh
  have hv := (agreed hb ha h hn (runs ht hb ha h n hn) hli).vcs f hent
  refine ⟨fun m hm' => (hk.down m (by omega) r hr i hi f hh hm hv).1, ?_⟩
  rintro o u ⟨x, hx, p, hp, rfl, h1, h2⟩
  obtain ⟨m, hm', rfl⟩ := Router.upto_mem.1 hx
  exact (hk.down m (by omega) r hr i hi f hh hm hv).2 p hp u h1 h2

/-- Every flit passed goes to a lower rank. -/
theorem passes_down (ht : t.Wired) (hb : b.Ok) (ha : Allocs VA SA t b va sa) (h : Ticks VA SA t b va sa N e s)
    (hg : Guided t N e may) (hk : Ranked t b N e may rank R) {n r : Nat} (hn : n ≤ N) (hr : r < t.size)
    {L : List (Pass δ)} (hL : Explains (upto (insOf t e s r) n) (upto (outOf VA SA t b e s r) n) L)
    {x : Pass δ} (hx : x ∈ L) (hi : x.i < t.inputs r) : rank (t.outLink r x.o) x.u < rank (t.inLink r x.i) x.v := by
  have hxm : x ∈ passedFrom L x.i x.v := by simp [passedFrom, hx]
  obtain ⟨y, hy, hh, hyk⟩ := packets_head (hL.together x.i x.v) hxm
  have hy1 : y ∈ L ∧ y.i = x.i ∧ y.v = x.v := by simpa [passedFrom] using hy
  obtain ⟨hyL, hyi, hyv⟩ := hy1
  have hrec := (hL.from_input x.i x.v).subset (List.mem_map.2 ⟨y, hy, rfl⟩)
  have ho := hL.routed y hyL hh
  rw [hyi] at ho
  obtain ⟨h1, h2⟩ := Prod.mk.inj hyk
  rw [h1, h2] at ho
  exact (offered_down ht hb ha h hg hk hn hr hi hrec hh).2 _ _ ho

/-- The number of flits that routers have sent. -/
def hops (t : Topo) (s : Nat → S δ σ τ) (n : Nat) : Nat :=
  ∑ r ∈ Finset.range t.size, ∑ o ∈ Finset.range (t.outputs r), (entered s (t.outLink r o) n).length

theorem sum_onVc {l : List (Flit δ)} {V : Nat} (h : ∀ f ∈ l, f.vc < V) : ∑ v ∈ Finset.range V, (onVc l v).length = l.length :=
  Router.sum_filter V Flit.vc l h

/-- A flit makes at most `R` hops. -/
theorem hops_le (ht : t.Wired) (hb : b.Ok) (ha : Allocs VA SA t b va sa) (h : Ticks VA SA t b va sa N e s)
    (hg : Guided t N e may) (hk : Ranked t b N e may rank R) {n : Nat} (hn : n ≤ N) : hops t s n ≤ R * flitsIn t e n := by
  have hag := fun l hl => agreed (l := l) hb ha h hn (runs ht hb ha h n hn) hl
  have e1 := sum_driven ht fun l => ∑ v ∈ Finset.range b.vcs, rank l v * (onVc (entered s l n) v).length
  have e2 := sum_read ht fun l => ∑ v ∈ Finset.range b.vcs, rank l v * (onVc (entered s l n) v).length
  have h1 : hops t s n + ∑ r ∈ Finset.range t.size, ∑ o ∈ Finset.range (t.outputs r), ∑ v ∈ Finset.range b.vcs,
      rank (t.outLink r o) v * (onVc (entered s (t.outLink r o) n) v).length ≤
      ∑ r ∈ Finset.range t.size, ∑ i ∈ Finset.range (t.inputs r), ∑ v ∈ Finset.range b.vcs,
      rank (t.inLink r i) v * (onVc (entered s (t.inLink r i) n) v).length := by
    unfold hops
    rw [← Finset.sum_add_distrib]
    refine Finset.sum_le_sum fun r hr => ?_
    rw [Finset.mem_range] at hr
    obtain ⟨L, hL, hlr⟩ := router_log ht hb ha h hn hr
    have a1 : ∑ o ∈ Finset.range (t.outputs r), (entered s (t.outLink r o) n).length ≤ L.length := by
      rw [← Router.sum_filter (t.outputs r) Pass.o L fun x hx => (hlr x hx).2.1]
      refine Finset.sum_le_sum fun o ho => ?_
      rw [Finset.mem_range] at ho
      rw [h.entered_driven hn (ht.outLt r hr o ho) (driver_out ht hr ho)]
      simpa using (hL.to_output o).length_le
    have a2 : ∑ o ∈ Finset.range (t.outputs r), ∑ v ∈ Finset.range b.vcs,
        rank (t.outLink r o) v * (onVc (entered s (t.outLink r o) n) v).length ≤
        (L.map fun x => rank (t.outLink r x.o) x.u).sum := by
      rw [← Router.sum_to (fun o u => rank (t.outLink r o) u) fun x hx => (hlr x hx).2]
      refine Finset.sum_le_sum fun o ho => Finset.sum_le_sum fun u _ => Nat.mul_le_mul_left _ ?_
      rw [Finset.mem_range] at ho
      rw [h.entered_driven hn (ht.outLt r hr o ho) (driver_out ht hr ho)]
      simpa [onVc] using (hL.to_vc o u).length_le
    have a3 : (L.map fun x => rank (t.inLink r x.i) x.v).sum ≤ ∑ i ∈ Finset.range (t.inputs r), ∑ v ∈ Finset.range b.vcs,
        rank (t.inLink r i) v * (onVc (entered s (t.inLink r i) n) v).length := by
      rw [← Router.sum_from (fun i v => rank (t.inLink r i) v) fun x hx => (hlr x hx).1]
      refine Finset.sum_le_sum fun i hi => Finset.sum_le_sum fun v _ => Nat.mul_le_mul_left _ ?_
      rw [Finset.mem_range] at hi
      have b1 := (hL.from_input i v).length_le
      rw [received_eq hi, List.length_map] at b1
      refine Nat.le_trans b1 (((flitsAt_prefix h hn (ht.inLt r hr i hi)).filter _).length_le.trans' ?_)
      rw [flitsAt_succ]
      unfold onVc
      rw [List.filter_append, List.length_append]
      exact Nat.le_add_right _ _
    have a4 : L.length + (L.map fun x => rank (t.outLink r x.o) x.u).sum ≤ (L.map fun x => rank (t.inLink r x.i) x.v).sum := by
      have hd : ∀ x ∈ L, rank (t.outLink r x.o) x.u < rank (t.inLink r x.i) x.v := fun x hx =>
        passes_down ht hb ha h hg hk hn hr hL hx (hlr x hx).1.1
      clear hL hlr a1 a2 a3
      induction L with
      | nil => simp
      | cons x L ih =>
        have c1 := ih fun y hy => hd y (by simp [hy])
        have c2 := hd x (by simp)
        simp only [List.length_cons, List.map_cons, List.sum_cons]
        omega
    omega
  have h2 : ∑ l ∈ (Finset.range t.links).filter t.Source,
      ∑ v ∈ Finset.range b.vcs, rank l v * (onVc (entered s l n) v).length ≤ R * flitsIn t e n := by
    unfold flitsIn
    rw [Finset.mul_sum]
    refine Finset.sum_le_sum fun l hl => ?_
    rw [Finset.mem_filter] at hl
    have hs := (hag l hl.2.1).vcs
    rw [h.entered_source hn hl.2] at hs ⊢
    rw [← sum_onVc hs, Finset.mul_sum]
    refine Finset.sum_le_sum fun v hv => Nat.mul_le_mul_right _ ?_
    rw [Finset.mem_range] at hv
    exact hk.le l hl.2.1 v hv
  omega

theorem entered_succ (s : Nat → S δ σ τ) (l n : Nat) : entered s l (n + 1) = entered s l n ++ ((s (n + 1)).fIn l).toList :=
  filterMap_snoc _ _ _

theorem entered_mono (s : Nat → S δ σ τ) (l : Nat) {n m : Nat} (h : n ≤ m) : entered s l n <+: entered s l m := by
  obtain ⟨d, rfl⟩ := Nat.exists_eq_add_of_le h
  clear h
  induction d with
  | zero => exact List.prefix_refl _
  | succ d ih =>
    refine ih.trans ?_
    rw [← Nat.add_assoc, entered_succ]
    exact List.prefix_append _ _

theorem hops_mono (t : Topo) (s : Nat → S δ σ τ) {n m : Nat} (h : n ≤ m) : hops t s n ≤ hops t s m :=
  Finset.sum_le_sum fun _ _ => Finset.sum_le_sum fun _ _ => (entered_mono s _ h).length_le

/-- When the number of hops stands still, no router sends anything. -/
theorem no_hops {a T : Nat} (h : hops t s (a + T) = hops t s a) {r o : Nat} (hr : r < t.size) (ho : o < t.outputs r)
    {n : Nat} (h1 : a < n) (h2 : n ≤ a + T) : (s n).fIn (t.outLink r o) = none := by
  have hle : ∀ r' ∈ Finset.range t.size, ∑ o ∈ Finset.range (t.outputs r'), (entered s (t.outLink r' o) a).length ≤
      ∑ o ∈ Finset.range (t.outputs r'), (entered s (t.outLink r' o) (a + T)).length := fun r' _ =>
    Finset.sum_le_sum fun _ _ => (entered_mono s _ (by omega)).length_le
  have h3 := (Finset.sum_eq_sum_iff_of_le hle).1 h.symm r (Finset.mem_range.2 hr)
  have h4 := (Finset.sum_eq_sum_iff_of_le fun o' _ => (entered_mono s (t.outLink r o') (show a ≤ a + T by omega)).length_le).1 h3 o
    (Finset.mem_range.2 ho)
  obtain ⟨m, rfl⟩ : ∃ m, n = m + 1 := ⟨n - 1, by omega⟩
  have h5 := (entered_mono s (t.outLink r o) (show a ≤ m by omega)).length_le
  have h6 := (entered_mono s (t.outLink r o) (show m + 1 ≤ a + T by omega)).length_le
  rw [entered_succ, List.length_append] at h6
  have h7 : ((s (m + 1)).fIn (t.outLink r o)).toList.length = 0 := by omega
  cases hf : (s (m + 1)).fIn (t.outLink r o) with
  | none => rfl
  | some f => rw [hf] at h7; simp at h7

/-- The nodes have stopped. -/
theorem injected_const {n₀ D K n : Nat} (hd : Drains t b N n₀ D K e s) (h1 : n₀ ≤ n) (h2 : n ≤ N) {l : Nat} (hl : t.Source l) :
    injected e l n = injected e l n₀ := by
  obtain ⟨d, rfl⟩ := Nat.exists_eq_add_of_le h1
  clear h1
  induction d with
  | zero => rfl
  | succ d ih =>
    unfold injected at ih ⊢
    rw [← Nat.add_assoc, filterMap_snoc, hd.quiet (n₀ + d) (by omega) (by omega) l hl, ih (by omega)]
    simp

/-- A window in which neither nodes nor routers send anything. -/
structure Still (VA : Alloc.Cls σ ρ) (SA : Alloc.Cls τ ρ') (t : Topo) (b : Cfg) (va : Nat → σ) (sa : Nat → τ)
    (N K a T : Nat) (e : Nat → Env δ ρ ρ') (s : Nat → S δ σ τ) : Prop where
  wired : t.Wired
  ok : b.Ok
  allocs : Allocs VA SA t b va sa
  grants : Grants VA SA t b va sa
  ticks : Ticks VA SA t b va sa N e s
  stop : a + T ≤ N
  still : hops t s (a + T) = hops t s a
  quiet : ∀ n, a ≤ n → n < a + T → ∀ l, t.Source l → (e n).inject l = none
  time : ∀ m n, m + K ≤ n → n < N → (e m).now + b.creditDelay ≤ (e n).now ∧
    ∀ l < t.links, (e m).now + t.flitDelay l - 1 ≤ (e n).now ∧ (e m).now + t.creditDelay l - 1 ≤ (e n).now

namespace Still
variable {K a T n : Nat} (w : Still VA SA t b va sa N K a T e s)
include w

theorem serves {r : Nat} (hr : r < t.size) :
    Router.Serves true VA ((t.cfg b r).inputs * (t.cfg b r).vcs) ((t.cfg b r).outputs * (t.cfg b r).vcs) (va r) ∧
      Router.Serves true SA (t.cfg b r).inputs (t.cfg b r).outputs (sa r) :=
  ⟨Router.serves_true (w.allocs.va r hr) (w.grants.va r hr), Router.serves_true (w.allocs.sa r hr) (w.grants.sa r hr)⟩

theorem live (hn : n ≤ N) {r : Nat} (hr : r < t.size) : ∃ l, Live VA SA (t.cfg b r) (upto (insOf t e s r) n)
    (upto (outOf VA SA t b e s r) n) ((s n).r r) l :=
  Router.live_run (Cfg_ok w.ok t r) (w.serves hr).1 (w.serves hr).2 (routerTicks w.wired w.ok w.allocs w.ticks hr) n hn

theorem facts (hn : n < N) {r : Nat} (hr : r < t.size) :
    (∀ x ∈ ((s n).r r).xbQ, x.o < t.outputs r ∧ (outOf VA SA t b e s r n).flit x.o ≠ none) ∧
      (∀ x ∈ ((s (n + 1)).r r).credQ.head?, (e n).now < x.time) ∧
      ∀ i c, (outOf VA SA t b e s r n).credit i = some c → i < t.inputs r ∧ c ≠ [] ∧ ∀ v ∈ c, v < b.vcs :=
  Router.tick_facts (Cfg_ok w.ok t r) (w.serves hr).1 (w.serves hr).2 (routerTicks w.wired w.ok w.allocs w.ticks hr) hn

/-- Nothing goes into a flit channel. -/
theorem fIn {l : Nat} (hl : l < t.links) (h1 : a < n) (h2 : n ≤ a + T) : (s n).fIn l = none := by
  cases hd : t.driver l with
  | some x =>
    obtain ⟨r, o⟩ := x
    obtain ⟨k1, k2, rfl⟩ := driver_some hd
    exact no_hops w.still k1 k2 h1 h2
  | none =>
    have hs := (driver_none hl).1 hd
    have := w.stop
    obtain ⟨m, rfl⟩ : ∃ m, n = m + 1 := ⟨n - 1, by omega⟩
    rw [(w.ticks.steps (show m < N by omega)).sourced l hl hd]
    exact w.quiet m (by omega) (by omega) l hs

/-- The crossbars are empty. -/
theorem xbQ {r : Nat} (hr : r < t.size) (h1 : a ≤ n) (h2 : n < a + T) : ((s n).r r).xbQ = [] := by
  have := w.stop
  by_contra hne
  obtain ⟨x, q, hx⟩ := List.exists_cons_of_ne_nil hne
  obtain ⟨k1, k2⟩ := (w.facts (show n < N by omega) hr).1 x (by rw [hx]; simp)
  have hlo := w.wired.outLt r hr x.o k1
  have h3 := w.fIn hlo (n := n + 1) (by omega) (by omega)
  rw [(w.ticks.steps (show n < N by omega)).driven _ hlo r x.o (driver_out w.wired hr k1)] at h3
  exact k2 h3

theorem fQ {l : Nat} (hl : l < t.links) (h1 : a + K + 1 ≤ n) (h2 : n ≤ a + T) : (s n).fQ l = [] := by
  have := w.stop
  exact channel_empty (x := fun m => (s m).fIn l) (y := fun m => (s m).fOut l) (q := fun m => (s m).fQ l) (a := a + 1)
    (now := fun m => (e m).now) (d := t.flitDelay l) (N := N) (K := K) (by simp [w.ticks.start, S.init])
    (fun m hm => (w.ticks.steps hm).flit l hl) (fun m n h3 h4 => ((w.time m n h3 h4).2 l hl).1)
    (fun m h3 h4 => w.fIn hl (by omega) (by omega)) (by omega) (by omega)

theorem fOut {l : Nat} (hl : l < t.links) (h1 : a + K + 2 ≤ n) (h2 : n ≤ a + T) : (s n).fOut l = none := by
  have := w.stop
  obtain ⟨m, rfl⟩ : ∃ m, n = m + 1 := ⟨n - 1, by omega⟩
  have h3 := (w.ticks.steps (show m < N by omega)).flit l hl
  rw [w.fIn hl (by omega) (by omega), w.fQ hl (by omega) (by omega)] at h3
  exact channel_silent h3

/-- Every flit has arrived. -/
theorem arrived {l : Nat} (hl : l < t.links) (h1 : a + K + 1 ≤ n) (h2 : n ≤ a + T) :
    flitsAt s l (n + 1) = entered s l n := by
  have := w.stop
  rw [w.ticks.flits (by omega) hl, w.fQ hl h1 h2, w.fIn hl (by omega) h2]
  simp

theorem entered_const {l : Nat} (hl : l < t.links) (h1 : a ≤ n) (h2 : n ≤ a + T) : entered s l n = entered s l a := by
  obtain ⟨d, rfl⟩ := Nat.exists_eq_add_of_le h1
  clear h1
  induction d with
  | zero => rfl
  | succ d ih =>
    rw [← Nat.add_assoc, entered_succ, ih (by omega), w.fIn hl (by omega) (by omega)]
    simp

/-- Routers return no credits. -/
theorem returned_const {r : Nat} (hr : r < t.size) (h1 : a ≤ n) (h2 : n < a + T) {i v : Nat} (hi : i < t.inputs r)
    (hv : v < b.vcs) :
    returned (upto (outOf VA SA t b e s r) n) i v = returned (upto (outOf VA SA t b e s r) a) i v := by
  have := w.stop
  have htot : ∀ n, a ≤ n → n < a + T → ∑ i ∈ Finset.range (t.inputs r), ∑ v ∈ Finset.range b.vcs,
      returned (upto (outOf VA SA t b e s r) n) i v =
      ∑ o ∈ Finset.range (t.outputs r), (entered s (t.outLink r o) a).length := by
    intro n h1 h2
    obtain ⟨l, hl⟩ := w.live (show n ≤ N by omega) hr
    have h3 := Router.returned_total hl.inv
    rw [w.xbQ hr h1 h2] at h3
    refine h3.trans ?_
    simp only [List.length_nil, Nat.add_zero]
    refine Finset.sum_congr rfl fun o ho => ?_
    have ho : o < t.outputs r := Finset.mem_range.1 ho
    have hlo := w.wired.outLt r hr o ho
    rw [← w.entered_const hlo h1 (by omega), w.ticks.entered_driven (by omega) hlo (driver_out w.wired hr ho)]
  have hmono : ∀ i v, returned (upto (outOf VA SA t b e s r) a) i v ≤ returned (upto (outOf VA SA t b e s r) n) i v := by
    intro i v
    obtain ⟨d, rfl⟩ := Nat.exists_eq_add_of_le h1
    clear h1 h2
    induction d with
    | zero => exact Nat.le_refl _
    | succ d ih =>
      rw [← Nat.add_assoc, Router.upto_succ, Router.returned_snoc]
      omega
  have h3 := (htot a (Nat.le_refl _) (by omega)).trans (htot n h1 h2).symm
  have h4 := (Finset.sum_eq_sum_iff_of_le fun i _ => Finset.sum_le_sum fun v _ => hmono i v).1 h3 i (Finset.mem_range.2 hi)
  exact ((Finset.sum_eq_sum_iff_of_le fun v _ => hmono i v).1 h4 v (Finset.mem_range.2 hv)).symm

theorem no_credit {r : Nat} (hr : r < t.size) (h1 : a ≤ n) (h2 : n + 1 < a + T) (i : Nat) :
    (outOf VA SA t b e s r n).credit i = none := by
  have := w.stop
  cases hc : (outOf VA SA t b e s r n).credit i with
  | none => rfl
  | some c =>
    obtain ⟨k1, k2, k3⟩ := (w.facts (show n < N by omega) hr).2.2 i c hc
    obtain ⟨v, c', hv⟩ := List.exists_cons_of_ne_nil k2
    have hvb := k3 v (by rw [hv]; simp)
    have h3 := w.returned_const hr h1 (by omega) k1 hvb
    have h4 := w.returned_const hr (n := n + 1) (by omega) h2 k1 hvb
    rw [Router.upto_succ, Router.returned_snoc, hc, h3, hv] at h4
    simp at h4

/-- The nodes have credited all flits. -/
theorem credited_all {n₀ D : Nat} (hd : Drains t b N n₀ D K e s) (hn : n₀ ≤ a) {l : Nat} (hl : t.Sink l)
    (h1 : a + K + D + 1 ≤ n) (h2 : n ≤ a + T) (v : Nat) :
    (credited e l n).flatten.count v = (onVc (entered s l a) v).length := by
  have := w.stop
  have h3 := (w.ticks.nodes n (by omega)).credits l hl v
  rw [w.arrived hl.1 (by omega) h2, w.entered_const hl.1 (by omega) h2] at h3
  have h4 := hd.prompt (n - D) (by omega) (by omega) l hl v
  rw [w.arrived hl.1 (by omega) (by omega), w.entered_const hl.1 (by omega) (by omega), Nat.sub_add_cancel (by omega)] at h4
  omega

end Still

/-- Such a window when the nodes send no more credits after a while, and have then kept less than a buffer of them for every
virtual channel. -/
structure Window (VA : Alloc.Cls σ ρ) (SA : Alloc.Cls τ ρ') (t : Topo) (b : Cfg) (va : Nat → σ) (sa : Nat → τ)
    (N D K a T : Nat) (e : Nat → Env δ ρ ρ') (s : Nat → S δ σ τ) : Prop extends Still VA SA t b va sa N K a T e s where
  settled : ∀ n, a + K + D + 1 ≤ n → n < a + T → ∀ l, t.Sink l → (e n).credit l = none
  room : ∀ n, a + K + D + 1 ≤ n → n < a + T → ∀ l, t.Sink l → ∀ v,
    ((onVc (entered s l a) v).length : Int) < (credited e l n).flatten.count v + b.buf.perVc

namespace Window
variable {D K a T n : Nat} (w : Window VA SA t b va sa N D K a T e s)
include w

/-- No credits come in. -/
theorem cIn {l : Nat} (hl : l < t.links) (h1 : a + K + D + 2 ≤ n) (h2 : n < a + T) : (s n).cIn l = none := by
  have := w.stop
  obtain ⟨m, rfl⟩ : ∃ m, n = m + 1 := ⟨n - 1, by omega⟩
  cases hd : t.reader l with
  | some x =>
    obtain ⟨r, i⟩ := x
    rw [(w.ticks.steps (show m < N by omega)).returns l hl r i hd]
    exact w.no_credit (reader_some hd).1 (by omega) (by omega) i
  | none =>
    have hs := (reader_none hl).1 hd
    rw [(w.ticks.steps (show m < N by omega)).sunk l hl hd]
    exact w.settled m (by omega) (by omega) l hs

theorem cQ {l : Nat} (hl : l < t.links) (h1 : a + 2 * K + D + 2 ≤ n) (h2 : n < a + T) : (s n).cQ l = [] := by
  have := w.stop
  exact channel_empty (x := fun m => (s m).cIn l) (y := fun m => (s m).cOut l) (q := fun m => (s m).cQ l) (a := a + K + D + 2)
    (now := fun m => (e m).now) (d := t.creditDelay l) (N := N) (K := K) (by simp [w.ticks.start, S.init])
    (fun m hm => (w.ticks.steps hm).credit l hl) (fun m n h3 h4 => ((w.time m n h3 h4).2 l hl).2)
    (fun m h3 h4 => w.cIn hl (by omega) (by omega)) (by omega) (by omega)

theorem cOut {l : Nat} (hl : l < t.links) (h1 : a + 2 * K + D + 3 ≤ n) (h2 : n < a + T) : (s n).cOut l = none := by
  have := w.stop
  obtain ⟨m, rfl⟩ : ∃ m, n = m + 1 := ⟨n - 1, by omega⟩
  have h3 := (w.ticks.steps (show m < N by omega)).credit l hl
  rw [w.cIn hl (by omega) (by omega), w.cQ hl (by omega) (by omega)] at h3
  exact channel_silent h3

theorem back {l : Nat} (hl : l < t.links) (h1 : a + 2 * K + D + 2 ≤ n) (h2 : n < a + T) :
    creditsAt s l (n + 1) = backed s l n := by
  have := w.stop
  rw [w.ticks.backs (by omega) hl, w.cQ hl h1 h2, w.cIn hl (by omega) h2]
  simp

theorem credQ {r : Nat} (hr : r < t.size) (h1 : a + 3 * K + D + 4 ≤ n) (h2 : n < a + T) : ((s n).r r).credQ = [] := by
  have := w.stop
  obtain ⟨m, rfl⟩ : ∃ m, n = m + 1 := ⟨n - 1, by omega⟩
  by_contra hne
  obtain ⟨x, q, hx⟩ := List.exists_cons_of_ne_nil hne
  obtain ⟨l, hl⟩ := w.live (show m + 1 ≤ N by omega) hr
  obtain ⟨y, hy, ht, hc⟩ := hl.cred x (by rw [hx]; simp)
  obtain ⟨k, hk, rfl⟩ := Router.upto_mem.1 hy
  have h3 := (w.facts (show m < N by omega) hr).2.1 x (by rw [hx]; rfl)
  simp only [insOf, seen] at hc
  split at hc
  · rename_i ho
    have hlo := w.wired.outLt r hr x.o ho
    have hk2 : k < a + 2 * K + D + 3 := by
      by_contra hge
      rw [w.cOut hlo (by omega) (by omega)] at hc
      cases hc
    have h4 := (w.time k m (by omega) (by omega)).1
    simp only [insOf, seen] at ht
    change x.time = (e k).now + b.creditDelay at ht
    omega
  · cases hc

/-- What is inside a router is what is needed to explain the links. -/
theorem passed_len {r : Nat} (hr : r < t.size) (h1 : a ≤ n) (h2 : n < a + T) {l : List (Pass δ)}
    (hl : Live VA SA (t.cfg b r) (upto (insOf t e s r) n) (upto (outOf VA SA t b e s r) n) ((s n).r r) l) {o : Nat}
    (ho : o < t.outputs r) (u : Nat) : (passedTo l o u).map Pass.flit = onVc (entered s (t.outLink r o) a) u := by
  have := w.stop
  have h3 := hl.inv.inv.port.stream o
  rw [hl.inv.ob, w.xbQ hr h1 h2] at h3
  simp only [List.filter_nil, List.map_nil, List.append_nil] at h3
  change (l.filter fun e => e.o = o).map Pass.flit = sent (upto (outOf VA SA t b e s r) n) o at h3
  have hlo := w.wired.outLt r hr o ho
  rw [← w.ticks.entered_driven (by omega) hlo (driver_out w.wired hr ho), w.entered_const hlo h1 (by omega)] at h3
  rw [← Router.to_filter, h3]
  rfl

/-- The flits of an input virtual channel. -/
theorem recv_eq {r : Nat} (hr : r < t.size) (h1 : a + K + 2 ≤ n) (h2 : n < a + T) {i : Nat} (hi : i < t.inputs r) (v : Nat) :
    received (upto (insOf t e s r) n) i v = onVc (entered s (t.inLink r i) a) v := by
  obtain ⟨m, rfl⟩ : ∃ m, n = m + 1 := ⟨n - 1, by omega⟩
  have hli := w.wired.inLt r hr i hi
  rw [received_eq hi, w.arrived hli (by omega) (by omega), w.entered_const hli (by omega) (by omega)]

/-- The occupancy of a virtual channel is the number of flits in the next buffer. -/
theorem occ {r : Nat} (hr : r < t.size) (h1 : a + 3 * K + D + 4 ≤ n) (h2 : n < a + T) {o u : Nat} (ho : o < t.outputs r)
    (hu : u < b.vcs) :
    (t.Sink (t.outLink r o) → (((s n).r r).next o).vcOcc u < b.buf.perVc) ∧
    ∀ r' i', r' < t.size → i' < t.inputs r' → t.inLink r' i' = t.outLink r o →
      (((s n).r r).next o).vcOcc u = ((((s n).r r').vcs i' u).q.length : Int) := by
  have := w.stop
  obtain ⟨l, hl⟩ := w.live (show n ≤ N by omega) hr
  have hlo := w.wired.outLt r hr o ho
  have k1 := (hl.inv.inv.out o u).occ
  have k2 := congrArg List.length (w.passed_len hr (by omega) h2 hl ho u)
  rw [List.length_map] at k2
  rw [w.credQ hr h1 h2] at k1
  simp only [Router.pend, List.filter_nil, List.flatMap_nil, List.count_nil] at k1
  change _ + ((granted (upto (insOf t e s r) n) o u : Nat) : Int) = ((passedTo l o u).length : Int) + _ at k1
  obtain ⟨m, rfl⟩ : ∃ m, n = m + 1 := ⟨n - 1, by omega⟩
  rw [granted_eq ho, w.back hlo (by omega) (by omega), k2] at k1
  refine ⟨fun hs => ?_, fun r' i' hr' hi' he => ?_⟩
  · rw [w.ticks.backed_sink (by omega) hs] at k1
    have := w.room m (by omega) (by omega) _ hs u
    omega
  · have hrd : t.reader (t.outLink r o) = some (r', i') := by rw [← he]; exact reader_in w.wired hr' hi'
    rw [w.ticks.backed_read (by omega) hlo hrd] at k1
    change _ + ((returned (upto (outOf VA SA t b e s r') m) i' u : Nat) : Int) = _ at k1
    rw [w.returned_const hr' (by omega) (by omega) hi' hu,
      ← w.returned_const hr' (n := m + 1) (by omega) h2 hi' hu] at k1
    obtain ⟨l', hl'⟩ := w.live (show m + 1 ≤ N by omega) hr'
    rw [(Router.explains_of hl'.inv).credited] at k1
    have k3 := congrArg List.length (hl'.inv.inv.vc i' u).recv
    change _ = (received (upto (insOf t e s r') (m + 1)) i' u).length at k3
    rw [w.recv_eq hr' (by omega) h2 hi', he, List.length_append, List.length_map] at k3
    change (passedFrom l' i' u).length + _ = _ at k3
    omega

/-- A node has all credits of a virtual channel back when the buffer of the router is empty. -/
theorem returned_source {r i v : Nat} (hr : r < t.size) (hi : i < t.inputs r) (hs : t.Source (t.inLink r i))
    (h1 : a + 3 * K + D + 4 ≤ n) (h2 : n < a + T) (hq : (((s n).r r).vcs i v).q = []) :
    (creditsAt s (t.inLink r i) (n + 1)).flatten.count v = (onVc (injected e (t.inLink r i) n) v).length := by
  have := w.stop
  obtain ⟨l, hl⟩ := w.live (show n ≤ N by omega) hr
  obtain ⟨m, rfl⟩ : ∃ m, n = m + 1 := ⟨n - 1, by omega⟩
  rw [w.back hs.1 (by omega) (by omega), w.ticks.backed_read (by omega) hs.1 (reader_in w.wired hr hi)]
  change returned (upto (outOf VA SA t b e s r) (m + 1)) i v = _
  rw [(Router.explains_of hl.inv).credited]
  have k3 := congrArg List.length (hl.inv.inv.vc i v).recv
  change _ = (received (upto (insOf t e s r) (m + 1)) i v).length at k3
  rw [w.recv_eq hr (by omega) h2 hi, hq, List.length_append, List.length_map, List.length_nil] at k3
  change (passedFrom l i v).length + _ = _ at k3
  rw [← w.ticks.entered_source (by omega) hs, w.entered_const hs.1 (by omega) (by omega)]
  omega

end Window

/-- No packet of a node has been passed on entirely as far as it was sent, but not sent to its end. -/
def Ended (t : Topo) (e : Nat → Env δ ρ ρ') (s : Nat → S δ σ τ) (n : Nat) : Prop :=
  ∀ r < t.size, ∀ i < t.inputs r, t.Source (t.inLink r i) → ∀ v, (((s n).r r).vcs i v).q = [] →
    ∀ f ∈ (onVc (injected e (t.inLink r i) n) v).getLast?, f.tail = true

/-- The network at a tick at which no router can make a step. -/
structure Stuck (VA : Alloc.Cls σ ρ) (SA : Alloc.Cls τ ρ') (t : Topo) (b : Cfg) (va : Nat → σ) (sa : Nat → τ)
    (N D K a T n : Nat) (e : Nat → Env δ ρ ρ') (s : Nat → S δ σ τ) (may : Nat → Flit δ → Prop) (rank : Nat → Nat → Nat)
    (R : Nat) : Prop where
  win : Window VA SA t b va sa N D K a T e s
  out : b.outSize ≠ 0
  guided : Guided t N e may
  ranked : Ranked t b N e may rank R
  lo : a + 3 * K + D + 4 ≤ n
  hi : n < a + T
  idle : ∀ r < t.size, ¬ Ready (t.cfg b r) ((s n).r r)

namespace Stuck
variable {D K a T n : Nat} (z : Stuck VA SA t b va sa N D K a T n e s may rank R)
include z

theorem live {r : Nat} (hr : r < t.size) : ∃ l, Live VA SA (t.cfg b r) (upto (insOf t e s r) n)
    (upto (outOf VA SA t b e s r) n) ((s n).r r) l := by
  have := z.win.stop
  have := z.hi
  exact z.win.live (by omega) hr

theorem range {r i v : Nat} (hr : r < t.size) (h : (((s n).r r).vcs i v).st ≠ .idle) : i < t.inputs r ∧ v < b.vcs := by
  obtain ⟨l, hl⟩ := z.live hr
  exact (hl.inv.inv.vc i v).range h

theorem not_routing {r i v : Nat} (hr : r < t.size) : (((s n).r r).vcs i v).st ≠ .routing := by
  intro hst
  obtain ⟨l, hl⟩ := z.live hr
  have hm := (hl.inv.inv.q.rqM i v).2 hst
  exact z.idle r hr (.inl fun h0 => by rw [h0] at hm; cases hm)

/-- An active virtual channel waits for room in the next buffer. -/
theorem waits {r i v o u : Nat} (hr : r < t.size) (hst : (((s n).r r).vcs i v).st = .active)
    (hq : (((s n).r r).vcs i v).q ≠ []) (ho : (((s n).r r).vcs i v).out = some (o, u)) :
    b.buf.perVc ≤ (((s n).r r).next o).vcOcc u := by
  obtain ⟨l, hl⟩ := z.live hr
  have hm := (hl.inv.inv.q.saM i v).2 ⟨hst, hq⟩
  obtain ⟨y, hy, hk⟩ := List.mem_map.1 hm
  simp only [Router.Wait.key, Prod.mk.injEq] at hk
  obtain ⟨rfl, rfl⟩ := hk
  by_contra h0
  refine z.idle r hr (.inr (.inr ⟨y, hy, o, u, ho, ?_⟩))
  have hp := z.win.ok.buf.perVc_pos
  have h3 := z.win.ok.outSize
  have h4 := z.out
  simp only [Router.blocked, BufState.isFullFor, Bool.or_eq_false_iff, decide_eq_false_iff_not, hl.inv.ob, List.length_nil,
    Bool.and_eq_false_iff]
  change ¬ (_ ≥ b.buf.perVc) ∧ (¬ (b.outSize ≠ -1) ∨ ¬ (_ ≥ b.outSize))
  refine ⟨by omega, ?_⟩
  rcases h3 with h1 | h1
  · left; omega
  · right; omega

/-- The output of an active virtual channel has a lower rank. -/
theorem falls {r i v : Nat} (hr : r < t.size) (hst : (((s n).r r).vcs i v).st = .active) :
    ∃ o u, (((s n).r r).vcs i v).out = some (o, u) ∧ o < t.outputs r ∧ u < b.vcs ∧
      rank (t.outLink r o) u < rank (t.inLink r i) v ∧
      ((((s n).r r).vcs i v).q = [] → ∃ f, (received (upto (insOf t e s r) n) i v).getLast? = some f ∧ f.tail = false) := by
  have h1 := z.win.stop
  have h2 := z.hi
  obtain ⟨l, hl⟩ := z.live hr
  have hi := (z.range (i := i) (v := v) hr (by rw [hst]; simp)).1
  obtain ⟨o, u, e1, hown⟩ := (hl.inv.inv.vc i v).act hst
  have hrec := (hl.inv.inv.vc i v).recv
  change (passedFrom l i v).map Pass.f ++ _ = received (upto (insOf t e s r) n) i v at hrec
  have hex := Router.explains_of hl.inv
  refine ⟨o, u, e1, hown.o_lt, hown.u_lt, ?_, ?_⟩
  · rcases hown.link with ⟨hd, _, f, hf, hm⟩ | ⟨x, hx1, hx2, _⟩
    · change Router.Done (passedFrom l i v) at hd
      change Router.Offered (upto (insOf t e s r) n) i f o u at hm
      obtain ⟨q, hq⟩ : ∃ q, (((s n).r r).vcs i v).q = f :: q := by
        cases hq : (((s n).r r).vcs i v).q with
        | nil => rw [hq] at hf; cases hf
        | cons g q => rw [hq] at hf; cases hf; exact ⟨q, rfl⟩
      have hpk := (hl.inv.inv.vc i v).pk
      change Packets _ _ _ (received (upto (insOf t e s r) n) i v) at hpk
      rw [← hrec, hq] at hpk
      have hhead : f.head = true := by
        refine Fits.head_of_closed (head := Flit.head) (tail := Flit.tail) (key := Flit.pid) ?_ (packets_fits hpk)
        intro g hg
        rw [List.getLast?_map] at hg
        cases hgl : (passedFrom l i v).getLast? with
        | none => rw [hgl] at hg; cases hg
        | some y => rw [hgl] at hg; cases hg; exact hd y hgl
      have hfm : f ∈ received (upto (insOf t e s r) n) i v := by rw [← hrec, hq]; simp
      exact (offered_down z.win.wired z.win.ok z.win.allocs z.win.ticks z.guided z.ranked (by omega) hr hi hfm hhead).2 o u hm
    · change (passedFrom l i v).getLast? = some x at hx1
      change (passedTo l o u).getLast? = some x at hx2
      have m1 := List.mem_of_getLast? hx1
      have m2 := List.mem_of_getLast? hx2
      simp only [passedFrom, List.mem_filter, decide_eq_true_eq] at m1
      simp only [passedTo, List.mem_filter, decide_eq_true_eq] at m2
      have h3 := passes_down z.win.wired z.win.ok z.win.allocs z.win.ticks z.guided z.ranked (by omega) hr hex m1.1
        (by rw [m1.2.1]; exact hi)
      rw [m1.2.1, m1.2.2, m2.2.1, m2.2.2] at h3
      exact h3
  · intro h0
    rcases hown.link with ⟨_, _, f, hf, _⟩ | ⟨x, hx1, _, ht⟩
    · rw [h0] at hf; cases hf
    · refine ⟨x.f, ?_, ht⟩
      rw [← hrec, h0, List.append_nil, List.getLast?_map]
      change (passedFrom l i v).getLast? = some x at hx1
      rw [hx1]; rfl

/-- An active virtual channel is not empty: else the flits of its packet wait in the router before, where they could be
passed on. -/
theorem full (hend : Ended t e s n) (k : Nat) : ∀ r i v, r < t.size → (((s n).r r).vcs i v).st = .active → R - rank (t.inLink r i) v ≤ k →
    (((s n).r r).vcs i v).q ≠ [] := by
  have w := z.win
  have h1 := w.stop
  have h2 := z.hi
  have h3 := z.lo
  induction k using Nat.strong_induction_on with
  | _ k ih =>
    intro r i v hr hst hk h0
    obtain ⟨hi, hv⟩ := z.range (i := i) (v := v) hr (by rw [hst]; simp)
    have hli := w.wired.inLt r hr i hi
    obtain ⟨_, _, _, _, _, _, hlast⟩ := z.falls hr hst
    obtain ⟨f, hf, htl⟩ := hlast h0
    rw [w.recv_eq hr (by omega) h2 hi] at hf
    cases hd : t.driver (t.inLink r i) with
    | none =>
      have hs := (driver_none hli).1 hd
      rw [← w.entered_const hli (n := n) (by omega) (by omega), w.ticks.entered_source (by omega) hs] at hf
      have := hend r hr i hi hs v h0 f (by rw [hf]; rfl)
      rw [htl] at this
      cases this
    | some x =>
      obtain ⟨r2, o2⟩ := x
      obtain ⟨d1, d2, d3⟩ := driver_some hd
      obtain ⟨l2, hl2⟩ := z.live d1
      have hp := w.passed_len d1 (by omega) h2 hl2 d2 v
      rw [d3] at hp
      have hne : ¬ (((s n).r r2).next o2).inUse v < 0 := by
        intro hu
        have hd := (hl2.inv.inv.out o2 v).free hu
        change Router.Done (passedTo l2 o2 v) at hd
        rw [← hp, List.getLast?_map] at hf
        cases hgl : (passedTo l2 o2 v).getLast? with
        | none => rw [hgl] at hf; cases hf
        | some y =>
          rw [hgl] at hf
          cases hf
          exact absurd ((hd y hgl).symm.trans htl) (by simp)
      obtain ⟨i2, v2, hi2, hv2, _, hst2, hout2⟩ := (hl2.inv.inv.out o2 v).own (by omega)
      have hocc := (w.occ d1 z.lo z.hi d2 hv).2 r i hr hi d3.symm
      rw [h0] at hocc
      have hq2 : (((s n).r r2).vcs i2 v2).q = [] := by
        by_contra hq
        have := z.waits d1 hst2 hq hout2
        have := w.ok.buf.perVc_pos
        simp at hocc
        omega
      obtain ⟨o', u', e1, _, _, hfall, _⟩ := z.falls d1 hst2
      rw [hout2] at e1
      cases e1
      rw [d3] at hfall
      have hle := z.ranked.le _ (w.wired.inLt r2 d1 i2 hi2) v2 hv2
      exact ih (R - rank (t.inLink r2 i2) v2) (by omega) r2 i2 v2 d1 hst2 (Nat.le_refl _) hq2

/-- The buffers are empty. -/
theorem empty (hend : Ended t e s n) (k : Nat) : ∀ r i v, r < t.size → rank (t.inLink r i) v ≤ k → (((s n).r r).vcs i v).q = [] := by
  have w := z.win
  have h1 := w.stop
  have h2 := z.hi
  have h3 := z.lo
  -- an active virtual channel needs a virtual channel of lower rank that is not empty
  have next : ∀ r i v o u, r < t.size → (((s n).r r).vcs i v).st = .active → (((s n).r r).vcs i v).out = some (o, u) →
      ∃ r' i', r' < t.size ∧ t.inLink r' i' = t.outLink r o ∧ (((s n).r r').vcs i' u).q ≠ [] := by
    intro r i v o u hr hst hout
    obtain ⟨o', u', e1, ho, hu, _, _⟩ := z.falls hr hst
    rw [hout] at e1
    cases e1
    have hocc := w.occ hr z.lo z.hi ho hu
    have hpos := z.waits hr hst (z.full hend _ r i v hr hst (Nat.le_refl _)) hout
    cases hd : t.reader (t.outLink r o) with
    | none =>
      have := hocc.1 ((reader_none (w.wired.outLt r hr o ho)).1 hd)
      omega
    | some x =>
      obtain ⟨r', i'⟩ := x
      obtain ⟨d1, d2, d3⟩ := reader_some hd
      have := hocc.2 r' i' d1 d2 d3
      have := w.ok.buf.perVc_pos
      refine ⟨r', i', d1, d3, fun h0 => ?_⟩
      have h5 := hocc.2 r' i' d1 d2 d3
      rw [h0] at h5
      simp at h5
      omega
  induction k using Nat.strong_induction_on with
  | _ k ih =>
    intro r i v hr hk
    by_contra hq
    obtain ⟨l, hl⟩ := z.live hr
    cases hst : (((s n).r r).vcs i v).st with
    | idle => exact hq ((hl.inv.inv.vc i v).idle hst).1
    | routing => exact z.not_routing hr hst
    | active =>
      obtain ⟨o, u, e1, ho, hu, hfall, _⟩ := z.falls hr hst
      obtain ⟨r', i', hr', he, hne⟩ := next r i v o u hr hst e1
      rw [← he] at hfall
      exact hne (ih (rank (t.inLink r' i') u) (by omega) r' i' u hr' (Nat.le_refl _))
    | vcAlloc =>
      obtain ⟨hi, hv⟩ := z.range (i := i) (v := v) hr (by rw [hst]; simp)
      have hro := (hl.inv.inv.vc i v).hops hst
      have hpre := ((hl.inv.inv.vc i v).pre (.inr hst)).2
      change Router.Done (passedFrom l i v) at hpre
      have hm := (hl.inv.inv.q.vaM i v).2 hst
      obtain ⟨y, hy, hk'⟩ := List.mem_map.1 hm
      simp only [Router.Wait.key, Prod.mk.injEq] at hk'
      obtain ⟨rfl, rfl⟩ := hk'
      obtain ⟨f, q, hfq⟩ := List.exists_cons_of_ne_nil hq
      have hrec := (hl.inv.inv.vc y.i y.v).recv
      change (passedFrom l y.i y.v).map Pass.f ++ _ = received (upto (insOf t e s r) n) y.i y.v at hrec
      have hpk := (hl.inv.inv.vc y.i y.v).pk
      change Packets _ _ _ (received (upto (insOf t e s r) n) y.i y.v) at hpk
      rw [← hrec, hfq] at hpk
      have hhead : f.head = true := by
        refine Fits.head_of_closed (head := Flit.head) (tail := Flit.tail) (key := Flit.pid) ?_ (packets_fits hpk)
        intro g hg
        rw [List.getLast?_map] at hg
        cases hgl : (passedFrom l y.i y.v).getLast? with
        | none => rw [hgl] at hg; cases hg
        | some x => rw [hgl] at hg; cases hg; exact hpre x hgl
      have hfm : f ∈ received (upto (insOf t e s r) n) y.i y.v := by rw [← hrec, hfq]; simp
      obtain ⟨g1, g2⟩ := offered_down w.wired w.ok w.allocs w.ticks z.guided z.ranked (show n ≤ N by omega) hr hi hfm hhead
      obtain ⟨x, hx, hroute⟩ := hro.src f (by rw [hfq]; rfl)
      obtain ⟨m, hm', rfl⟩ := Router.upto_mem.1 hx
      have hne : (((s n).r r).vcs y.i y.v).route ≠ [] := by rw [hroute]; exact g1 m hm'
      obtain ⟨p, ps, hps⟩ := List.exists_cons_of_ne_nil hne
      have hpm : p ∈ (((s n).r r).vcs y.i y.v).route := by rw [hps]; simp
      have hp := hro.hop p hpm
      have hoff := hro.may f (by rw [hfq]; rfl) p hpm p.vcStart (Nat.le_refl _) hp.2.1
      have hfall := g2 _ _ hoff
      by_cases hu : (((s n).r r).next p.port).inUse p.vcStart < 0
      · refine z.idle r hr (.inr (.inl ⟨y, hy, ?_⟩))
        have : (⟨y.i * b.vcs + y.v, p.port * b.vcs + p.vcStart, ⟨0, p.pri, 0⟩⟩ : Alloc.Ask) ∈
            Router.vaAsks (t.cfg b r) ((s n).r r) y.i y.v := by
          simp only [Router.vaAsks, List.mem_flatMap, List.mem_map, List.mem_filter]
          exact ⟨p, hpm, p.vcStart, ⟨(Router.mem_outVcs hp.2.1).2 ⟨Nat.le_refl _, hp.2.1⟩,
            by simpa [BufState.isAvailableFor] using hu⟩, rfl⟩
        intro h0
        rw [h0] at this
        cases this
      · obtain ⟨i', v', _, _, _, hst', hout'⟩ := (hl.inv.inv.out p.port p.vcStart).own (by omega)
        obtain ⟨r2, i2, hr2, he, hne2⟩ := next r i' v' _ _ hr hst' hout'
        rw [← he] at hfall
        exact hne2 (ih (rank (t.inLink r2 i2) p.vcStart) (by omega) r2 i2 p.vcStart hr2 (Nat.le_refl _))

end Stuck

/-- In a sufficiently long window there is a tick at which no router can make a step. -/
theorem Window.stuck {D K a T : Nat} (w : Window VA SA t b va sa N D K a T e s)
    (hT : 3 * K + D + 2 * slots t b + 6 ≤ T) :
    ∃ n, a + 3 * K + D + 4 ≤ n ∧ n < a + T ∧ ∀ r < t.size, ¬ Ready (t.cfg b r) ((s n).r r) := by
  have hstop := w.stop
  by_contra hc
  have hready : ∀ n, a + 3 * K + D + 4 ≤ n → n < a + T → ∃ r < t.size, Ready (t.cfg b r) ((s n).r r) := by
    intro n h1 h2
    by_contra hn
    refine hc ⟨n, h1, h2, fun r hr h3 => hn ⟨r, hr, h3⟩⟩
  have hstep : ∀ n, a + 3 * K + D + 4 ≤ n → n + 1 < a + T → ∀ r < t.size,
      load (t.cfg b r) ((s (n + 1)).r r) ≤ load (t.cfg b r) ((s n).r r) ∧
      (Ready (t.cfg b r) ((s n).r r) → load (t.cfg b r) ((s (n + 1)).r r) < load (t.cfg b r) ((s n).r r)) := by
    intro n h1 h2 r hr
    have := Router.live_step (Cfg_ok w.ok t r) (w.serves hr).1 (w.serves hr).2
      (routerTicks w.wired w.ok w.allocs w.ticks hr) (n := n) (by omega) (by
        intro i
        simp only [insOf, seen]
        split
        · rename_i hi
          exact w.fOut (w.wired.inLt r hr i hi) (by omega) (by omega)
        · rfl)
    exact ⟨by have := this.1; omega, this.2.1⟩
  have hsum : ∀ d, a + 3 * K + D + 4 + d < a + T →
      ∑ r ∈ Finset.range t.size, load (t.cfg b r) ((s (a + 3 * K + D + 4 + d)).r r) + d ≤
      ∑ r ∈ Finset.range t.size, load (t.cfg b r) ((s (a + 3 * K + D + 4)).r r) := by
    intro d
    induction d with
    | zero => intro _; simp
    | succ d ih =>
      intro hd
      have h1 := ih (by omega)
      obtain ⟨r, hr, hrd⟩ := hready (a + 3 * K + D + 4 + d) (by omega) (by omega)
      have h2 : ∑ r ∈ Finset.range t.size, load (t.cfg b r) ((s (a + 3 * K + D + 4 + d + 1)).r r) <
          ∑ r ∈ Finset.range t.size, load (t.cfg b r) ((s (a + 3 * K + D + 4 + d)).r r) := by
        refine Finset.sum_lt_sum (fun r hr => (hstep _ (by omega) (by omega) r (Finset.mem_range.1 hr)).1) ⟨r, Finset.mem_range.2 hr, ?_⟩
        exact (hstep _ (by omega) (by omega) r hr).2 hrd
      rw [← Nat.add_assoc]
      push_cast
      omega
  have h1 := hsum (2 * slots t b + 1) (by omega)
  have h2 : ∑ r ∈ Finset.range t.size, load (t.cfg b r) ((s (a + 3 * K + D + 4)).r r) ≤
      ∑ r ∈ Finset.range t.size, (load (t.cfg b r) ((s (a + 3 * K + D + 4 + (2 * slots t b + 1))).r r) +
        2 * ((t.inputs r * b.vcs : Nat) : Int)) := by
    refine Finset.sum_le_sum fun r hr => ?_
    rw [Finset.mem_range] at hr
    unfold load
    rw [w.xbQ hr (by omega) (by omega), w.xbQ hr (by omega) (by omega)]
    have := Router.work_close (c := t.cfg b r) (vcs := ((s (a + 3 * K + D + 4)).r r).vcs)
      (vcs' := ((s (a + 3 * K + D + 4 + (2 * slots t b + 1))).r r).vcs) (by
        intro i v
        obtain ⟨l, hl⟩ := w.live (n := a + 3 * K + D + 4) (by omega) hr
        obtain ⟨l', hl'⟩ := w.live (n := a + 3 * K + D + 4 + (2 * slots t b + 1)) (by omega) hr
        by_cases hiv : i < t.inputs r ∧ v < b.vcs
        · have k1 := congrArg List.length (hl.inv.inv.vc i v).recv
          have k2 := congrArg List.length (hl'.inv.inv.vc i v).recv
          change _ = (received (upto (insOf t e s r) _) i v).length at k1
          change _ = (received (upto (insOf t e s r) _) i v).length at k2
          rw [w.recv_eq hr (by omega) (by omega) hiv.1, List.length_append, List.length_map] at k1 k2
          have m1 := (Router.explains_of hl.inv).credited i v
          have m2 := (Router.explains_of hl'.inv).credited i v
          rw [w.returned_const hr (by omega) (by omega) hiv.1 hiv.2] at m1 m2
          change (passedFrom l i v).length + _ = _ at k1
          change (passedFrom l' i v).length + _ = _ at k2
          omega
        · have z1 : (((s (a + 3 * K + D + 4)).r r).vcs i v).q = [] := by
            refine ((hl.inv.inv.vc i v).idle ?_).1
            by_contra hne
            exact hiv ((hl.inv.inv.vc i v).range hne)
          have z2 : (((s (a + 3 * K + D + 4 + (2 * slots t b + 1))).r r).vcs i v).q = [] := by
            refine ((hl'.inv.inv.vc i v).idle ?_).1
            by_contra hne
            exact hiv ((hl'.inv.inv.vc i v).range hne)
          rw [z1, z2])
    change Router.work _ _ ≤ _ + 2 * ((t.inputs r * b.vcs : Nat) : Int) at this
    simp only [List.length_nil]
    omega
  rw [Finset.sum_add_distrib, ← Finset.mul_sum] at h2
  have h3 : (∑ r ∈ Finset.range t.size, ((t.inputs r * b.vcs : Nat) : Int)) = (slots t b : Int) := by
    unfold slots
    rw [Nat.cast_sum]
  rw [h3] at h2
  push_cast at h1
  omega

/-- Then everything has been delivered. -/
theorem Stuck.delivered {D K a T n : Nat} (z : Stuck VA SA t b va sa N D K a T n e s may rank R) (hend : Ended t e s n)
    (P : List (Bool × Bool × Int × δ) → Bool) : leaving t b s (n + 1) P = entering t b e n P := by
  have w := z.win
  have h1 := w.stop
  have h2 := z.hi
  have h3 := z.lo
  have e1 := sum_driven w.wired fun l => ∑ v ∈ Finset.range b.vcs, (packetsOf (entered s l a) v).countP P
  have e2 := sum_read w.wired fun l => ∑ v ∈ Finset.range b.vcs, (packetsOf (entered s l a) v).countP P
  have k1 : ∑ r ∈ Finset.range t.size, ∑ o ∈ Finset.range (t.outputs r), ∑ v ∈ Finset.range b.vcs,
      (packetsOf (entered s (t.outLink r o) a) v).countP P =
      ∑ r ∈ Finset.range t.size, ∑ i ∈ Finset.range (t.inputs r), ∑ v ∈ Finset.range b.vcs,
      (packetsOf (entered s (t.inLink r i) a) v).countP P := by
    refine Finset.sum_congr rfl fun r hr => ?_
    rw [Finset.mem_range] at hr
    obtain ⟨l, hl⟩ := z.live hr
    have hpk := passed_packets (Router.explains_of hl.inv).tidy hl.inv.inv.port.logOk P
    refine Eq.trans ?_ (hpk.trans ?_)
    · refine Finset.sum_congr rfl fun o ho => Finset.sum_congr rfl fun v _ => ?_
      have ho : o < t.outputs r := Finset.mem_range.1 ho
      have := w.passed_len hr (by omega) h2 hl ho v
      change _ = (bodies ((passedTo l o v).map Pass.flit)).countP P
      rw [this]
      rfl
    · refine Finset.sum_congr rfl fun i hi => Finset.sum_congr rfl fun v _ => ?_
      have hi : i < t.inputs r := Finset.mem_range.1 hi
      have hrec := (hl.inv.inv.vc i v).recv
      rw [z.empty hend _ r i v hr (Nat.le_refl _), List.append_nil] at hrec
      change (passedFrom l i v).map Pass.f = received (upto (insOf t e s r) n) i v at hrec
      rw [w.recv_eq hr (by omega) h2 hi] at hrec
      change (bodies ((passedFrom l i v).map Pass.f)).countP P = _
      rw [hrec]
      rfl
  have k2 : leaving t b s (n + 1) P = ∑ l ∈ (Finset.range t.links).filter t.Sink,
      ∑ v ∈ Finset.range b.vcs, (packetsOf (entered s l a) v).countP P := by
    refine Finset.sum_congr rfl fun l hl => Finset.sum_congr rfl fun v _ => ?_
    rw [Finset.mem_filter] at hl
    rw [w.arrived hl.2.1 (by omega) (by omega), w.entered_const hl.2.1 (by omega) (by omega)]
  have k3 : entering t b e n P = ∑ l ∈ (Finset.range t.links).filter t.Source,
      ∑ v ∈ Finset.range b.vcs, (packetsOf (entered s l a) v).countP P := by
    refine Finset.sum_congr rfl fun l hl => Finset.sum_congr rfl fun v _ => ?_
    rw [Finset.mem_filter] at hl
    rw [← w.entered_const hl.2.1 (n := n) (by omega) (by omega), w.ticks.entered_source (by omega) hl.2]
  omega

/-- The network drains. -/
theorem drained (ht : t.Wired) (hb : b.Ok) (ho : b.outSize ≠ 0) (ha : Allocs VA SA t b va sa) (hgr : Grants VA SA t b va sa)
    (h : Ticks VA SA t b va sa N e s) (hg : Guided t N e may) (hk : Ranked t b N e may rank R) {n₀ D K : Nat}
    (hd : Drains t b N n₀ D K e s)
    (hN : n₀ + (R * flitsIn t e n₀ + 1) * (3 * K + D + 2 * slots t b + 6) ≤ N)
    (P : List (Bool × Bool × Int × δ) → Bool) : leaving t b s (N + 1) P = entering t b e N P := by
  have hn : n₀ ≤ N := Nat.le_trans (Nat.le_add_right _ _) hN
  have hf : flitsIn t e N = flitsIn t e n₀ := by
    refine Finset.sum_congr rfl fun l hl => ?_
    rw [Finset.mem_filter] at hl
    rw [injected_const hd hn (Nat.le_refl _) hl.2]
  have hB := hops_le ht hb ha h hg hk (Nat.le_refl N)
  rw [hf] at hB
  obtain ⟨a, h1, h2, h3⟩ := stands_still (fun n m hnm _ => hops_mono t s hnm) hB hN
  have w0 : Still VA SA t b va sa N K a (3 * K + D + 2 * slots t b + 6) e s :=
    ⟨ht, hb, ha, hgr, h, h2, h3, fun n h4 h5 => hd.quiet n (by omega) (by omega), hd.time⟩
  have w : Window VA SA t b va sa N D K a (3 * K + D + 2 * slots t b + 6) e s := by
    refine ⟨w0, fun m h4 h5 l hs => ?_, fun m h4 h5 l hs v => ?_⟩
    · cases hc : (e m).credit l with
      | none => rfl
      | some c =>
        have hne : c ≠ [] := fun h0 => hd.credit m (by omega) l hs (by rw [hc, h0])
        obtain ⟨v, c', hv⟩ := List.exists_cons_of_ne_nil hne
        have h6 := w0.credited_all hd h1 hs (n := m) (by omega) (by omega) v
        have h7 := w0.credited_all hd h1 hs (n := m + 1) (by omega) (by omega) v
        unfold credited at h6 h7
        rw [filterMap_snoc, List.flatten_append, List.count_append, h6, hc, hv] at h7
        simp at h7
    · have h6 := w0.credited_all hd h1 hs (n := m) (by omega) (by omega) v
      have := hb.buf.perVc_pos
      omega
  obtain ⟨n, h4, h5, h6⟩ := w.stuck (Nat.le_refl _)
  have z : Stuck VA SA t b va sa N D K a (3 * K + D + 2 * slots t b + 6) n e s may rank R := ⟨w, ho, hg, hk, h4, h5, h6⟩
  have hend : Ended t e s n := by
    intro r hr i hi hs v _ f hf
    rw [injected_const hd (by omega) (by omega) hs] at hf
    exact hd.whole _ hs v f hf
  have h7 := z.delivered hend P
  have h8 : entering t b e n P = entering t b e N P := by
    refine Finset.sum_congr rfl fun l hl => Finset.sum_congr rfl fun v _ => ?_
    rw [Finset.mem_filter] at hl
    rw [injected_const hd hn (Nat.le_refl _) hl.2, injected_const hd (by omega) (by omega) hl.2]
  have h9 : leaving t b s (n + 1) P ≤ leaving t b s (N + 1) P := by
    refine Finset.sum_le_sum fun l hl => Finset.sum_le_sum fun v _ => packetsOf_le ?_ v P
    have hnN : n + 1 ≤ N + 1 := by omega
    obtain ⟨d, hd'⟩ := Nat.exists_eq_add_of_le hnN
    rw [hd']
    clear hd'
    induction d with
    | zero => exact List.prefix_refl _
    | succ d ih =>
      refine ih.trans ?_
      rw [← Nat.add_assoc, flitsAt_succ]
      exact List.prefix_append _ _
  have h10 := leaving_le ht hb ha h P
  omega

end run

end Net
end RadSim
