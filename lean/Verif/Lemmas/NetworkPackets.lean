import Verif.Lemmas.Network
import Verif.Lemmas.RouterPackets
import Mathlib.Algebra.BigOperators.Group.Finset.Sigma

/-! # A network passes packets on as a whole -/

namespace RadSim

namespace Router

variable {δ σ τ ρ ρ' : Type} {VA : Alloc.Cls σ ρ} {SA : Alloc.Cls τ ρ'} {c : Cfg} {va : σ} {sa : τ}
  {ins : List (In δ ρ ρ')} {outs : List (Out δ)} {s : R δ σ τ} {l : List (Pass δ)}

theorem Explains.tidy (h : Explains ins outs l) : Tidy l := ⟨h.together, h.unmixed⟩

theorem to_filter (l : List (Pass δ)) (o u : Nat) :
    ((l.filter fun e => e.o = o).map Pass.flit).filter (fun f => f.vc = u) = (passedTo l o u).map Pass.flit := by
  unfold passedTo
  rw [List.filter_map, List.filter_filter]
  congr 2
  funext e
  by_cases h4 : e.o = o <;> by_cases h5 : e.u = u <;> simp [h4, h5, Pass.flit]

theorem Explains.to_vc (h : Explains ins outs l) (o u : Nat) :
    (sent outs o).filter (fun f => f.vc = u) <+: (passedTo l o u).map Pass.flit := by
  rw [← to_filter]
  exact (h.to_output o).filter _

/-- The state after a run, with the explanation. -/
theorem run_log {k : Bool} (hc : c.Ok) (hva : Serves k VA (c.inputs * c.vcs) (c.outputs * c.vcs) va)
    (hsa : Serves k SA c.inputs c.outputs sa) (h : Run VA SA c va sa ins outs s) :
    ∃ l, Explains ins outs l ∧ ∀ e ∈ l, (e.i < c.inputs ∧ e.v < c.vcs) ∧ e.o < c.outputs ∧ e.u < c.vcs := by
  obtain ⟨l, hl⟩ := run_inv hc hva hsa h
  exact ⟨l, explains_of hl, hl.inv.port.logOk⟩

end Router

namespace Net

open Router (R In Out Flit Hop Cfg upto received sent granted returned sentOn Pass passedFrom passedTo Explains)
open Alloc (Holds Valid asked)

variable {δ σ τ ρ ρ' : Type}

/-- The complete packets without the parts that change. -/
def bodies (l : List (Flit δ)) : List (List (Bool × Bool × Int × δ)) := (whole Flit.tail l).map (List.map body)

theorem bodies_prefix {l l' : List (Flit δ)} (h : l <+: l') : bodies l <+: bodies l' := by
  obtain ⟨w, hw⟩ := whole_prefix (tail := Flit.tail) h
  exact ⟨w.map _, by unfold bodies; rw [← hw, List.map_append]⟩

theorem countP_prefix {α : Type} {l l' : List α} (h : l <+: l') (P : α → Bool) : l.countP P ≤ l'.countP P :=
  h.sublist.countP_le

theorem bodies_flit (l : List (Pass δ)) :
    bodies (l.map Pass.flit) = (whole Router.ptail l).map (List.map fun e => body e.f) := by
  unfold bodies
  rw [whole_map, List.map_map]
  congr 1
  funext x
  simp only [Function.comp, List.map_map]
  rfl

theorem bodies_f (l : List (Pass δ)) : bodies (l.map Pass.f) = (whole Router.ptail l).map (List.map fun e => body e.f) := by
  unfold bodies
  rw [whole_map, List.map_map]
  congr 1
  funext x
  simp only [Function.comp, List.map_map]
  rfl

/-- The packets passed by a router. -/
theorem passed_packets {l : List (Pass δ)} (h : Router.Tidy l) {I O V : Nat}
    (hr : ∀ e ∈ l, (e.i < I ∧ e.v < V) ∧ e.o < O ∧ e.u < V) (P : List (Bool × Bool × Int × δ) → Bool) :
    ∑ o ∈ Finset.range O, ∑ u ∈ Finset.range V, (bodies ((passedTo l o u).map Pass.flit)).countP P =
      ∑ i ∈ Finset.range I, ∑ v ∈ Finset.range V, (bodies ((passedFrom l i v).map Pass.f)).countP P := by
  simp only [bodies_flit, bodies_f, List.countP_map]
  exact h.packets hr _

theorem router_packets {ins : List (In δ ρ ρ')} {outs : List (Out δ)} {l : List (Pass δ)} (h : Explains ins outs l)
    {I O V : Nat} (hr : ∀ e ∈ l, (e.i < I ∧ e.v < V) ∧ e.o < O ∧ e.u < V) (P : List (Bool × Bool × Int × δ) → Bool) :
    ∑ o ∈ Finset.range O, ∑ u ∈ Finset.range V, (bodies (onVc (sent outs o) u)).countP P ≤
      ∑ i ∈ Finset.range I, ∑ v ∈ Finset.range V, (bodies (received ins i v)).countP P := by
  calc _ ≤ ∑ o ∈ Finset.range O, ∑ u ∈ Finset.range V, (bodies ((passedTo l o u).map Pass.flit)).countP P :=
        Finset.sum_le_sum fun o _ => Finset.sum_le_sum fun u _ => countP_prefix (bodies_prefix (h.to_vc o u)) P
    _ = _ := passed_packets h.tidy hr P
    _ ≤ _ := Finset.sum_le_sum fun i _ => Finset.sum_le_sum fun v _ => countP_prefix (bodies_prefix (h.from_input i v)) P

/-! ## Sums over links -/

theorem sum_driven {t : Topo} (ht : t.Wired) (F : Nat → Nat) :
    ∑ l ∈ Finset.range t.links, F l = (∑ l ∈ (Finset.range t.links).filter t.Source, F l) +
      ∑ r ∈ Finset.range t.size, ∑ o ∈ Finset.range (t.outputs r), F (t.outLink r o) := by
  rw [← Finset.sum_filter_add_sum_filter_not (Finset.range t.links) t.Source F]
  congr 1
  have : (Finset.range t.links).filter (fun l => ¬ t.Source l) =
      ((Finset.range t.size).sigma fun r => Finset.range (t.outputs r)).image fun x => t.outLink x.1 x.2 := by
    ext l
    simp only [Finset.mem_filter, Finset.mem_range, Finset.mem_image, Finset.mem_sigma, Topo.Source, not_and, not_forall]
    constructor
    · rintro ⟨h1, h2⟩
      obtain ⟨r, hr, o, ho, h⟩ := h2 h1
      exact ⟨⟨r, o⟩, ⟨hr, ho⟩, by simpa using h⟩
    · rintro ⟨⟨r, o⟩, ⟨hr, ho⟩, rfl⟩
      exact ⟨ht.outLt r hr o ho, fun _ => ⟨r, hr, o, ho, by simp⟩⟩
  rw [this, Finset.sum_image, Finset.sum_sigma]
  rintro ⟨r, o⟩ h ⟨r', o'⟩ h' he
  simp only [Finset.coe_sigma, Set.mem_sigma_iff, Finset.mem_coe, Finset.mem_range] at h h'
  obtain ⟨rfl, rfl⟩ := ht.outInj r h.1 o h.2 r' h'.1 o' h'.2 he
  rfl

theorem sum_read {t : Topo} (ht : t.Wired) (F : Nat → Nat) :
    ∑ l ∈ Finset.range t.links, F l = (∑ l ∈ (Finset.range t.links).filter t.Sink, F l) +
      ∑ r ∈ Finset.range t.size, ∑ i ∈ Finset.range (t.inputs r), F (t.inLink r i) := by
  rw [← Finset.sum_filter_add_sum_filter_not (Finset.range t.links) t.Sink F]
  congr 1
  have : (Finset.range t.links).filter (fun l => ¬ t.Sink l) =
      ((Finset.range t.size).sigma fun r => Finset.range (t.inputs r)).image fun x => t.inLink x.1 x.2 := by
    ext l
    simp only [Finset.mem_filter, Finset.mem_range, Finset.mem_image, Finset.mem_sigma, Topo.Sink, not_and, not_forall]
    constructor
    · rintro ⟨h1, h2⟩
      obtain ⟨r, hr, o, ho, h⟩ := h2 h1
      exact ⟨⟨r, o⟩, ⟨hr, ho⟩, by simpa using h⟩
    · rintro ⟨⟨r, o⟩, ⟨hr, ho⟩, rfl⟩
      exact ⟨ht.inLt r hr o ho, fun _ => ⟨r, hr, o, ho, by simp⟩⟩
  rw [this, Finset.sum_image, Finset.sum_sigma]
  rintro ⟨r, o⟩ h ⟨r', o'⟩ h' he
  simp only [Finset.coe_sigma, Set.mem_sigma_iff, Finset.mem_coe, Finset.mem_range] at h h'
  obtain ⟨rfl, rfl⟩ := ht.inInj r h.1 o h.2 r' h'.1 o' h'.2 he
  rfl

section run
variable {VA : Alloc.Cls σ ρ} {SA : Alloc.Cls τ ρ'} {t : Topo} {b : Cfg} {va : Nat → σ} {sa : Nat → τ} {N : Nat}
  {e : Nat → Env δ ρ ρ'} {s : Nat → S δ σ τ}

/-- Every router has an explanation. -/
theorem router_log (ht : t.Wired) (hb : b.Ok) (ha : Allocs VA SA t b va sa) (h : Ticks VA SA t b va sa N e s) {n : Nat}
    (hn : n ≤ N) {r : Nat} (hr : r < t.size) :
    ∃ l, Explains (upto (insOf t e s r) n) (upto (outOf VA SA t b e s r) n) l ∧
      ∀ e ∈ l, (e.i < t.inputs r ∧ e.v < b.vcs) ∧ e.o < t.outputs r ∧ e.u < b.vcs :=
  Router.run_log (Cfg_ok hb t r) (Router.serves_false (ha.va r hr)) (Router.serves_false' (ha.sa r hr)) (runs ht hb ha h n hn r hr)

/-- The packets on the links of a router. -/
theorem router_links (ht : t.Wired) (hb : b.Ok) (ha : Allocs VA SA t b va sa) (h : Ticks VA SA t b va sa N e s) {n : Nat}
    (hn : n ≤ N) {r : Nat} (hr : r < t.size) (P : List (Bool × Bool × Int × δ) → Bool) :
    ∑ o ∈ Finset.range (t.outputs r), ∑ v ∈ Finset.range b.vcs, (packetsOf (entered s (t.outLink r o) n) v).countP P ≤
      ∑ i ∈ Finset.range (t.inputs r), ∑ v ∈ Finset.range b.vcs, (packetsOf (flitsAt s (t.inLink r i) n) v).countP P := by
  obtain ⟨l, h1, h2⟩ := router_log ht hb ha h hn hr
  have := router_packets h1 h2 P
  refine Nat.le_trans (Nat.le_of_eq ?_) (Nat.le_trans this (Nat.le_of_eq ?_))
  · refine Finset.sum_congr rfl fun o ho => Finset.sum_congr rfl fun v _ => ?_
    rw [Finset.mem_range] at ho
    rw [h.entered_driven hn (ht.outLt r hr o ho) (driver_out ht hr ho)]
    rfl
  · refine Finset.sum_congr rfl fun i hi => Finset.sum_congr rfl fun v _ => ?_
    rw [Finset.mem_range] at hi
    rw [received_eq hi]
    rfl

theorem packetsOf_le {a c : List (Flit δ)} (h : a <+: c) (v : Nat) (P : List (Bool × Bool × Int × δ) → Bool) :
    (packetsOf a v).countP P ≤ (packetsOf c v).countP P :=
  countP_prefix (bodies_prefix (h.filter _)) P

/-- The packets that leave are packets that have entered. -/
theorem leaving_le (ht : t.Wired) (hb : b.Ok) (ha : Allocs VA SA t b va sa) (h : Ticks VA SA t b va sa N e s)
    (P : List (Bool × Bool × Int × δ) → Bool) : leaving t b s (N + 1) P ≤ entering t b e N P := by
  have e1 := sum_driven ht fun l => ∑ v ∈ Finset.range b.vcs, (packetsOf (entered s l N) v).countP P
  have e2 := sum_read ht fun l => ∑ v ∈ Finset.range b.vcs, (packetsOf (entered s l N) v).countP P
  have h1 : ∑ r ∈ Finset.range t.size, ∑ o ∈ Finset.range (t.outputs r), ∑ v ∈ Finset.range b.vcs,
      (packetsOf (entered s (t.outLink r o) N) v).countP P ≤
      ∑ r ∈ Finset.range t.size, ∑ i ∈ Finset.range (t.inputs r), ∑ v ∈ Finset.range b.vcs,
      (packetsOf (entered s (t.inLink r i) N) v).countP P := by
    refine Finset.sum_le_sum fun r hr => ?_
    rw [Finset.mem_range] at hr
    refine Nat.le_trans (router_links ht hb ha h (Nat.le_refl _) hr P) ?_
    refine Finset.sum_le_sum fun i hi => Finset.sum_le_sum fun v _ => ?_
    rw [Finset.mem_range] at hi
    refine packetsOf_le (List.IsPrefix.trans ?_ (flitsAt_prefix h (Nat.le_refl _) (ht.inLt r hr i hi))) v P
    rw [flitsAt_succ]
    exact List.prefix_append _ _
  have h2 : leaving t b s (N + 1) P ≤ ∑ l ∈ (Finset.range t.links).filter t.Sink,
      ∑ v ∈ Finset.range b.vcs, (packetsOf (entered s l N) v).countP P := by
    refine Finset.sum_le_sum fun l hl => Finset.sum_le_sum fun v _ => ?_
    rw [Finset.mem_filter] at hl
    exact packetsOf_le (flitsAt_prefix h (Nat.le_refl _) hl.2.1) v P
  have h3 : entering t b e N P = ∑ l ∈ (Finset.range t.links).filter t.Source,
      ∑ v ∈ Finset.range b.vcs, (packetsOf (entered s l N) v).countP P := by
    refine Finset.sum_congr rfl fun l hl => Finset.sum_congr rfl fun v _ => ?_
    rw [Finset.mem_filter] at hl
    rw [h.entered_source (Nat.le_refl _) hl.2]
  omega

/-! ## Where flits go -/

theorem mem_onVc {l : List (Flit δ)} {v : Nat} {f : Flit δ} : f ∈ onVc l v ↔ f ∈ l ∧ f.vc = v := by
  simp [onVc]

/-- Heads are only where they may be. -/
theorem heads_guided (ht : t.Wired) (hb : b.Ok) (ha : Allocs VA SA t b va sa) (h : Ticks VA SA t b va sa N e s)
    {may : Nat → Flit δ → Prop} (hg : Guided t N e may) :
    ∀ n ≤ N, ∀ l < t.links, ∀ f ∈ entered s l n, f.head = true → may l f := by
  intro n
  induction n with
  | zero =>
    intro _ l _ f hf
    simp [entered, upto, h.start, S.init] at hf
  | succ n ih =>
    intro hn l hl f hf hh
    cases hd : t.driver l with
    | none =>
      have hs := (driver_none hl).1 hd
      rw [h.entered_source hn hs] at hf
      refine hg.enter l hs f ?_ hh
      unfold injected at hf ⊢
      obtain ⟨x, hx, hxf⟩ := List.mem_filterMap.1 hf
      obtain ⟨m, hm, rfl⟩ := Router.upto_mem.1 hx
      exact List.mem_filterMap.2 ⟨e m, Router.upto_mem.2 ⟨m, by omega, rfl⟩, hxf⟩
    | some x =>
      obtain ⟨r, o⟩ := x
      obtain ⟨h1, h2, rfl⟩ := driver_some hd
      rw [h.entered_driven hn hl hd] at hf
      obtain ⟨L, hL, hr⟩ := router_log ht hb ha h hn h1
      obtain ⟨p, hp, rfl⟩ := List.mem_map.1 ((hL.to_output o).subset hf)
      simp only [List.mem_filter, decide_eq_true_eq] at hp
      obtain ⟨hp, rfl⟩ := hp
      obtain ⟨x, hx, q, hq, hq1, hq2, hq3⟩ := hL.routed p hp hh
      obtain ⟨m, hm, rfl⟩ := Router.upto_mem.1 hx
      have hi := (hr p hp).1.1
      have hrec : p.f ∈ received (upto (insOf t e s r) (n + 1)) p.i p.v :=
        (hL.from_input p.i p.v).subset (List.mem_map.2 ⟨p, by simp [passedFrom, hp], rfl⟩)
      rw [received_eq hi, mem_onVc] at hrec
      have hli := ht.inLt r h1 p.i hi
      have hm1 := ih (by omega) _ hli p.f ((flitsAt_prefix h (by omega) hli).subset hrec.1) hh
      have := hg.hop m (by omega) r h1 p.i hi p.f hh hm1 q hq p.u hq2 hq3
      rw [hq1] at this
      exact this

/-- What is common to the flits of a packet at the sources is common to them on all links. -/
theorem keyed (ht : t.Wired) (hb : b.Ok) (ha : Allocs VA SA t b va sa) (h : Ticks VA SA t b va sa N e s)
    {κ : Type} {key : δ → κ}
    (hk : ∀ l, t.Source l → ∀ v, Packets Flit.head Flit.tail (fun f => key f.data) (onVc (injected e l N) v)) :
    ∀ n ≤ N, ∀ l < t.links, ∀ v, Packets Flit.head Flit.tail (fun f => key f.data) (onVc (entered s l n) v) := by
  intro n
  induction n with
  | zero =>
    intro _ l _ v
    have : entered s l 0 = [] := by simp [entered, upto, h.start, S.init]
    rw [this]
    exact packets_nil
  | succ n ih =>
    intro hn l hl v
    cases hd : t.driver l with
    | none =>
      have hs := (driver_none hl).1 hd
      rw [h.entered_source hn hs]
      have hpre : injected e l (n + 1) <+: injected e l N := by
        obtain ⟨d, rfl⟩ := Nat.exists_eq_add_of_le hn
        clear hn h ih hk
        induction d with
        | zero => exact List.prefix_refl _
        | succ d ih =>
          refine ih.trans ?_
          unfold injected
          rw [show n + 1 + (d + 1) = n + 1 + d + 1 by omega, filterMap_snoc]
          exact List.prefix_append _ _
      obtain ⟨z, hz⟩ := hpre.filter (fun f => decide (f.vc = v))
      have := hk l hs v
      unfold onVc at this ⊢
      rw [← hz] at this
      exact packets_prefix this
    | some x =>
      obtain ⟨r, o⟩ := x
      obtain ⟨h1, h2, rfl⟩ := driver_some hd
      rw [h.entered_driven hn hl hd]
      obtain ⟨L, hL, hr⟩ := router_log ht hb ha h hn h1
      have hfrom : ∀ i v, Router.PassPk (fun e => key e.f.data) (passedFrom L i v) := by
        intro i v
        obtain ⟨z, hz⟩ := hL.from_input i v
        have hpk : Packets Flit.head Flit.tail (fun f => key f.data) ((passedFrom L i v).map Pass.f) := by
          refine packets_prefix (r := z) ?_
          rw [hz]
          by_cases hi : i < t.inputs r
          · rw [received_eq hi]
            have hli := ht.inLt r h1 i hi
            obtain ⟨z, hz⟩ := (flitsAt_prefix h (show n ≤ N by omega) hli).filter (fun f => decide (f.vc = v))
            have := ih (by omega) _ hli v
            unfold onVc at this ⊢
            rw [← hz] at this
            exact packets_prefix this
          · rw [received_none hi]; exact packets_nil
        refine ⟨?_, ?_⟩
        · intro a ha
          refine hpk.1 a.f ?_
          rw [List.head?_map, ha]; rfl
        · have := hpk.2
          rw [List.isChain_map] at this
          exact this
      have hto := hL.tidy.keyed hfrom o v
      obtain ⟨z, hz⟩ := hL.to_vc o v
      unfold onVc
      refine packets_prefix (r := z) ?_
      rw [hz]
      refine ⟨?_, ?_⟩
      · intro a ha
        rw [List.head?_map] at ha
        cases hh : (passedTo L o v).head? with
        | none => rw [hh] at ha; cases ha
        | some p =>
          rw [hh] at ha
          cases ha
          exact hto.1 p hh
      · rw [List.isChain_map]
        exact hto.2.imp fun a b hab => ⟨hab.1, fun ht => (Prod.ext_iff.1 (hab.2 ht)).2⟩

end run
end Net
end RadSim
