import Verif.Lemmas.AximmPeriod
import Verif.Props.MmNocLive

/-! # What requester and responder are shown, from what has been handed over -/

namespace RadSim.Hello

open MmNoc
open MmSink (Beat)
open Net (Msg mesh Allocs)

variable {σ τ ρ ρ' : Type} {VA : Alloc.Cls σ ρ} {SA : Alloc.Cls τ ρ'} {d : Params} {rng : Nat → Nat × Nat} {r : Nat → Nat}
  {va : Nat → σ} {sa : Nat → τ} {n : Nat} {i : Nat → In ρ ρ'}

theorem Works.ne (hw : Works d rng r) : d.pNode ≠ d.qNode := by
  intro e
  have h1 := hw.q.2.1
  have h2 := hw.p.2.1
  rw [e, h1] at h2
  cases h2

/-! ## all of it comes from one node -/

theorem one_source {α β : Type} {f : α → β} {V w₀ : Nat} {src : List Nat} {l : List α} {g : Nat → List β}
    (hl : src.length = l.length) (hv : ∀ w ∈ src, w < V)
    (hp : ∀ w < V, (((src.zip l).filter fun y => y.1 = w).map (·.2)).map f <+: g w) (h0 : w₀ < V)
    (hn : ∀ w < V, w ≠ w₀ → g w = []) : l.map f <+: g w₀ := by
  have h := hp w₀ h0
  have e : (src.zip l).filter (fun y => y.1 = w₀) = src.zip l := by
    refine List.filter_eq_self.2 fun y hy => ?_
    have hm : y.1 < V := hv _ (List.of_mem_zip hy).1
    by_cases hne : y.1 = w₀
    · simpa using hne
    · have h1 := hp y.1 hm
      rw [hn _ hm hne] at h1
      have h2 := List.prefix_nil.1 h1
      rw [List.map_eq_nil_iff, List.map_eq_nil_iff] at h2
      have : y ∈ (src.zip l).filter fun z => z.1 = y.1 := List.mem_filter.2 ⟨hy, by simp⟩
      rw [h2] at this
      cases this
  rw [e, List.map_snd_zip (by omega)] at h
  exact h

theorem answered_types (l : List RspBeat) : ∀ y ∈ answered l, y.2.type = .r ∨ y.2.type = .b := by
  induction l with
  | nil => intro y hy; cases hy
  | cons b l ih =>
    intro y hy
    cases b with
    | r x =>
      rcases List.mem_cons.1 hy with rfl | hy
      · exact Or.inl rfl
      · exact ih y hy
    | b x =>
      rcases List.mem_cons.1 hy with rfl | hy
      · exact Or.inr rfl
      · exact ih y hy

theorem routed_types (l : List ReqBeat) : ∀ u, ∀ y ∈ routed u l, y.2.type = .ar ∨ y.2.type = .aw ∨ y.2.type = .w := by
  induction l with
  | nil => intro u y hy; cases hy
  | cons b l ih =>
    intro u y hy
    cases b with
    | ar x =>
      rcases List.mem_cons.1 hy with rfl | hy
      · exact Or.inl rfl
      · exact ih _ y hy
    | aw x =>
      rcases List.mem_cons.1 hy with rfl | hy
      · exact Or.inr (Or.inl rfl)
      · exact ih _ y hy
    | w x =>
      rcases List.mem_cons.1 hy with rfl | hy
      · exact Or.inr (Or.inr rfl)
      · exact ih _ y hy

theorem none_given_req (hw : Works d rng r) (x : MmNoc.Sys σ τ) {k : MmType} (hk : k = .ar ∨ k = .aw ∨ k = .w) {w : Nat}
    (h : w < d.noc.m.nodes) (hne : w ≠ d.qNode) : givenFor d.noc x w d.pNode k = [] := by
  unfold givenFor
  rw [List.map_eq_nil_iff, List.filter_eq_nil_iff]
  intro y hy
  by_cases hp : w = d.pNode
  · rw [hp, hw.p.2.1] at hy
    have := answered_types _ y hy
    rcases hk with rfl | rfl | rfl <;> rcases this with e | e <;> simp [e]
  · rw [hw.others w h hne hp] at hy
    cases hy

theorem none_given_rsp (hw : Works d rng r) (x : MmNoc.Sys σ τ) {k : MmType} (hk : k = .r ∨ k = .b) {w : Nat}
    (h : w < d.noc.m.nodes) (hne : w ≠ d.pNode) : givenFor d.noc x w d.qNode k = [] := by
  unfold givenFor
  rw [List.map_eq_nil_iff, List.filter_eq_nil_iff]
  intro y hy
  by_cases hp : w = d.qNode
  · rw [hp, hw.q.2.1] at hy
    have := routed_types _ _ y hy
    rcases hk with rfl | rfl <;> rcases this with e | e | e <;> simp [e]
  · rw [hw.others w h hp hne] at hy
    cases hy

/-! ## requests -/

/-- The requests have the addresses of lines of the trace. -/
def Addressed (p : Nat) : ReqBeat → Prop
  | .ar a => nodeOf a.addr = p
  | .aw a => nodeOf a.addr = p
  | .w _ => True

theorem routed_all {p : Nat} (l : List ReqBeat) : ∀ (o : Bool) (u : Nat), wOnlyOpen o l → (o = true → u = p) →
    (∀ b ∈ l, Addressed p b) → routed u l = l.map fun b => (p, Beat.req b) := by
  induction l with
  | nil => intro o u _ _ _; rfl
  | cons b l ih =>
    intro o u h hu ha
    have hb := ha b List.mem_cons_self
    have hl := fun y hy => ha y (List.mem_cons_of_mem b hy)
    cases b with
    | ar a =>
      simp only [routed, List.map_cons]
      rw [ih o u h hu hl]
      have e : nodeOf a.addr = p := hb
      rw [e]
    | aw a =>
      simp only [routed, List.map_cons]
      have e : nodeOf a.addr = p := hb
      rw [e, ih true p h (fun _ => rfl) hl]
    | w a =>
      simp only [routed, List.map_cons]
      rw [hu h.1, ih _ p h.2 (fun _ => rfl) hl]

theorem requests_mem {y : Plain} (h : y ∈ d.trace.flatMap (requests d)) : ∃ x ∈ d.trace, y = toAr d x ∨ y = toAw d x ∨ y = toW d x := by
  obtain ⟨x, hx, h⟩ := List.mem_flatMap.1 h
  refine ⟨x, hx, ?_⟩
  unfold requests at h
  split at h
  · simp only [List.mem_cons, List.not_mem_nil, or_false] at h
    exact Or.inr h
  · simp only [List.mem_cons, List.not_mem_nil, or_false] at h
    exact Or.inl h

theorem addressed (hw : Works d rng r) {l : List ReqBeat} (h : l.map plain <+: d.trace.flatMap (requests d)) :
    ∀ b ∈ l, Addressed d.pNode b := by
  intro b hb
  obtain ⟨x, hx, h1⟩ := requests_mem (h.subset (List.mem_map_of_mem hb))
  cases b with
  | ar a =>
    have : a.addr = d.pBase + x.addr := by
      rcases h1 with h1 | h1 | h1
      · injection h1
      · cases h1
      · cases h1
    show nodeOf a.addr = d.pNode
    rw [this]
    exact hw.addrs x hx
  | aw a =>
    have : a.addr = d.pBase + x.addr := by
      rcases h1 with h1 | h1 | h1
      · cases h1
      · injection h1
      · cases h1
    show nodeOf a.addr = d.pNode
    rw [this]
    exact hw.addrs x hx
  | w a => trivial

theorem plain_core (b : Beat) : beatPlain (core b) = beatPlain b := by
  rcases b with (_ | _ | _) | _ <;> rfl

theorem kind_type (k : MmType) (l : List Beat) :
    (l.filter fun b => b.type = k).filterMap beatPlain = (l.filterMap beatPlain).filter (kindOf · = k) := by
  induction l with
  | nil => rfl
  | cons b l ih =>
    have hcase : (∃ q, b = .req q) ∨ ∃ q, b = .rsp q := by cases b <;> simp
    rcases hcase with ⟨q, rfl⟩ | ⟨q, rfl⟩
    · have e : (Beat.req q).type = kindOf (plain q) := by cases q <;> rfl
      rw [List.filter_cons, List.filterMap_cons]
      simp only [beatPlain]
      rw [List.filter_cons]
      by_cases hk : kindOf (plain q) = k
      · rw [if_pos (by simpa [e] using hk), if_pos (by simpa using hk), List.filterMap_cons]
        simp only [beatPlain]
        rw [← ih]
      · rw [if_neg (by simpa [e] using hk), if_neg (by simpa using hk)]
        exact ih
    · rw [List.filter_cons, List.filterMap_cons]
      simp only [beatPlain]
      split
      · rw [List.filterMap_cons]
        simp only [beatPlain]
        exact ih
      · exact ih

theorem filterMap_core {β : Type} {f : Beat → Option β} (hf : ∀ b, f (core b) = f b) (l : List Beat) :
    (l.map core).filterMap f = l.filterMap f := by
  rw [List.filterMap_map]
  congr 1
  funext b
  exact hf b

/-- What the responder is shown. -/
theorem shown_requests (hw : Works d rng r) (ha : Allocs VA SA (mesh d.noc.m) d.noc.b va sa) (hr : Runs d.noc r n i)
    {x : MmNoc.Sys σ τ} (hx : after VA SA d.noc va sa i n = .ok x)
    (hq : (x.ad d.qNode).reqs.map plain <+: d.trace.flatMap (requests d)) (ho : wOnlyOpen false (x.ad d.qNode).reqs) :
    (∀ y ∈ (x.ad d.pNode).hist.shown, ∃ b, y.1 = .req b) ∧ ∀ k,
      ((x.ad d.pNode).hist.shown.filterMap (beatPlain ·.1)).filter (kindOf · = k) <+:
        ((x.ad d.qNode).reqs.map plain).filter (kindOf · = k) := by
  obtain ⟨h1, h2⟩ := C109_in_order_partial hw.setup ha hr hx hw.p.1
  rw [hw.p.2.1] at h1 h2
  refine ⟨fun y hy => ?_, fun k => ?_⟩
  · have := h1 y hy
    obtain ⟨b, f⟩ := y
    cases b with
    | req b => exact ⟨b, rfl⟩
    | rsp b => cases b <;> simp [shows, MmSink.Beat.type] at this
  · by_cases hk : k = .ar ∨ k = .aw ∨ k = .w
    · obtain ⟨src, s1, s2, s3⟩ := h2 k (by rcases hk with rfl | rfl | rfl <;> simp [shows])
      have h3 := one_source s1 s2 s3 hw.q.1 (fun w hwv hne => by rw [none_given_req hw x hk hwv hne]; rfl)
      have h4 := h3.filterMap beatPlain
      rw [filterMap_core plain_core, filterMap_core plain_core] at h4
      unfold shownAt givenFor at h4
      rw [kind_type, hw.q.2.1] at h4
      simp only [given] at h4
      rw [routed_all (p := d.pNode) _ false 0 ho (by intro e; cases e) (addressed hw hq)] at h4
      have e1 : ((((x.ad d.qNode).reqs.map fun b => (d.pNode, Beat.req b)).filter fun y => y.1 = d.pNode ∧ y.2.type = k).map (·.2)) =
          ((x.ad d.qNode).reqs.map Beat.req).filter fun b => b.type = k := by
        rw [List.filter_map, List.filter_map, List.map_map]
        congr 1
        refine List.filter_congr fun b _ => ?_
        simp
      rw [e1, kind_type, List.filterMap_map, List.filterMap_map] at h4
      have e2 : (x.ad d.qNode).reqs.filterMap (beatPlain ∘ Beat.req) = (x.ad d.qNode).reqs.map plain := by
        rw [← List.filterMap_eq_map]
        rfl
      rw [e2] at h4
      exact h4
    · have : ∀ y : Plain, ¬ (decide (kindOf y = k) = true) := by
        intro y hy
        refine hk ?_
        have := of_decide_eq_true hy
        cases y <;> simp [← this, kindOf]
      rw [List.filter_eq_nil_iff.2 fun y _ => this y]
      exact List.nil_prefix

/-! ## responses -/

theorem answered_all {q : Nat} (l : List RspBeat) (h : ∀ b ∈ l, nodeOf (rspUser b) = q) :
    answered l = l.map fun b => (q, Beat.rsp b) := by
  induction l with
  | nil => rfl
  | cons b l ih =>
    have hb := h b List.mem_cons_self
    have := ih fun y hy => h y (List.mem_cons_of_mem b hy)
    cases b with
    | r x => simp only [answered, List.map_cons]; rw [this]; rw [show nodeOf x.user = q from hb]
    | b x => simp only [answered, List.map_cons]; rw [this]; rw [show nodeOf x.user = q from hb]

theorem core_rsp (l : List RspBeat) : (l.map Beat.rsp).map core = l.map Beat.rsp := by
  rw [List.map_map]; rfl

/-- What the requester is shown. -/
theorem shown_responses (hw : Works d rng r) (ha : Allocs VA SA (mesh d.noc.m) d.noc.b va sa) (hr : Runs d.noc r n i)
    {x : MmNoc.Sys σ τ} (hx : after VA SA d.noc va sa i n = .ok x)
    (hp : ∀ b ∈ (x.ad d.pNode).rsps, rspUser b = d.qBase) :
    (∀ y ∈ (x.ad d.qNode).hist.shown, ∃ b, y.1 = .rsp b) ∧ ∀ k, k = .r ∨ k = .b →
      shownAt x d.qNode k <+: ((x.ad d.pNode).rsps.map Beat.rsp).filter fun b => b.type = k := by
  obtain ⟨h1, h2⟩ := C109_in_order_partial hw.setup ha hr hx hw.q.1
  rw [hw.q.2.1] at h1 h2
  have hsh : ∀ y ∈ (x.ad d.qNode).hist.shown, ∃ b, y.1 = .rsp b := by
    intro y hy
    have := h1 y hy
    obtain ⟨b, f⟩ := y
    cases b with
    | rsp b => exact ⟨b, rfl⟩
    | req b => cases b <;> simp [shows, MmSink.Beat.type] at this
  refine ⟨hsh, fun k hk => ?_⟩
  obtain ⟨src, s1, s2, s3⟩ := h2 k (by rcases hk with rfl | rfl <;> simp [shows])
  have h3 := one_source s1 s2 s3 hw.p.1 (fun w hwv hne => by rw [none_given_rsp hw x hk hwv hne]; rfl)
  unfold givenFor at h3
  rw [hw.p.2.1] at h3
  simp only [given] at h3
  rw [answered_all (q := d.qNode) _ (fun b hb => by rw [hp b hb]; exact hw.base)] at h3
  have e1 : ((((x.ad d.pNode).rsps.map fun b => (d.qNode, Beat.rsp b)).filter fun y => y.1 = d.qNode ∧ y.2.type = k).map (·.2)) =
      ((x.ad d.pNode).rsps.map Beat.rsp).filter fun b => b.type = k := by
    rw [List.filter_map, List.filter_map, List.map_map]
    congr 1
    refine List.filter_congr fun b _ => ?_
    simp
  have e2 : ∀ l : List Beat, (∀ b ∈ l, ∃ q, b = .rsp q) → l.map core = l := by
    intro l hl
    conv => rhs; rw [← List.map_id l]
    refine List.map_congr_left fun b hb => ?_
    obtain ⟨q, rfl⟩ := hl b hb
    rfl
  rw [e1, e2, e2] at h3
  · exact h3
  · intro b hb
    obtain ⟨q, -, rfl⟩ := List.mem_map.1 (List.mem_filter.1 hb).1
    exact ⟨q, rfl⟩
  · intro b hb
    unfold shownAt at hb
    obtain ⟨y, hy, rfl⟩ := List.mem_map.1 (List.mem_filter.1 hb).1
    exact hsh y hy

end RadSim.Hello
