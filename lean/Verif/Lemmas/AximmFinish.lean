import Verif.Lemmas.AximmEnd
import Verif.Props.AximmDesign

/-! # `aximm_hello_world` comes to an end: the modules -/

namespace RadSim.Hello

open MmNoc
open MmSink (Beat)
open Net (Msg mesh Allocs Grants slots)
open Noc (st)

variable {σ τ ρ ρ' : Type} {VA : Alloc.Cls σ ρ} {SA : Alloc.Cls τ ρ'} {d : Params} {rng : Nat → Nat × Nat} {r : Nat → Nat}
  {va : Nat → σ} {sa : Nat → τ} {n N n₀ J K : Nat} {t : Nat → Tick ρ ρ'}

/-! ## an edge at which something is taken -/

section
variable {b : BufCfg} {l : List Nat} {arrive : Option BsFlit} {s y : Node} {out : List BsFlit} {t : Tick ρ ρ'} {x : Sys σ τ}
  {o : ReqOffer} {p : RspOffer}

theorem q_taken (h : MmNoc.nodeStep b (d.noc.nc d.qNode) (nodeIn d t x o p d.qNode) l arrive s = .ok (y, out))
    (hk : (d.noc.nc d.qNode).kind = .slave) (hoff : s.req.off = x.req.off)
    (hc : ((t.pre d.qNode ++ t.post d.qNode).countP fun x => x.1) = 1) {m : Nat} (hm : MmCfgOk (d.noc.nc d.qNode).mm m)
    {gap : Option Nat} {se : List BsFlit} (hi : ReqInv (d.noc.nc d.qNode).mm s.req gap s.reqs se) (hw : wOnlyOpen false s.reqs)
    (hg : Spaced m gap (t.pre d.qNode ++ t.post d.qNode)) (hid : Idle s.req.k)
    (hd : (d.noc.nc d.qNode).mm.maxFlits ≤ (d.noc.nc d.qNode).mm.depth) (hwant : Wanted (awOpen false s.reqs) x.req.off) :
    y.reqs ≠ s.reqs := by
  obtain ⟨accept, buf, -, h2, h3, h4⟩ := q_run h hk
  obtain ⟨A, e, B, e1, e2, e3⟩ := evs_one (o := x.req.off) (o' := o) (accept := accept) hc
  have hg' : Spaced m gap ((A ++ .edge true e o :: B).map ReqEvent.clocks) := by
    rw [← e1]
    unfold evs
    rw [List.map_append, List.map_cons]
    refine (spaced_noc _ _ _).2 ?_
    rw [← List.map_append, ← List.map_append, List.take_append_drop, List.map_map]
    have := fill_flags x.req.off o (t.pre d.qNode ++ t.post d.qNode)
    have e4 : ReqEvent.clocks ∘ reqEdge = fun x => (x.1, x.2.1) := rfl
    rw [e4, this]
    exact hg
  have key := req_edge_taken hm hi hw e2 hoff hg' hid.void hid.cycle hid.full hd hwant
  rw [← e1] at key
  rw [h3]
  simpa using key

theorem p_taken (h : MmNoc.nodeStep b (d.noc.nc d.pNode) (nodeIn d t x o p d.pNode) l arrive s = .ok (y, out))
    (hk : (d.noc.nc d.pNode).kind = .master) (hne : d.pNode ≠ d.qNode) (hoff : s.rsp.off = x.rsp.off)
    (hc : ((t.pre d.pNode ++ t.post d.pNode).countP fun x => x.1) = 1) {m : Nat} (hm : MmCfgOk (d.noc.nc d.pNode).mm m)
    {gap : Option Nat} {se : List BsFlit} (hr : rspReadyFor s.rsp) (hi : PktInv (d.noc.nc d.pNode).mm s.rsp.k gap (s.rsps.map rspTxn) se)
    (hg : Spaced m gap (t.pre d.pNode ++ t.post d.pNode)) (hid : Idle s.rsp.k)
    (hd : (d.noc.nc d.pNode).mm.maxFlits ≤ (d.noc.nc d.pNode).mm.depth)
    (hwant : x.rsp.off.r.isSome = true ∨ x.rsp.off.b.isSome = true) : y.rsps ≠ s.rsps := by
  obtain ⟨accept, buf, -, h2, h3, h4⟩ := p_run h hk hne
  obtain ⟨A, e, B, e1, e2, e3⟩ := evsRsp_one (o := x.rsp.off) (o' := p) (accept := accept) hc
  have hg' : Spaced m gap ((A ++ .edge true e p :: B).map RspEvent.clocks) := by
    rw [← e1]
    unfold evsRsp
    rw [List.map_append, List.map_cons]
    refine (spaced_noc _ _ _).2 ?_
    rw [← List.map_append, ← List.map_append, List.take_append_drop, List.map_map]
    have := fill_flags x.rsp.off p (t.pre d.pNode ++ t.post d.pNode)
    have e4 : RspEvent.clocks ∘ rspEdge = fun x => (x.1, x.2.1) := rfl
    rw [e4, this]
    exact hg
  have key := rsp_edge_taken hm hr hi e2 hoff hg' hid.void hid.cycle hid.full hd hwant
  rw [← e1] at key
  rw [h3]
  simpa using key

end

/-! ## the clocks of the design are those of the NoC -/

theorem nodes_kind (hw : Works d rng r) {u : Nat} (hu : u < d.noc.m.nodes) (hk : (d.noc.nc u).kind ≠ .none) :
    u = d.qNode ∨ u = d.pNode := by
  by_contra h
  push Not at h
  exact hk (hw.others u hu h.1 h.2)

theorem edges_some {l : List (Option Bool)} {ready : MmType → Bool} : ((sinkEdges ready l).countP isAdapter) = l.countP Option.isSome := by
  induction l with
  | nil => rfl
  | cons e l ih =>
    unfold sinkEdges at ih ⊢
    rw [List.map_cons, List.countP_cons, List.countP_cons, ih]
    cases e <;> rfl

theorem fair_of (hw : Works d rng r) (ha : Allocs VA SA (mesh d.noc.m) d.noc.b va sa) (hp : Paced d r N t) (hl : Lively d N n₀ J K t) :
    Fair d.noc N n₀ J K (ins VA SA d va sa t) := by
  have hsink : ∀ k u, (u = d.qNode ∨ u = d.pNode) → ∃ ready : MmType → Bool,
      ((ins VA SA d va sa t k).ad u).outPre ++ ((ins VA SA d va sa t k).ad u).outPost = sinkEdges ready ((t k).outPre u ++ (t k).outPost u) ∧
      (k < N → ∀ m ∈ shows (d.noc.nc u).kind, ready m = true) := by
    intro k u hu
    rcases hu with rfl | rfl
    · refine ⟨fun _ => true, ?_, fun _ _ _ => rfl⟩
      show (nodeIn d _ _ _ _ d.qNode).outPre ++ (nodeIn d _ _ _ _ d.qNode).outPost = _
      rw [q_in]
      unfold sinkEdges
      rw [List.map_append]
    · refine ⟨(now VA SA d va sa t k).rsp.ready, ?_, fun hk m hm => ?_⟩
      · show (nodeIn d _ _ _ _ d.pNode).outPre ++ (nodeIn d _ _ _ _ d.pNode).outPost = _
        rw [p_in hw.ne]
        unfold sinkEdges
        rw [List.map_append]
      · obtain ⟨log, hs⟩ := (all_of (VA := VA) (SA := SA) hw ha hp k (by omega)).sound
        obtain ⟨g1, g2, g3, g4⟩ := hs.p.flags
        rw [hw.p.2.1] at hm
        simp only [shows, List.mem_cons, List.not_mem_nil, or_false] at hm
        rcases hm with rfl | rfl | rfl <;> simp [Responder.ready, g1, g2, g3, g4]
  have hcl : ∀ k u, (u = d.qNode ∨ u = d.pNode) → clocksOf (d.noc.nc u).kind ((ins VA SA d va sa t k).ad u) = (t k).pre u ++ (t k).post u := by
    intro k u hu
    rcases hu with rfl | rfl
    · exact clocks_q hw _ _ _ _
    · exact clocks_p hw _ _ _ _
  refine ⟨fun k hk u hu => ?_, fun k h1 h2 u hu hk => ?_, fun k h1 h2 u hu hk => ?_, fun k h1 h2 u hu m hm => ?_, fun m n h1 h2 => hl.time m n h1 h2⟩
  · by_cases hq : u = d.qNode ∨ u = d.pNode
    · obtain ⟨ready, e, -⟩ := hsink k u hq
      rw [e, edges_some]
      exact hl.one k hk u hq
    · push Not at hq
      show ((nodeIn d _ _ _ _ u).outPre ++ (nodeIn d _ _ _ _ u).outPost).countP isAdapter ≤ 1
      unfold nodeIn
      rw [if_neg hq.1, if_neg hq.2]
      simp
  · have hq := nodes_kind hw hu hk
    obtain ⟨k', l1, l2, x, hx, l3⟩ := hl.source k h1 h2 u hq
    exact ⟨k', l1, l2, x, by rw [hcl k' u hq]; exact hx, l3⟩
  · have hq := nodes_kind hw hu hk
    obtain ⟨k', l1, l2, b, hb⟩ := hl.sink k h1 h2 u hq
    obtain ⟨ready, e, -⟩ := hsink k' u hq
    refine ⟨k', l1, l2, b, ?_⟩
    rw [e]
    exact List.mem_map.2 ⟨_, hb, rfl⟩
  · have hk : (d.noc.nc u).kind ≠ .none := by
      intro e; rw [e] at hm; simp [shows] at hm
    have hq := nodes_kind hw hu hk
    obtain ⟨k', l1, l2, l3⟩ := hl.edge k h1 h2
    obtain ⟨ready, e, hr⟩ := hsink k' u hq
    have hc := hp.sink k' (by omega) u hq
    rw [if_pos l3] at hc
    have hmem : none ∈ (t k').outPre u ++ (t k').outPost u := List.count_pos_iff.1 (by omega)
    refine ⟨k', l1, l2, ready, ?_, hr (by omega) m hm⟩
    rw [e]
    exact List.mem_map.2 ⟨_, hmem, rfl⟩

theorem opens_of (hw : Works d rng r) (hp : Paced d r N t) (hl : Lively d N n₀ J K t)
    (hroom : ∀ u, u = d.qNode ∨ u = d.pNode → (d.noc.nc u).mm.maxFlits ≤ (d.noc.nc u).mm.depth) :
    Opens d.noc N n₀ J (ins VA SA d va sa t) where
  room u hu hk := hroom u (nodes_kind hw hu hk)
  nodes k h1 h2 u hu hk := by
    have hq := nodes_kind hw hu hk
    obtain ⟨k', l1, l2, l3⟩ := hl.edge k h1 h2
    have hc := hp.source k' (by omega) u hq
    rw [if_pos l3] at hc
    refine ⟨k', l1, l2, ?_⟩
    unfold nodeIn'
    have e : clocksOf (d.noc.nc u).kind ((ins VA SA d va sa t k').ad u) = (t k').pre u ++ (t k').post u := by
      rcases hq with rfl | rfl
      · exact clocks_q hw _ _ _ _
      · exact clocks_p hw _ _ _ _
    rw [e]
    obtain ⟨x, hx, hx1⟩ := List.countP_pos_iff.1 (show 0 < ((t k').pre u ++ (t k').post u).countP fun x => x.1 by omega)
    exact List.any_eq_true.2 ⟨x, hx, hx1⟩

/-! ## the modules in a period -/

theorem step_edge {x x' : Sys σ τ} {t : Tick ρ ρ'} (h : step VA SA d t x = .ok x') (he : t.edge = true) :
    x'.drv = x.drv.edge d.trace (!x.req.full) ∧ ∃ hs seen, x.req.edge d (x.drv.offer d.trace) hs seen = some x'.req := by
  unfold step at h
  split at h
  · cases h
  · rename_i y hy
    rw [if_pos he] at h
    split at h
    · cases h
    · rename_i v q p hm
      split at h
      · cases h
      · injection h with h
        subst h
        unfold modules at hm
        split at hm
        · cases hm
        · rename_i q' hq
          split at hm
          · cases hm
          · injection hm with hm
            injection hm with e1 e2
            injection e2 with e2 e3
            subst e1 e2
            exact ⟨rfl, _, _, hq⟩

theorem step_flat {x x' : Sys σ τ} {t : Tick ρ ρ'} (h : step VA SA d t x = .ok x') (he : t.edge = false) :
    x'.drv = x.drv ∧ x'.req = x.req ∧ x'.rsp = x.rsp := by
  unfold step at h
  split at h
  · cases h
  · rw [if_neg (by rw [he]; simp)] at h
    injection h with h
    subst h
    exact ⟨rfl, rfl, rfl⟩

theorem All.step (h : All VA SA d va sa t (n + 1)) : Hello.step VA SA d (t n) (now VA SA d va sa t n) = .ok (now VA SA d va sa t (n + 1)) := by
  have h1 := h.ok n (by omega)
  have h2 := h.ok (n + 1) (Nat.le_refl _)
  rw [sysRun, h1] at h2
  exact h2

theorem edge_full {q q' : Requester} {cmd : Option Cmd} {hs : List ReqBeat} {seen : List (Beat × Bool)}
    (h : q.edge d cmd hs seen = some q') :
    q'.full = decide (d.depth ≤ (if q.full then q.fifo else q.fifo ++ cmd.toList).length) := by
  unfold Requester.edge at h
  dsimp only at h
  split at h
  · injection h with h; subst h; rfl
  · split at h
    · split at h
      · cases h
      · injection h with h; subst h; rename_i e; rw [e]
    · split at h
      · split at h
        · cases h
        · injection h with h; subst h; rename_i e; rw [e]
      · injection h with h; subst h; rfl

/-- The FIFO of the requester never fills up. -/
theorem never_full (hw : Works d rng r) (ha : Allocs VA SA (mesh d.noc.m) d.noc.b va sa) (hp : Paced d r N t) :
    ∀ n ≤ N, (now VA SA d va sa t n).req.full = false
  | 0, _ => rfl
  | n + 1, hn => by
    have ih := never_full hw ha hp n (by omega)
    have hs := (all_of (VA := VA) (SA := SA) hw ha hp (n + 1) hn).step
    cases he : (t n).edge with
    | false => rw [(step_flat hs he).2.1]; exact ih
    | true =>
      obtain ⟨-, hs', seen, hq⟩ := step_edge hs he
      obtain ⟨log, hso⟩ := (all_of (VA := VA) (SA := SA) hw ha hp n (by omega)).sound
      rw [edge_full hq, decide_eq_false_iff_not, Nat.not_le]
      obtain ⟨-, new, e1, e2⟩ := pushed (d := d) (v := (now VA SA d va sa t n).drv) (q := (now VA SA d va sa t n).req) hso.q.idx
      obtain ⟨done, e3, -⟩ := hso.q.sent
      rw [e1]
      rw [e3] at e2
      have h1 := congrArg List.length e2
      rw [List.length_take, List.length_append, List.length_append] at h1
      rw [List.length_append]
      have := hw.small
      omega

theorem started_on (hw : Works d rng r) (ha : Allocs VA SA (mesh d.noc.m) d.noc.b va sa) (hp : Paced d r N t)
    (h : (now VA SA d va sa t n).drv.started = true) : ∀ k, n + k ≤ N → (now VA SA d va sa t (n + k)).drv.started = true
  | 0, _ => h
  | k + 1, hk => by
    have ih := started_on hw ha hp h k (by omega)
    have hs := (all_of (VA := VA) (SA := SA) hw ha hp (n + k + 1) hk).step
    show (now VA SA d va sa t (n + k + 1)).drv.started = true
    cases he : (t (n + k)).edge with
    | false => rw [(step_flat hs he).1]; exact ih
    | true => rw [(step_edge hs he).1]; rfl

/-! ## the number of flits -/

theorem requests_length (l : List Cmd) : (l.flatMap (requests d)).length ≤ 2 * l.length := by
  induction l with
  | nil => simp
  | cons x l ih =>
    rw [List.flatMap_cons, List.length_append, List.length_cons]
    have : (requests d x).length ≤ 2 := by unfold requests; split <;> simp
    omega

theorem sum_flits {w : Nat} (hw : w ≤ 512) (l : List (Nat × Beat)) : (l.map fun y => mmFlits w y.2.type).sum ≤ 8 * l.length := by
  induction l with
  | nil => simp
  | cons y l ih =>
    have := mmFlits_le w hw y.2.type
    simp only [List.map_cons, List.sum_cons, List.length_cons]
    omega

theorem routed_length (l : List ReqBeat) : ∀ u, (routed u l).length = l.length := by
  induction l with
  | nil => intro u; rfl
  | cons b l ih => intro u; cases b <;> simp [routed, ih]

theorem answered_length (l : List RspBeat) : (answered l).length = l.length := by
  induction l with
  | nil => rfl
  | cons b l ih => cases b <;> simp [answered, ih]

theorem flits_of (hw : Works d rng r) {x : Sys σ τ} {log : List Cmd} (hs : Sound d x log) :
    flitsOf d.noc x.noc ≤ 24 * d.trace.length := by
  have hq : (x.noc.ad d.qNode).reqs.length ≤ 2 * d.trace.length := by
    have := hs.q.prefix.length_le
    rw [List.length_map] at this
    exact this.trans (requests_length _)
  have hp : (x.noc.ad d.pNode).rsps.length ≤ d.trace.length := by
    have h0 := congrArg List.length hs.p.out
    rw [answers_length, List.length_append, List.length_map, List.length_map] at h0
    have h1 := rd_wr_length log
    have h2 := rd_wr_length d.trace
    have h3 := hs.p.reads.length_le
    have h4 := hs.p.writes.length_le
    omega
  have hle : ∀ u ∈ Finset.range d.noc.m.nodes,
      ((given (d.noc.nc u).kind (x.noc.ad u)).map fun y => mmFlits (d.noc.nc u).dataw y.2.type).sum ≤
        (if u = d.qNode then 16 * d.trace.length else 0) + if u = d.pNode then 8 * d.trace.length else 0 := by
    intro u hu
    have hu := Finset.mem_range.1 hu
    by_cases h1 : u = d.qNode
    · subst h1
      rw [if_pos rfl]
      have := sum_flits (w := (d.noc.nc d.qNode).dataw) (by rw [hw.q.2.2]) (given (d.noc.nc d.qNode).kind (x.noc.ad d.qNode))
      have e : (given (d.noc.nc d.qNode).kind (x.noc.ad d.qNode)).length = (x.noc.ad d.qNode).reqs.length := by
        rw [hw.q.2.1]; exact routed_length _ _
      omega
    · by_cases h2 : u = d.pNode
      · subst h2
        rw [if_pos rfl]
        have := sum_flits (w := (d.noc.nc d.pNode).dataw) (by rw [hw.p.2.2]) (given (d.noc.nc d.pNode).kind (x.noc.ad d.pNode))
        have e : (given (d.noc.nc d.pNode).kind (x.noc.ad d.pNode)).length = (x.noc.ad d.pNode).rsps.length := by
          rw [hw.p.2.1]; exact answered_length _
        omega
      · rw [hw.others u hu h1 h2]
        simp [given]
  unfold flitsOf
  refine (Finset.sum_le_sum hle).trans ?_
  rw [Finset.sum_add_distrib, Finset.sum_ite_eq', Finset.sum_ite_eq']
  split <;> split <;> omega

/-! ## what has been sent -/

theorem sent_same {v v' : Driver} {q q' : Requester} {reqs : List ReqBeat} {b b' : Bool} (h : QInv d v q reqs b) (h' : QInv d v' q' reqs b')
    (hf : q.fifo = []) (hf' : q'.fifo = []) : v.idx = v'.idx := by
  have key : ∀ {v : Driver} {q : Requester} {b : Bool}, QInv d v q reqs b → q.fifo = [] →
      reqs.map plain = (d.trace.take v.idx).flatMap (requests d) := by
    intro v q b h hf
    obtain ⟨done, e1, e2⟩ := h.sent
    have ha : q.awAccepted = false := by
      cases hq : q.awAccepted with
      | false => rfl
      | true => obtain ⟨x, l, e, -⟩ := h.head hq; rw [hf] at e; cases e
    rw [hf, List.append_nil] at e1
    rw [ha] at e2
    rw [e2, e1]
    simp
  have hinj : ∀ {i j : Nat}, i ≤ j → j ≤ d.trace.length →
      (d.trace.take i).flatMap (requests d) = (d.trace.take j).flatMap (requests d) → i = j := by
    intro i j hij hj e
    by_contra hne
    have hlt : i < d.trace.length := by omega
    have e1 : d.trace.take j = d.trace.take i ++ (d.trace.drop i).take (j - i) := by
      rw [← List.take_add, Nat.add_sub_cancel' hij]
    rw [e1, List.flatMap_append] at e
    have e2 : ((d.trace.drop i).take (j - i)).flatMap (requests d) = [] := by simpa using e.symm
    rw [List.flatMap_eq_nil_iff] at e2
    have := e2 d.trace[i] (by
      rw [List.drop_eq_getElem_cons hlt]
      obtain ⟨k, hk⟩ : ∃ k, j - i = k + 1 := ⟨j - i - 1, by omega⟩
      rw [hk, List.take_succ_cons]
      exact List.mem_cons_self)
    revert this
    unfold requests
    split <;> simp
  have e := (key h hf).symm.trans (key h' hf')
  rcases Nat.le_total v.idx v'.idx with hle | hle
  · exact hinj hle h'.idx e
  · exact (hinj hle h.idx e.symm).symm

theorem plain_count (k : MmType) (l : List Beat) (h : ∀ b ∈ l, ∃ q, b = .req q) :
    ((l.filterMap beatPlain).filter (kindOf · = k)).length = (l.filter fun b => b.type = k).length := by
  rw [← kind_type]
  have h' : ∀ b ∈ l.filter (fun b => b.type = k), ∃ q, b = .req q := fun b hb => h b (List.mem_filter.1 hb).1
  generalize l.filter (fun b => b.type = k) = l' at h'
  induction l' with
  | nil => rfl
  | cons b l' ih =>
    obtain ⟨q, rfl⟩ := h' b List.mem_cons_self
    have := ih fun y hy => h' y (List.mem_cons_of_mem _ hy)
    simpa [beatPlain] using this

theorem given_req (hw : Works d rng r) {x : MmNoc.Sys σ τ} {k : MmType}
    (hq : (x.ad d.qNode).reqs.map plain <+: d.trace.flatMap (requests d)) (ho : wOnlyOpen false (x.ad d.qNode).reqs) :
    (givenFor d.noc x d.qNode d.pNode k).length = (((x.ad d.qNode).reqs.map plain).filter (kindOf · = k)).length := by
  have e : (x.ad d.qNode).reqs.map plain = ((x.ad d.qNode).reqs.map Beat.req).filterMap beatPlain := by
    rw [List.filterMap_map, ← List.filterMap_eq_map]
    rfl
  rw [e, plain_count k _ (by intro b hb; obtain ⟨q, -, rfl⟩ := List.mem_map.1 hb; exact ⟨q, rfl⟩)]
  unfold givenFor
  rw [hw.q.2.1]
  simp only [given]
  rw [routed_all (p := d.pNode) _ false 0 ho (by intro e; cases e) (addressed hw hq)]
  rw [List.filter_map, List.filter_map, List.map_map, List.length_map, List.length_map]
  congr 1
  refine List.filter_congr fun b _ => ?_
  simp

theorem given_rsp (hw : Works d rng r) {x : MmNoc.Sys σ τ} {k : MmType} (hp : ∀ b ∈ (x.ad d.pNode).rsps, rspUser b = d.qBase) :
    (givenFor d.noc x d.pNode d.qNode k).length = (((x.ad d.pNode).rsps.map Beat.rsp).filter fun b => b.type = k).length := by
  unfold givenFor
  rw [hw.p.2.1]
  simp only [given]
  rw [answered_all (q := d.qNode) _ (fun b hb => by rw [hp b hb]; exact hw.base)]
  rw [List.filter_map, List.filter_map, List.map_map, List.length_map, List.length_map]
  congr 1
  refine List.filter_congr fun b _ => ?_
  simp

/-! ## when the NoC has come to rest -/

section
variable (hw : Works d rng r) (ha : Allocs VA SA (mesh d.noc.m) d.noc.b va sa) (hp : Paced d r N t)
  (hroom : ∀ u, u = d.qNode ∨ u = d.pNode → (d.noc.nc u).mm.maxFlits ≤ (d.noc.nc u).mm.depth) (ho : d.noc.b.outSize ≠ 0)
  (hop : Opens d.noc N n₀ J (ins VA SA d va sa t))
include hw ha hp

theorem st_now (hn : n ≤ N) : (now VA SA d va sa t n).noc = st VA SA d.noc.noc va sa (ins VA SA d va sa t) n := by
  have h := all_of (VA := VA) (SA := SA) hw ha hp n hn
  exact state_of hw.setup ha (runs_of hw hp hn h.formed) (Nat.le_refl n) h.noc

variable {a T : Nat} (w : Calm VA SA d.noc va sa (ins VA SA d va sa t) rng r N n₀ J K a T) (hT : Calm.rest d.noc J K ≤ T)
include w

theorem reqs_same {m : Nat} (h1 : a ≤ n) (h2 : n ≤ m) (h3 : m ≤ a + T) :
    ((now VA SA d va sa t m).noc.ad d.qNode).reqs = ((now VA SA d va sa t n).noc.ad d.qNode).reqs := by
  have hN := w.stop
  rw [st_now hw ha hp (show n ≤ N by omega), st_now hw ha hp (show m ≤ N by omega)]
  exact ((w.same h1 h2 h3).2 d.qNode hw.q.1).2.2.1

include hroom ho hop hT

/-- Nothing is left over at an edge. -/
theorem left_over (h1 : a + Calm.rest d.noc J K + 257 * J ≤ n) (h2 : n < a + T) (he : (t n).edge = true) :
    (now VA SA d va sa t n).req.fifo = [] ∧ (now VA SA d va sa t n).rsp.resp = [] := by
  have hN := w.stop
  have h := all_of (VA := VA) (SA := SA) hw ha hp n (by omega)
  have h' := all_of (VA := VA) (SA := SA) hw ha hp (n + 1) (by omega)
  obtain ⟨log, hs⟩ := h.sound
  obtain ⟨⟨se, cr, gq⟩, ⟨se', cr', gp⟩⟩ := goods hw ha hp h (by omega)
  have hst := st_now (VA := VA) (SA := SA) (va := va) (sa := sa) hw ha hp (show n ≤ N by omega)
  have hst' := st_now (VA := VA) (SA := SA) (va := va) (sa := sa) hw ha hp (show n + 1 ≤ N by omega)
  have hstep := h'.noc
  rw [after_succ h.noc] at hstep
  obtain ⟨net, -, hnet⟩ := step_nodes hstep
  obtain ⟨outq, hq1⟩ := hnet d.qNode hw.q.1
  obtain ⟨outp, hp1⟩ := hnet d.pNode hw.p.1
  have hcq := hp.source n (by omega) d.qNode (Or.inl rfl)
  have hcp := hp.source n (by omega) d.pNode (Or.inr rfl)
  rw [if_pos he] at hcq hcp
  have hkq : (d.noc.nc d.qNode).kind ≠ .none := by rw [hw.q.2.1]; intro e; cases e
  have hkp : (d.noc.nc d.pNode).kind ≠ .none := by rw [hw.p.2.1]; intro e; cases e
  have idq := w.open_idle hT ho hop h1 (by omega) hw.q.1 hkq
  have idp := w.open_idle hT ho hop h1 (by omega) hw.p.1 hkp
  have smq := ((w.same (n := n) (m := n + 1) (by omega) (by omega) (by omega)).2 d.qNode hw.q.1).2.2.1
  have smp := ((w.same (n := n) (m := n + 1) (by omega) (by omega) (by omega)).2 d.pNode hw.p.1).2.2.2
  unfold node at idq idp smq smp
  rw [← hst, hw.q.2.1] at idq
  rw [← hst, hw.p.2.1] at idp
  rw [← hst, ← hst'] at smq smp
  constructor
  · by_contra hne
    refine q_taken hq1 hw.q.2.1 hs.qoff hcq (hw.setup.clock _ hw.q.1 hkq) gq.inv gq.opened (hp.period (by omega) (Or.inl rfl)) idq
      (hroom _ (Or.inl rfl)) ?_ smq
    obtain ⟨id, e⟩ := hs.q.fresh (by
      have : ((now VA SA d va sa t n).noc.ad d.qNode).req.k.reg = none := idq.void.reg
      rw [this]; rfl)
    rw [hs.q.open_, e]
    cases hf : (now VA SA d va sa t n).req.fifo with
    | nil => exact absurd hf hne
    | cons x l =>
      unfold Wanted reqOffer
      dsimp only
      cases x.write <;> cases (now VA SA d va sa t n).req.awAccepted <;> simp
  · by_contra hne
    refine p_taken hp1 hw.p.2.1 hw.ne hs.poff hcp (hw.setup.clock _ hw.p.1 hkp) gp.ready gp.pkt (hp.period (by omega) (Or.inr rfl)) idp
      (hroom _ (Or.inr rfl)) ?_ smp
    obtain ⟨id, e⟩ := hs.p.fresh (by
      have : ((now VA SA d va sa t n).noc.ad d.pNode).rsp.k.reg = none := idp.void.reg
      rw [this]; rfl)
    rw [e]
    cases hf : (now VA SA d va sa t n).rsp.resp with
    | nil => exact absurd hf hne
    | cons x l =>
      unfold rspOffer
      dsimp only
      cases x.write <;> simp

/-- Nothing is left over before an edge. -/
theorem until_edge : ∀ k n, a + Calm.rest d.noc J K + 257 * J ≤ n → n + k < a + T → (t (n + k)).edge = true →
    (now VA SA d va sa t n).req.fifo = [] ∧ (now VA SA d va sa t n).rsp.resp = []
  | 0, n, h1, h2, he => left_over hw ha hp hroom ho hop w hT h1 h2 he
  | k + 1, n, h1, h2, he => by
    have hN := w.stop
    cases hen : (t n).edge with
    | true => exact left_over hw ha hp hroom ho hop w hT h1 (by omega) hen
    | false =>
      obtain ⟨-, e1, e2⟩ := step_flat (all_of (VA := VA) (SA := SA) hw ha hp (n + 1) (by omega)).step hen
      rw [← e1, ← e2]
      exact until_edge k (n + 1) (by omega) (by omega) (by rw [Nat.add_right_comm]; exact he)

/-- All lines of the trace have been sent. -/
theorem all_sent (hl : Lively d N n₀ J K t) (h : Calm.rest d.noc J K + 260 * J ≤ T) :
    ∃ n, a + Calm.rest d.noc J K ≤ n ∧ n ≤ a + T ∧ (now VA SA d va sa t n).drv.idx = d.trace.length ∧
      (now VA SA d va sa t n).req.fifo = [] ∧ (now VA SA d va sa t n).rsp.resp = [] := by
  have hN := w.stop
  have hst := w.start
  obtain ⟨e1, a1, a2, a3⟩ := hl.edge (a + Calm.rest d.noc J K + 257 * J) (by omega) (by omega)
  obtain ⟨e2, b1, b2, b3⟩ := hl.edge (a + Calm.rest d.noc J K + 257 * J + J) (by omega) (by omega)
  obtain ⟨e3, c1, c2, c3⟩ := hl.edge (a + Calm.rest d.noc J K + 257 * J + J + J) (by omega) (by omega)
  have f2 := left_over hw ha hp hroom ho hop w hT (n := e2) (by omega) (by omega) b3
  have f3 := until_edge hw ha hp hroom ho hop w hT (e3 - (e2 + 1)) (e2 + 1) (by omega) (by omega)
    (by rw [show e2 + 1 + (e3 - (e2 + 1)) = e3 by omega]; exact c3)
  have s1 : (now VA SA d va sa t (e1 + 1)).drv.started = true := by
    rw [(step_edge (all_of (VA := VA) (SA := SA) hw ha hp (e1 + 1) (by omega)).step a3).1]; rfl
  have s2 := started_on hw ha hp s1 (e2 - (e1 + 1)) (by omega)
  rw [show e1 + 1 + (e2 - (e1 + 1)) = e2 by omega] at s2
  have hd := (step_edge (all_of (VA := VA) (SA := SA) hw ha hp (e2 + 1) (by omega)).step b3).1
  rw [never_full hw ha hp e2 (by omega)] at hd
  obtain ⟨log, hs⟩ := (all_of (VA := VA) (SA := SA) hw ha hp e2 (by omega)).sound
  obtain ⟨log', hs'⟩ := (all_of (VA := VA) (SA := SA) hw ha hp (e2 + 1) (by omega)).sound
  have hq' := hs'.q
  rw [reqs_same hw ha hp w (show a ≤ e2 by omega) (Nat.le_succ e2) (by omega)] at hq'
  have hidx := sent_same hs.q hq' f2.1 f3.1
  refine ⟨e2, by omega, by omega, ?_, f2⟩
  rw [hd] at hidx
  have hle := hs.q.idx
  by_contra hne
  have hlt : (now VA SA d va sa t e2).drv.idx < d.trace.length := by omega
  unfold Driver.edge Driver.offer at hidx
  rw [s2] at hidx
  simp only [if_true, List.getElem?_eq_getElem hlt, Option.isSome_some, Bool.not_false, Bool.and_self] at hidx
  omega

/-- All answers have come back. -/
theorem all_back (hl : Lively d N n₀ J K t) (h : Calm.rest d.noc J K + 260 * J ≤ T) :
    ∃ n ≤ N, (now VA SA d va sa t n).stops d = true ∧
      ((now VA SA d va sa t n).noc.ad d.qNode).reqs.map plain = d.trace.flatMap (requests d) := by
  have hN := w.stop
  obtain ⟨n, h1, h2, hidx, hf, hr⟩ := all_sent hw ha hp hroom ho hop w hT hl h
  have hall := all_of (VA := VA) (SA := SA) hw ha hp n (by omega)
  obtain ⟨log, hs⟩ := hall.sound
  obtain ⟨⟨se, cr, gq⟩, -⟩ := goods hw ha hp hall (by omega)
  have hst := st_now (VA := VA) (SA := SA) (va := va) (sa := sa) hw ha hp (show n ≤ N by omega)
  have hrn := runs_of hw hp (show n ≤ N by omega) hall.formed
  -- what has been sent
  have hreqs : ((now VA SA d va sa t n).noc.ad d.qNode).reqs.map plain = d.trace.flatMap (requests d) := by
    obtain ⟨done, e1, e2⟩ := hs.q.sent
    have ha : (now VA SA d va sa t n).req.awAccepted = false := by
      cases hq : (now VA SA d va sa t n).req.awAccepted with
      | false => rfl
      | true => obtain ⟨x, l, e, -⟩ := hs.q.head hq; rw [hf] at e; cases e
    rw [hf, List.append_nil, hidx, List.take_length] at e1
    rw [ha] at e2
    rw [e2, e1]
    simp
  -- the responder has seen it
  have hsee : ∀ k, k = .ar ∨ k = .aw ∨ k = .w → ((d.trace.flatMap (requests d)).filter (kindOf · = k)).length ≤
      ((((now VA SA d va sa t n).noc.ad d.pNode).hist.shown.filterMap (beatPlain ·.1)).filter (kindOf · = k)).length := by
    intro k hk
    have hon := w.shown_on hT ho h1 h2 hw.p.1 (k := k) (by rw [hw.p.2.1]; rcases hk with rfl | rfl | rfl <;> simp [shows])
    rw [← hst] at hon
    have hle := Finset.single_le_sum (f := fun x => (givenFor d.noc (now VA SA d va sa t n).noc x d.pNode k).length)
      (fun _ _ => Nat.zero_le _) (Finset.mem_range.2 hw.q.1)
    rw [given_req hw hs.q.prefix gq.opened, hreqs] at hle
    obtain ⟨hsr, -⟩ := shown_requests hw ha hrn hall.noc hs.q.prefix gq.opened
    rw [show ((now VA SA d va sa t n).noc.ad d.pNode).hist.shown.filterMap (beatPlain ·.1) =
      (((now VA SA d va sa t n).noc.ad d.pNode).hist.shown.map (·.1)).filterMap beatPlain by rw [List.filterMap_map]; rfl]
    rw [plain_count k _ (by intro b hb; obtain ⟨y, hy, rfl⟩ := List.mem_map.1 hb; exact hsr y hy)]
    exact hle.trans hon
  have hback : ((now VA SA d va sa t n).noc.ad d.pNode).rsps.length ≤ (now VA SA d va sa t n).req.got.length := by
    obtain ⟨hsr, -⟩ := shown_responses hw ha hrn hall.noc hs.p.users.1
    have hcount : ∀ k, k = .r ∨ k = .b → ((((now VA SA d va sa t n).noc.ad d.pNode).rsps.map Beat.rsp).filter fun b => b.type = k).length ≤
        (shownAt (now VA SA d va sa t n).noc d.qNode k).length := by
      intro k hk
      have hon := w.shown_on hT ho h1 h2 hw.q.1 (k := k) (by rw [hw.q.2.1]; rcases hk with rfl | rfl <;> simp [shows])
      rw [← hst] at hon
      have hle := Finset.single_le_sum (f := fun x => (givenFor d.noc (now VA SA d va sa t n).noc x d.qNode k).length)
        (fun _ _ => Nat.zero_le _) (Finset.mem_range.2 hw.p.1)
      rw [given_rsp hw hs.p.users.1] at hle
      exact hle.trans hon
    rw [hs.got, shown_length _ hsr, given_length]
    exact Nat.add_le_add (hcount .r (.inl rfl)) (hcount .b (.inr rfl))
  have k1 := hsee .ar (by simp)
  have k2 := hsee .aw (by simp)
  have k3 := hsee .w (by simp)
  rw [hs.p.ar, requests_ar, List.length_map, List.length_map] at k1
  rw [hs.p.aw, requests_aw, List.length_append, List.length_map, List.length_map, List.length_map] at k2
  rw [hs.p.w, requests_w, List.length_append, List.length_map, List.length_map, List.length_map] at k3
  have k4 : (wr d.trace).length ≤ (wr log).length := by
    rcases hs.p.wnone with e | e
    · rw [e] at k2; simpa using k2
    · rw [e] at k3; simpa using k3
  have k5 := rd_wr_length d.trace
  have k6 := rd_wr_length log
  have k7 := congrArg List.length hs.p.out
  rw [answers_length, List.length_append, List.length_map, List.length_map, hr] at k7
  simp only [List.length_nil, Nat.add_zero] at k7
  exact ⟨n, by omega, decide_eq_true (by omega), hreqs⟩

end

/-- The design comes to an end. -/
theorem ends (hw : Works d rng r) (ha : Allocs VA SA (mesh d.noc.m) d.noc.b va sa) (hp : Paced d r N t) (hl : Lively d N n₀ J K t)
    (hgr : Grants VA SA (mesh d.noc.m) d.noc.b va sa) (ho : d.noc.b.outSize ≠ 0) (hsh : 8 ≤ d.noc.b.buf.perVc)
    (hroom : ∀ u, u = d.qNode ∨ u = d.pNode → (d.noc.nc u).mm.maxFlits ≤ (d.noc.nc u).mm.depth)
    (hN : n₀ + ((5 * (d.noc.m.n * d.noc.m.k + 1) + 2) * (24 * d.trace.length) + 1) *
      (3 * K + 262 * J + 2 * slots (mesh d.noc.m) d.noc.b + 7) ≤ N) :
    ∃ n ≤ N, (now VA SA d va sa t n).stops d = true ∧
      ((now VA SA d va sa t n).noc.ad d.qNode).reqs.map plain = d.trace.flatMap (requests d) := by
  have hall := all_of (VA := VA) (SA := SA) hw ha hp N (Nat.le_refl N)
  have hrun := runs_of hw hp (Nat.le_refl N) hall.formed
  have hinv : ∀ n ≤ N, Holds VA SA d.noc va sa (ins VA SA d va sa t) n := fun n hn => inv_of hw.setup ha (runs_mono hrun hn)
  obtain ⟨log, hs⟩ := hall.sound
  have hB := flits_of hw hs
  rw [st_now hw ha hp (Nat.le_refl N)] at hB
  obtain ⟨a, h1, h2, h3⟩ := Net.stands_still (f := progress VA SA d.noc va sa (ins VA SA d va sa t))
    (fun n m h1 h2 => progress_mono hw.setup hinv h1 h2)
    (Nat.le_trans (progress_le hw.setup ha hrun hinv) (Nat.mul_le_mul_left _ hB)) hN
  have w : Calm VA SA d.noc va sa (ins VA SA d va sa t) rng r N n₀ J K a (3 * K + 262 * J + 2 * slots (mesh d.noc.m) d.noc.b + 7) := by
    refine ⟨hw.setup, ha, hgr, fun u hu hk k => ?_, hrun, hinv, fair_of hw ha hp hl, h1, h2, h3⟩
    have : (d.noc.nc u).dataw ≤ 512 := by
      rcases nodes_kind hw hu hk with rfl | rfl
      · rw [hw.q.2.2]
      · rw [hw.p.2.2]
    have := mmFlits_le _ this k
    omega
  refine all_back hw ha hp hroom ho (opens_of hw hp hl hroom) w ?_ hl ?_
  · show 3 * K + 2 * J + 2 * slots (mesh d.noc.m) d.noc.b + 7 ≤ _
    omega
  · show 3 * K + 2 * J + 2 * slots (mesh d.noc.m) d.noc.b + 7 + 260 * J ≤ _
    omega

end RadSim.Hello
