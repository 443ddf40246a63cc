import Verif.Lemmas.AximmModules

/-! # A period at the nodes of the requester and the responder -/

namespace RadSim.Hello

open MmNoc
open MmSink (Beat)
open Net (Msg mesh injLink ejLink)
open AxisNoc (toBs)
open Noc (env)

variable {σ τ ρ ρ' : Type} {VA : Alloc.Cls σ ρ} {SA : Alloc.Cls τ ρ'}

/-! ## the nodes in a period -/

theorem step_nodes {c : Cfg} {i : In ρ ρ'} {x y : MmNoc.Sys σ τ} (h : Noc.step VA SA c.noc i x = .ok y) :
    ∃ net, Net.tick VA SA (mesh c.m) c.b (env c.noc i x) x.net = .ok net ∧ ∀ u < c.m.nodes, ∃ out,
      MmNoc.nodeStep c.b.buf (c.nc u) (i.ad u) ((net.cOut (injLink c.m u)).getD []) ((net.fOut (ejLink c.m u)).map toBs) (x.ad u) =
        .ok (y.ad u, out) := by
  unfold Noc.step at h
  split at h
  · cases h
  · rename_i net h1
    split at h
    · cases h
    · rename_i out h2
      cases h
      exact ⟨net, h1, fun u hu => ⟨(out u).2, Noc.node_part ((Net.each_ok h2).1 u hu)⟩⟩

/-- Two periods that differ in what the adapters see of the modules only. -/
theorem step_twice {c : Cfg} {i i' : In ρ ρ'} {x y z : MmNoc.Sys σ τ} (h : Noc.step VA SA c.noc i x = .ok y)
    (h' : Noc.step VA SA c.noc i' x = .ok z) (he : env c.noc i x = env c.noc i' x) : ∀ u < c.m.nodes, ∃ l arrive out out',
      MmNoc.nodeStep c.b.buf (c.nc u) (i.ad u) l arrive (x.ad u) = .ok (y.ad u, out) ∧
      MmNoc.nodeStep c.b.buf (c.nc u) (i'.ad u) l arrive (x.ad u) = .ok (z.ad u, out') := by
  obtain ⟨net, h1, h2⟩ := step_nodes h
  obtain ⟨net', h3, h4⟩ := step_nodes h'
  rw [he, h3] at h1
  cases h1
  intro u hu
  obtain ⟨out, h5⟩ := h2 u hu
  obtain ⟨out', h6⟩ := h4 u hu
  exact ⟨_, _, out, out', h5, h6⟩

theorem slave_period {b : BufCfg} {nc : NodeCfg} {i : NodeIn} {l : List Nat} {arrive : Option BsFlit} {s y : Node} {out : List BsFlit}
    (h : MmNoc.nodeStep b nc i l arrive s = .ok (y, out)) (hk : nc.kind = .slave) : ∃ accept buf,
      injectBuf b (reqRun nc.mm s.req (i.reqPre.map reqEdge)).1.k s.buf l = .ok (accept, buf) ∧
      y.req = (reqRun nc.mm s.req (reqEvents i accept)).1 ∧ y.reqs = s.reqs ++ (reqRun nc.mm s.req (reqEvents i accept)).2.1 ∧
      y.rsps = s.rsps ∧ MmSink.run nc.sink s.sink s.hist (sinkEvents i arrive) = (y.hist, .ok y.sink) := by
  unfold MmNoc.nodeStep at h
  rw [hk] at h
  dsimp only at h
  split at h
  · cases h
  · rename_i accept buf h1
    split at h
    · cases h
    · rename_i h2
      cases h
      exact ⟨accept, buf, h1, rfl, rfl, rfl, h2⟩

theorem master_period {b : BufCfg} {nc : NodeCfg} {i : NodeIn} {l : List Nat} {arrive : Option BsFlit} {s y : Node} {out : List BsFlit}
    (h : MmNoc.nodeStep b nc i l arrive s = .ok (y, out)) (hk : nc.kind = .master) : ∃ accept buf,
      injectBuf b (rspRun nc.mm s.rsp (i.rspPre.map rspEdge)).1.k s.buf l = .ok (accept, buf) ∧
      y.rsp = (rspRun nc.mm s.rsp (rspEvents i accept)).1 ∧ y.rsps = s.rsps ++ (rspRun nc.mm s.rsp (rspEvents i accept)).2.1 ∧
      y.reqs = s.reqs ∧ MmSink.run nc.sink s.sink s.hist (sinkEvents i arrive) = (y.hist, .ok y.sink) := by
  unfold MmNoc.nodeStep at h
  rw [hk] at h
  dsimp only at h
  split at h
  · cases h
  · rename_i accept buf h1
    split at h
    · cases h
    · rename_i h2
      cases h
      exact ⟨accept, buf, h1, rfl, rfl, rfl, h2⟩

/-! ## the sink side -/

def isNode : MmSink.Event → Bool
  | .node _ => true
  | _ => false

theorem shown_none {c : MmSink.Cfg} (es : List MmSink.Event) : ∀ {s s' : MmSink.State} {h h' : MmSink.Hist},
    MmSink.run c s h es = (h', .ok s') → es.countP isNode = 0 → h'.shown = h.shown := by
  induction es with
  | nil => intro s s' h h' hr _; cases hr; rfl
  | cons e es ih =>
    intro s s' h h' hr hc
    rw [List.countP_cons] at hc
    unfold MmSink.run at hr
    split at hr
    · cases hr
    · rename_i h1 s1 hst
      rw [ih hr (by omega)]
      cases e with
      | node r => simp [isNode] at hc
      | noc a =>
        unfold MmSink.step at hst
        injection hst with e1 e2
        rw [← e1]
        split <;> rfl
      | adapter c =>
        unfold MmSink.step at hst
        dsimp only at hst
        split at hst <;> cases hst
        rfl
      | tick => unfold MmSink.step at hst; cases hst; rfl

theorem shown_one {c : MmSink.Cfg} {ready : MmType → Bool} (es : List MmSink.Event) : ∀ {s s' : MmSink.State} {h h' : MmSink.Hist},
    MmSink.run c s h es = (h', .ok s') → es.countP isNode = 1 → (∀ r, .node r ∈ es → r = ready) →
    ∃ l, h'.shown = h.shown ++ l ∧ (l = [] ∨ ∃ b, l = [(b, ready b.type)]) := by
  induction es with
  | nil => intro s s' h h' _ hc; cases hc
  | cons e es ih =>
    intro s s' h h' hr hc hre
    rw [List.countP_cons] at hc
    unfold MmSink.run at hr
    split at hr
    · cases hr
    · rename_i h1 s1 hst
      cases e with
      | node r =>
        have h0 : es.countP isNode = 0 := by simpa [isNode] using hc
        rw [shown_none es hr h0]
        unfold MmSink.step at hst
        injection hst with e1 e2
        rw [← e1, hre r List.mem_cons_self]
        refine ⟨_, rfl, ?_⟩
        cases s.port with
        | none => exact Or.inl rfl
        | some b => exact Or.inr ⟨b, rfl⟩
      | noc a =>
        obtain ⟨l, hl, hl'⟩ := ih hr (by simpa [isNode] using hc) (fun r hr => hre r (List.mem_cons_of_mem _ hr))
        refine ⟨l, ?_, hl'⟩
        rw [hl]
        unfold MmSink.step at hst
        injection hst with e1 e2
        rw [← e1]
        split <;> rfl
      | adapter c =>
        obtain ⟨l, hl, hl'⟩ := ih hr (by simpa [isNode] using hc) (fun r hr => hre r (List.mem_cons_of_mem _ hr))
        refine ⟨l, ?_, hl'⟩
        rw [hl]
        unfold MmSink.step at hst
        dsimp only at hst
        split at hst <;> cases hst
        rfl
      | tick =>
        obtain ⟨l, hl, hl'⟩ := ih hr (by simpa [isNode] using hc) (fun r hr => hre r (List.mem_cons_of_mem _ hr))
        refine ⟨l, ?_, hl'⟩
        rw [hl]
        unfold MmSink.step at hst
        cases hst
        rfl

theorem count_sink (ready : MmType → Bool) (l : List (Option Bool)) :
    ((sinkEdges ready l).map SinkEdge.event).countP isNode = l.count none := by
  induction l with
  | nil => rfl
  | cons e l ih =>
    unfold sinkEdges at ih ⊢
    rw [List.map_cons, List.map_cons, List.countP_cons, ih, List.count_cons]
    cases e <;> rfl

theorem sink_ready (ready r : MmType → Bool) (l : List (Option Bool)) (h : .node r ∈ (sinkEdges ready l).map SinkEdge.event) :
    r = ready := by
  obtain ⟨e, he, h1⟩ := List.mem_map.1 h
  obtain ⟨o, -, rfl⟩ := List.mem_map.1 he
  cases o with
  | none => injection h1 with h1; exact h1.symm
  | some b => cases h1

/-- The events of a sink side in a period. -/
def sinkEvs (ready : MmType → Bool) (a b : List (Option Bool)) (arrive : Option BsFlit) : List MmSink.Event :=
  .tick :: ((sinkEdges ready a).map SinkEdge.event ++ .noc arrive :: (sinkEdges ready b).map SinkEdge.event)

theorem count_sinkEvs (ready : MmType → Bool) (a b : List (Option Bool)) (arrive : Option BsFlit) :
    (sinkEvs ready a b arrive).countP isNode = (a ++ b).count none := by
  unfold sinkEvs
  rw [List.countP_cons, List.countP_append, List.countP_cons, count_sink, count_sink, List.count_append]
  simp [isNode]

theorem sinkEvs_ready {ready r : MmType → Bool} {a b : List (Option Bool)} {arrive : Option BsFlit}
    (h : .node r ∈ sinkEvs ready a b arrive) : r = ready := by
  unfold sinkEvs at h
  simp only [List.mem_cons, List.mem_append, reduceCtorEq, false_or] at h
  rcases h with h | h
  · exact sink_ready _ _ _ h
  · exact sink_ready _ _ _ h

/-! ## the handshakes do not depend on what the modules drive after their edge -/

theorem fill_append {α : Type} (o o' : α) (a b : List (Bool × Bool)) :
    fill o o' (a ++ b) = if a.countP (fun x => x.1) = 0 then (a.map fun x => (x.1, x.2, o)) ++ fill o o' b
      else fill o o' a ++ b.map fun x => (x.1, x.2, o') := by
  induction a with
  | nil => simp
  | cons x a ih =>
    obtain ⟨n, e⟩ := x
    cases n with
    | false =>
      rw [List.cons_append]
      simp only [fill, ih, List.countP_cons]
      split
      · rename_i h; rw [if_pos (by simpa using h)]; simp
      · rename_i h; rw [if_neg (by simpa using h)]; simp
    | true => simp [fill]

theorem no_node_req (c : MmCfg) (es : List ReqEvent) : ∀ s : ReqState, (∀ e ∈ es, e.clocks.1 = false) → (reqRun c s es).2.1 = [] := by
  induction es with
  | nil => intro s _; rfl
  | cons e es ih =>
    intro s h
    simp only [reqRun]
    rw [ih _ (fun x hx => h x (List.mem_cons_of_mem _ hx)), List.append_nil]
    cases e with
    | noc a => rfl
    | edge n a o =>
      have hn : n = false := h _ List.mem_cons_self
      subst hn
      rfl

theorem handshakes_evs (c : MmCfg) (o o' o'' : ReqOffer) (a b : List (Bool × Bool)) (acc acc' : Bool) (s : ReqState)
    (h : (a ++ b).countP (fun x => x.1) ≤ 1) (hacc : a.countP (fun x => x.1) = 0 → acc = acc') :
    (reqRun c s (evs o o' a b acc)).2.1 = (reqRun c s (evs o o'' a b acc')).2.1 := by
  rw [List.countP_append] at h
  unfold evs
  rw [fill_append, fill_append]
  by_cases h0 : a.countP (fun x => x.1) = 0
  · rw [if_pos h0, if_pos h0, hacc h0]
    have e1 : a.length = (a.map fun x => (x.1, x.2, o)).length := by simp
    rw [e1, List.take_left, List.drop_left, List.take_left, List.drop_left, reqRun_append, reqRun_append]
    simp only [reqRun]
    rw [handshakes_fill c o o' o'' b _ (by omega)]
  · rw [if_neg h0, if_neg h0]
    have e1 : a.length = (fill o o' a).length := (length_fill o o' a).symm
    have e2 : a.length = (fill o o'' a).length := (length_fill o o'' a).symm
    have hb : b.countP (fun x => x.1) = 0 := by omega
    have hn : ∀ (p : ReqOffer) (ac : Bool), ∀ e ∈ ReqEvent.noc ac :: (b.map fun x => (x.1, x.2, p)).map reqEdge, e.clocks.1 = false := by
      intro p ac e he
      rcases List.mem_cons.1 he with rfl | he
      · rfl
      · rw [List.map_map] at he
        obtain ⟨x, hx, rfl⟩ := List.mem_map.1 he
        have := (List.countP_eq_zero.1 hb) x hx
        show x.1 = false
        simpa using this
    conv => lhs; rw [e1, List.take_left, List.drop_left]
    conv => rhs; rw [e2, List.take_left, List.drop_left]
    rw [reqRun_append, reqRun_append]
    dsimp only
    rw [no_node_req c _ _ (hn o' acc), no_node_req c _ _ (hn o'' acc'), handshakes_fill c o o' o'' a _ (by omega)]

theorem no_node_rsp (c : MmCfg) (es : List RspEvent) : ∀ s : RspState, (∀ e ∈ es, e.clocks.1 = false) → (rspRun c s es).2.1 = [] := by
  induction es with
  | nil => intro s _; rfl
  | cons e es ih =>
    intro s h
    simp only [rspRun]
    rw [ih _ (fun x hx => h x (List.mem_cons_of_mem _ hx)), List.append_nil]
    cases e with
    | noc a => rfl
    | edge n a o =>
      have hn : n = false := h _ List.mem_cons_self
      subst hn
      rfl

theorem handshakes_evsRsp (c : MmCfg) (o o' o'' : RspOffer) (a b : List (Bool × Bool)) (acc acc' : Bool) (s : RspState)
    (h : (a ++ b).countP (fun x => x.1) ≤ 1) (hacc : a.countP (fun x => x.1) = 0 → acc = acc') :
    (rspRun c s (evsRsp o o' a b acc)).2.1 = (rspRun c s (evsRsp o o'' a b acc')).2.1 := by
  rw [List.countP_append] at h
  unfold evsRsp
  rw [fill_append, fill_append]
  by_cases h0 : a.countP (fun x => x.1) = 0
  · rw [if_pos h0, if_pos h0, hacc h0]
    have e1 : a.length = (a.map fun x => (x.1, x.2, o)).length := by simp
    rw [e1, List.take_left, List.drop_left, List.take_left, List.drop_left, rspRun_append, rspRun_append]
    simp only [rspRun]
    rw [handshakes_fill_rsp c o o' o'' b _ (by omega)]
  · rw [if_neg h0, if_neg h0]
    have e1 : a.length = (fill o o' a).length := (length_fill o o' a).symm
    have e2 : a.length = (fill o o'' a).length := (length_fill o o'' a).symm
    have hb : b.countP (fun x => x.1) = 0 := by omega
    have hn : ∀ (p : RspOffer) (ac : Bool), ∀ e ∈ RspEvent.noc ac :: (b.map fun x => (x.1, x.2, p)).map rspEdge, e.clocks.1 = false := by
      intro p ac e he
      rcases List.mem_cons.1 he with rfl | he
      · rfl
      · rw [List.map_map] at he
        obtain ⟨x, hx, rfl⟩ := List.mem_map.1 he
        have := (List.countP_eq_zero.1 hb) x hx
        show x.1 = false
        simpa using this
    conv => lhs; rw [e1, List.take_left, List.drop_left]
    conv => rhs; rw [e2, List.take_left, List.drop_left]
    rw [rspRun_append, rspRun_append]
    dsimp only
    rw [no_node_rsp c _ _ (hn o' acc), no_node_rsp c _ _ (hn o'' acc'), handshakes_fill_rsp c o o' o'' a _ (by omega)]

/-! ## the node of the requester -/

section q

variable {d : Params} {t : Tick ρ ρ'} {x : Sys σ τ} {o o' : ReqOffer} {p p' : RspOffer} {b : BufCfg} {l : List Nat}
  {arrive : Option BsFlit} {s y z : Node} {out out' : List BsFlit}

theorem q_in : nodeIn d t x o p d.qNode = ⟨(fill x.req.off o (t.pre d.qNode ++ t.post d.qNode)).take (t.pre d.qNode).length,
    (fill x.req.off o (t.pre d.qNode ++ t.post d.qNode)).drop (t.pre d.qNode).length, [], [],
    sinkEdges (fun _ => true) (t.outPre d.qNode), sinkEdges (fun _ => true) (t.outPost d.qNode)⟩ := by
  unfold nodeIn
  rw [if_pos rfl]

theorem q_run (h : MmNoc.nodeStep b (d.noc.nc d.qNode) (nodeIn d t x o p d.qNode) l arrive s = .ok (y, out))
    (hk : (d.noc.nc d.qNode).kind = .slave) : ∃ accept buf,
      injectBuf b (reqRun (d.noc.nc d.qNode).mm s.req (((fill x.req.off o (t.pre d.qNode ++ t.post d.qNode)).take
        (t.pre d.qNode).length).map reqEdge)).1.k s.buf l = .ok (accept, buf) ∧
      y.req = (reqRun (d.noc.nc d.qNode).mm s.req (evs x.req.off o (t.pre d.qNode) (t.post d.qNode) accept)).1 ∧
      y.reqs = s.reqs ++ (reqRun (d.noc.nc d.qNode).mm s.req
        (evs x.req.off o (t.pre d.qNode) (t.post d.qNode) accept)).2.1 ∧
      MmSink.run (d.noc.nc d.qNode).sink s.sink s.hist (sinkEvs (fun _ => true) (t.outPre d.qNode) (t.outPost d.qNode) arrive) =
        (y.hist, .ok y.sink) := by
  rw [q_in] at h
  obtain ⟨accept, buf, h1, h2, h3, -, h5⟩ := slave_period h hk
  exact ⟨accept, buf, h1, h2, h3, h5⟩

/-- A period without an edge of the modules. -/
theorem q_still (h : MmNoc.nodeStep b (d.noc.nc d.qNode) (nodeIn d t x o p d.qNode) l arrive s = .ok (y, out))
    (hk : (d.noc.nc d.qNode).kind = .slave) (hoff : s.req.off = x.req.off)
    (hc : ((t.pre d.qNode ++ t.post d.qNode).countP fun x => x.1) = 0)
    (ho : (t.outPre d.qNode ++ t.outPost d.qNode).count none = 0) :
    y.req.off = x.req.off ∧ y.req.k.reg = s.req.k.reg ∧ y.reqs = s.reqs ∧ y.hist.shown = s.hist.shown := by
  obtain ⟨accept, buf, -, h2, h3, h4⟩ := q_run h hk
  obtain ⟨k1, k2, k3⟩ := still_run (d.noc.nc d.qNode).mm _ s.req (evs_still (o' := o) (accept := accept) hc) hoff
  refine ⟨by rw [h2, k1], by rw [h2, k2], by rw [h3, k3, List.append_nil], ?_⟩
  exact shown_none _ h4 (by rw [count_sinkEvs]; exact ho)

/-- A period with an edge of the modules. -/
theorem q_edge (h : MmNoc.nodeStep b (d.noc.nc d.qNode) (nodeIn d t x o p d.qNode) l arrive s = .ok (y, out))
    (hk : (d.noc.nc d.qNode).kind = .slave) (hoff : s.req.off = x.req.off)
    (hc : ((t.pre d.qNode ++ t.post d.qNode).countP fun x => x.1) = 1)
    (ho : (t.outPre d.qNode ++ t.outPost d.qNode).count none = 1) {m : Nat} (hm : MmCfgOk (d.noc.nc d.qNode).mm m)
    {gap : Option Nat} {se : List BsFlit} (hi : ReqInv (d.noc.nc d.qNode).mm s.req gap s.reqs se) (hw : wOnlyOpen false s.reqs)
    (hg : Spaced m gap (t.pre d.qNode ++ t.post d.qNode)) :
    y.req.off = o ∧ ∃ hs lst, y.reqs = s.reqs ++ hs ∧ y.hist.shown = s.hist.shown ++ lst ∧
      ((hs = [] ∧ y.req.k.reg = none) ∨
        ∃ a, hs = [a] ∧ a ∈ ReqOffer.beats x.req.off ∧ s.req.k.reg = none ∧ y.req.k.reg.isSome = true) ∧
      (lst = [] ∨ ∃ a, lst = [(a, true)]) := by
  obtain ⟨accept, buf, -, h2, h3, h4⟩ := q_run h hk
  obtain ⟨A, e, B, e1, e2, e3⟩ := evs_one (o := x.req.off) (o' := o) (accept := accept) hc
  have hg' : Spaced m gap ((A ++ .edge true e o :: B).map ReqEvent.clocks) := by
    rw [← e1]
    unfold evs
    rw [List.map_append, List.map_cons]
    refine (spaced_noc _ _ _).2 ?_
    rw [← List.map_append, ← List.map_append, List.take_append_drop, List.map_map]
    have := fill_flags x.req.off o (t.pre d.qNode ++ t.post d.qNode)
    have e4 : ReqEvent.clocks ∘ reqEdge = fun x => (x.1, x.2.1) := rfl
    rw [e4, this]
    exact hg
  have key := one_edge hm hi hw e2 e3 hoff hg'
  rw [← e1] at key
  obtain ⟨lst, k1, k2⟩ := shown_one (ready := (fun _ => true)) _ h4 (by rw [count_sinkEvs]; exact ho) (fun r hr => sinkEvs_ready hr)
  dsimp only at key
  rw [← h2] at key
  exact ⟨key.1, _, lst, h3, k1, key.2, k2⟩

/-- Handshakes and beats shown are the same whatever the modules drive after their edge. -/
theorem q_same (h : MmNoc.nodeStep b (d.noc.nc d.qNode) (nodeIn d t x o p d.qNode) l arrive s = .ok (y, out))
    (h' : MmNoc.nodeStep b (d.noc.nc d.qNode) (nodeIn d t x o' p' d.qNode) l arrive s = .ok (z, out'))
    (hk : (d.noc.nc d.qNode).kind = .slave)
    (hc : ((t.pre d.qNode ++ t.post d.qNode).countP fun x => x.1) ≤ 1) : y.reqs = z.reqs ∧ y.hist = z.hist := by
  obtain ⟨accept, buf, h1, -, h3, h4⟩ := q_run h hk
  obtain ⟨accept', buf', h1', -, h3', h4'⟩ := q_run h' hk
  rw [h4] at h4'
  injection h4' with h4' _
  refine ⟨?_, h4'⟩
  rw [h3, h3', handshakes_evs (d.noc.nc d.qNode).mm x.req.off o o' _ _ accept accept' _ hc]
  intro h0
  rw [fill_append, if_pos h0, List.take_left' (by simp)] at h1 h1'
  rw [h1] at h1'
  injection h1' with h1'
  injection h1'

end q

/-! ## the node of the responder -/

section p

variable {d : Params} {t : Tick ρ ρ'} {x : Sys σ τ} {o o' : ReqOffer} {p p' : RspOffer} {b : BufCfg} {l : List Nat}
  {arrive : Option BsFlit} {s y z : Node} {out out' : List BsFlit}

theorem p_in (hne : d.pNode ≠ d.qNode) : nodeIn d t x o p d.pNode = ⟨[], [], (fill x.rsp.off p (t.pre d.pNode ++ t.post d.pNode)).take (t.pre d.pNode).length,
    (fill x.rsp.off p (t.pre d.pNode ++ t.post d.pNode)).drop (t.pre d.pNode).length,
    sinkEdges x.rsp.ready (t.outPre d.pNode), sinkEdges x.rsp.ready (t.outPost d.pNode)⟩ := by
  unfold nodeIn
  rw [if_neg hne, if_pos rfl]

theorem p_run (h : MmNoc.nodeStep b (d.noc.nc d.pNode) (nodeIn d t x o p d.pNode) l arrive s = .ok (y, out))
    (hk : (d.noc.nc d.pNode).kind = .master) (hne : d.pNode ≠ d.qNode) : ∃ accept buf,
      injectBuf b (rspRun (d.noc.nc d.pNode).mm s.rsp (((fill x.rsp.off p (t.pre d.pNode ++ t.post d.pNode)).take
        (t.pre d.pNode).length).map rspEdge)).1.k s.buf l = .ok (accept, buf) ∧
      y.rsp = (rspRun (d.noc.nc d.pNode).mm s.rsp (evsRsp x.rsp.off p (t.pre d.pNode) (t.post d.pNode) accept)).1 ∧
      y.rsps = s.rsps ++ (rspRun (d.noc.nc d.pNode).mm s.rsp
        (evsRsp x.rsp.off p (t.pre d.pNode) (t.post d.pNode) accept)).2.1 ∧
      MmSink.run (d.noc.nc d.pNode).sink s.sink s.hist (sinkEvs x.rsp.ready (t.outPre d.pNode) (t.outPost d.pNode) arrive) =
        (y.hist, .ok y.sink) := by
  rw [p_in hne] at h
  obtain ⟨accept, buf, h1, h2, h3, -, h5⟩ := master_period h hk
  exact ⟨accept, buf, h1, h2, h3, h5⟩

/-- A period without an edge of the modules. -/
theorem p_still (h : MmNoc.nodeStep b (d.noc.nc d.pNode) (nodeIn d t x o p d.pNode) l arrive s = .ok (y, out))
    (hk : (d.noc.nc d.pNode).kind = .master) (hne : d.pNode ≠ d.qNode) (hoff : s.rsp.off = x.rsp.off)
    (hc : ((t.pre d.pNode ++ t.post d.pNode).countP fun x => x.1) = 0)
    (ho : (t.outPre d.pNode ++ t.outPost d.pNode).count none = 0) :
    y.rsp.off = x.rsp.off ∧ y.rsp.k.reg = s.rsp.k.reg ∧ y.rsps = s.rsps ∧ y.hist.shown = s.hist.shown := by
  obtain ⟨accept, buf, -, h2, h3, h4⟩ := p_run h hk hne
  obtain ⟨k1, k2, k3⟩ := still_run_rsp (d.noc.nc d.pNode).mm _ s.rsp (evsRsp_still (o' := p) (accept := accept) hc) hoff
  refine ⟨by rw [h2, k1], by rw [h2, k2], by rw [h3, k3, List.append_nil], ?_⟩
  exact shown_none _ h4 (by rw [count_sinkEvs]; exact ho)

/-- A period with an edge of the modules. -/
theorem p_edge (h : MmNoc.nodeStep b (d.noc.nc d.pNode) (nodeIn d t x o p d.pNode) l arrive s = .ok (y, out))
    (hk : (d.noc.nc d.pNode).kind = .master) (hne : d.pNode ≠ d.qNode) (hoff : s.rsp.off = x.rsp.off)
    (hc : ((t.pre d.pNode ++ t.post d.pNode).countP fun x => x.1) = 1)
    (ho : (t.outPre d.pNode ++ t.outPost d.pNode).count none = 1) {m : Nat} (hm : MmCfgOk (d.noc.nc d.pNode).mm m)
    {gap : Option Nat} {se : List BsFlit} (hr : rspReadyFor s.rsp) (hi : PktInv (d.noc.nc d.pNode).mm s.rsp.k gap (s.rsps.map rspTxn) se)
    (hg : Spaced m gap (t.pre d.pNode ++ t.post d.pNode)) :
    y.rsp.off = p ∧ ∃ hs lst, y.rsps = s.rsps ++ hs ∧ y.hist.shown = s.hist.shown ++ lst ∧
      ((hs = [] ∧ y.rsp.k.reg = none) ∨
        ∃ a, hs = [a] ∧ a ∈ RspOffer.beats x.rsp.off ∧ s.rsp.k.reg = none ∧ y.rsp.k.reg.isSome = true) ∧
      (lst = [] ∨ ∃ a, lst = [(a, x.rsp.ready a.type)]) := by
  obtain ⟨accept, buf, -, h2, h3, h4⟩ := p_run h hk hne
  obtain ⟨A, e, B, e1, e2, e3⟩ := evsRsp_one (o := x.rsp.off) (o' := p) (accept := accept) hc
  have hg' : Spaced m gap ((A ++ .edge true e p :: B).map RspEvent.clocks) := by
    rw [← e1]
    unfold evsRsp
    rw [List.map_append, List.map_cons]
    refine (spaced_noc _ _ _).2 ?_
    rw [← List.map_append, ← List.map_append, List.take_append_drop, List.map_map]
    have := fill_flags x.rsp.off p (t.pre d.pNode ++ t.post d.pNode)
    have e4 : RspEvent.clocks ∘ rspEdge = fun x => (x.1, x.2.1) := rfl
    rw [e4, this]
    exact hg
  have key := one_edge_rsp hm hr hi e2 e3 hoff hg'
  rw [← e1] at key
  obtain ⟨lst, k1, k2⟩ := shown_one (ready := x.rsp.ready) _ h4 (by rw [count_sinkEvs]; exact ho) (fun r hr => sinkEvs_ready hr)
  dsimp only at key
  rw [← h2] at key
  exact ⟨key.1, _, lst, h3, k1, key.2, k2⟩

/-- Handshakes and beats shown are the same whatever the modules drive after their edge. -/
theorem p_same (h : MmNoc.nodeStep b (d.noc.nc d.pNode) (nodeIn d t x o p d.pNode) l arrive s = .ok (y, out))
    (h' : MmNoc.nodeStep b (d.noc.nc d.pNode) (nodeIn d t x o' p' d.pNode) l arrive s = .ok (z, out'))
    (hk : (d.noc.nc d.pNode).kind = .master) (hne : d.pNode ≠ d.qNode)
    (hc : ((t.pre d.pNode ++ t.post d.pNode).countP fun x => x.1) ≤ 1) : y.rsps = z.rsps ∧ y.hist = z.hist := by
  obtain ⟨accept, buf, h1, -, h3, h4⟩ := p_run h hk hne
  obtain ⟨accept', buf', h1', -, h3', h4'⟩ := p_run h' hk hne
  rw [h4] at h4'
  injection h4' with h4' _
  refine ⟨?_, h4'⟩
  rw [h3, h3', handshakes_evsRsp (d.noc.nc d.pNode).mm x.rsp.off p p' _ _ accept accept' _ hc]
  intro h0
  rw [fill_append, if_pos h0, List.take_left' (by simp)] at h1 h1'
  rw [h1] at h1'
  injection h1' with h1'
  injection h1'

end p

end RadSim.Hello
