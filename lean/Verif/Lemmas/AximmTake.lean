import Verif.Lemmas.AximmDesign
import Verif.Props.MmNocLive

/-! # A source side with nothing to send takes what it is offered -/

namespace RadSim.Hello

open MmNoc
open MmSink (Beat)
open Net (Msg mesh Allocs)

/-! ## packetisation with nothing to do -/

/-- Nothing is to be made into flits or sent. -/
structure Void (k : Pkt) : Prop where
  reg : k.reg = none
  inj : k.toInj = none
  fifo : k.fifo = []

/-- Edges of the adapter clock until `_packetization_cycle` is zero, at most. -/
def left (k : Pkt) : Nat := (256 - k.cycle.toNat) % 256

theorem left_zero {k : Pkt} (h : left k = 0) : k.cycle = 0 := by
  unfold left at h
  apply BitVec.eq_of_toNat_eq
  have := k.cycle.isLt
  show k.cycle.toNat = 0
  omega

theorem Void.adapter {c : MmCfg} {k : Pkt} (h : Void k) : Void (k.adapterEdge c) ∧ left (k.adapterEdge c) ≤ left k - 1 ∧
    (c.maxFlits ≤ c.depth → (k.adapterEdge c).full = false) := by
  refine ⟨⟨h.reg, h.inj, ?_⟩, ?_, fun hd => ?_⟩
  · simp [Pkt.adapterEdge, h.reg, h.fifo]
  · have e : (k.adapterEdge c).cycle = if 0 < k.cycle then (if k.cycle == pktLimit c k.nflits then 0 else k.cycle + 1) else k.cycle := by
      simp [Pkt.adapterEdge, h.reg]
    unfold left
    rw [e]
    have hlt := k.cycle.isLt
    split
    · rename_i h0
      have h0 : 0 < k.cycle.toNat := by simpa [BitVec.lt_def] using h0
      split
      · simp
      · rw [BitVec.toNat_add]
        have : (1 : BitVec 8).toNat = 1 := rfl
        rw [this]
        omega
    · rename_i h0
      have h0 : k.cycle.toNat = 0 := by
        have : ¬ 0 < k.cycle.toNat := by simpa [BitVec.lt_def] using h0
        omega
      rw [h0]
  · simp [Pkt.adapterEdge, h.reg, h.fifo, hd]

theorem Void.noc {k : Pkt} (h : Void k) (accept : Bool) : (k.nocEdge accept).1 = k := by
  obtain ⟨reg, cycle, nflits, full, fifo, toInj⟩ := k
  obtain ⟨h1, h2, h3⟩ := h
  dsimp only at h1 h2 h3
  subst h1 h2 h3
  rfl

/-- How a packetisation with nothing to do goes on. -/
structure Rests (c : MmCfg) (a : Bool) (k k' : Pkt) : Prop where
  void : Void k'
  left : left k' ≤ left k - if a then 1 else 0
  full : c.maxFlits ≤ c.depth → (a = true ∨ k.full = false) → k'.full = false

theorem Rests.trans {c : MmCfg} {a b : Bool} {k l m : Pkt} (h : Rests c a k l) (g : Rests c b l m) : Rests c (a || b) k m := by
  refine ⟨g.void, ?_, fun hd hf => g.full hd ?_⟩
  · have h1 := h.left
    have h2 := g.left
    cases a <;> cases b <;> simp at h1 h2 ⊢ <;> omega
  · cases b with
    | true => exact .inl rfl
    | false => exact .inr (h.full hd (by simpa using hf))

theorem Rests.refl {c : MmCfg} {k : Pkt} (h : Void k) : Rests c false k k :=
  ⟨h, by simp, fun _ hf => hf.resolve_left (by simp)⟩

/-! ## the request side -/

variable {c : MmCfg}

theorem req_none {s : ReqState} {a : Bool} {o : ReqOffer} (h : reqHandshakes s (.edge true a o) = []) : s.nodeEdge.1 = none := by
  unfold reqHandshakes at h
  unfold ReqState.nodeEdge
  obtain ⟨h1, h3⟩ := List.append_eq_nil_iff.1 h
  obtain ⟨h1, h2⟩ := List.append_eq_nil_iff.1 h1
  cases e1 : s.arready <;> cases e2 : s.off.ar <;> cases e3 : s.awready <;> cases e4 : s.off.aw <;> cases e5 : s.wready <;>
    cases e6 : s.off.w <;> cases e7 : s.gotAw <;> simp [e1, e2, e3, e4, e5, e6] at h1 h2 h3 ⊢

theorem req_rests {s : ReqState} (h : Void s.k) {e : ReqEvent} (hh : reqHandshakes s e = []) :
    Rests c e.clocks.2 s.k (reqStep c s e).1.k := by
  cases e with
  | noc accept =>
    show Rests c false s.k (s.k.nocEdge accept).1
    rw [h.noc]
    exact .refl h
  | edge n a o =>
    have e : (reqStep c s (.edge n a o)).1.k = if n then { (if a then s.k.adapterEdge c else s.k) with reg := s.nodeEdge.1 } else
        (if a then s.k.adapterEdge c else s.k) := by
      rw [reqStep_edge]; split <;> rfl
    have g : Rests c a s.k (if a then s.k.adapterEdge c else s.k) := by
      cases a with
      | true => exact ⟨h.adapter.1, h.adapter.2.1, fun hd _ => h.adapter.2.2 hd⟩
      | false => exact .refl h
    rw [e]
    cases n with
    | false => exact g
    | true =>
      have hn := req_none hh
      rw [hn]
      have : ({ (if a then s.k.adapterEdge c else s.k) with reg := none } : Pkt) = if a then s.k.adapterEdge c else s.k := by
        rw [← g.void.reg]
      simp only [if_true]
      rw [this]
      exact g

theorem req_rest_run (es : List ReqEvent) : ∀ {s : ReqState}, Void s.k → (reqRun c s es).2.1 = [] →
    Rests c (es.any fun e => e.clocks.2) s.k (reqRun c s es).1.k := by
  induction es with
  | nil => intro s h _; exact .refl h
  | cons e es ih =>
    intro s h hh
    dsimp only [reqRun] at hh ⊢
    obtain ⟨h1, h2⟩ := List.append_eq_nil_iff.1 hh
    have g := req_rests (c := c) h h1
    exact g.trans (ih g.void h2)

/-- Without a handshake there is nothing to make into flits after an edge of the node clock. -/
theorem req_reg_run (es : List ReqEvent) : ∀ {s : ReqState}, (reqRun c s es).2.1 = [] →
    (s.k.reg = none ∨ ∃ e ∈ es, e.clocks.1 = true) → (reqRun c s es).1.k.reg = none := by
  induction es with
  | nil => intro s _ h; exact h.resolve_right (by rintro ⟨e, h, -⟩; cases h)
  | cons e es ih =>
    intro s hh h
    dsimp only [reqRun] at hh ⊢
    obtain ⟨h1, h2⟩ := List.append_eq_nil_iff.1 hh
    refine ih h2 ?_
    have key : (reqStep c s e).1.k.reg = if e.clocks.1 then none else s.k.reg := by
      cases e with
      | noc a => exact nocEdge_reg _ _
      | edge n a o =>
        have : (reqStep c s (.edge n a o)).1.k.reg = if n then s.nodeEdge.1 else s.k.reg := by
          rw [reqStep_edge]
          cases n <;> cases a <;> split <;> rfl
        rw [this]
        cases n with
        | false => rfl
        | true => exact req_none h1
    rcases h with h | ⟨e', he', hc⟩
    · left; rw [key, h]; split <;> rfl
    · rcases List.mem_cons.1 he' with rfl | he'
      · left; rw [key, if_pos hc]
      · exact .inr ⟨e', he', hc⟩

/-- Something on offer can be taken. -/
def Wanted (gotAw : Bool) (o : ReqOffer) : Prop := o.ar.isSome = true ∨ o.aw.isSome = true ∨ o.w.isSome = true ∧ gotAw = true

theorem req_taken {s : ReqState} (hr : reqReadyFor s s.gotAw) (hc : s.k.cycle = 0) (hf : s.k.full = false) (hw : Wanted s.gotAw s.off)
    (a : Bool) (o : ReqOffer) : reqHandshakes s (.edge true a o) ≠ [] := by
  obtain ⟨h1, h2, h3⟩ := hr
  rw [hc, hf] at h1 h2 h3
  unfold reqHandshakes
  rw [h1, h2, h3]
  unfold Wanted at hw
  unfold reqChoose
  cases p0 : (s.prio == 0) <;> cases p1 : (s.prio == 1) <;> cases e2 : s.off.ar <;> cases e4 : s.off.aw <;> cases e6 : s.off.w <;>
    cases e7 : s.gotAw <;> simp [e2, e4, e6, e7] at hw ⊢

theorem req_edge_taken {m : Nat} (hc : MmCfgOk c m) {o o' : ReqOffer} {s : ReqState} {gap : Option Nat} {acc : List ReqBeat} {out : List BsFlit}
    (h : ReqInv c s gap acc out) (hw : wOnlyOpen false acc) {A B : List ReqEvent} {e : Bool}
    (hA : ∀ x ∈ A, StillReq o x) (hs : s.off = o) (hg : Spaced m gap ((A ++ .edge true e o' :: B).map ReqEvent.clocks))
    (hv : Void s.k) (hcy : s.k.cycle = 0) (hfu : s.k.full = false) (hd : c.maxFlits ≤ c.depth) (hwant : Wanted (awOpen false acc) o) :
    (reqRun c s (A ++ .edge true e o' :: B)).2.1 ≠ [] := by
  rw [reqRun_append]
  obtain ⟨a1, a2, a3⟩ := still_run c A s hA hs
  rw [List.map_append, List.map_cons, spaced_append] at hg
  obtain ⟨g1, g2⟩ := hg
  obtain ⟨i1, -⟩ := req_run hc A h hw g1.gapOk
  have hre := req_rest_run (c := c) A hv a3
  rw [a3, List.append_nil] at i1
  generalize reqRun c s A = u at *
  obtain ⟨g, r1, r2⟩ := i1.rdy
  have hr : reqReadyFor u.1 u.1.gotAw := by
    rcases r2 with rfl | ⟨-, r2, -⟩
    · exact r1
    · rw [hre.void.reg] at r2; cases r2
  have hl : left s.k = 0 := by unfold left; rw [hcy]; rfl
  have hcy' : u.1.k.cycle = 0 := left_zero (by have := hre.left; omega)
  have hfu' : u.1.k.full = false := hre.full hd (.inr hfu)
  rw [i1.aw.symm, ← a1] at hwant
  have := req_taken hr hcy' hfu' hwant e o'
  dsimp only [reqRun]
  intro h0
  obtain ⟨-, h0⟩ := List.append_eq_nil_iff.1 h0
  exact this (List.append_eq_nil_iff.1 h0).1

/-! ## the response side -/

theorem rsp_none {s : RspState} {a : Bool} {o : RspOffer} (h : rspHandshakes s (.edge true a o) = []) : s.nodeEdge.1 = none := by
  unfold rspHandshakes at h
  unfold RspState.nodeEdge
  obtain ⟨h1, h2⟩ := List.append_eq_nil_iff.1 h
  cases e1 : s.rready <;> cases e2 : s.off.r <;> cases e3 : s.bready <;> cases e4 : s.off.b <;>
    simp [e1, e2, e3, e4] at h1 h2 ⊢

theorem rsp_rests {s : RspState} (h : Void s.k) {e : RspEvent} (hh : rspHandshakes s e = []) :
    Rests c e.clocks.2 s.k (rspStep c s e).1.k := by
  cases e with
  | noc accept =>
    show Rests c false s.k (s.k.nocEdge accept).1
    rw [h.noc]
    exact .refl h
  | edge n a o =>
    have e : (rspStep c s (.edge n a o)).1.k = if n then { (if a then s.k.adapterEdge c else s.k) with reg := s.nodeEdge.1 } else
        (if a then s.k.adapterEdge c else s.k) := by
      rw [rspStep_edge]; split <;> rfl
    have g : Rests c a s.k (if a then s.k.adapterEdge c else s.k) := by
      cases a with
      | true => exact ⟨h.adapter.1, h.adapter.2.1, fun hd _ => h.adapter.2.2 hd⟩
      | false => exact .refl h
    rw [e]
    cases n with
    | false => exact g
    | true =>
      have hn := rsp_none hh
      rw [hn]
      have : ({ (if a then s.k.adapterEdge c else s.k) with reg := none } : Pkt) = if a then s.k.adapterEdge c else s.k := by
        rw [← g.void.reg]
      simp only [if_true]
      rw [this]
      exact g

theorem rsp_rest_run (es : List RspEvent) : ∀ {s : RspState}, Void s.k → (rspRun c s es).2.1 = [] →
    Rests c (es.any fun e => e.clocks.2) s.k (rspRun c s es).1.k := by
  induction es with
  | nil => intro s h _; exact .refl h
  | cons e es ih =>
    intro s h hh
    dsimp only [rspRun] at hh ⊢
    obtain ⟨h1, h2⟩ := List.append_eq_nil_iff.1 hh
    have g := rsp_rests (c := c) h h1
    exact g.trans (ih g.void h2)

theorem rsp_reg_run (es : List RspEvent) : ∀ {s : RspState}, (rspRun c s es).2.1 = [] →
    (s.k.reg = none ∨ ∃ e ∈ es, e.clocks.1 = true) → (rspRun c s es).1.k.reg = none := by
  induction es with
  | nil => intro s _ h; exact h.resolve_right (by rintro ⟨e, h, -⟩; cases h)
  | cons e es ih =>
    intro s hh h
    dsimp only [rspRun] at hh ⊢
    obtain ⟨h1, h2⟩ := List.append_eq_nil_iff.1 hh
    refine ih h2 ?_
    have key : (rspStep c s e).1.k.reg = if e.clocks.1 then none else s.k.reg := by
      cases e with
      | noc a => exact nocEdge_reg _ _
      | edge n a o =>
        have : (rspStep c s (.edge n a o)).1.k.reg = if n then s.nodeEdge.1 else s.k.reg := by
          rw [rspStep_edge]
          cases n <;> cases a <;> split <;> rfl
        rw [this]
        cases n with
        | false => rfl
        | true => exact rsp_none h1
    rcases h with h | ⟨e', he', hc⟩
    · left; rw [key, h]; split <;> rfl
    · rcases List.mem_cons.1 he' with rfl | he'
      · left; rw [key, if_pos hc]
      · exact .inr ⟨e', he', hc⟩

theorem rsp_taken {s : RspState} (hr : rspReadyFor s) (hc : s.k.cycle = 0) (hf : s.k.full = false)
    (hw : s.off.r.isSome = true ∨ s.off.b.isSome = true) (a : Bool) (o : RspOffer) : rspHandshakes s (.edge true a o) ≠ [] := by
  obtain ⟨h1, h2⟩ := hr
  rw [hc, hf] at h1 h2
  unfold rspHandshakes
  rw [h1, h2]
  unfold rspChoose
  cases p0 : s.prio <;> cases e2 : s.off.r <;> cases e4 : s.off.b <;> simp [e2, e4] at hw ⊢

theorem rsp_edge_taken {m : Nat} (hc : MmCfgOk c m) {o o' : RspOffer} {s : RspState} {gap : Option Nat} {acc : List RspBeat}
    {out : List BsFlit} (hr : rspReadyFor s) (h : PktInv c s.k gap (acc.map rspTxn) out) {A B : List RspEvent} {e : Bool}
    (hA : ∀ x ∈ A, StillRsp o x) (hs : s.off = o) (hg : Spaced m gap ((A ++ .edge true e o' :: B).map RspEvent.clocks))
    (hv : Void s.k) (hcy : s.k.cycle = 0) (hfu : s.k.full = false) (hd : c.maxFlits ≤ c.depth)
    (hwant : o.r.isSome = true ∨ o.b.isSome = true) : (rspRun c s (A ++ .edge true e o' :: B)).2.1 ≠ [] := by
  rw [rspRun_append]
  obtain ⟨a1, a2, a3⟩ := still_run_rsp c A s hA hs
  rw [List.map_append, List.map_cons, spaced_append] at hg
  obtain ⟨g1, g2⟩ := hg
  obtain ⟨i1, -⟩ := rsp_run hc A hr h g1.gapOk
  have hre := rsp_rest_run (c := c) A hv a3
  generalize rspRun c s A = u at *
  have hl : left s.k = 0 := by unfold left; rw [hcy]; rfl
  have hcy' : u.1.k.cycle = 0 := left_zero (by have := hre.left; omega)
  have hfu' : u.1.k.full = false := hre.full hd (.inr hfu)
  rw [← a1] at hwant
  have := rsp_taken i1 hcy' hfu' hwant e o'
  dsimp only [rspRun]
  intro h0
  obtain ⟨-, h0⟩ := List.append_eq_nil_iff.1 h0
  exact this (List.append_eq_nil_iff.1 h0).1

end RadSim.Hello
