import Verif.Lemmas.MmNoc

/-! # The source side of an AXI memory-mapped adapter when nothing moves -/

namespace RadSim.MmNoc

/-- The captured transaction, if there is one, has its flits made. -/
def Spent (k : Pkt) (gap : Option Nat) : Prop := k.reg = none ∨ gap ≠ some 0

theorem Spent.pend {c : MmCfg} {k : Pkt} {gap : Option Nat} {pend : List MmTxn} (h : Spent k gap) (hp : PktPhase c k gap pend) :
    pend = [] := by
  rcases h with h | h
  · unfold PktPhase at hp; rw [h] at hp; exact hp
  · exact hp.pend.2 h

theorem nocEdge_reg (k : Pkt) (accept : Bool) : (k.nocEdge accept).1.reg = k.reg := by
  unfold Pkt.nocEdge
  cases k.toInj <;> cases k.fifo <;> cases accept <;> rfl

theorem adapterEdge_gap (g : Option Nat) : g.map (· + 1) ≠ some 0 := by
  cases g <;> simp

theorem req_none {s : ReqState} {adapter : Bool} {off : ReqOffer} (h : reqHandshakes s (.edge true adapter off) = []) :
    s.nodeEdge.1 = none := by
  unfold ReqState.nodeEdge
  unfold reqHandshakes at h
  cases h1 : s.arready <;> cases h2 : s.off.ar <;> cases h3 : s.awready <;> cases h4 : s.off.aw <;> cases h5 : s.wready <;>
    cases h6 : s.off.w <;> cases h7 : s.gotAw <;> simp_all

theorem rsp_none {s : RspState} {adapter : Bool} {off : RspOffer} (h : rspHandshakes s (.edge true adapter off) = []) :
    s.nodeEdge.1 = none := by
  unfold RspState.nodeEdge
  unfold rspHandshakes at h
  cases h1 : s.rready <;> cases h2 : s.off.r <;> cases h3 : s.bready <;> cases h4 : s.off.b <;> simp_all

/-- Without handshakes an edge leaves nothing pending. -/
theorem req_spent (c : MmCfg) (es : List ReqEvent) : ∀ (s : ReqState) (gap : Option Nat), (reqRun c s es).2.1 = [] →
    (Spent s.k gap ∨ ∃ x ∈ es.map ReqEvent.clocks, x.2 = true) →
    Spent (reqRun c s es).1.k (gapAfter gap (es.map ReqEvent.clocks)) := by
  induction es with
  | nil =>
    intro s gap _ h
    rcases h with h | ⟨x, hx, -⟩
    · exact h
    · cases hx
  | cons e es ih =>
    intro s gap hh h
    obtain ⟨h1, h2⟩ := List.append_eq_nil_iff.1 (show reqHandshakes s e ++ (reqRun c (reqStep c s e).1 es).2.1 = [] from hh)
    refine ih (reqStep c s e).1 (gapNext gap e.clocks.1 e.clocks.2) h2 ?_
    have hsp : (Spent s.k gap ∨ e.clocks.2 = true) → Spent (reqStep c s e).1.k (gapNext gap e.clocks.1 e.clocks.2) := by
      intro hs
      cases e with
      | edge node adapter off =>
        have hk : (reqStep c s (.edge node adapter off)).1.k = (reqMid c s node adapter off).k := by
          rw [reqStep_edge]; cases reqTriggered s (reqMid c s node adapter off) <;> rfl
        rw [hk]
        cases node with
        | true => exact .inl (req_none h1)
        | false =>
          cases adapter with
          | true => exact .inr (adapterEdge_gap gap)
          | false =>
            rcases hs with hs | hs
            · exact hs
            · cases hs
      | noc accept =>
        rcases hs with hs | hs
        · rcases hs with hs | hs
          · exact .inl ((nocEdge_reg s.k accept).trans hs)
          · exact .inr hs
        · cases hs
    rcases h with h | ⟨x, hx, hx2⟩
    · exact .inl (hsp (.inl h))
    · rcases List.mem_cons.1 hx with rfl | hx
      · exact .inl (hsp (.inr hx2))
      · exact .inr ⟨x, hx, hx2⟩

theorem rsp_spent (c : MmCfg) (es : List RspEvent) : ∀ (s : RspState) (gap : Option Nat), (rspRun c s es).2.1 = [] →
    (Spent s.k gap ∨ ∃ x ∈ es.map RspEvent.clocks, x.2 = true) →
    Spent (rspRun c s es).1.k (gapAfter gap (es.map RspEvent.clocks)) := by
  induction es with
  | nil =>
    intro s gap _ h
    rcases h with h | ⟨x, hx, -⟩
    · exact h
    · cases hx
  | cons e es ih =>
    intro s gap hh h
    obtain ⟨h1, h2⟩ := List.append_eq_nil_iff.1 (show rspHandshakes s e ++ (rspRun c (rspStep c s e).1 es).2.1 = [] from hh)
    refine ih (rspStep c s e).1 (gapNext gap e.clocks.1 e.clocks.2) h2 ?_
    have hsp : (Spent s.k gap ∨ e.clocks.2 = true) → Spent (rspStep c s e).1.k (gapNext gap e.clocks.1 e.clocks.2) := by
      intro hs
      cases e with
      | edge node adapter off =>
        have hk : (rspStep c s (.edge node adapter off)).1.k = (rspMid c s node adapter off).k := by
          rw [rspStep_edge]; cases rspTriggered s (rspMid c s node adapter off) <;> rfl
        rw [hk]
        cases node with
        | true => exact .inl (rsp_none h1)
        | false =>
          cases adapter with
          | true => exact .inr (adapterEdge_gap gap)
          | false =>
            rcases hs with hs | hs
            · exact hs
            · cases hs
      | noc accept =>
        rcases hs with hs | hs
        · rcases hs with hs | hs
          · exact .inl ((nocEdge_reg s.k accept).trans hs)
          · exact .inr hs
        · cases hs
    rcases h with h | ⟨x, hx, hx2⟩
    · exact .inl (hsp (.inl h))
    · rcases List.mem_cons.1 hx with rfl | hx
      · exact .inl (hsp (.inr hx2))
      · exact .inr ⟨x, hx, hx2⟩

/-- A flit that waits and is not written finds the buffer full. -/
theorem inject_blocked {b : BufCfg} {c : MmCfg} (hw : b.waitTail = false) {k k' : Pkt} (hg : Grows c k k') {s s' : BufState} {l : List Nat}
    {accept : Bool} (h : injectBuf b k' s l = .ok (accept, s')) (hout : (k'.nocEdge accept).2 = []) {f : ScFlit} {r : List ScFlit}
    (hf : waits k = f :: r) : s.isFullFor b f.vc.toNat = true := by
  obtain ⟨ts, ht⟩ := hg
  rw [hf] at ht
  have hn : nextFlit k' = some f := by
    unfold waits at ht
    unfold nextFlit
    cases h1 : k'.toInj with
    | some g => rw [h1] at ht; simp at ht; simp [ht.1]
    | none =>
      rw [h1] at ht
      cases h2 : k'.fifo with
      | nil => rw [h2] at ht; simp at ht
      | cons g q => rw [h2] at ht; simp at ht; simp [ht.1]
  have hacc : accept = false := by
    cases accept with
    | false => rfl
    | true =>
      exfalso
      unfold Pkt.nocEdge at hout
      unfold nextFlit at hn
      cases h1 : k'.toInj <;> cases h2 : k'.fifo <;> simp [h1, h2] at hout hn
  subst hacc
  unfold injectBuf at h
  rw [hn] at h
  dsimp only at h
  cases hfull : s.isFullFor b f.vc.toNat with
  | true => rfl
  | false =>
    exfalso
    rw [hfull, hw] at h
    simp only [Bool.not_false, Bool.or_true, Bool.true_or, Bool.and_self, if_true] at h
    cases h1 : (if f.head = true then s.takeBuffer b f.vc.toNat 0 else .ok s) with
    | error e => rw [h1] at h; cases h
    | ok s1 =>
      rw [h1] at h
      dsimp only at h
      cases h2 : s1.sendingFlit b f.vc.toNat f.tail with
      | error e => rw [h2] at h; cases h
      | ok s2 =>
        rw [h2] at h
        dsimp only at h
        cases h3 : s2.processCredit b l with
        | error e => rw [h3] at h; cases h
        | ok s3 => rw [h3] at h; cases h

/-! ## both kinds of adapter -/

/-- The packetiser of a node. -/
def pktOf (k : Kind) (s : Node) : Pkt :=
  match k with
  | .master => s.rsp.k
  | _ => s.req.k

/-- What holds at a node with an adapter. -/
structure At (c : Cfg) (gap : Option Nat) (u : Nat) (s : Node) (se : List BsFlit) (cr : List Nat) (ac : List BsFlit) (re : List Nat) :
    Prop where
  pkt : PktInv (c.nc u).mm (pktOf (c.nc u).kind s) gap (txns (c.nc u).kind s) se
  out : Out c.b.buf (pktOf (c.nc u).kind s) s.buf se cr
  sink : Sink (c.nc u).sink s.sink s.hist ac re
  fits : ∀ t ∈ txns (c.nc u).kind s, TxnFits c t

theorem at_of {c : Cfg} {inp : Nat → Nat → NodeIn} {u n : Nat} {s : Node} {se ac : List BsFlit} {cr re : List Nat}
    (hk : (c.nc u).kind ≠ .none) (h : Good c inp u n s se cr ac re) : At c (gapTo c inp u n) u s se cr ac re := by
  unfold Good at h
  cases hk' : (c.nc u).kind with
  | none => exact absurd hk' hk
  | slave =>
    rw [hk'] at h
    refine ⟨?_, ?_, h.2, ?_⟩ <;> rw [hk']
    · exact h.1.inv.pkt
    · exact h.1.out
    · exact fun t ht => reqTxns_fit s.reqs none false h.1.opened (by simp) (by simp) h.1.fits t ht
  | master =>
    rw [hk'] at h
    refine ⟨?_, ?_, h.2, ?_⟩ <;> rw [hk']
    · exact h.1.pkt
    · exact h.1.out
    · exact fun t ht => rspTxns_fit h.1.fits t ht

/-- What happens at a node with an adapter in a period. -/
structure Period (c : Cfg) (u : Nat) (i : NodeIn) (l : List Nat) (arrive : Option BsFlit) (s s' : Node) (out : List BsFlit) : Prop where
  sink : MmSink.run (c.nc u).sink s.sink s.hist (sinkEvents i arrive) = (s'.hist, .ok s'.sink)
  blocked : c.b.buf.waitTail = false → out = [] → ∀ f r, waits (pktOf (c.nc u).kind s) = f :: r →
    s.buf.isFullFor c.b.buf f.vc.toNat = true
  spent : ∀ gap, s'.reqs = s.reqs → s'.rsps = s.rsps →
    (Spent (pktOf (c.nc u).kind s) gap ∨ ∃ x ∈ clocksOf (c.nc u).kind i, x.2 = true) →
    Spent (pktOf (c.nc u).kind s') (gapAfter gap (clocksOf (c.nc u).kind i))
  reqs : s.reqs <+: s'.reqs
  rsps : s.rsps <+: s'.rsps

theorem gapAfter_noc (a b : List (Bool × Bool)) (g : Option Nat) :
    gapAfter g (a ++ (false, false) :: b) = gapAfter g (a ++ b) := (gap_noc (r' := 0) a b g).2

theorem period_of {c : Cfg} {u : Nat} (hk : (c.nc u).kind ≠ .none) {i : NodeIn} {l : List Nat} {arrive : Option BsFlit} {s s' : Node}
    {out : List BsFlit} (h : nodeStep c.b.buf (c.nc u) i l arrive s = .ok (s', out)) : Period c u i l arrive s s' out := by
  unfold nodeStep at h
  cases hk' : (c.nc u).kind with
  | none => exact absurd hk' hk
  | slave =>
    rw [hk'] at h
    dsimp only at h
    split at h
    · cases h
    · rename_i accept buf hb
      split at h
      · cases h
      · rename_i hist sink hsk
        cases h
        obtain ⟨q1, q2⟩ := req_period (c.nc u).mm s.req i accept
        refine ⟨hsk, ?_, ?_, ⟨_, rfl⟩, List.prefix_refl _⟩
        · intro hw ho f r hf
          rw [hk'] at hf
          rw [q1] at ho
          exact inject_blocked hw (reqEdges (c.nc u).mm i.reqPre s.req).1 hb ho hf
        · intro gap h1 _ h2
          rw [hk'] at h2 ⊢
          have h3 := req_spent (c.nc u).mm (reqEvents i accept) s.req gap (by simpa using h1) (by
            rcases h2 with h2 | ⟨x, hx, h2⟩
            · exact .inl h2
            · refine .inr ⟨x, ?_, h2⟩
              rw [clocks_req]
              simp only [clocksOf, List.map_append, List.mem_append] at hx
              simp only [List.mem_append, List.mem_cons]
              tauto)
          rw [clocks_req, gapAfter_noc] at h3
          simpa [clocksOf, pktOf] using h3
  | master =>
    rw [hk'] at h
    dsimp only at h
    split at h
    · cases h
    · rename_i accept buf hb
      split at h
      · cases h
      · rename_i hist sink hsk
        cases h
        obtain ⟨q1, q2⟩ := rsp_period (c.nc u).mm s.rsp i accept
        refine ⟨hsk, ?_, ?_, List.prefix_refl _, ⟨_, rfl⟩⟩
        · intro hw ho f r hf
          rw [hk'] at hf
          rw [q1] at ho
          exact inject_blocked hw (rspEdges (c.nc u).mm i.rspPre s.rsp).1 hb ho hf
        · intro gap _ h1 h2
          rw [hk'] at h2 ⊢
          have h3 := rsp_spent (c.nc u).mm (rspEvents i accept) s.rsp gap (by simpa using h1) (by
            rcases h2 with h2 | ⟨x, hx, h2⟩
            · exact .inl h2
            · refine .inr ⟨x, ?_, h2⟩
              rw [clocks_rsp]
              simp only [clocksOf, List.map_append, List.mem_append] at hx
              simp only [List.mem_append, List.mem_cons]
              tauto)
          rw [clocks_rsp, gapAfter_noc] at h3
          simpa [clocksOf, pktOf] using h3

end RadSim.MmNoc
