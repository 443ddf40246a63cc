import Verif.Model.MmNoc
import Verif.Lemmas.AxisSlaveCredit
import Verif.Props.AxiMmSink

/-! # The adapters of a NoC with AXI memory-mapped ports: one period at a node -/

namespace RadSim.MmNoc

open MmSink (Hist State)

/-! ## the clocks -/

/-- Adapter edges since the last node edge, after some edges. -/
def gapAfter (g : Option Nat) (l : List (Bool × Bool)) : Option Nat := l.foldl (fun g x => gapNext g x.1 x.2) g

theorem gapAfter_append (g : Option Nat) (a b : List (Bool × Bool)) : gapAfter g (a ++ b) = gapAfter (gapAfter g a) b := by
  simp [gapAfter]

theorem gapOk_append {m : Nat} (a b : List (Bool × Bool)) : ∀ {g : Option Nat},
    GapOk m g (a ++ b) ↔ GapOk m g a ∧ GapOk m (gapAfter g a) b := by
  induction a with
  | nil => intro g; simp [GapOk, gapAfter]
  | cons x a ih =>
    intro g
    rw [List.cons_append]
    constructor
    · intro h
      obtain ⟨h1, h2⟩ := ih.1 h.2.2
      exact ⟨⟨h.1, h.2.1, h1⟩, h2⟩
    · intro h
      exact ⟨h.1.1, h.1.2.1, ih.2 ⟨h.1.2.2, h.2⟩⟩

/-! ## what waits to be injected -/

/-- The flits waiting to be injected. -/
def waits (k : Pkt) : List ScFlit := k.toInj.toList ++ k.fifo

/-- Some packets have been added to what waits. -/
def Grows (c : MmCfg) (k k' : Pkt) : Prop := ∃ ts : List MmTxn, waits k' = waits k ++ (ts.map (mmPacket c.vc c.dataw)).flatten

theorem Grows.refl {c : MmCfg} {k k' : Pkt} (h : waits k' = waits k) : Grows c k k' := ⟨[], by simpa using h⟩

theorem Grows.trans {c : MmCfg} {k k' k'' : Pkt} (h : Grows c k k') (g : Grows c k' k'') : Grows c k k'' := by
  obtain ⟨a, ha⟩ := h
  obtain ⟨b, hb⟩ := g
  exact ⟨a ++ b, by rw [hb, ha]; simp⟩

theorem grows_adapter (c : MmCfg) (k : Pkt) : Grows c k (k.adapterEdge c) := by
  unfold Pkt.adapterEdge
  cases hr : k.reg with
  | none => exact .refl rfl
  | some t =>
    by_cases h0 : k.cycle = 0
    · exact ⟨[t], by simp [waits, h0]⟩
    · refine .refl ?_
      have : (k.cycle == 0) = false := by simpa using h0
      simp only [this]
      rfl

theorem grows_edge (c : MmCfg) (k : Pkt) (node adapter : Bool) (x : Option MmTxn) :
    Grows c k (if node then { (if adapter then k.adapterEdge c else k) with reg := x }
      else (if adapter then k.adapterEdge c else k)) := by
  have h : Grows c k (if adapter then k.adapterEdge c else k) := by
    cases adapter
    · exact .refl rfl
    · exact grows_adapter c k
  cases node
  · exact h
  · exact h.trans (.refl rfl)

/-- Edges of the other clocks write nothing to the NoC and only add packets. -/
theorem reqEdges (c : MmCfg) (l : List (Bool × Bool × ReqOffer)) : ∀ s : ReqState,
    Grows c s.k (reqRun c s (l.map reqEdge)).1.k ∧ (reqRun c s (l.map reqEdge)).2.2 = [] := by
  induction l with
  | nil => intro s; exact ⟨.refl rfl, rfl⟩
  | cons x l ih =>
    intro s
    obtain ⟨h1, h2⟩ := ih (reqStep c s (reqEdge x)).1
    have hk : Grows c s.k (reqStep c s (reqEdge x)).1.k := by
      have := grows_edge c s.k x.1 x.2.1 s.nodeEdge.1
      unfold reqEdge
      rw [reqStep_edge]
      cases reqTriggered s (reqMid c s x.1 x.2.1 x.2.2) <;> exact this
    refine ⟨hk.trans h1, ?_⟩
    show (reqStep c s (reqEdge x)).2 ++ (reqRun c _ (l.map reqEdge)).2.2 = []
    rw [h2]
    rfl

theorem rspEdges (c : MmCfg) (l : List (Bool × Bool × RspOffer)) : ∀ s : RspState,
    Grows c s.k (rspRun c s (l.map rspEdge)).1.k ∧ (rspRun c s (l.map rspEdge)).2.2 = [] := by
  induction l with
  | nil => intro s; exact ⟨.refl rfl, rfl⟩
  | cons x l ih =>
    intro s
    obtain ⟨h1, h2⟩ := ih (rspStep c s (rspEdge x)).1
    have hk : Grows c s.k (rspStep c s (rspEdge x)).1.k := by
      have := grows_edge c s.k x.1 x.2.1 s.nodeEdge.1
      unfold rspEdge
      rw [rspStep_edge]
      cases rspTriggered s (rspMid c s x.1 x.2.1 x.2.2) <;> exact this
    refine ⟨hk.trans h1, ?_⟩
    show (rspStep c s (rspEdge x)).2 ++ (rspRun c _ (l.map rspEdge)).2.2 = []
    rw [h2]
    rfl

/-! ## framing -/

/-- The virtual channels of the source side exist and fit the field of a flit. -/
def VcOk (b : BufCfg) (c : MmCfg) : Prop := ∀ t, vcidFromType c.vc t < 8 ∧ vcidFromType c.vc t < b.vcs

theorem framed_rest {b : BufCfg} {c : MmCfg} (hv : VcOk b c) (t : MmTxn) (n : Nat) : ∀ k i, i + k = n → 0 < i → 0 < k →
    Framed b.vcs (some (vcidFromType c.vc t.type.flitType)) ((List.range' i k).map (mmFlitOf c.vc n t)) := by
  intro k
  induction k with
  | zero => intro i _ _ h; omega
  | succ k ih =>
    intro i hn hi _
    have hvc := hv t.type.flitType
    have e : (mmFlitOf c.vc n t i).vc.toNat = vcidFromType c.vc t.type.flitType := by
      simp [mmFlitOf]; omega
    refine ⟨by simp [mmFlitOf]; omega, e, hvc.2, ?_⟩
    by_cases hk : k = 0
    · subst hk
      have : (mmFlitOf c.vc n t i).tail = true := by simp [mmFlitOf]; omega
      rw [this]
      simp [Framed]
    · have : (mmFlitOf c.vc n t i).tail = false := by simp [mmFlitOf]; omega
      rw [this]
      exact ih (i + 1) (by omega) (by omega) (by omega)

theorem framed_mm {b : BufCfg} {c : MmCfg} (hv : VcOk b c) (t : MmTxn) : Framed b.vcs none (mmPacket c.vc c.dataw t) := by
  have hpos := mmFlits_pos c.dataw t.type
  have hvc := hv t.type.flitType
  unfold mmPacket
  rw [List.range_eq_range']
  obtain ⟨k, hk⟩ : ∃ k, mmFlits c.dataw t.type = k + 1 := ⟨mmFlits c.dataw t.type - 1, by omega⟩
  have e : (mmFlitOf c.vc (k + 1) t 0).vc.toNat = vcidFromType c.vc t.type.flitType := by
    simp [mmFlitOf]; omega
  rw [hk, List.range'_succ, List.map_cons]
  refine ⟨rfl, by rw [e]; exact hvc.2, ?_⟩
  by_cases h0 : k = 0
  · subst h0
    simp [mmFlitOf, Framed]
  · have : (mmFlitOf c.vc (k + 1) t 0).tail = false := by simp [mmFlitOf]; omega
    rw [this, e]
    exact framed_rest hv t (k + 1) k 1 (by omega) (by omega) (by omega)

theorem framed_mms {b : BufCfg} {c : MmCfg} (hv : VcOk b c) (ts : List MmTxn) :
    Framed b.vcs none (ts.map (mmPacket c.vc c.dataw)).flatten := by
  induction ts with
  | nil => exact trivial
  | cons t ts ih => exact (framed_mm hv t).append ih

/-! ## injection -/

/-- The buffer state agrees with the flits written and the credits read. -/
structure Out (b : BufCfg) (k : Pkt) (buf : BufState) (se : List BsFlit) (cr : List Nat) : Prop where
  inv : BufInv b buf
  occ : ∀ v, buf.vcOcc v = ((se.countP fun f => f.vc == v : Nat) : Int) - (cr.count v : Nat)
  mode : ∃ m, Framed b.vcs m (waits k) ∧ BufMode b m buf
  vcs : ∀ f ∈ se, f.vc < b.vcs

theorem Out.init (b : BufCfg) (h : b.Ok) : Out b Pkt.init .init [] [] where
  inv := .init b h
  occ := by intro v; simp [BufState.init]
  mode := ⟨none, trivial, fun _ _ _ => by simp [BufState.init], by simp⟩
  vcs := by simp

theorem Out.grows {b : BufCfg} {c : MmCfg} {k k' : Pkt} {buf : BufState} {se : List BsFlit} {cr : List Nat}
    (h : Out b k buf se cr) (hv : VcOk b c) (hg : Grows c k k') : Out b k' buf se cr := by
  obtain ⟨ts, ht⟩ := hg
  obtain ⟨m, h1, h2⟩ := h.mode
  exact ⟨h.inv, h.occ, ⟨m, by rw [ht]; exact h1.append (framed_mms hv ts), h2⟩, h.vcs⟩

/-- An edge of the NoC clock: the buffer state raises no error. -/
theorem Out.inject {b : BufCfg} (hb : b.Ok) {k : Pkt} {buf : BufState} {se : List BsFlit} {cr : List Nat}
    (h : Out b k buf se cr) {l : List Nat} (hn : l.Nodup)
    (hl : ∀ v, (cr ++ l).count v ≤ se.countP fun f => f.vc == v) :
    ∃ accept buf', injectBuf b k buf l = .ok (accept, buf') ∧ (k.nocEdge accept).2.length ≤ 1 ∧
      Out b (k.nocEdge accept).1 buf' (se ++ (k.nocEdge accept).2) (cr ++ l) := by
  obtain ⟨m, hf, hm⟩ := h.mode
  -- the credits, after what has been written
  have credits : ∀ (k' : Pkt) (out : List BsFlit) (s1 : BufState), BufInv b s1 →
      (∀ v, s1.vcOcc v = buf.vcOcc v + (out.countP (fun f => f.vc == v) : Nat)) →
      (∃ m', Framed b.vcs m' (waits k') ∧ BufMode b m' s1) → (∀ f ∈ out, f.vc < b.vcs) →
      ∃ s2, s1.processCredit b l = .ok s2 ∧ Out b k' s2 (se ++ out) (cr ++ l) := by
    intro k' out s1 hi hocc hmode hvcs
    obtain ⟨m', hf', hm'⟩ := hmode
    have hs : ∀ v, s1.vcOcc v = (((se ++ out).countP fun f => f.vc == v : Nat) : Int) - (cr.count v : Nat) := by
      intro v
      rw [hocc v, h.occ v, List.countP_append]
      push_cast
      omega
    have hsv : ∀ f ∈ se ++ out, f.vc < b.vcs := by
      intro f hf
      rcases List.mem_append.1 hf with hf | hf
      · exact h.vcs f hf
      · exact hvcs f hf
    have hlegal : ∀ v ∈ l, v < b.vcs ∧ 0 < s1.vcOcc v := by
      intro v hv
      have h1 := hl v
      rw [List.count_append] at h1
      have h2 : 0 < l.count v := List.count_pos_iff.2 hv
      have h3 : (se ++ out).countP (fun f => f.vc == v) = se.countP (fun f => f.vc == v) + out.countP fun f => f.vc == v :=
        List.countP_append
      refine ⟨?_, by rw [hs v]; omega⟩
      have hpos : 0 < se.countP (fun f => f.vc == v) := by omega
      obtain ⟨f, hf, hfv⟩ := List.countP_pos_iff.1 hpos
      have := h.vcs f hf
      simp only [beq_iff_eq] at hfv
      omega
    obtain ⟨s2, g1, g2⟩ := processCredit_ok l hi hn hlegal
    refine ⟨s2, g1, g2, ?_, ⟨m', hf', hm'.credit l g1⟩, hsv⟩
    intro v
    rw [processCredit_vcOcc l g1 v, hs v, List.count_append]
    push_cast
    omega
  -- nothing is injected
  have none_ : (waits (k.nocEdge false).1 = waits k ∧ (k.nocEdge false).2 = []) := by
    unfold Pkt.nocEdge waits
    cases k.toInj with
    | some f => exact ⟨rfl, rfl⟩
    | none => cases k.fifo <;> exact ⟨rfl, rfl⟩
  have idle : ∃ buf', buf.processCredit b l = .ok buf' ∧ (k.nocEdge false).2.length ≤ 1 ∧
      Out b (k.nocEdge false).1 buf' (se ++ (k.nocEdge false).2) (cr ++ l) := by
    obtain ⟨s2, g1, g2⟩ := credits (k.nocEdge false).1 [] buf h.inv (by simp) ⟨m, by rw [none_.1]; exact hf, hm⟩ (by simp)
    rw [none_.2]
    exact ⟨s2, g1, by simp, g2⟩
  unfold injectBuf
  cases hx : nextFlit k with
  | none =>
    obtain ⟨s2, g1, g2, g3⟩ := idle
    exact ⟨false, s2, by simp only [g1], g2, g3⟩
  | some f =>
    have hw : ∃ q, waits k = f :: q ∧ waits (k.nocEdge true).1 = q ∧ (k.nocEdge true).2 = [mmInject f] := by
      unfold nextFlit at hx
      unfold waits Pkt.nocEdge
      cases ht : k.toInj with
      | some g =>
        rw [ht] at hx
        cases hx
        exact ⟨k.fifo, rfl, rfl, rfl⟩
      | none =>
        rw [ht] at hx
        cases hq : k.fifo with
        | nil => rw [hq] at hx; cases hx
        | cons g q =>
          rw [hq] at hx
          cases hx
          exact ⟨q, rfl, rfl, rfl⟩
    obtain ⟨q, w1, w2, w3⟩ := hw
    dsimp only
    by_cases hc : (!buf.isFullFor b f.vc.toNat && (!f.head || !b.waitTail || buf.isAvailableFor f.vc.toNat)) = true
    · rw [if_pos hc]
      simp only [Bool.and_eq_true, Bool.not_eq_true', Bool.or_eq_true] at hc
      rw [w1] at hf
      obtain ⟨b1, b2, g1, g2, g3, g4, g5⟩ := send_framed hb h.inv hm hf hc.1 (by
        intro x y
        rcases hc.2 with z | z
        · rcases z with z | z
          · simp [x] at z
          · simp [y] at z
        · exact z)
      have hfv : f.vc.toNat < b.vcs := by
        cases m with
        | none => exact hf.2.1
        | some v => rw [hf.2.1]; exact hf.2.2.1
      obtain ⟨s2, e1, e2⟩ := credits (k.nocEdge true).1 [mmInject f] b2 g3 (by
        intro v
        rw [g4, upd_apply]
        by_cases hv : v = f.vc.toNat
        · subst hv; simp [mmInject]
        · have : ¬ f.vc.toNat = v := fun e => hv e.symm
          simp [mmInject, hv, this]) (by rw [w2]; exact g5) (by simpa [mmInject] using hfv)
      refine ⟨true, s2, by simp only [g1, g2, e1], by rw [w3]; simp, ?_⟩
      rw [w3]
      exact e2
    · rw [if_neg hc]
      obtain ⟨s2, g1, g2, g3⟩ := idle
      exact ⟨false, s2, by simp only [g1], g2, g3⟩

theorem Out.occ_le {b : BufCfg} {k : Pkt} {buf : BufState} {se : List BsFlit} {cr : List Nat} (hb : b.Ok)
    (h : Out b k buf se cr) (v : Nat) :
    ((se.countP fun g => g.vc == v : Nat) : Int) ≤ b.perVc + (cr.count v : Nat) := by
  by_cases hv : v < b.vcs
  · have h1 := (h.inv.bound v hv).2
    rw [h.occ v] at h1
    omega
  · have : se.countP (fun g => g.vc == v) = 0 := by
      rw [List.countP_eq_zero]
      intro f hf
      have := h.vcs f hf
      simp
      omega
    have := hb.perVc_pos
    omega

/-! ## the request side over a period -/

/-- The beats of an offer. -/
def ReqOffer.beats (o : ReqOffer) : List ReqBeat :=
  o.ar.toList.map .ar ++ o.aw.toList.map .aw ++ o.w.toList.map .w

/-- The beats of an offer. -/
def RspOffer.beats (o : RspOffer) : List RspBeat := o.r.toList.map .r ++ o.b.toList.map .b

theorem req_handshakes_sub (s : ReqState) (e : ReqEvent) : ∀ x ∈ reqHandshakes s e, x ∈ ReqOffer.beats s.off := by
  intro x hx
  cases e with
  | noc a => cases hx
  | edge node adapter off =>
    cases node with
    | false => cases hx
    | true =>
      simp only [reqHandshakes, List.mem_append] at hx
      rcases hx with (hx | hx) | hx
      all_goals
        split at hx
        · simp only [ReqOffer.beats, List.mem_append, List.mem_map, Option.mem_toList, Option.map_eq_some_iff] at hx ⊢
          obtain ⟨a, h1, h2⟩ := hx
          first
            | exact .inl (.inl ⟨a, h1, h2⟩)
            | exact .inl (.inr ⟨a, h1, h2⟩)
            | exact .inr ⟨a, h1, h2⟩
        · cases hx

theorem rsp_handshakes_sub (s : RspState) (e : RspEvent) : ∀ x ∈ rspHandshakes s e, x ∈ RspOffer.beats s.off := by
  intro x hx
  cases e with
  | noc a => cases hx
  | edge node adapter off =>
    cases node with
    | false => cases hx
    | true =>
      simp only [rspHandshakes, List.mem_append] at hx
      rcases hx with hx | hx
      all_goals
        split at hx
        · simp only [RspOffer.beats, List.mem_append, List.mem_map, Option.mem_toList, Option.map_eq_some_iff] at hx ⊢
          obtain ⟨a, h1, h2⟩ := hx
          first
            | exact .inl ⟨a, h1, h2⟩
            | exact .inr ⟨a, h1, h2⟩
        · cases hx

/-- The beats offered at an event. -/
def reqOffered : ReqEvent → List ReqBeat
  | .edge _ _ off => ReqOffer.beats off
  | .noc _ => []

/-- The beats offered at an event. -/
def rspOffered : RspEvent → List RspBeat
  | .edge _ _ off => RspOffer.beats off
  | .noc _ => []

/-- What is accepted has been offered. -/
theorem req_offered (c : MmCfg) (P : ReqBeat → Prop) (es : List ReqEvent) : ∀ s : ReqState,
    (∀ x ∈ ReqOffer.beats s.off, P x) → (∀ e ∈ es, ∀ x ∈ reqOffered e, P x) →
    (∀ x ∈ ReqOffer.beats (reqRun c s es).1.off, P x) ∧ ∀ x ∈ (reqRun c s es).2.1, P x := by
  induction es with
  | nil => intro s h _; exact ⟨h, by intro x hx; cases hx⟩
  | cons e es ih =>
    intro s h he
    have h1 : ∀ x ∈ ReqOffer.beats (reqStep c s e).1.off, P x := by
      cases e with
      | noc a => exact h
      | edge node adapter off =>
        have : (reqStep c s (.edge node adapter off)).1.off = off := by
          rw [reqStep_edge]
          cases reqTriggered s (reqMid c s node adapter off) <;> rfl
        rw [this]
        exact he (.edge node adapter off) (by simp)
    obtain ⟨g1, g2⟩ := ih _ h1 fun e' he' => he e' (by simp [he'])
    refine ⟨g1, ?_⟩
    intro x hx
    rcases List.mem_append.1 hx with hx | hx
    · exact h x (req_handshakes_sub s e x hx)
    · exact g2 x hx

theorem rsp_offered (c : MmCfg) (P : RspBeat → Prop) (es : List RspEvent) : ∀ s : RspState,
    (∀ x ∈ RspOffer.beats s.off, P x) → (∀ e ∈ es, ∀ x ∈ rspOffered e, P x) →
    (∀ x ∈ RspOffer.beats (rspRun c s es).1.off, P x) ∧ ∀ x ∈ (rspRun c s es).2.1, P x := by
  induction es with
  | nil => intro s h _; exact ⟨h, by intro x hx; cases hx⟩
  | cons e es ih =>
    intro s h he
    have h1 : ∀ x ∈ RspOffer.beats (rspStep c s e).1.off, P x := by
      cases e with
      | noc a => exact h
      | edge node adapter off =>
        have : (rspStep c s (.edge node adapter off)).1.off = off := by
          rw [rspStep_edge]
          cases rspTriggered s (rspMid c s node adapter off) <;> rfl
        rw [this]
        exact he (.edge node adapter off) (by simp)
    obtain ⟨g1, g2⟩ := ih _ h1 fun e' he' => he e' (by simp [he'])
    refine ⟨g1, ?_⟩
    intro x hx
    rcases List.mem_append.1 hx with hx | hx
    · exact h x (rsp_handshakes_sub s e x hx)
    · exact g2 x hx

/-- As `ReqInv.run`, with the clocks. -/
theorem req_run {c : MmCfg} {m : Nat} (hc : MmCfgOk c m) (es : List ReqEvent) : ∀ {s : ReqState}
    {gap : Option Nat} {acc : List ReqBeat} {out : List BsFlit}, ReqInv c s gap acc out → wOnlyOpen false acc →
    GapOk m gap (es.map ReqEvent.clocks) →
    ReqInv c (reqRun c s es).1 (gapAfter gap (es.map ReqEvent.clocks)) (acc ++ (reqRun c s es).2.1)
      (out ++ (reqRun c s es).2.2) ∧ wOnlyOpen false (acc ++ (reqRun c s es).2.1) := by
  induction es with
  | nil => intro s gap acc out h hw _; exact ⟨by simpa [reqRun, gapAfter] using h, by simpa [reqRun] using hw⟩
  | cons e es ih =>
    intro s gap acc out h hw hg
    simp only [reqRun, ← List.append_assoc]
    obtain ⟨g1, g2, g3⟩ := hg
    cases e with
    | edge node adapter off =>
      have hs := h.edge hc node adapter off g2 g1
      have hw' : wOnlyOpen false (acc ++ reqHandshakes s (.edge node adapter off)) :=
        (wOnlyOpen_append _ _ _).mpr ⟨hw, h.w_open node adapter off g1⟩
      have := ih hs hw' g3
      have h2 : (reqStep c s (.edge node adapter off)).2 = [] := rfl
      rw [h2, List.append_nil]
      exact this
    | noc accept =>
      have hs := h.noc accept
      have hgap : GapOk m gap (es.map ReqEvent.clocks) := by
        simpa [ReqEvent.clocks, gapNext] using g3
      have h2 : reqHandshakes s (.noc accept) = [] := rfl
      rw [h2, List.append_nil]
      exact ih hs hw hgap

theorem rsp_run {c : MmCfg} {m : Nat} (hc : MmCfgOk c m) (es : List RspEvent) : ∀ {s : RspState}
    {gap : Option Nat} {acc : List RspBeat} {out : List BsFlit}, rspReadyFor s → PktInv c s.k gap (acc.map rspTxn) out →
    GapOk m gap (es.map RspEvent.clocks) →
    rspReadyFor (rspRun c s es).1 ∧
    PktInv c (rspRun c s es).1.k (gapAfter gap (es.map RspEvent.clocks)) ((acc ++ (rspRun c s es).2.1).map rspTxn)
      (out ++ (rspRun c s es).2.2) := by
  induction es with
  | nil => intro s gap acc out hr h _; exact ⟨hr, by simpa [rspRun, gapAfter] using h⟩
  | cons e es ih =>
    intro s gap acc out hr h hg
    simp only [rspRun, ← List.append_assoc]
    obtain ⟨g1, g2, g3⟩ := hg
    have hr' := hr.step (c := c) e
    cases e with
    | edge node adapter off =>
      have hk : (rspStep c s (.edge node adapter off)).1.k = (rspMid c s node adapter off).k := by
        rw [rspStep_edge]; cases rspTriggered s (rspMid c s node adapter off) <;> rfl
      have hn := s.nodeEdge_cases hr.ready adapter off
      have hs := h.edge hc node adapter g2 g1 s.nodeEdge.1 hn.2
      have h2 : (rspStep c s (.edge node adapter off)).2 = [] := rfl
      rw [h2, List.append_nil]
      refine ih hr' (gap := gapNext gap node adapter) ?_ g3
      rw [hk, List.map_append]
      cases node with
      | true =>
        rw [← hn.1]
        simpa [rspMid] using hs
      | false => simpa [rspMid, rspHandshakes] using hs
    | noc accept =>
      have hs := (h.noc accept).1
      have g3' : GapOk m gap (es.map RspEvent.clocks) := by
        simpa [RspEvent.clocks, gapNext] using g3
      have h2 : rspHandshakes s (.noc accept) = [] := rfl
      rw [h2, List.append_nil]
      exact ih hr' hs g3'

theorem rspRun_append (c : MmCfg) (a b : List RspEvent) (s : RspState) :
    rspRun c s (a ++ b) =
      ((rspRun c (rspRun c s a).1 b).1, (rspRun c s a).2.1 ++ (rspRun c (rspRun c s a).1 b).2.1,
        (rspRun c s a).2.2 ++ (rspRun c (rspRun c s a).1 b).2.2) := by
  induction a generalizing s with
  | nil => rfl
  | cons e a ih => simp [rspRun, ih]

/-- A period of the source side of a slave adapter: what is written, and what waits afterwards. -/
theorem req_period (c : MmCfg) (s : ReqState) (i : NodeIn) (accept : Bool) :
    (reqRun c s (reqEvents i accept)).2.2 = ((reqRun c s (i.reqPre.map reqEdge)).1.k.nocEdge accept).2 ∧
    Grows c ((reqRun c s (i.reqPre.map reqEdge)).1.k.nocEdge accept).1 (reqRun c s (reqEvents i accept)).1.k := by
  obtain ⟨-, h2⟩ := reqEdges c i.reqPre s
  unfold reqEvents
  rw [reqRun_append]
  dsimp only [reqRun, reqStep]
  obtain ⟨g1, g2⟩ := reqEdges c i.reqPost
    { (reqRun c s (i.reqPre.map reqEdge)).1 with k := ((reqRun c s (i.reqPre.map reqEdge)).1.k.nocEdge accept).1 }
  rw [h2, g2]
  exact ⟨by simp, g1⟩

theorem rsp_period (c : MmCfg) (s : RspState) (i : NodeIn) (accept : Bool) :
    (rspRun c s (rspEvents i accept)).2.2 = ((rspRun c s (i.rspPre.map rspEdge)).1.k.nocEdge accept).2 ∧
    Grows c ((rspRun c s (i.rspPre.map rspEdge)).1.k.nocEdge accept).1 (rspRun c s (rspEvents i accept)).1.k := by
  obtain ⟨-, h2⟩ := rspEdges c i.rspPre s
  unfold rspEvents
  rw [rspRun_append]
  dsimp only [rspRun, rspStep]
  obtain ⟨g1, g2⟩ := rspEdges c i.rspPost
    { (rspRun c s (i.rspPre.map rspEdge)).1 with k := ((rspRun c s (i.rspPre.map rspEdge)).1.k.nocEdge accept).1 }
  rw [h2, g2]
  exact ⟨by simp, g1⟩

/-! ## the sink side over a period -/

/-- The state of the sink side, for the flits read and the credits returned. -/
structure Sink (c : MmSink.Cfg) (s : State) (h : Hist) (ac : List BsFlit) (re : List Nat) : Prop where
  run : ∃ es, MmSink.run c (.init c) .empty es = (h, .ok s)
  acc : h.accepted = ac
  drop : h.dropped = []
  cred : h.credits = re
  held : s.held = none
  counted : MmSink.Counted s h
  pops : ∀ v, re.count v + s.credit.toList.count v ≤ h.pops.count v
  belongs : MmSink.Belongs c ac

theorem Sink.init (c : MmSink.Cfg) : Sink c (.init c) .empty [] [] where
  run := ⟨[], rfl⟩
  acc := rfl
  drop := rfl
  cred := rfl
  held := rfl
  counted := by intro v; simp [MmSink.waiting, MmSink.vcCount, State.init, Hist.empty]
  pops := by intro v; simp [State.init, Hist.empty]
  belongs := by intro f hf; cases hf

section
variable {c : MmSink.Cfg} {s : State} {h : Hist} {ac : List BsFlit} {re : List Nat}

theorem Sink.all (hs : MmSink.Separate c) (hi : Sink c s h ac re) : ∃ made pres, MmSink.All c s h made pres := by
  obtain ⟨es, he⟩ := hi.run
  have hb := hi.belongs
  rw [← hi.acc] at hb
  have e1 : (MmSink.run c (.init c) .empty es).1 = h := by rw [he]
  obtain ⟨s', made, pres, h1, h2, -⟩ := MmSink.run_all es (MmSink.All.init c) (by
    rw [e1]; exact MmSink.belongs_mapped hs hb)
  rw [he] at h1 h2
  cases h1
  exact ⟨made, pres, h2⟩

theorem Sink.extend {s' : State} {h' : Hist} (hi : Sink c s h ac re) {e : MmSink.Event}
    (he : MmSink.step c s h e = (h', .ok s')) : ∃ es, MmSink.run c (.init c) .empty es = (h', .ok s') := by
  obtain ⟨es, hr⟩ := hi.run
  refine ⟨es ++ [e], ?_⟩
  rw [MmSink.run_append c es [e] hr, MmSink.run_cons [] he]
  rfl

theorem Sink.tick (hi : Sink c s h ac re) : ∃ s' h', MmSink.step c s h .tick = (h', .ok s') ∧
    Sink c s' h' ac (re ++ s.credit.toList) := by
  refine ⟨_, _, rfl, hi.extend (e := .tick) rfl, hi.acc, hi.drop, by rw [← hi.cred], hi.held, ?_, ?_, hi.belongs⟩
  · intro v
    have := hi.counted v
    simpa [MmSink.waiting] using this
  · intro v
    have := hi.pops v
    simpa [List.count_append] using this

theorem Sink.adapter (hs : MmSink.Separate c) (hi : Sink c s h ac re) (b : Bool) :
    ∃ s' h', MmSink.step c s h (.adapter b) = (h', .ok s') ∧ Sink c s' h' ac re := by
  obtain ⟨made, pres, ha⟩ := hi.all hs
  obtain ⟨s', w, made', h1, -⟩ := MmSink.depackStep_inv ha.1.1 b
  have he : MmSink.step c s h (.adapter b) = ({ h with pops := h.pops ++ w }, .ok s') := by
    unfold MmSink.step
    dsimp only
    rw [h1]
  have hheld : s'.held = none := by
    rw [← hi.held]
    have key : ∀ t : State, t.held = s.held → MmSink.popPhase t = .ok (s', w) → s'.held = s.held :=
      fun t ht hp => by rw [(MmSink.pop_counted hp 0).2.1, ht]
    unfold MmSink.depackStep at h1
    cases b <;> simp only [Bool.false_eq_true, if_false, if_true] at h1 <;> split at h1 <;>
      refine key _ ?_ h1 <;> rfl
  refine ⟨s', _, he, hi.extend he, hi.acc, hi.drop, hi.cred, hheld, ?_, ?_, hi.belongs⟩
  · intro v
    have h2 := (MmSink.depack_counted h1 v).1
    have h3 := hi.counted v
    simp only [List.count_append]
    omega
  · intro v
    have h3 := hi.pops v
    dsimp only
    rw [List.count_append]
    rcases (MmSink.depack_counted h1 0).2 with ⟨g1, g2⟩ | ⟨y, g1, g2⟩
    · rw [g2]; omega
    · rw [g1, g2]
      cases hc : s.credit with
      | none =>
        rw [hc] at h3
        simp only [Option.toList_none, List.count_nil, Option.getD_none, Option.toList_some] at h3 ⊢
        omega
      | some z =>
        rw [hc] at h3
        simp only [Option.getD_some] at h3 ⊢
        omega

theorem Sink.node (hs : MmSink.Separate c) (hi : Sink c s h ac re) (r : MmType → Bool) :
    ∃ s' h', MmSink.step c s h (.node r) = (h', .ok s') ∧ Sink c s' h' ac re := by
  obtain ⟨made, pres, ha⟩ := hi.all hs
  obtain ⟨s', more, h1, -⟩ := MmSink.outStep_inv ha.1.1 ha.1.2 r
  have he : MmSink.step c s h (.node r) =
      ({ h with shown := h.shown ++ s.port.toList.map fun b => (b, r b.type) }, .ok s') := by
    unfold MmSink.step
    dsimp only
    rw [h1]
  have hsame : s'.fifos = s.fifos ∧ s'.held = s.held ∧ s'.credit = s.credit := by
    rw [MmSink.outStep_eq] at h1
    split at h1
    · cases h1; exact ⟨rfl, rfl, rfl⟩
    · cases h1
    · split at h1
      · cases h1; exact ⟨rfl, rfl, rfl⟩
      · split at h1 <;> (cases h1; exact ⟨rfl, rfl, rfl⟩)
  refine ⟨s', _, he, hi.extend he, hi.acc, hi.drop, hi.cred, by rw [hsame.2.1]; exact hi.held, ?_, ?_, hi.belongs⟩
  · intro v
    have := hi.counted v
    simpa [MmSink.waiting, hsame.1, hsame.2.1] using this
  · intro v
    have := hi.pops v
    rw [hsame.2.2]
    exact this

/-- What a flit must meet so that the ejection FIFO has room for it. -/
theorem Sink.room (hs : MmSink.Separate c) (hone : ∀ k ∈ MmSink.channels c.master, c.vcs.first k.flitType = c.vcs.last k.flitType)
    (h8 : ∀ k ∈ MmSink.channels c.master, c.vcs.last k.flitType < 8) (hi : Sink c s h ac re) {f : BsFlit} {k : MmType}
    (hk : k ∈ MmSink.channels c.master) (hf : f.vc = c.vcs.first k.flitType)
    (hc : (ac.countP fun g => g.vc == f.vc) < c.depth + re.count f.vc) : (s.fifos k).length < c.depth := by
  obtain ⟨made, pres, ha⟩ := hi.all hs
  have hst := ha.1.1.stream k (by rw [MmSink.types_eq]; exact hk)
  have hvc : ∀ g ∈ ac, g.vc < 8 := by
    intro g hg
    obtain ⟨j, hj, ht, -, h2⟩ := hi.belongs g hg
    have := h8 j hj
    rw [ht] at h2
    omega
  have hall : ∀ x ∈ s.fifos k, x.vc.toNat = f.vc := by
    intro x hx
    have : x ∈ MmSink.ofClass c k h.accepted := by
      rw [hst]
      refine List.mem_append_right _ ?_
      unfold MmSink.inside
      exact List.mem_append_left _ (List.mem_append_right _ hx)
    rw [hi.acc] at this
    obtain ⟨g, hg, rfl⟩ := List.mem_map.1 this
    obtain ⟨hg, hcl⟩ := List.mem_filter.1 hg
    simp only [decide_eq_true_eq] at hcl
    obtain ⟨j, hj, ht, h1, h2⟩ := hi.belongs g hg
    have hcj := MmSink.class_of_range hs hj (ht ▸ h1) (ht ▸ h2)
    rw [hcj] at hcl
    cases hcl
    have := hone _ hj
    have := hvc g hg
    rw [ht] at h1 h2
    show (BitVec.ofNat 3 g.vc).toNat = f.vc
    rw [BitVec.toNat_ofNat, Nat.mod_eq_of_lt (by omega)]
    omega
  have hlen : MmSink.vcCount f.vc (s.fifos k) = (s.fifos k).length := by
    unfold MmSink.vcCount
    rw [List.countP_eq_length]
    intro x hx
    simp [hall x hx]
  have hw : MmSink.vcCount f.vc (s.fifos k) ≤ MmSink.waiting f.vc s := by
    unfold MmSink.waiting
    cases k <;> omega
  have h1 := hi.counted f.vc
  have h2 := hi.pops f.vc
  have h3 : (h.accepted.countP fun g => (BitVec.ofNat 3 g.vc).toNat = f.vc) = ac.countP fun g => g.vc == f.vc := by
    rw [hi.acc]
    apply List.countP_congr
    intro g hg
    have := hvc g hg
    rw [BitVec.toNat_ofNat, Nat.mod_eq_of_lt (by omega)]
    simp
  omega

theorem Sink.noc (hs : MmSink.Separate c)
    (hone : ∀ k ∈ MmSink.channels c.master, c.vcs.first k.flitType = c.vcs.last k.flitType)
    (h8 : ∀ k ∈ MmSink.channels c.master, c.vcs.last k.flitType < 8) (hi : Sink c s h ac re) {a : Option BsFlit}
    (hb : MmSink.Belongs c (ac ++ a.toList))
    (hc : ∀ v, ((ac ++ a.toList).countP fun g => g.vc == v) ≤ c.depth + re.count v) :
    ∃ s' h', MmSink.step c s h (.noc a) = (h', .ok s') ∧ Sink c s' h' (ac ++ a.toList) re := by
  obtain ⟨made, pres, ha⟩ := hi.all hs
  have hex : ∃ s', MmSink.ejectStep c s a = .ok s' ∧ s'.held = none := by
    rw [MmSink.ejectStep_eq]
    have : MmSink.inHand s a = a := by unfold MmSink.inHand; rw [hi.held]
    rw [this]
    cases a with
    | none => exact ⟨_, rfl, rfl⟩
    | some f =>
      obtain ⟨k, hk, ht, h1, h2⟩ := hb f (by simp)
      have hcl := MmSink.class_of_range hs hk (ht ▸ h1) (ht ▸ h2)
      have := hone k hk
      rw [ht] at h1 h2
      have hroom := hi.room hs hone h8 hk (f := f) (by omega) (by
        have := hc f.vc
        rw [List.countP_append] at this
        simp at this ⊢
        omega)
      simp only [hcl]
      rw [if_pos hroom]
      exact ⟨_, rfl, rfl⟩
  obtain ⟨s', h1, h2⟩ := hex
  have he : MmSink.step c s h (.noc a) = ({ h with accepted := h.accepted ++ a.toList }, .ok s') := by
    unfold MmSink.step
    dsimp only
    rw [h1, hi.held]
  refine ⟨s', _, he, hi.extend he, by rw [← hi.acc], hi.drop, hi.cred, h2, ?_, ?_, hb⟩
  · intro v
    have h3 := (MmSink.eject_counted h1 v).1
    have h4 := hi.counted v
    have h5 : MmSink.fresh s a = a.toList := by unfold MmSink.fresh; rw [hi.held]
    rw [h5] at h3
    simp only [List.countP_append]
    omega
  · intro v
    rw [(MmSink.eject_counted h1 v).2]
    exact hi.pops v

theorem Sink.edges (hs : MmSink.Separate c) (l : List SinkEdge) : ∀ {s : State} {h : Hist}, Sink c s h ac re →
    ∃ s' h', MmSink.run c s h (l.map SinkEdge.event) = (h', .ok s') ∧ Sink c s' h' ac re := by
  induction l with
  | nil => intro s h hi; exact ⟨s, h, rfl, hi⟩
  | cons e l ih =>
    intro s h hi
    have : ∃ s' h', MmSink.step c s h e.event = (h', .ok s') ∧ Sink c s' h' ac re := by
      cases e with
      | adapter b => exact hi.adapter hs b
      | node r => exact hi.node hs r
    obtain ⟨s1, h1, g1, g2⟩ := this
    obtain ⟨s2, h2, g3, g4⟩ := ih g2
    exact ⟨s2, h2, by rw [List.map_cons, MmSink.run_cons _ g1, g3], g4⟩

/-- A period of the sink side raises no error and drops no flit. -/
theorem Sink.period (hs : MmSink.Separate c)
    (hone : ∀ k ∈ MmSink.channels c.master, c.vcs.first k.flitType = c.vcs.last k.flitType)
    (h8 : ∀ k ∈ MmSink.channels c.master, c.vcs.last k.flitType < 8) (hi : Sink c s h ac re) {a : Option BsFlit}
    (hb : MmSink.Belongs c (ac ++ a.toList))
    (hc : ∀ v, ((ac ++ a.toList).countP fun g => g.vc == v) ≤ c.depth + re.count v) (i : NodeIn) :
    ∃ s' h', MmSink.run c s h (sinkEvents i a) = (h', .ok s') ∧ Sink c s' h' (ac ++ a.toList) (re ++ s.credit.toList) := by
  obtain ⟨s1, h1, e1, i1⟩ := hi.tick
  obtain ⟨s2, h2, e2, i2⟩ := i1.edges hs i.outPre
  obtain ⟨s3, h3, e3, i3⟩ := i2.noc hs hone h8 hb (fun v => by
    have := hc v
    rw [List.count_append]
    omega)
  obtain ⟨s4, h4, e4, i4⟩ := i3.edges hs i.outPost
  refine ⟨s4, h4, ?_, i4⟩
  unfold sinkEvents
  rw [MmSink.run_cons _ e1, MmSink.run_append c _ _ e2, MmSink.run_cons _ e3, e4]

theorem Sink.ret (h8 : ∀ k ∈ MmSink.channels c.master, c.vcs.last k.flitType < 8)
    (hi : Sink c s h ac re) (v : Nat) : re.count v ≤ ac.countP fun g => g.vc == v := by
  have hvc : ∀ g ∈ ac, g.vc < 8 := by
    intro g hg
    obtain ⟨j, hj, ht, -, h2⟩ := hi.belongs g hg
    have := h8 j hj
    rw [ht] at h2
    omega
  have h1 := hi.counted v
  have h2 := hi.pops v
  have h3 : (h.accepted.countP fun g => (BitVec.ofNat 3 g.vc).toNat = v) = ac.countP fun g => g.vc == v := by
    rw [hi.acc]
    apply List.countP_congr
    intro g hg
    have := hvc g hg
    rw [BitVec.toNat_ofNat, Nat.mod_eq_of_lt (by omega)]
    simp
  omega

end

end RadSim.MmNoc
