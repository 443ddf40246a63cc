import Verif.Lemmas.AxiMm

namespace RadSim

/-! ## clock schedules

`clocks` lists, for each instant, whether the node clock and the adapter clock rise. -/

/-- Adapter edges since the last node edge, `none` before the first one. -/
def gapNext (g : Option Nat) (node adapter : Bool) : Option Nat :=
  if node then some 0 else if adapter then g.map (· + 1) else g

/-- Between two node-clock edges there is at least one adapter-clock edge, and from just after a
node edge up to and including the next one there are at most `m` of them. -/
def GapOk (m : Nat) : Option Nat → List (Bool × Bool) → Prop
  | _, [] => True
  | g, (node, adapter) :: es =>
    (node = true → ∀ k, g = some k → 1 ≤ k) ∧ (adapter = true → ∀ k, g = some k → k + 1 ≤ m) ∧
      GapOk m (gapNext g node adapter) es

theorem GapOk.append_left {m : Nat} {a b : List (Bool × Bool)} :
    ∀ {g : Option Nat}, GapOk m g (a ++ b) → GapOk m g a := by
  induction a with
  | nil => intro g _; trivial
  | cons x a ih => intro g h; exact ⟨h.1, h.2.1, ih h.2.2⟩

/-! ## packetisation -/

/-- Adapter cycles a packet takes. -/
def pktSpan (c : MmCfg) (t : MmType) : Nat := max (mmFlits c.dataw t) c.ratio

/-- The clock parameters the counters can represent. -/
structure MmCfgOk (c : MmCfg) (m : Nat) : Prop where
  ratio : 2 ≤ c.ratio
  ratioMax : c.ratio ≤ 256
  dataw : c.dataw ≤ 512
  span : ∀ t, m ≤ pktSpan c t

theorem mmFlits_le (dataw : Nat) (h : dataw ≤ 512) (t : MmType) : mmFlits dataw t ≤ 8 := by
  cases t <;> simp only [mmFlits, flitW] <;> omega

theorem pktSpan_bounds {c : MmCfg} {m : Nat} (h : MmCfgOk c m) (t : MmType) :
    2 ≤ pktSpan c t ∧ pktSpan c t ≤ 256 := by
  have := h.ratio
  have := h.ratioMax
  have := mmFlits_le c.dataw h.dataw t
  unfold pktSpan
  omega

theorem pktLimit_eq {c : MmCfg} {m : Nat} (h : MmCfgOk c m) (t : MmType) :
    pktLimit c (BitVec.ofNat 8 (mmFlits c.dataw t)) = BitVec.ofNat 8 (pktSpan c t - 1) := by
  have h1 := mmFlits_le c.dataw h.dataw t
  have h2 := mmFlits_pos c.dataw t
  have h3 := h.ratio
  have h4 := h.ratioMax
  unfold pktLimit pktSpan
  generalize mmFlits c.dataw t = n at *
  have h5 : (BitVec.ofNat 8 n).toNat = n := by simp; omega
  rw [h5]
  by_cases hle : c.ratio ≤ n
  · rw [if_pos hle]
    have : max n c.ratio = n := by omega
    rw [this]
    apply BitVec.eq_of_toNat_eq
    have h1' : (1 : BitVec 8).toNat = 1 := rfl
    simp only [BitVec.toNat_sub, BitVec.toNat_ofNat, h1']
    omega
  · rw [if_neg hle]
    have : max n c.ratio = c.ratio := by omega
    rw [this]
    have : ((c.ratio : Int) - 1) = ((c.ratio - 1 : Nat) : Int) := by omega
    rw [this, BitVec.ofInt_natCast]

theorem ofNat8_ne {a b : Nat} (ha : a < 256) (hb : b < 256) (h : a ≠ b) :
    BitVec.ofNat 8 a ≠ BitVec.ofNat 8 b := by
  intro e
  have := congrArg BitVec.toNat e
  simp only [BitVec.toNat_ofNat] at this
  omega

/-- Where the packetisation of the captured transaction stands; `pend` is the transaction whose
flits have not been made yet. -/
def PktPhase (c : MmCfg) (p : Pkt) (gap : Option Nat) (pend : List MmTxn) : Prop :=
  match p.reg with
  | none => pend = []
  | some t => ∃ g, gap = some g ∧
      ((g = 0 ∧ p.cycle = 0 ∧ pend = [t]) ∨
        (0 < g ∧ pend = [] ∧ p.nflits = BitVec.ofNat 8 (mmFlits c.dataw t.type) ∧
          ((g < pktSpan c t.type ∧ p.cycle = BitVec.ofNat 8 g) ∨
            (g = pktSpan c t.type ∧ p.cycle = 0))))

/-- The flits produced so far, handed over or not, are the packets of the transactions captured so
far, except the pending one. -/
def PktInv (c : MmCfg) (p : Pkt) (gap : Option Nat) (cap : List MmTxn) (out : List BsFlit) : Prop :=
  ∃ done pend, cap = done ++ pend ∧
    out ++ (p.toInj.toList ++ p.fifo).map mmInject =
      ((done.map (mmPacket c.vc c.dataw)).flatten).map mmInject ∧ PktPhase c p gap pend

theorem PktInv.init (c : MmCfg) : PktInv c Pkt.init none [] [] :=
  ⟨[], [], rfl, rfl, rfl⟩

theorem PktInv.noc {c : MmCfg} {p : Pkt} {gap : Option Nat} {cap : List MmTxn} {out : List BsFlit}
    (h : PktInv c p gap cap out) (accept : Bool) :
    PktInv c (p.nocEdge accept).1 gap cap (out ++ (p.nocEdge accept).2) ∧
      (p.nocEdge accept).1.cycle = p.cycle ∧ (p.nocEdge accept).1.full = p.full ∧
      (p.nocEdge accept).1.reg = p.reg := by
  obtain ⟨done, pend, h1, h2, h3⟩ := h
  obtain ⟨reg, cycle, nflits, full, fifo, toInj⟩ := p
  have hphase : ∀ f q, PktPhase c ⟨reg, cycle, nflits, full, q, f⟩ gap pend := by
    intro f q; exact h3
  cases toInj with
  | some f =>
    cases accept with
    | true =>
      refine ⟨⟨done, pend, h1, ?_, hphase none fifo⟩, rfl, rfl, rfl⟩
      rw [← h2]; simp [Pkt.nocEdge]
    | false =>
      refine ⟨⟨done, pend, h1, ?_, hphase (some f) fifo⟩, rfl, rfl, rfl⟩
      rw [← h2]; simp [Pkt.nocEdge]
  | none =>
    cases fifo with
    | nil =>
      refine ⟨⟨done, pend, h1, ?_, hphase none []⟩, rfl, rfl, rfl⟩
      rw [← h2]; simp [Pkt.nocEdge]
    | cons f q =>
      cases accept with
      | true =>
        refine ⟨⟨done, pend, h1, ?_, hphase none q⟩, rfl, rfl, rfl⟩
        rw [← h2]; simp [Pkt.nocEdge]
      | false =>
        refine ⟨⟨done, pend, h1, ?_, hphase (some f) q⟩, rfl, rfl, rfl⟩
        rw [← h2]; simp [Pkt.nocEdge]

theorem PktInv.adapter {c : MmCfg} {m : Nat} (hc : MmCfgOk c m) {p : Pkt} {gap : Option Nat}
    {cap : List MmTxn} {out : List BsFlit} (h : PktInv c p gap cap out)
    (hm : ∀ k, gap = some k → k + 1 ≤ m) :
    PktInv c (p.adapterEdge c) (gap.map (· + 1)) cap out := by
  obtain ⟨done, pend, h1, h2, h3⟩ := h
  unfold PktPhase at h3
  cases hr : p.reg with
  | none =>
    rw [hr] at h3
    refine ⟨done, pend, h1, ?_, ?_⟩
    · simpa [Pkt.adapterEdge, hr] using h2
    · simp only [PktPhase, Pkt.adapterEdge, hr]; exact h3
  | some t =>
    rw [hr] at h3
    simp only at h3
    obtain ⟨g, hg, h3⟩ := h3
    have hb := pktSpan_bounds hc t.type
    have hgm := hm g hg
    have hsp := hc.span t.type
    rcases h3 with ⟨h4, h5, h6⟩ | ⟨h4, h5, h6, h7⟩
    · subst h4 h6
      have hc0 : (p.cycle == 0) = true := by rw [h5]; rfl
      refine ⟨done ++ [t], [], by simpa using h1, ?_, ?_⟩
      · simp only [Pkt.adapterEdge, hr, hc0, if_true]
        rw [← List.append_assoc, List.map_append, ← List.append_assoc, h2]
        simp
      · simp only [PktPhase, Pkt.adapterEdge, hr, hc0, if_true]
        refine ⟨1, by simp [hg], Or.inr ⟨by omega, trivial, trivial, Or.inl ⟨by omega, ?_⟩⟩⟩
        rw [h5]
        rfl
    · subst h5
      rcases h7 with ⟨h8, h9⟩ | ⟨h8, _⟩
      · have hne : p.cycle ≠ 0 := by
          rw [h9]
          exact ofNat8_ne (b := 0) (by omega) (by omega) (by omega)
        have hcne : (p.cycle == 0) = false := beq_eq_false_iff_ne.mpr hne
        have hpos : (0 : BitVec 8) < p.cycle := by
          rw [BitVec.lt_def]
          have : p.cycle.toNat ≠ 0 := fun e => hne (BitVec.eq_of_toNat_eq e)
          show 0 < p.cycle.toNat
          omega
        refine ⟨done, [], h1, ?_, ?_⟩
        · simp only [Pkt.adapterEdge, hr, hcne]
          exact h2
        · simp only [PktPhase, Pkt.adapterEdge, hr, hcne, hpos, if_true]
          refine ⟨g + 1, by simp [hg], Or.inr ⟨by omega, trivial, by simpa using h6, ?_⟩⟩
          rw [h6, pktLimit_eq hc, h9]
          by_cases he : g + 1 = pktSpan c t.type
          · right
            have h10 : g = pktSpan c t.type - 1 := by omega
            refine ⟨he, ?_⟩
            rw [← h10]
            simp
          · left
            have h10 := ofNat8_ne (a := g) (b := pktSpan c t.type - 1) (by omega) (by omega) (by omega)
            refine ⟨by omega, ?_⟩
            rw [if_neg (by simpa using h10)]
            apply BitVec.eq_of_toNat_eq
            have h1' : (1 : BitVec 8).toNat = 1 := rfl
            simp only [BitVec.toNat_add, BitVec.toNat_ofNat, h1']
            omega
      · omega

/-- A capture is only possible when nothing is pending: the register is then overwritten safely. -/
theorem PktInv.node {c : MmCfg} {p : Pkt} {gap : Option Nat}
    {cap : List MmTxn} {out : List BsFlit} (h : PktInv c p gap cap out)
    (hm : ∀ k, gap = some k → 1 ≤ k) (x : Option MmTxn) (hx : x.isSome = true → p.cycle = 0) :
    PktInv c { p with reg := x } (some 0) (cap ++ x.toList) out := by
  obtain ⟨done, pend, h1, h2, h3⟩ := h
  have hp : pend = [] := by
    unfold PktPhase at h3
    cases hr : p.reg with
    | none => rw [hr] at h3; exact h3
    | some t =>
      rw [hr] at h3
      obtain ⟨g, hg, h4⟩ := h3
      have := hm g hg
      rcases h4 with h4 | h4
      · omega
      · exact h4.2.1
  subst hp
  refine ⟨done, x.toList, by simpa using h1, h2, ?_⟩
  cases x with
  | none => rfl
  | some t => exact ⟨0, rfl, Or.inl ⟨rfl, hx rfl, rfl⟩⟩

/-- When the counter is at rest and the last capture is at least one adapter edge old, an adapter
edge leaves the counter at rest. -/
theorem PktInv.adapter_cycle {c : MmCfg} {m : Nat} (hc : MmCfgOk c m) {p : Pkt} {gap : Option Nat}
    {cap : List MmTxn} {out : List BsFlit} (h : PktInv c p gap cap out)
    (hm : ∀ k, gap = some k → k + 1 ≤ m) (hm' : ∀ k, gap = some k → 1 ≤ k) (h0 : p.cycle = 0) :
    (p.adapterEdge c).cycle = 0 := by
  obtain ⟨done, pend, h1, h2, h3⟩ := h
  unfold PktPhase at h3
  cases hr : p.reg with
  | none => simp [Pkt.adapterEdge, hr, h0]
  | some t =>
    rw [hr] at h3
    obtain ⟨g, hg, h4⟩ := h3
    have h5 := hm g hg
    have h6 := hm' g hg
    have h7 := hc.span t.type
    have h8 := pktSpan_bounds hc t.type
    rcases h4 with h4 | ⟨_, _, _, ⟨h9, h10⟩ | ⟨h9, _⟩⟩
    · omega
    · rw [h0] at h10
      exact absurd h10.symm (ofNat8_ne (b := 0) (by omega) (by omega) (by omega))
    · omega

/-- One instant of the clocks. -/
theorem PktInv.edge {c : MmCfg} {m : Nat} (hc : MmCfgOk c m) {p : Pkt} {gap : Option Nat}
    {cap : List MmTxn} {out : List BsFlit} (h : PktInv c p gap cap out) (node adapter : Bool)
    (hm : adapter = true → ∀ k, gap = some k → k + 1 ≤ m)
    (hm' : node = true → ∀ k, gap = some k → 1 ≤ k) (x : Option MmTxn)
    (hx : x.isSome = true → p.cycle = 0) :
    PktInv c (if node then { (if adapter then p.adapterEdge c else p) with reg := x }
        else (if adapter then p.adapterEdge c else p)) (gapNext gap node adapter)
      (cap ++ if node then x.toList else []) out := by
  cases node with
  | false =>
    cases adapter with
    | false => simpa [gapNext] using h
    | true => simpa [gapNext] using h.adapter hc (hm rfl)
  | true =>
    cases adapter with
    | false => simpa [gapNext] using h.node (hm' rfl) x hx
    | true =>
      simp only [gapNext, if_true]
      refine (h.adapter hc (hm rfl)).node ?_ x (fun e =>
        h.adapter_cycle hc (hm rfl) (hm' rfl) (hx e))
      intro k hk
      cases gap with
      | none => simp at hk
      | some g => simp only [Option.map_some, Option.some.injEq] at hk; omega


/-! ## request side of the slave adapter -/

/-- The node-clock and adapter-clock edges of an event. -/
def ReqEvent.clocks : ReqEvent → Bool × Bool
  | .edge node adapter _ => (node, adapter)
  | .noc _ => (false, false)

/-- Address of the most recently accepted AW. -/
def lastAwAddr (l : Option (BitVec 64)) : List ReqBeat → Option (BitVec 64)
  | [] => l
  | .aw a :: bs => lastAwAddr (some a.addr) bs
  | .ar _ :: bs => lastAwAddr l bs
  | .w _ :: bs => lastAwAddr l bs

/-- Whether an AW has been accepted and its last W has not. -/
def awOpen (o : Bool) : List ReqBeat → Bool
  | [] => o
  | .aw _ :: bs => awOpen true bs
  | .ar _ :: bs => awOpen o bs
  | .w x :: bs => awOpen (o && !x.last) bs

/-- The transactions to be captured for a list of accepted beats. -/
def reqTxns (l : Option (BitVec 64)) : List ReqBeat → List MmTxn
  | [] => []
  | .aw a :: bs => captureAw a :: reqTxns (some a.addr) bs
  | .ar a :: bs => captureAr a :: reqTxns l bs
  | .w x :: bs => captureW x (match l with | some a => mmNode a | none => 0) :: reqTxns l bs

theorem lastAwAddr_append (l : Option (BitVec 64)) (a b : List ReqBeat) :
    lastAwAddr l (a ++ b) = lastAwAddr (lastAwAddr l a) b := by
  induction a generalizing l with
  | nil => rfl
  | cons x a ih => cases x <;> exact ih _

theorem awOpen_append (o : Bool) (a b : List ReqBeat) :
    awOpen o (a ++ b) = awOpen (awOpen o a) b := by
  induction a generalizing o with
  | nil => rfl
  | cons x a ih => cases x <;> exact ih _

theorem reqTxns_append (l : Option (BitVec 64)) (a b : List ReqBeat) :
    reqTxns l (a ++ b) = reqTxns l a ++ reqTxns (lastAwAddr l a) b := by
  induction a generalizing l with
  | nil => rfl
  | cons x a ih => cases x <;> simp [reqTxns, lastAwAddr, ih]

theorem lastAwAddr_of_open {l : Option (BitVec 64)} {o : Bool} (acc : List ReqBeat)
    (h : awOpen o acc = true) (hl : o = true → l ≠ none) : lastAwAddr l acc ≠ none := by
  induction acc generalizing l o with
  | nil => exact hl h
  | cons x acc ih =>
    cases x with
    | ar a => exact ih h hl
    | aw a => exact ih h (by simp)
    | w x => exact ih (o := o && !x.last) h (fun e => hl (by simp at e; exact e.1))

/-- What `InputReady` computes for the values `p`, `full`, `g`, `cycle` and `off`. -/
def reqReadyFor (s : ReqState) (g : Bool) : Prop :=
  s.arready = (s.k.cycle == 0 &&
    (reqChoose s.prio s.k.full g s.off.ar.isSome s.off.aw.isSome s.off.w.isSome).1) ∧
  s.awready = (s.k.cycle == 0 &&
    (reqChoose s.prio s.k.full g s.off.ar.isSome s.off.aw.isSome s.off.w.isSome).2.1) ∧
  s.wready = (s.k.cycle == 0 &&
    (reqChoose s.prio s.k.full g s.off.ar.isSome s.off.aw.isSome s.off.w.isSome).2.2)

/-- At most one channel is chosen, only a valid one, W only after an AW. -/
theorem reqChoose_one (prio : Nat) (full g arv awv wv : Bool) :
    ((reqChoose prio full g arv awv wv).1 = true → arv = true ∧ full = false) ∧
    ((reqChoose prio full g arv awv wv).2.1 = true → awv = true ∧ full = false) ∧
    ((reqChoose prio full g arv awv wv).2.2 = true → wv = true ∧ g = true ∧ full = false) ∧
    ((reqChoose prio full g arv awv wv).1 && (reqChoose prio full g arv awv wv).2.1) = false ∧
    ((reqChoose prio full g arv awv wv).1 && (reqChoose prio full g arv awv wv).2.2) = false ∧
    ((reqChoose prio full g arv awv wv).2.1 && (reqChoose prio full g arv awv wv).2.2) = false := by
  unfold reqChoose
  split
  · cases full <;> cases g <;> cases arv <;> cases awv <;> cases wv <;> decide
  · split <;> cases full <;> cases g <;> cases arv <;> cases awv <;> cases wv <;> decide

theorem reqAssert_choose (prio : Nat) (full g arv awv wv : Bool) :
    reqAssert (reqChoose prio full g arv awv wv) = true := by
  unfold reqChoose
  split
  · cases full <;> cases g <;> cases arv <;> cases awv <;> cases wv <;> decide
  · split <;> cases full <;> cases g <;> cases arv <;> cases awv <;> cases wv <;> decide

/-- Facts about the ready outputs that hold in every reachable state. -/
structure ReqReady (s : ReqState) : Prop where
  ar : s.arready = true → s.off.ar.isSome = true ∧ s.k.cycle = 0
  aw : s.awready = true → s.off.aw.isSome = true ∧ s.k.cycle = 0
  w : s.wready = true → s.off.w.isSome = true ∧ s.k.cycle = 0
  arAw : (s.arready && s.awready) = false
  arW : (s.arready && s.wready) = false
  awW : (s.awready && s.wready) = false

theorem reqReadyFor.ready {s : ReqState} {g : Bool} (h : reqReadyFor s g) : ReqReady s := by
  obtain ⟨h1, h2, h3⟩ := h
  obtain ⟨c1, c2, c3, c4, c5, c6⟩ :=
    reqChoose_one s.prio s.k.full g s.off.ar.isSome s.off.aw.isSome s.off.w.isSome
  generalize reqChoose s.prio s.k.full g s.off.ar.isSome s.off.aw.isSome s.off.w.isSome = r at *
  refine ⟨?_, ?_, ?_, ?_, ?_, ?_⟩
  · rw [h1]; intro e; simp only [Bool.and_eq_true, beq_iff_eq] at e; exact ⟨(c1 e.2).1, e.1⟩
  · rw [h2]; intro e; simp only [Bool.and_eq_true, beq_iff_eq] at e; exact ⟨(c2 e.2).1, e.1⟩
  · rw [h3]; intro e; simp only [Bool.and_eq_true, beq_iff_eq] at e; exact ⟨(c3 e.2).1, e.1⟩
  · rw [h1, h2]; cases (s.k.cycle == 0) <;> simp_all
  · rw [h1, h3]; cases (s.k.cycle == 0) <;> simp_all
  · rw [h2, h3]; cases (s.k.cycle == 0) <;> simp_all

theorem inputReady_readyFor (s : ReqState) : reqReadyFor s.inputReady s.gotAw :=
  ⟨rfl, rfl, rfl⟩

theorem reqReadyFor.wready {s : ReqState} {g : Bool} (h : reqReadyFor s g) (hw : s.wready = true) :
    g = true := by
  rw [h.2.2] at hw
  simp only [Bool.and_eq_true] at hw
  exact ((reqChoose_one _ _ _ _ _ _).2.2.1 hw.2).2.1

/-- The state after an edge, before `InputReady`. -/
def reqMid (c : MmCfg) (s : ReqState) (node adapter : Bool) (off : ReqOffer) : ReqState :=
  { s with
    k := if node then { (if adapter then s.k.adapterEdge c else s.k) with reg := s.nodeEdge.1 }
      else (if adapter then s.k.adapterEdge c else s.k)
    prio := if node then s.nodeEdge.2.1 else s.prio
    gotAw := if node then s.nodeEdge.2.2 else s.gotAw
    lastAw := if adapter then s.lastAwAfter else s.lastAw
    off := off }

theorem reqStep_edge (c : MmCfg) (s : ReqState) (node adapter : Bool) (off : ReqOffer) :
    reqStep c s (.edge node adapter off) =
      (if reqTriggered s (reqMid c s node adapter off) then (reqMid c s node adapter off).inputReady
        else reqMid c s node adapter off, []) := rfl

/-- Without a trigger the ready outputs still are what `InputReady` computed. -/
theorem reqReadyFor.untriggered {s s' : ReqState} {g : Bool} (h : reqReadyFor s g)
    (ht : reqTriggered s s' = false) (h1 : s'.arready = s.arready) (h2 : s'.awready = s.awready)
    (h3 : s'.wready = s.wready) : reqReadyFor s' g ∧ s'.k.cycle = s.k.cycle := by
  simp only [reqTriggered, Bool.or_eq_false_iff, bne_eq_false_iff_eq] at ht
  obtain ⟨⟨⟨⟨⟨t1, t2⟩, t3⟩, t4⟩, t5⟩, t6⟩ := ht
  unfold reqReadyFor
  rw [h1, h2, h3, ← t1, ← t2, ← t3, ← t4, ← t5, ← t6]
  exact ⟨h, rfl⟩

/-- Some value of `_got_aw` explains the ready outputs, in every run. -/
theorem reqReadyFor.step {c : MmCfg} {s : ReqState} {g : Bool} (h : reqReadyFor s g) (e : ReqEvent) :
    ∃ g', reqReadyFor (reqStep c s e).1 g' := by
  cases e with
  | edge node adapter off =>
    rw [reqStep_edge]
    cases ht : reqTriggered s (reqMid c s node adapter off) with
    | true => exact ⟨_, inputReady_readyFor _⟩
    | false => exact ⟨g, (h.untriggered ht rfl rfl rfl).1⟩
  | noc accept =>
    refine ⟨g, ?_⟩
    obtain ⟨e1, e2⟩ : (s.k.nocEdge accept).1.cycle = s.k.cycle ∧
        (s.k.nocEdge accept).1.full = s.k.full := by
      unfold Pkt.nocEdge
      cases s.k.toInj <;> cases s.k.fifo <;> cases accept <;> exact ⟨rfl, rfl⟩
    simp only [reqReadyFor, reqStep, e1, e2]
    exact h

/-- The four things a node edge can do, when the ready outputs agree with `_got_aw`. -/
theorem ReqState.nodeEdge_cases {s : ReqState} (h : reqReadyFor s s.gotAw) (adapter : Bool)
    (off : ReqOffer) :
    (s.nodeEdge = (none, s.prio, s.gotAw) ∧ reqHandshakes s (.edge true adapter off) = []) ∨
    (s.k.cycle = 0 ∧ ∃ a, s.nodeEdge = (some (captureAr a), 1, s.gotAw) ∧
      reqHandshakes s (.edge true adapter off) = [.ar a]) ∨
    (s.k.cycle = 0 ∧ ∃ a, s.nodeEdge = (some (captureAw a), 2, true) ∧
      reqHandshakes s (.edge true adapter off) = [.aw a]) ∨
    (s.k.cycle = 0 ∧ s.gotAw = true ∧ ∃ x, s.nodeEdge = (some (captureW x s.lastAw), 0, !x.last) ∧
      reqHandshakes s (.edge true adapter off) = [.w x]) := by
  have hw := h.wready
  obtain ⟨r1, r2, r3, r4, r5, r6⟩ := h.ready
  cases ha : s.arready with
  | true =>
    rw [ha] at r1 r4 r5
    obtain ⟨o1, o2⟩ := r1 rfl
    obtain ⟨a, hoa⟩ := Option.isSome_iff_exists.mp o1
    right; left
    refine ⟨o2, a, by simp [ReqState.nodeEdge, ha, hoa], ?_⟩
    simp only [Bool.true_and] at r4 r5
    simp [reqHandshakes, ha, hoa, r4, r5]
  | false =>
    cases hb : s.awready with
    | true =>
      rw [hb] at r2 r6
      obtain ⟨o1, o2⟩ := r2 rfl
      obtain ⟨a, hoa⟩ := Option.isSome_iff_exists.mp o1
      right; right; left
      refine ⟨o2, a, by simp [ReqState.nodeEdge, ha, hb, hoa], ?_⟩
      simp only [Bool.true_and] at r6
      simp [reqHandshakes, ha, hb, hoa, r6]
    | false =>
      cases hc : s.wready with
      | true =>
        rw [hc] at r3
        obtain ⟨o1, o2⟩ := r3 rfl
        obtain ⟨x, hox⟩ := Option.isSome_iff_exists.mp o1
        have hg := hw hc
        right; right; right
        refine ⟨o2, hg, x, by simp [ReqState.nodeEdge, ha, hb, hc, hox, hg], ?_⟩
        simp [reqHandshakes, ha, hb, hc, hox]
      | false =>
        left
        exact ⟨by simp [ReqState.nodeEdge, ha, hb, hc], by simp [reqHandshakes, ha, hb, hc]⟩

theorem mmNode_setWidth (a : BitVec 64) : mmNode ((a.setWidth 512).setWidth 64) = mmNode a := by
  rw [BitVec.setWidth_setWidth_of_le a (by omega), BitVec.setWidth_eq]

/-- The invariant of the request side. `acc` are the beats accepted so far, `out` the flits handed
to the NoC. -/
structure ReqInv (c : MmCfg) (s : ReqState) (gap : Option Nat) (acc : List ReqBeat)
    (out : List BsFlit) : Prop where
  rdy : ∃ g, reqReadyFor s g ∧
    (g = s.gotAw ∨ (gap = some 0 ∧ s.k.reg.isSome = true ∧ s.k.cycle = 0))
  pkt : PktInv c s.k gap (reqTxns none acc) out
  aw : s.gotAw = awOpen false acc
  last : ∀ a, lastAwAddr none acc = some a →
    (∀ t, s.k.reg = some t → s.k.cycle = 0 → gap = some 0 → t.type = .aw →
      mmNode (t.payload.setWidth 64) = mmNode a) ∧
    (s.lastAw = mmNode a ∨
      (gap = some 0 ∧ s.k.cycle = 0 ∧ ∃ t, s.k.reg = some t ∧ t.type = .aw))

theorem ReqInv.init (c : MmCfg) : ReqInv c ReqState.init none [] [] := by
  refine ⟨⟨false, ⟨rfl, rfl, rfl⟩, Or.inl rfl⟩, PktInv.init c, rfl, ?_⟩
  intro a h; cases h

theorem ReqInv.noc {c : MmCfg} {s : ReqState} {gap : Option Nat} {acc : List ReqBeat}
    {out : List BsFlit} (h : ReqInv c s gap acc out) (accept : Bool) :
    ReqInv c (reqStep c s (.noc accept)).1 gap acc (out ++ (reqStep c s (.noc accept)).2) := by
  obtain ⟨⟨g, h1, h2⟩, h3, h4, h5⟩ := h
  obtain ⟨p1, p2, p3, p4⟩ := h3.noc accept
  refine ⟨⟨g, ?_, ?_⟩, p1, h4, ?_⟩
  · simp only [reqReadyFor, reqStep, p2, p3]; exact h1
  · simp only [reqStep, p2, p4]; exact h2
  · simp only [reqStep, p2, p4]; exact h5

/-- With at least one adapter edge since the last capture, a pending counter of zero means the
adapter clock cannot find an unpacketised transaction. -/
theorem PktInv.idle {c : MmCfg} {m : Nat} (hc : MmCfgOk c m) {p : Pkt} {gap : Option Nat}
    {cap : List MmTxn} {out : List BsFlit} (h : PktInv c p gap cap out)
    (hm : ∀ k, gap = some k → k + 1 ≤ m) (hm' : ∀ k, gap = some k → 1 ≤ k) {t : MmTxn}
    (hr : p.reg = some t) : p.cycle ≠ 0 := by
  obtain ⟨done, pend, h1, h2, h3⟩ := h
  unfold PktPhase at h3
  rw [hr] at h3
  obtain ⟨g, hg, h4⟩ := h3
  have h5 := hm g hg
  have h6 := hm' g hg
  have h7 := hc.span t.type
  have h8 := pktSpan_bounds hc t.type
  rcases h4 with h4 | ⟨_, _, _, ⟨h9, h10⟩ | ⟨h9, _⟩⟩
  · omega
  · rw [h10]
    exact ofNat8_ne (b := 0) (by omega) (by omega) (by omega)
  · omega

theorem ReqInv.edge {c : MmCfg} {m : Nat} (hc : MmCfgOk c m) {s : ReqState} {gap : Option Nat}
    {acc : List ReqBeat} {out : List BsFlit} (h : ReqInv c s gap acc out) (node adapter : Bool)
    (off : ReqOffer) (hm : adapter = true → ∀ k, gap = some k → k + 1 ≤ m)
    (hm' : node = true → ∀ k, gap = some k → 1 ≤ k) :
    ReqInv c (reqStep c s (.edge node adapter off)).1 (gapNext gap node adapter)
      (acc ++ reqHandshakes s (.edge node adapter off)) out := by
  -- it is enough to show the invariant before `InputReady`, which only changes the ready outputs
  suffices hs : ReqInv c (reqMid c s node adapter off) (gapNext gap node adapter)
      (acc ++ reqHandshakes s (.edge node adapter off)) out ∨
      (reqTriggered s (reqMid c s node adapter off) = true ∧
       PktInv c (reqMid c s node adapter off).k (gapNext gap node adapter)
        (reqTxns none (acc ++ reqHandshakes s (.edge node adapter off))) out ∧
       (reqMid c s node adapter off).gotAw =
        awOpen false (acc ++ reqHandshakes s (.edge node adapter off)) ∧
       (∀ a, lastAwAddr none (acc ++ reqHandshakes s (.edge node adapter off)) = some a →
        (∀ t, (reqMid c s node adapter off).k.reg = some t →
          (reqMid c s node adapter off).k.cycle = 0 → gapNext gap node adapter = some 0 →
          t.type = .aw → mmNode (t.payload.setWidth 64) = mmNode a) ∧
        ((reqMid c s node adapter off).lastAw = mmNode a ∨
          (gapNext gap node adapter = some 0 ∧ (reqMid c s node adapter off).k.cycle = 0 ∧
            ∃ t, (reqMid c s node adapter off).k.reg = some t ∧ t.type = .aw)))) by
    rw [reqStep_edge]
    rcases hs with hs | ⟨ht, p1, p2, p3⟩
    · cases ht : reqTriggered s (reqMid c s node adapter off) with
      | false => exact hs
      | true =>
        exact ⟨⟨_, inputReady_readyFor _, Or.inl rfl⟩, hs.pkt, hs.aw, hs.last⟩
    · rw [ht]
      exact ⟨⟨_, inputReady_readyFor _, Or.inl rfl⟩, p1, p2, p3⟩
  have hcases : node = true → reqReadyFor s s.gotAw := by
    intro hn
    obtain ⟨g, h1, h2⟩ := h.rdy
    rcases h2 with h2 | h2
    · rw [← h2]; exact h1
    · have := hm' hn 0 h2.1; omega
  obtain ⟨⟨g, hr1, hr2⟩, hpkt, haw, hlast⟩ := h
  -- packetisation, `_got_aw` and `_last_awdest`
  have key : PktInv c (reqMid c s node adapter off).k (gapNext gap node adapter)
        (reqTxns none (acc ++ reqHandshakes s (.edge node adapter off))) out ∧
       (reqMid c s node adapter off).gotAw =
        awOpen false (acc ++ reqHandshakes s (.edge node adapter off)) ∧
       (∀ a, lastAwAddr none (acc ++ reqHandshakes s (.edge node adapter off)) = some a →
        (∀ t, (reqMid c s node adapter off).k.reg = some t →
          (reqMid c s node adapter off).k.cycle = 0 → gapNext gap node adapter = some 0 →
          t.type = .aw → mmNode (t.payload.setWidth 64) = mmNode a) ∧
        ((reqMid c s node adapter off).lastAw = mmNode a ∨
          (gapNext gap node adapter = some 0 ∧ (reqMid c s node adapter off).k.cycle = 0 ∧
            ∃ t, (reqMid c s node adapter off).k.reg = some t ∧ t.type = .aw))) := by
    cases node with
    | false =>
      have hh : reqHandshakes s (.edge false adapter off) = [] := rfl
      rw [hh, List.append_nil]
      refine ⟨?_, haw, ?_⟩
      · have := hpkt.edge hc false adapter hm hm' none (by simp)
        simpa [reqMid] using this
      · intro a ha
        obtain ⟨l1, l2⟩ := hlast a ha
        cases adapter with
        | false => exact ⟨l1, l2⟩
        | true =>
          refine ⟨?_, Or.inl ?_⟩
          · intro t _ _ hg
            simp only [gapNext] at hg
            cases gap <;> simp at hg
          · show s.lastAwAfter = mmNode a
            unfold ReqState.lastAwAfter
            cases hreg : s.k.reg with
            | none =>
              rcases l2 with l2 | ⟨_, _, t, ht, _⟩
              · exact l2
              · rw [hreg] at ht; cases ht
            | some t =>
              by_cases hcond : s.k.cycle = 0 ∧ t.type = .aw
              · simp only [hcond.1, hcond.2, beq_self_eq_true, Bool.and_self, if_true]
                refine l1 t hreg hcond.1 ?_ hcond.2
                rcases l2 with l2 | l2
                · -- the gap must be zero, else the adapter would not find the counter at rest
                  obtain ⟨g', hg'⟩ : ∃ g', gap = some g' := by
                    obtain ⟨_, _, _, _, h3⟩ := hpkt
                    unfold PktPhase at h3
                    rw [hreg] at h3
                    obtain ⟨g', hg', _⟩ := h3
                    exact ⟨g', hg'⟩
                  by_cases hz : g' = 0
                  · rw [hg', hz]
                  · exact absurd hcond.1 (hpkt.idle hc (hm rfl)
                      (fun k hk => by rw [hg'] at hk; cases hk; omega) hreg)
                · exact l2.1
              · have : (s.k.cycle == 0 && t.type == MmType.aw) = false := by
                  rw [Bool.and_eq_false_iff]
                  by_cases h0 : s.k.cycle = 0
                  · right; exact beq_eq_false_iff_ne.mpr (fun e => hcond ⟨h0, e⟩)
                  · left; exact beq_eq_false_iff_ne.mpr h0
                simp only [this]
                rcases l2 with l2 | ⟨_, h0, t', ht', hty⟩
                · exact l2
                · rw [hreg] at ht'; cases ht'
                  exact absurd ⟨h0, hty⟩ hcond
    | true =>
      have hcyc : s.k.cycle = 0 → (reqMid c s true adapter off).k.cycle = 0 := by
        intro h0
        cases adapter with
        | false => exact h0
        | true => exact hpkt.adapter_cycle hc (hm rfl) (hm' rfl) h0
      have hlastAw : (reqMid c s true adapter off).lastAw = s.lastAw := by
        cases adapter with
        | false => rfl
        | true =>
          show s.lastAwAfter = s.lastAw
          unfold ReqState.lastAwAfter
          cases hreg : s.k.reg with
          | none => rfl
          | some t =>
            have h0 : (s.k.cycle == 0) = false :=
              beq_eq_false_iff_ne.mpr (hpkt.idle hc (hm rfl) (hm' rfl) hreg)
            simp only [h0, Bool.false_and, Bool.false_eq_true, if_false]
      have hold : ∀ a, lastAwAddr none acc = some a → s.lastAw = mmNode a := by
        intro a ha
        rcases (hlast a ha).2 with l | l
        · exact l
        · have := hm' rfl 0 l.1; omega
      have hpk := hpkt.edge hc true adapter hm hm' s.nodeEdge.1
      have hgap : gapNext gap true adapter = some 0 := rfl
      have hreg : (reqMid c s true adapter off).k.reg = s.nodeEdge.1 := rfl
      have hgot : (reqMid c s true adapter off).gotAw = s.nodeEdge.2.2 := rfl
      have hk : (reqMid c s true adapter off).k =
        if true then { (if adapter then s.k.adapterEdge c else s.k) with reg := s.nodeEdge.1 }
        else (if adapter then s.k.adapterEdge c else s.k) := rfl
      rw [hlastAw, hreg, hgot, reqTxns_append, lastAwAddr_append, awOpen_append]
      rcases s.nodeEdge_cases (hcases rfl) adapter off with
        ⟨e1, e2⟩ | ⟨h0, a, e1, e2⟩ | ⟨h0, a, e1, e2⟩ | ⟨h0, hg, x, e1, e2⟩
      · rw [hk, e1, e2]
        rw [e1] at hpk
        refine ⟨by simpa [reqTxns] using hpk (by simp), haw, ?_⟩
        intro b hb
        exact ⟨fun t ht => by simp at ht, Or.inl (hold b hb)⟩
      · rw [e2]
        rw [e1] at hpk
        refine ⟨?_, by rw [e1]; exact haw, ?_⟩
        · rw [hk, e1]; simpa [reqTxns] using hpk (fun _ => h0)
        · intro b hb
          rw [e1]
          refine ⟨fun t ht _ _ hty => ?_, Or.inl (hold b hb)⟩
          simp only [Option.some.injEq] at ht
          subst ht
          cases hty
      · rw [e2]
        rw [e1] at hpk
        refine ⟨?_, by rw [e1]; rfl, ?_⟩
        · rw [hk, e1]; simpa [reqTxns] using hpk (fun _ => h0)
        · intro b hb
          rw [e1]
          have hb' : a.addr = b := by simpa [lastAwAddr] using hb
          subst hb'
          refine ⟨fun t ht _ _ hty => ?_, Or.inr ⟨hgap, hcyc h0, _, rfl, rfl⟩⟩
          simp only [Option.some.injEq] at ht
          subst ht
          exact mmNode_setWidth a.addr
      · rw [e2]
        rw [e1] at hpk
        have hopen : awOpen false acc = true := by rw [← haw]; exact hg
        obtain ⟨b, hb⟩ := Option.ne_none_iff_exists'.mp
          (lastAwAddr_of_open (l := none) acc hopen (by simp))
        refine ⟨?_, by rw [e1, hopen]; rfl, ?_⟩
        · rw [hk, e1]
          have := hpk (fun _ => h0)
          rw [hold b hb] at this
          rw [hold b hb]
          simpa [reqTxns, hb] using this
        · intro b' hb'
          rw [e1]
          refine ⟨fun t ht _ _ hty => ?_, Or.inl (hold b' hb')⟩
          simp only [Option.some.injEq] at ht
          subst ht
          cases hty
  obtain ⟨k1, k2, k3⟩ := key
  cases ht : reqTriggered s (reqMid c s node adapter off) with
  | true => exact Or.inr ⟨rfl, k1, k2, k3⟩
  | false =>
    left
    obtain ⟨u1, u2⟩ := hr1.untriggered ht rfl rfl rfl
    refine ⟨⟨g, u1, ?_⟩, k1, k2, k3⟩
    cases node with
    | true =>
      have hgg : g = s.gotAw := by
        rcases hr2 with h2 | h2
        · exact h2
        · have := hm' rfl 0 h2.1; omega
      rcases s.nodeEdge_cases (hcases rfl) adapter off with
        ⟨e1, _⟩ | ⟨h0, a, e1, _⟩ | ⟨h0, a, e1, _⟩ | ⟨h0, _, x, e1, _⟩
      · left
        show g = s.nodeEdge.2.2
        rw [e1]; exact hgg
      all_goals
        right
        refine ⟨rfl, ?_, by rw [u2]; exact h0⟩
        show s.nodeEdge.1.isSome = true
        rw [e1]; rfl
    | false =>
      rcases hr2 with h2 | ⟨h2, h3, h4⟩
      · exact Or.inl h2
      · cases adapter with
        | false => exact Or.inr ⟨h2, h3, h4⟩
        | true =>
          exfalso
          obtain ⟨t, hreg⟩ := Option.isSome_iff_exists.mp h3
          have : (reqMid c s false true off).k.cycle = 1 := by
            show (s.k.adapterEdge c).cycle = 1
            simp only [Pkt.adapterEdge, hreg, h4, Option.isSome_some, beq_self_eq_true,
              Bool.and_self, if_true]
            rfl
          rw [u2, h4] at this
          exact absurd this (by decide)

/-- W beats appear only while an AW is open. -/
def wOnlyOpen (o : Bool) : List ReqBeat → Prop
  | [] => True
  | .aw _ :: bs => wOnlyOpen true bs
  | .ar _ :: bs => wOnlyOpen o bs
  | .w x :: bs => o = true ∧ wOnlyOpen (o && !x.last) bs

theorem wOnlyOpen_append (o : Bool) (a b : List ReqBeat) :
    wOnlyOpen o (a ++ b) ↔ wOnlyOpen o a ∧ wOnlyOpen (awOpen o a) b := by
  induction a generalizing o with
  | nil => simp [wOnlyOpen, awOpen]
  | cons x a ih => cases x <;> simp [wOnlyOpen, awOpen, ih, and_assoc]

theorem ReqInv.w_open {c : MmCfg} {s : ReqState} {gap : Option Nat}
    {acc : List ReqBeat} {out : List BsFlit} (h : ReqInv c s gap acc out) (node adapter : Bool)
    (off : ReqOffer) (hm' : node = true → ∀ k, gap = some k → 1 ≤ k) :
    wOnlyOpen (awOpen false acc) (reqHandshakes s (.edge node adapter off)) := by
  cases node with
  | false => trivial
  | true =>
    obtain ⟨g, h1, h2⟩ := h.rdy
    have hr : reqReadyFor s s.gotAw := by
      rcases h2 with h2 | h2
      · rw [← h2]; exact h1
      · have := hm' rfl 0 h2.1; omega
    rcases s.nodeEdge_cases hr adapter off with
        ⟨_, e⟩ | ⟨_, a, _, e⟩ | ⟨_, a, _, e⟩ | ⟨_, hg, x, _, e⟩
    · rw [e]; trivial
    · rw [e]; trivial
    · rw [e]; trivial
    · rw [e, ← h.aw, hg]; exact ⟨rfl, trivial⟩

/-- Every run satisfies the invariant. The counter follows the clock edges. -/
theorem ReqInv.run {c : MmCfg} {m : Nat} (hc : MmCfgOk c m) (es : List ReqEvent) {s : ReqState}
    {gap : Option Nat} {acc : List ReqBeat} {out : List BsFlit} (h : ReqInv c s gap acc out)
    (hw : wOnlyOpen false acc) (hg : GapOk m gap (es.map ReqEvent.clocks)) :
    ∃ gap', ReqInv c (reqRun c s es).1 gap' (acc ++ (reqRun c s es).2.1)
      (out ++ (reqRun c s es).2.2) ∧ wOnlyOpen false (acc ++ (reqRun c s es).2.1) ∧
      ∀ e, GapOk m gap ((es ++ [e]).map ReqEvent.clocks) → GapOk m gap' [e.clocks] := by
  induction es generalizing s gap acc out with
  | nil => exact ⟨gap, by simpa [reqRun] using h, by simpa [reqRun] using hw, fun e h => h⟩
  | cons e es ih =>
    simp only [reqRun, ← List.append_assoc]
    obtain ⟨g1, g2, g3⟩ := hg
    cases e with
    | edge node adapter off =>
      have hs := h.edge hc node adapter off g2 g1
      have hw' : wOnlyOpen false (acc ++ reqHandshakes s (.edge node adapter off)) :=
        (wOnlyOpen_append _ _ _).mpr ⟨hw, h.w_open node adapter off g1⟩
      obtain ⟨gap', hi, hj, hk⟩ := ih hs hw' g3
      refine ⟨gap', ?_, hj, fun e he => hk e he.2.2⟩
      have : (reqStep c s (.edge node adapter off)).2 = [] := rfl
      rw [this, List.append_nil]
      exact hi
    | noc accept =>
      have hs := h.noc accept
      have hgap : ∀ l, GapOk m gap (ReqEvent.clocks (.noc accept) :: l) → GapOk m gap l := by
        intro l hl; simpa [ReqEvent.clocks, gapNext] using hl.2.2
      have : reqHandshakes s (.noc accept) = [] := rfl
      rw [this, List.append_nil]
      obtain ⟨gap', hi, hj, hk⟩ := ih hs hw (hgap _ ⟨g1, g2, g3⟩)
      exact ⟨gap', hi, hj, fun e he => hk e (hgap _ he)⟩

/-- NoC edges that all accept empty the FIFO. -/
theorem reqRun_drain (c : MmCfg) (n : Nat) (s : ReqState)
    (hn : (s.k.toInj.toList ++ s.k.fifo).length ≤ n) :
    (reqRun c s (List.replicate n (.noc true))).2.2 =
      (s.k.toInj.toList ++ s.k.fifo).map mmInject ∧
    (reqRun c s (List.replicate n (.noc true))).2.1 = [] := by
  induction n generalizing s with
  | zero =>
    have : s.k.toInj.toList ++ s.k.fifo = [] := List.length_eq_zero_iff.mp (by omega)
    rw [this]
    exact ⟨rfl, rfl⟩
  | succ n ih =>
    simp only [List.replicate_succ, reqRun, reqStep, reqHandshakes, List.nil_append]
    obtain ⟨⟨reg, cycle, nflits, full, fifo, toInj⟩, prio, gotAw, lastAw, r1, r2, r3, off⟩ := s
    cases toInj with
    | some f =>
      simp only [Pkt.nocEdge, if_true] at *
      have := ih ⟨⟨reg, cycle, nflits, full, fifo, none⟩, prio, gotAw, lastAw, r1, r2, r3, off⟩
        (by simp at hn ⊢; omega)
      exact ⟨by rw [this.1]; simp, this.2⟩
    | none =>
      cases fifo with
      | nil =>
        have := ih ⟨⟨reg, cycle, nflits, full, [], none⟩, prio, gotAw, lastAw, r1, r2, r3, off⟩
          (by simp)
        simp only [Pkt.nocEdge] at *
        exact ⟨by rw [this.1]; simp, this.2⟩
      | cons f q =>
        simp only [Pkt.nocEdge, if_true] at *
        have := ih ⟨⟨reg, cycle, nflits, full, q, none⟩, prio, gotAw, lastAw, r1, r2, r3, off⟩
          (by simp at hn ⊢; omega)
        exact ⟨by rw [this.1]; simp, this.2⟩

theorem reqRun_append (c : MmCfg) (a b : List ReqEvent) (s : ReqState) :
    reqRun c s (a ++ b) =
      ((reqRun c (reqRun c s a).1 b).1, (reqRun c s a).2.1 ++ (reqRun c (reqRun c s a).1 b).2.1,
        (reqRun c s a).2.2 ++ (reqRun c (reqRun c s a).1 b).2.2) := by
  induction a generalizing s with
  | nil => rfl
  | cons e a ih => simp [reqRun, ih]

/-- The phase leaves at most one transaction pending, and none once an adapter edge has passed. -/
theorem PktPhase.pend {c : MmCfg} {p : Pkt} {gap : Option Nat} {pend : List MmTxn}
    (h : PktPhase c p gap pend) : pend.length ≤ 1 ∧ (gap ≠ some 0 → pend = []) := by
  unfold PktPhase at h
  cases hr : p.reg with
  | none => rw [hr] at h; subst h; simp
  | some t =>
    rw [hr] at h
    obtain ⟨g, hg, ⟨h1, _, h2⟩ | ⟨h1, h2, _⟩⟩ := h
    · subst h1 h2; simp [hg]
    · subst h2; simp

/-! ## response side of the master adapter -/

/-- The node-clock and adapter-clock edges of an event. -/
def RspEvent.clocks : RspEvent → Bool × Bool
  | .edge node adapter _ => (node, adapter)
  | .noc _ => (false, false)

/-- The transaction captured for a response beat. -/
def rspTxn : RspBeat → MmTxn
  | .r x => captureR x
  | .b x => captureB x

/-- What `InputReady` computes. -/
def rspReadyFor (s : RspState) : Prop :=
  s.rready = (s.k.cycle == 0 && (rspChoose s.prio s.k.full s.off.r.isSome s.off.b.isSome).1) ∧
  s.bready = (s.k.cycle == 0 && (rspChoose s.prio s.k.full s.off.r.isSome s.off.b.isSome).2)

theorem rspChoose_one (prio full rv bv : Bool) :
    ((rspChoose prio full rv bv).1 = true → rv = true ∧ full = false) ∧
    ((rspChoose prio full rv bv).2 = true → bv = true ∧ full = false) ∧
    ((rspChoose prio full rv bv).1 && (rspChoose prio full rv bv).2) = false := by
  cases prio <;> cases full <;> cases rv <;> cases bv <;> decide

/-- Facts about the ready outputs that hold in every reachable state. -/
structure RspReady (s : RspState) : Prop where
  r : s.rready = true → s.off.r.isSome = true ∧ s.k.cycle = 0
  b : s.bready = true → s.off.b.isSome = true ∧ s.k.cycle = 0
  one : (s.rready && s.bready) = false

theorem rspReadyFor.ready {s : RspState} (h : rspReadyFor s) : RspReady s := by
  obtain ⟨h1, h2⟩ := h
  obtain ⟨c1, c2, c3⟩ := rspChoose_one s.prio s.k.full s.off.r.isSome s.off.b.isSome
  generalize rspChoose s.prio s.k.full s.off.r.isSome s.off.b.isSome = r at *
  refine ⟨?_, ?_, ?_⟩
  · rw [h1]; intro e; simp only [Bool.and_eq_true, beq_iff_eq] at e; exact ⟨(c1 e.2).1, e.1⟩
  · rw [h2]; intro e; simp only [Bool.and_eq_true, beq_iff_eq] at e; exact ⟨(c2 e.2).1, e.1⟩
  · rw [h1, h2]; cases (s.k.cycle == 0) <;> simp_all

/-- The state after an edge, before `InputReady`. -/
def rspMid (c : MmCfg) (s : RspState) (node adapter : Bool) (off : RspOffer) : RspState :=
  { s with
    k := if node then { (if adapter then s.k.adapterEdge c else s.k) with reg := s.nodeEdge.1 }
      else (if adapter then s.k.adapterEdge c else s.k)
    prio := if node then s.nodeEdge.2 else s.prio
    off := off }

theorem rspStep_edge (c : MmCfg) (s : RspState) (node adapter : Bool) (off : RspOffer) :
    rspStep c s (.edge node adapter off) =
      (if rspTriggered s (rspMid c s node adapter off) then (rspMid c s node adapter off).inputReady
        else rspMid c s node adapter off, []) := rfl

/-- The ready outputs are always those of the current signals: everything `InputReady` reads is in
its sensitivity list. -/
theorem rspReadyFor.step {c : MmCfg} {s : RspState} (h : rspReadyFor s) (e : RspEvent) :
    rspReadyFor (rspStep c s e).1 := by
  cases e with
  | edge node adapter off =>
    rw [rspStep_edge]
    cases ht : rspTriggered s (rspMid c s node adapter off) with
    | true => exact ⟨rfl, rfl⟩
    | false =>
      simp only [rspTriggered, Bool.or_eq_false_iff, bne_eq_false_iff_eq] at ht
      obtain ⟨⟨⟨⟨t1, t2⟩, t3⟩, t4⟩, t5⟩ := ht
      have hr : (rspMid c s node adapter off).rready = s.rready := rfl
      have hb : (rspMid c s node adapter off).bready = s.bready := rfl
      simp only [Bool.false_eq_true, if_false]
      unfold rspReadyFor
      rw [hr, hb, ← t1, ← t2, ← t3, ← t4, ← t5]
      exact h
  | noc accept =>
    obtain ⟨e1, e2⟩ : (s.k.nocEdge accept).1.cycle = s.k.cycle ∧
        (s.k.nocEdge accept).1.full = s.k.full := by
      unfold Pkt.nocEdge
      cases s.k.toInj <;> cases s.k.fifo <;> cases accept <;> exact ⟨rfl, rfl⟩
    simp only [rspReadyFor, rspStep, e1, e2]
    exact h

/-- The captured transaction is the handshaken beat. -/
theorem RspState.nodeEdge_cases {s : RspState} (h : RspReady s) (adapter : Bool) (off : RspOffer) :
    s.nodeEdge.1.toList = (rspHandshakes s (.edge true adapter off)).map rspTxn ∧
      (s.nodeEdge.1.isSome = true → s.k.cycle = 0) := by
  obtain ⟨r1, r2, r3⟩ := h
  cases ha : s.rready with
  | true =>
    rw [ha] at r1 r3
    obtain ⟨o1, o2⟩ := r1 rfl
    obtain ⟨x, hx⟩ := Option.isSome_iff_exists.mp o1
    simp only [Bool.true_and] at r3
    exact ⟨by simp [RspState.nodeEdge, rspHandshakes, ha, hx, r3, rspTxn], fun _ => o2⟩
  | false =>
    cases hb : s.bready with
    | true =>
      rw [hb] at r2
      obtain ⟨o1, o2⟩ := r2 rfl
      obtain ⟨x, hx⟩ := Option.isSome_iff_exists.mp o1
      exact ⟨by simp [RspState.nodeEdge, rspHandshakes, ha, hb, hx, rspTxn], fun _ => o2⟩
    | false => exact ⟨by simp [RspState.nodeEdge, rspHandshakes, ha, hb],
        by simp [RspState.nodeEdge, ha, hb]⟩

/-- Every run of the response side satisfies the invariant. -/
theorem rspInv_run {c : MmCfg} {m : Nat} (hc : MmCfgOk c m) (es : List RspEvent) {s : RspState}
    {gap : Option Nat} {acc : List RspBeat} {out : List BsFlit} (hr : rspReadyFor s)
    (h : PktInv c s.k gap (acc.map rspTxn) out) (hg : GapOk m gap (es.map RspEvent.clocks)) :
    ∃ gap', PktInv c (rspRun c s es).1.k gap' ((acc ++ (rspRun c s es).2.1).map rspTxn)
      (out ++ (rspRun c s es).2.2) := by
  induction es generalizing s gap acc out with
  | nil => exact ⟨gap, by simpa [rspRun] using h⟩
  | cons e es ih =>
    simp only [rspRun, ← List.append_assoc]
    obtain ⟨g1, g2, g3⟩ := hg
    have hr' := hr.step (c := c) e
    cases e with
    | edge node adapter off =>
      have hk : (rspStep c s (.edge node adapter off)).1.k = (rspMid c s node adapter off).k := by
        rw [rspStep_edge]; cases rspTriggered s (rspMid c s node adapter off) <;> rfl
      have hn := s.nodeEdge_cases hr.ready adapter off
      have hs := h.edge hc node adapter g2 g1 s.nodeEdge.1 hn.2
      have h2 : (rspStep c s (.edge node adapter off)).2 = [] := rfl
      rw [h2, List.append_nil]
      refine ih hr' (gap := gapNext gap node adapter) ?_ g3
      rw [hk, List.map_append]
      cases node with
      | true =>
        rw [← hn.1]
        simpa [rspMid] using hs
      | false => simpa [rspMid, rspHandshakes] using hs
    | noc accept =>
      have hs := (h.noc accept).1
      have g3' : GapOk m gap (es.map RspEvent.clocks) := by
        simpa [RspEvent.clocks, gapNext] using g3
      have h2 : rspHandshakes s (.noc accept) = [] := rfl
      rw [h2, List.append_nil]
      exact ih hr' hs g3'

end RadSim
