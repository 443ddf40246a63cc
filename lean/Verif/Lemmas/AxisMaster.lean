import Verif.Model.AxisMaster
import Verif.Lemmas.Util
import Verif.Lemmas.AxisPacket

namespace RadSim

/-! ## Specification of the flit streams -/

/-- Specification: cut a flit stream after each tail flit; `cur` is the packet being collected.
Returns the complete packets and the incomplete rest. -/
def cutAtTails (cur : List ScFlit) : List ScFlit → List (List ScFlit) × List ScFlit
  | [] => ([], cur)
  | f :: fs =>
    if f.tail then
      let r := cutAtTails [] fs
      ((cur ++ [f]) :: r.1, r.2)
    else cutAtTails (cur ++ [f]) fs

/-- Specification: the complete packets of a flit stream. -/
def packetsOf (l : List ScFlit) : List (List ScFlit) := (cutAtTails [] l).1

/-- Specification: the part of an ejected flit sequence that travels on channel `v`. -/
def onVc (v : Nat) (l : List BsFlit) : List ScFlit := (l.filter (fun b => b.vc == v)).map ejectFlit

/-- Specification: a flit that follows a flit of the same packet names the same interface. -/
def SameDest : List ScFlit → Prop
  | [] => True
  | [_] => True
  | f :: g :: l => (f.tail = false → g.destIf = f.destIf) ∧ SameDest (g :: l)

/-- Specification: each flit names one of the `n` interfaces, and all flits of a packet name the
same one. -/
def Coherent (n : Nat) (l : List ScFlit) : Prop :=
  (∀ f ∈ l, f.destIf.toNat < n) ∧ SameDest l

theorem SameDest.prefix {a b : List ScFlit} (h : SameDest (a ++ b)) : SameDest a := by
  induction a with
  | nil => trivial
  | cons x a ih =>
    cases a with
    | nil => trivial
    | cons y a => exact ⟨h.1, ih h.2⟩

theorem SameDest.suffix {a b : List ScFlit} (h : SameDest (a ++ b)) : SameDest b := by
  induction a with
  | nil => exact h
  | cons x a ih =>
    cases a with
    | nil =>
      cases b with
      | nil => trivial
      | cons y b => exact h.2
    | cons y a => exact ih h.2

/-- Specification: the interface a packet is addressed to. -/
def pktDest : List ScFlit → Option Nat
  | [] => none
  | f :: _ => some f.destIf.toNat

/-- A list of flits that is exactly one packet: its last flit, and no other, is a tail. -/
def ClosedPacket (p : List ScFlit) : Prop :=
  ∃ ini last, p = ini ++ [last] ∧ last.tail = true ∧ ∀ f ∈ ini, f.tail = false

theorem Coherent.prefix {n : Nat} {a b : List ScFlit} (h : Coherent n (a ++ b)) : Coherent n a :=
  ⟨fun f hf => h.1 f (by simp [hf]), h.2.prefix⟩

theorem Coherent.suffix {n : Nat} {a b : List ScFlit} (h : Coherent n (a ++ b)) : Coherent n b :=
  ⟨fun f hf => h.1 f (by simp [hf]), h.2.suffix⟩

theorem coherent_same_dest {n : Nat} {a rest : List ScFlit} {f : ScFlit}
    (h : Coherent n (a ++ f :: rest)) (ha : ∀ g ∈ a, g.tail = false) :
    ∀ g ∈ a, g.destIf = f.destIf := by
  induction a with
  | nil => simp
  | cons x a ih =>
    intro g hg
    have hc : Coherent n (a ++ f :: rest) := by
      have : x :: a ++ f :: rest = [x] ++ (a ++ f :: rest) := by simp
      rw [this] at h
      exact h.suffix
    have ih' := ih hc (fun g hg => ha g (by simp [hg]))
    have hx : x.destIf = f.destIf := by
      have h2 := h.2
      cases a with
      | nil =>
        exact (h2.1 (ha x (by simp))).symm
      | cons y a =>
        have := h2.1 (ha x (by simp))
        rw [← this]
        exact ih' y (by simp)
    simp only [List.mem_cons] at hg
    rcases hg with rfl | hg
    · exact hx
    · exact ih' g hg

theorem cutAtTails_noTail (cur a l : List ScFlit) (ha : ∀ f ∈ a, f.tail = false) :
    cutAtTails cur (a ++ l) = cutAtTails (cur ++ a) l := by
  induction a generalizing cur with
  | nil => simp
  | cons x a ih =>
    simp only [List.cons_append, cutAtTails, ha x (by simp), Bool.false_eq_true, if_false]
    rw [ih _ (fun f hf => ha f (by simp [hf]))]
    simp

theorem packetsOf_closed (p l : List ScFlit) (hp : ClosedPacket p) :
    packetsOf (p ++ l) = p :: packetsOf l := by
  obtain ⟨ini, last, rfl, h1, h2⟩ := hp
  simp only [packetsOf, List.append_assoc]
  rw [cutAtTails_noTail _ _ _ h2]
  simp [cutAtTails, h1]

theorem packetsOf_flatten (ps : List (List ScFlit)) (l : List ScFlit)
    (hp : ∀ p ∈ ps, ClosedPacket p) : packetsOf (ps.flatten ++ l) = ps ++ packetsOf l := by
  induction ps with
  | nil => simp
  | cons p ps ih =>
    rw [List.flatten_cons, List.append_assoc, packetsOf_closed _ _ (hp p (by simp)),
      ih (fun q hq => hp q (by simp [hq]))]
    rfl

theorem onVc_append (v : Nat) (a b : List BsFlit) : onVc v (a ++ b) = onVc v a ++ onVc v b := by
  simp [onVc]

/-! ## ghost history -/

/-- The packets completed on channel `v`, in order. -/
def histVc (v : Nat) (hist : List (Nat × List ScFlit)) : List (List ScFlit) :=
  (hist.filter (fun x => x.1 == v)).map (·.2)

/-- The packets completed for interface `i`, in order. -/
def histIf (i : Nat) (hist : List (Nat × List ScFlit)) : List (List ScFlit) :=
  (hist.filter (fun x => pktDest x.2 == some i)).map (·.2)

/-- The flits of channel `v` inside the adapter. -/
def inside (s : MasterState) (v : Nat) : List ScFlit :=
  (if s.depack = true ∧ s.prio.head? = some v then s.pkt else []) ++ s.fifos v ++ onVc v s.held.toList

/-- What a port shows for a packet, once per chunk. -/
def shown (nf : Nat) (p : List ScFlit) : List (Option AxisOut) :=
  List.replicate (numChunks p.length nf) (axisOutput p)

/-- The beats that completed a handshake on interface `i`. -/
def beatsOn (i : Nat) (l : List (Nat × AxisOut)) : List AxisOut :=
  (l.filter (fun x => x.1 == i)).map (·.2)

theorem histVc_append (v : Nat) (a b : List (Nat × List ScFlit)) :
    histVc v (a ++ b) = histVc v a ++ histVc v b := by simp [histVc]

theorem histIf_append (i : Nat) (a b : List (Nat × List ScFlit)) :
    histIf i (a ++ b) = histIf i a ++ histIf i b := by simp [histIf]

theorem beatsOn_append (i : Nat) (a b : List (Nat × AxisOut)) :
    beatsOn i (a ++ b) = beatsOn i a ++ beatsOn i b := by simp [beatsOn]

/-- The part of the state that the ejection and depacketisation processes share. -/
structure FifoInv (c : MasterCfg) (s : MasterState) (acc : List BsFlit)
    (hist : List (Nat × List ScFlit)) : Prop where
  prio : s.prio.Perm (List.range c.vcs)
  stream : ∀ v, v < c.vcs → onVc v acc = (histVc v hist).flatten ++ inside s v
  histOk : ∀ x ∈ hist, ClosedPacket x.2 ∧ x.1 < c.vcs
  idle : s.depack = false → s.pkt = []
  busy : s.depack = true → ∃ v vs, s.prio = v :: vs ∧ s.pop v < s.push v ∧ s.pkt ≠ [] ∧
    ∀ f ∈ s.pkt, f.tail = false
  room : s.depack = true → ∀ f ∈ s.pkt, (s.outq f.destIf.toNat).length < c.outDepth
  cnt : ∀ v, s.pushNext v = s.pop v + (s.fifos v).countP (fun f => f.tail)
  le : ∀ v, s.push v ≤ s.pushNext v
  fifoLen : ∀ v, (s.fifos v).length ≤ c.depth
  outLen : ∀ i, (s.outq i).length ≤ c.outDepth
  heldVc : ∀ f, s.held = some f → f.vc < c.vcs

/-- The state of one port: output FIFO, chunk counter, what it shows, the beats that completed a
handshake, and the packets completed for it. -/
structure PortOk (nf : Nat) (q : List (List ScFlit)) (chunk : Nat) (port : Option AxisOut)
    (del : List AxisOut) (hist : List (List ScFlit)) : Prop where
  outs : del.map some ++ (q.flatMap (shown nf)).drop chunk = hist.flatMap (shown nf)
  ne : ∀ p ∈ q, p ≠ []
  chunkNil : q = [] → chunk = 0
  chunkLt : ∀ p rest, q = p :: rest → chunk < numChunks p.length nf
  port : ∀ o, port = some o → ∃ p rest, q = p :: rest ∧ axisOutput p = some o
  suf : ∃ pre, hist = pre ++ q

/-- The part of the state that concerns the ports. -/
def PortInv (c : MasterCfg) (s : MasterState) (del : List (Nat × AxisOut))
    (hist : List (Nat × List ScFlit)) : Prop :=
  ∀ i, i < c.n → PortOk (numFlits (c.dataw i)) (s.outq i) (s.chunk i) (s.port i) (beatsOn i del)
    (histIf i hist)

theorem FifoInv.init (c : MasterCfg) : FifoInv c (MasterState.init c) [] [] := by
  constructor <;> simp [MasterState.init, onVc, histVc, inside]

theorem PortInv.init (c : MasterCfg) : PortInv c (MasterState.init c) [] [] := by
  intro i _
  constructor <;> simp [MasterState.init, beatsOn, histIf]

/-! ## ejection -/

theorem FifoInv.commit {c : MasterCfg} {s : MasterState} {acc : List BsFlit}
    {hist : List (Nat × List ScFlit)} (hi : FifoInv c s acc hist) :
    FifoInv c { s with push := s.pushNext } acc hist := by
  refine ⟨hi.prio, hi.stream, hi.histOk, hi.idle, fun h => ?_, hi.room, hi.cnt,
    fun _ => Nat.le_refl _, hi.fifoLen, hi.outLen, hi.heldVc⟩
  obtain ⟨v, vs, h1, h2, h3⟩ := hi.busy h
  exact ⟨v, vs, h1, Nat.lt_of_lt_of_le h2 (hi.le v), h3⟩

/-- What the ejection process does with the flit it has in hand. -/
theorem ejectStep_some {c : MasterCfg} {s : MasterState} {f : BsFlit} {arrive : Option BsFlit}
    (hcur : (match s.held with | some f => some f | none => arrive) = some f) (hv : f.vc < c.vcs) :
    ejectStep c s arrive =
      if (s.fifos f.vc).length < c.depth then
        .ok { s with
          push := s.pushNext
          held := none
          fifos := upd s.fifos f.vc (s.fifos f.vc ++ [ejectFlit f])
          pushNext := if f.tail then upd s.pushNext f.vc (s.pushNext f.vc + 1) else s.pushNext }
      else .ok { s with push := s.pushNext, held := some f } := by
  simp only [ejectStep]
  split
  · rename_i h
    cases h.symm.trans hcur
  · rename_i g h
    cases h.symm.trans hcur
    rw [if_pos hv]

theorem ejectStep_inv {c : MasterCfg} {s : MasterState} {acc : List BsFlit}
    {hist : List (Nat × List ScFlit)} (hi : FifoInv c s acc hist) (arrive : Option BsFlit)
    (ha : ∀ f, arrive = some f → f.vc < c.vcs) :
    ∃ s', ejectStep c s arrive = .ok s' ∧
      FifoInv c s' (acc ++ (match s.held with | none => arrive.toList | some _ => [])) hist ∧
      s'.outq = s.outq ∧ s'.chunk = s.chunk ∧ s'.port = s.port ∧ s'.credit = s.credit := by
  have hic := hi.commit
  cases hcur : (match s.held with | some f => some f | none => arrive) with
  | none =>
    have hh : s.held = none := by
      cases h : s.held with
      | none => rfl
      | some f => simp [h] at hcur
    have harr : arrive = none := by simpa [hh] using hcur
    subst harr
    refine ⟨{ s with push := s.pushNext, held := none }, by simp [ejectStep, hh], ?_,
      rfl, rfl, rfl, rfl⟩
    have e : ({ s with push := s.pushNext, held := none } : MasterState) =
        { s with push := s.pushNext } := by rw [← hh]
    rw [e]
    simpa [hh] using hic
  | some f =>
    have hv : f.vc < c.vcs := by
      cases h : s.held with
      | none => exact ha f (by simpa [h] using hcur)
      | some g =>
        simp only [h, Option.some.injEq] at hcur
        subst hcur
        exact hi.heldVc g h
    have hstream : ∀ v, onVc v (acc ++ (match s.held with | none => arrive.toList | some _ => [])) =
        onVc v acc ++ (if s.held = none then onVc v [f] else []) := by
      intro v
      rw [onVc_append]
      cases h : s.held with
      | none =>
        have : arrive = some f := by simpa [h] using hcur
        simp [this]
      | some g => simp [onVc]
    have hheld : ∀ v, onVc v s.held.toList ++ (if s.held = none then onVc v [f] else []) =
        onVc v [f] := by
      intro v
      cases h : s.held with
      | none => simp [onVc]
      | some g =>
        simp only [h, Option.some.injEq] at hcur
        subst hcur
        simp
    rw [ejectStep_some hcur hv]
    split
    · rename_i hroom
      refine ⟨_, rfl, ⟨hi.prio, ?_, hi.histOk, hi.idle, hic.busy, hi.room, ?_, ?_, ?_, hi.outLen,
        by simp⟩, rfl, rfl, rfl, rfl⟩
      · intro v hvv
        rw [hstream, hi.stream v hvv]
        simp only [inside, List.append_assoc, hheld]
        by_cases hvf : v = f.vc
        · subst hvf
          simp [onVc]
        · have : ¬ (f.vc = v) := fun h => hvf h.symm
          simp [onVc, upd_ne _ _ hvf, this]
      · intro v
        have := hi.cnt v
        by_cases hvf : v = f.vc
        · subst hvf
          cases ht : f.tail <;> simp [List.countP_append, ejectFlit, ht] <;> omega
        · cases ht : f.tail <;> simp [upd_ne _ _ hvf, this]
      · intro v
        cases ht : f.tail
        · simp
        · by_cases hvf : v = f.vc
          · subst hvf; simp
          · simp [upd_ne _ _ hvf]
      · intro v
        by_cases hvf : v = f.vc
        · subst hvf; simp; omega
        · simp only [upd_ne _ _ hvf]; exact hi.fifoLen v
    · refine ⟨_, rfl, ⟨hi.prio, ?_, hi.histOk, hi.idle, hic.busy, hi.room, hi.cnt,
        fun _ => Nat.le_refl _, hi.fifoLen, hi.outLen, ?_⟩, rfl, rfl, rfl, rfl⟩
      · intro v hvv
        rw [hstream, hi.stream v hvv]
        simp only [inside, List.append_assoc, hheld]
        simp
      · intro g hg
        cases hg
        exact hv

/-! ## depacketisation -/

theorem rotate1_perm (l : List Nat) : (rotate1 l).Perm l := by
  cases l with
  | nil => exact List.Perm.refl _
  | cons x l => simpa [rotate1] using List.perm_append_comm (l₁ := l) (l₂ := [x])

/-- The outcome the search loop and the first check guarantee. -/
def Selected (c : MasterCfg) (s : MasterState) (prio : List Nat) (d : Nat) (complete : Bool) : Prop :=
  prio.Perm s.prio ∧ d < c.n ∧
  (complete = true → ∃ v vs f rest, prio = v :: vs ∧ s.fifos v = f :: rest ∧
    d = f.destIf.toNat ∧ s.pop v < s.push v ∧ (s.outq d).length < c.outDepth)

theorem searchLoop_ok {c : MasterCfg} {s : MasterState} (hcoh : ∀ v f, f ∈ s.fifos v →
    v < c.vcs → f.destIf.toNat < c.n) (hp : ∀ v ∈ s.prio, v < c.vcs) (hne : s.prio ≠ []) (k : Nat) :
    ∀ (prio : List Nat) (d : Nat) (b : Bool), Selected c s prio d b →
      ∃ prio' d' b', searchLoop c s k prio d b = .ok (prio', d', b') ∧ Selected c s prio' d' b' := by
  induction k with
  | zero => intro prio d b h; exact ⟨prio, d, b, rfl, h⟩
  | succ k ih =>
    intro prio d b h
    simp only [searchLoop]
    cases b with
    | true => exact ⟨prio, d, true, by simp, h⟩
    | false =>
      simp only [Bool.false_eq_true, if_false]
      have hperm : (rotate1 prio).Perm s.prio := (rotate1_perm prio).trans h.1
      cases hr : rotate1 prio with
      | nil =>
        rw [hr] at hperm
        exact absurd hperm.symm.eq_nil hne
      | cons v vs =>
        rw [hr] at hperm
        have hv : v < c.vcs := hp v (hperm.subset (by simp))
        simp only
        cases hf : s.fifos v with
        | nil => exact ih _ _ _ ⟨hperm, h.2.1, by simp⟩
        | cons f rest =>
          have hd : f.destIf.toNat < c.n := hcoh v f (by simp [hf]) hv
          simp only [hasPacket, roomFor, hd, if_true]
          by_cases hlt : s.pop v < s.push v
          · simp only [hlt, if_true]
            exact ih _ _ _ ⟨hperm, hd, fun hb => ⟨v, vs, f, rest, rfl, hf, rfl, hlt, by
              simpa using hb⟩⟩
          · simp only [hlt, if_false]
            exact ih _ _ _ ⟨hperm, hd, by simp⟩

theorem FifoInv.fifo_coherent {c : MasterCfg} {s : MasterState} {acc : List BsFlit}
    {hist : List (Nat × List ScFlit)} (hi : FifoInv c s acc hist)
    (hcoh : ∀ v, v < c.vcs → Coherent c.n (onVc v acc)) (v : Nat) (f : ScFlit)
    (hf : f ∈ s.fifos v) (hv : v < c.vcs) : f.destIf.toNat < c.n := by
  have := (hcoh v hv).1 f
  rw [hi.stream v hv] at this
  exact this (by simp [inside, hf])

theorem countP_pos_of_lt {s : MasterState} {v : Nat}
    (hcnt : s.pushNext v = s.pop v + (s.fifos v).countP (fun f => f.tail))
    (hle : s.push v ≤ s.pushNext v) (hlt : s.pop v < s.push v) :
    ∃ f rest, s.fifos v = f :: rest := by
  cases hf : s.fifos v with
  | nil => simp [hf] at hcnt; omega
  | cons f rest => exact ⟨f, rest, rfl⟩

/-- The packet-complete bookkeeping for the flit popped in one cycle. -/
theorem popPhase_inv {c : MasterCfg} {s : MasterState} {acc : List BsFlit}
    {hist : List (Nat × List ScFlit)} (hi : FifoInv c s acc hist)
    (hcoh : ∀ v, v < c.vcs → Coherent c.n (onVc v acc)) (prio : List Nat) (d : Nat) (b : Bool)
    (hsel : Selected c s prio d b) (hdep : s.depack = true → prio = s.prio ∧ b = true) :
    ∃ s' popped hist', popPhase c { s with prio } d b = .ok (s', popped) ∧
      FifoInv c s' acc (hist ++ hist') ∧ s'.chunk = s.chunk ∧ s'.port = s.port ∧
      (∀ i, s'.outq i = s.outq i ++ histIf i hist') ∧ (∀ x ∈ hist', x.2 ≠ []) ∧
      (b = true → ∃ v, popped = [v]) ∧
      (b = false → popped = [] ∧ hist' = [] ∧ s' = { s with prio := rotate1 prio }) ∧
      (∀ v, (s'.fifos v).length + popped.count v = (s.fifos v).length) ∧
      (s'.credit = match s.credit with | some w => some w | none => popped.head?) ∧
      s'.held = s.held := by
  obtain ⟨hperm, hd, hc⟩ := hsel
  cases b with
  | false =>
    have hnd : s.depack = false := by
      cases h : s.depack with
      | false => rfl
      | true => exact absurd (hdep h).2 (by simp)
    refine ⟨{ s with prio := rotate1 prio }, [], [], by simp [popPhase, roomFor, hd], ?_, rfl, rfl,
      by simp [histIf], by simp, by simp, by simp, by simp, by cases s.credit <;> simp, rfl⟩
    refine ⟨(rotate1_perm prio).trans (hperm.trans hi.prio), ?_, by simpa using hi.histOk,
      hi.idle, by simp [hnd], by simp [hnd], hi.cnt, hi.le, hi.fifoLen, hi.outLen, hi.heldVc⟩
    intro v hv
    rw [hi.stream v hv]
    simp [inside, hnd]
  | true =>
    obtain ⟨v, vs, f, rest, hprio, hf, hdest, hlt, hroom⟩ := hc rfl
    subst hprio
    have hv : v < c.vcs := by
      have : v ∈ s.prio := hperm.subset (by simp)
      simpa using hi.prio.subset this
    -- the packet under construction belongs to channel v
    have hcur : (if s.depack = true ∧ s.prio.head? = some v then s.pkt else []) = s.pkt := by
      cases h : s.depack with
      | false => simp [hi.idle h]
      | true => have := (hdep h).1; simp [← this]
    have hother : ∀ w, w ≠ v →
        (if s.depack = true ∧ s.prio.head? = some w then s.pkt else []) = [] := by
      intro w hw
      cases h : s.depack with
      | false => simp
      | true =>
        have h1 := (hdep h).1
        have : ¬ (v = w) := fun e => hw e.symm
        simp [← h1, this]
    have hnt : ∀ g ∈ s.pkt, g.tail = false := by
      cases h : s.depack with
      | false => simp [hi.idle h]
      | true =>
        obtain ⟨_, _, _, _, _, h4⟩ := hi.busy h
        exact h4
    have hstr := hi.stream v hv
    have hcohv : Coherent c.n (s.pkt ++ f :: rest) := by
      have h1 := hcoh v hv
      rw [hstr] at h1
      have h2 := h1.suffix
      simp only [inside, hcur, hf] at h2
      exact h2.prefix
    have hsame : ∀ g ∈ s.pkt, g.destIf = f.destIf := coherent_same_dest hcohv hnt
    have hcnt := hi.cnt v
    have hle := hi.le v
    rw [hf] at hcnt
    have hpd : pktDest (s.pkt ++ [f]) = some d := by
      cases hp : s.pkt with
      | nil => simp [pktDest, hdest]
      | cons g p => simp [pktDest, hdest, hsame g (by simp [hp])]
    cases ht : f.tail with
    | true =>
      have hcl : ClosedPacket (s.pkt ++ [f]) := ⟨s.pkt, f, rfl, ht, hnt⟩
      have hr : (decide ((s.outq d).length < c.outDepth) && true) = true := by simp [hroom]
      have heq : popPhase c { s with prio := v :: vs } d true = .ok ({ s with
          fifos := upd s.fifos v rest
          credit := match s.credit with | some w => some w | none => some v
          outq := upd s.outq d (s.outq d ++ [s.pkt ++ [f]])
          pkt := []
          depack := false
          pop := upd s.pop v (s.pop v + 1)
          prio := vs ++ [v] }, [v]) := by
        simp only [popPhase, roomFor, hd, if_true, hr, hf, ht]
        rw [if_pos (by omega)]
        rfl
      refine ⟨_, [v], [(v, s.pkt ++ [f])], heq, ?_, rfl, rfl, ?_, by simp, by simp, by simp, ?_,
        by cases s.credit <;> simp, rfl⟩
      · refine ⟨?_, ?_, ?_, by simp, by simp, by simp, ?_, ?_, ?_, ?_, hi.heldVc⟩
        · have : (vs ++ [v]).Perm (v :: vs) := by
            simpa using List.perm_append_comm (l₁ := vs) (l₂ := [v])
          exact (this.trans hperm).trans hi.prio
        · intro w hw
          rw [hi.stream w hw, histVc_append, List.flatten_append]
          by_cases hwv : w = v
          · subst hwv
            simp only [inside, hcur, hf]
            simp [histVc]
          · have h1 : ¬ (v = w) := fun e => hwv e.symm
            simp only [inside, hother w hwv]
            simp [histVc, h1, upd_ne _ _ hwv]
        · intro x hx
          simp only [List.mem_append, List.mem_singleton] at hx
          rcases hx with hx | rfl
          · exact hi.histOk x hx
          · exact ⟨hcl, hv⟩
        · intro w
          by_cases hwv : w = v
          · subst hwv
            simp only [upd_same]
            rw [List.countP_cons] at hcnt
            simp only [ht, if_true] at hcnt
            omega
          · simp only [upd_ne _ _ hwv]; exact hi.cnt w
        · exact hi.le
        · intro w
          by_cases hwv : w = v
          · subst hwv
            have := hi.fifoLen w
            rw [hf] at this
            simp only [upd_same]
            simp only [List.length_cons] at this
            omega
          · simp only [upd_ne _ _ hwv]; exact hi.fifoLen w
        · intro i
          by_cases hid : i = d
          · subst hid
            simp only [upd_same, List.length_append, List.length_cons, List.length_nil]
            omega
          · simp only [upd_ne _ _ hid]; exact hi.outLen i
      · intro i
        by_cases hid : i = d
        · subst hid
          simp [histIf, hpd]
        · have : ¬ (d = i) := fun e => hid e.symm
          simp [histIf, hpd, upd_ne _ _ hid, this]
      · intro w
        by_cases hwv : w = v
        · subst hwv; simp [hf]
        · have h1 : ¬ (v = w) := fun e => hwv e.symm
          simp [upd_ne _ _ hwv, h1]
    | false =>
      have hr : (decide ((s.outq d).length < c.outDepth) && true) = true := by simp [hroom]
      have heq : popPhase c { s with prio := v :: vs } d true = .ok ({ s with
          fifos := upd s.fifos v rest
          credit := match s.credit with | some w => some w | none => some v
          pkt := s.pkt ++ [f]
          depack := true
          prio := v :: vs }, [v]) := by
        simp only [popPhase, roomFor, hd, if_true, hr, hf, ht]
        rfl
      refine ⟨_, [v], [], heq, ?_, rfl, rfl, by simp [histIf], by simp, by simp, by simp, ?_,
        by cases s.credit <;> simp, rfl⟩
      · refine ⟨hperm.trans hi.prio, ?_, by simpa using hi.histOk, by simp, ?_, ?_, ?_, hi.le, ?_,
          hi.outLen, hi.heldVc⟩
        · intro w hw
          rw [hi.stream w hw, List.append_nil]
          by_cases hwv : w = v
          · subst hwv
            simp only [inside, hcur, hf]
            simp
          · have h1 : ¬ (v = w) := fun e => hwv e.symm
            simp only [inside, hother w hwv]
            simp [h1, upd_ne _ _ hwv]
        · intro _
          refine ⟨v, vs, rfl, hlt, by simp, ?_⟩
          intro g hg
          simp only [List.mem_append, List.mem_singleton] at hg
          rcases hg with hg | rfl
          · exact hnt g hg
          · exact ht
        · intro _ g hg
          simp only [List.mem_append, List.mem_singleton] at hg
          rcases hg with hg | rfl
          · rw [hsame g hg, ← hdest]; exact hroom
          · rw [← hdest]; exact hroom
        · intro w
          by_cases hwv : w = v
          · subst hwv
            simp only [upd_same]
            rw [List.countP_cons] at hcnt
            simp only [ht, Bool.false_eq_true, if_false] at hcnt
            omega
          · simp only [upd_ne _ _ hwv]; exact hi.cnt w
        · intro w
          by_cases hwv : w = v
          · subst hwv
            have := hi.fifoLen w
            rw [hf] at this
            simp only [upd_same]
            simp only [List.length_cons] at this
            omega
          · simp only [upd_ne _ _ hwv]; exact hi.fifoLen w
      · intro w
        by_cases hwv : w = v
        · subst hwv; simp [hf]
        · have h1 : ¬ (v = w) := fun e => hwv e.symm
          simp [upd_ne _ _ hwv, h1]

theorem depackStep_inv {c : MasterCfg} (hn : 0 < c.n) (hvc : 0 < c.vcs) {s : MasterState}
    {acc : List BsFlit} {hist : List (Nat × List ScFlit)} (hi : FifoInv c s acc hist)
    (hcoh : ∀ v, v < c.vcs → Coherent c.n (onVc v acc)) (commit : Bool) :
    ∃ s' popped hist', depackStep c s commit = .ok (s', popped) ∧
      FifoInv c s' acc (hist ++ hist') ∧ s'.chunk = s.chunk ∧ s'.port = s.port ∧
      (∀ i, s'.outq i = s.outq i ++ histIf i hist') ∧ (∀ x ∈ hist', x.2 ≠ []) ∧
      popped.length ≤ 1 ∧
      (∀ v, (s'.fifos v).length + popped.count v = (s.fifos v).length) ∧
      (s'.credit = match s.credit with | some w => some w | none => popped.head?) ∧
      s'.held = s.held ∧
      ((∀ v, s.pushNext v = 0) → popped = [] ∧ hist' = [] ∧
        ∃ prio push, s' = { s with prio, push } ∧ ∀ v, push v ≤ s.pushNext v) := by
  -- work on the state whose counters the process sees
  obtain ⟨t, ht, hit, e1, e2, e3, e4, e5, e6, e7⟩ : ∃ t : MasterState,
      t = (if commit then { s with push := s.pushNext } else s) ∧ FifoInv c t acc hist ∧
      t.chunk = s.chunk ∧ t.port = s.port ∧ t.outq = s.outq ∧ t.fifos = s.fifos ∧
      t.credit = s.credit ∧ t.held = s.held ∧
      (∃ push, t = { s with push } ∧ ∀ v, push v ≤ s.pushNext v) := by
    cases commit with
    | false => exact ⟨s, rfl, hi, rfl, rfl, rfl, rfl, rfl, rfl, s.push, rfl, hi.le⟩
    | true =>
      exact ⟨_, rfl, hi.commit, rfl, rfl, rfl, rfl, rfl, rfl, s.pushNext, rfl, fun _ => Nat.le_refl _⟩
  have hzero : (∀ v, s.pushNext v = 0) → ∀ v, t.push v = 0 := by
    intro h v
    obtain ⟨pu, he, hle⟩ := e7
    have := hle v
    rw [h v] at this
    rw [he]
    exact Nat.le_zero.mp this
  rw [← e1, ← e2, ← e3, ← e4, ← e5, ← e6]
  simp only [depackStep, ← ht]
  have hcohf := fun v f => hit.fifo_coherent hcoh v f
  have hpv : ∀ v ∈ t.prio, v < c.vcs := by
    intro v hv
    simpa using hit.prio.subset hv
  have hne : t.prio ≠ [] := by
    intro h
    have := hit.prio.length_eq
    rw [h] at this
    simp at this
    omega
  cases hp : t.prio with
  | nil => exact absurd hp hne
  | cons v vs =>
    have hv : v < c.vcs := hpv v (by simp [hp])
    have hd : destOf t v < c.n := by
      unfold destOf
      split
      · exact hn
      · rename_i f rest hf
        exact hcohf v f (by simp [hf]) hv
    -- outcome of the first check
    have hfirst : ∃ b, hasPacket c t v (destOf t v) = .ok b ∧ Selected c t (v :: vs) (destOf t v) b := by
      simp only [hasPacket, roomFor, hd, if_true]
      by_cases hlt : t.pop v < t.push v
      · simp only [hlt, if_true]
        refine ⟨_, rfl, by rw [hp], hd, fun hb => ?_⟩
        obtain ⟨f, rest, hf⟩ := countP_pos_of_lt (hit.cnt v) (hit.le v) hlt
        refine ⟨v, vs, f, rest, rfl, hf, by simp [destOf, hf], hlt, by simpa using hb⟩
      · simp only [hlt, if_false]
        exact ⟨_, rfl, by rw [hp], hd, by simp⟩
    obtain ⟨b, hb, hsel⟩ := hfirst
    simp only [hb]
    cases hdep : t.depack with
    | true =>
      simp only [if_true]
      obtain ⟨v', vs', h1, h2, h3, h4⟩ := hit.busy hdep
      have : v = v' ∧ vs = vs' := by rw [hp] at h1; simpa using h1
      obtain ⟨rfl, rfl⟩ := this
      obtain ⟨f, rest, hf⟩ := countP_pos_of_lt (hit.cnt v) (hit.le v) h2
      have hbt : b = true := by
        have hcohv : Coherent c.n (t.pkt ++ f :: rest) := by
          have h := hcoh v hv
          rw [hit.stream v hv] at h
          have h' := h.suffix
          simp only [inside, hdep, hp, hf] at h'
          have h'' := h'.prefix
          simpa using h''
        obtain ⟨g, hg⟩ := List.exists_mem_of_ne_nil _ h3
        have hroom := hit.room hdep g hg
        rw [coherent_same_dest hcohv h4 g hg] at hroom
        have hdo : destOf t v = f.destIf.toNat := by simp [destOf, hf]
        simp only [hasPacket, h2, if_true, roomFor, hdo] at hb
        rw [← hdo] at hroom hb
        simp only [hroom, hd, if_true, decide_true, Except.ok.injEq] at hb
        exact hb.symm
      subst hbt
      have := popPhase_inv hit hcoh t.prio (destOf t v) true (by rw [hp]; exact hsel)
        (fun _ => ⟨rfl, rfl⟩)
      obtain ⟨s', popped, hist', g1, g2, g3, g4, g5, g6, g7, g8, g9, g10, g11⟩ := this
      refine ⟨s', popped, hist', g1, g2, g3, g4, g5, g6, ?_, g9, g10, g11, fun h => ?_⟩
      · obtain ⟨w, rfl⟩ := g7 rfl
        simp
      · rw [hzero h v] at h2
        omega
    | false =>
      simp only [Bool.false_eq_true, if_false]
      obtain ⟨prio', d', b', hs, hsel'⟩ := searchLoop_ok hcohf hpv hne c.vcs _ _ _ hsel
      rw [hs]
      have := popPhase_inv hit hcoh prio' d' b' hsel' (by simp [hdep])
      obtain ⟨s', popped, hist', g1, g2, g3, g4, g5, g6, g7, g8, g9, g10, g11⟩ := this
      refine ⟨s', popped, hist', ?_, g2, g3, g4, g5, g6, ?_, g9, g10, g11, fun h => ?_⟩
      · rw [← g1, hdep]
      · cases b' with
        | true => obtain ⟨w, rfl⟩ := g7 rfl; simp
        | false => rw [(g8 rfl).1]; simp
      · cases b' with
        | true =>
          obtain ⟨v, vs, f, rest, _, _, _, hlt, _⟩ := hsel'.2.2 rfl
          rw [hzero h v] at hlt
          omega
        | false =>
          obtain ⟨k1, k2, k3⟩ := g8 rfl
          refine ⟨k1, k2, ?_⟩
          obtain ⟨pu, he, hle⟩ := e7
          exact ⟨_, pu, by rw [k3, he], hle⟩

/-! ## ports -/

theorem axisOutput_isSome {p : List ScFlit} (h : p ≠ []) : ∃ o, axisOutput p = some o := by
  cases p with
  | nil => exact absurd rfl h
  | cons f p => exact ⟨_, rfl⟩

theorem presentPhase_ok {q : List (List ScFlit)} (h : ∀ p ∈ q, p ≠ []) :
    ∃ r, presentPhase q = .ok r ∧
      ∀ o, r = some o ↔ ∃ p rest, q = p :: rest ∧ axisOutput p = some o := by
  cases q with
  | nil => exact ⟨none, rfl, by simp⟩
  | cons p rest =>
    obtain ⟨o, ho⟩ := axisOutput_isSome (h p (by simp))
    refine ⟨some o, by simp [presentPhase, ho], ?_⟩
    intro o'
    constructor
    · intro h; cases h; exact ⟨p, rest, rfl, ho⟩
    · rintro ⟨p', rest', h1, h2⟩
      cases h1
      rw [ho] at h2
      exact h2

theorem numChunks_pos {n nf : Nat} (hn : 0 < n) (hf : 0 < nf) : 0 < numChunks n nf := by
  unfold numChunks
  exact Nat.div_pos (by omega) hf

theorem portStep_ok {nf : Nat} (hnf : 0 < nf) {q : List (List ScFlit)} {chunk : Nat}
    {port : Option AxisOut} {del : List AxisOut} {hist : List (List ScFlit)}
    (hi : PortOk nf q chunk port del hist) (ready : Bool) :
    ∃ q' ch r, acceptPhase nf q chunk port ready = .ok (q', ch) ∧ presentPhase q' = .ok r ∧
      PortOk nf q' ch r (del ++ (if ready then port.toList else [])) hist ∧ q'.length ≤ q.length ∧
      ((ready = false ∨ port = none) → q' = q ∧ ch = chunk) := by
  by_cases hh : ready = true ∧ port.isSome = true
  · obtain ⟨hr, hp⟩ := hh
    obtain ⟨o, ho⟩ := Option.isSome_iff_exists.mp hp
    obtain ⟨p, rest, hq, hpo⟩ := hi.port o ho
    subst hq
    have hne := hi.ne p (by simp)
    have hlt := hi.chunkLt p rest rfl
    have hlen : ¬ (p.length = 0) := by
      intro h; exact hne (List.length_eq_zero_iff.mp h)
    have hlt' : chunk < ((p :: rest).flatMap (shown nf)).length := by
      simp only [List.flatMap_cons, List.length_append, shown, List.length_replicate]
      omega
    have hget : ((p :: rest).flatMap (shown nf))[chunk] = some o := by
      have h2 : chunk < (shown nf p).length := by simpa [shown] using hlt
      simp only [List.flatMap_cons]
      rw [List.getElem_append_left h2]
      simp [shown, hpo]
    have hnot : ¬ (ready = false ∨ port = none) := by simp [hr, ho]
    have hacc : acceptPhase nf (p :: rest) chunk port ready =
        if chunk + 1 = numChunks p.length nf then .ok (rest, 0) else .ok (p :: rest, chunk + 1) := by
      simp [acceptPhase, hr, hp, hlen]
    have houts : (del ++ (if ready then port.toList else [])).map some ++
        ((p :: rest).flatMap (shown nf)).drop (chunk + 1) = hist.flatMap (shown nf) := by
      rw [← hi.outs, List.drop_eq_getElem_cons hlt', hget]
      simp [hr, ho]
    rw [hacc]
    by_cases hlast : chunk + 1 = numChunks p.length nf
    · rw [if_pos hlast]
      have hne' : ∀ p ∈ rest, p ≠ [] := fun p hp => hi.ne p (by simp [hp])
      obtain ⟨r, h1, h2⟩ := presentPhase_ok hne'
      refine ⟨rest, 0, r, rfl, h1, ⟨?_, hne', by simp, ?_, fun o ho => (h2 o).mp ho,
        by obtain ⟨pre, hpre⟩ := hi.suf; exact ⟨pre ++ [p], by simp [hpre]⟩⟩, by simp,
        fun h => absurd h hnot⟩
      · rw [← houts, hlast]
        simp only [List.flatMap_cons]
        rw [List.drop_append_of_le_length (by simp [shown])]
        simp [shown]
      · intro p' rest' he
        subst he
        have := hne' p' (by simp)
        exact numChunks_pos (List.length_pos_iff.mpr this) hnf
    · rw [if_neg hlast]
      obtain ⟨r, h1, h2⟩ := presentPhase_ok hi.ne
      refine ⟨p :: rest, chunk + 1, r, rfl, h1, ⟨houts, hi.ne, by simp, ?_, fun o ho => (h2 o).mp ho,
        hi.suf⟩,
        Nat.le_refl _, fun h => absurd h hnot⟩
      intro p' rest' he
      cases he
      omega
  · have hacc : acceptPhase nf q chunk port ready = .ok (q, chunk) := by
      have : (ready && port.isSome) = false := by
        rw [Bool.and_eq_false_iff]
        cases hr : ready with
        | false => exact Or.inl rfl
        | true => right; simpa [hr] using hh
      simp [acceptPhase, this]
    obtain ⟨r, h1, h2⟩ := presentPhase_ok hi.ne
    have hdel : (del ++ (if ready then port.toList else [])) = del := by
      cases hr : ready with
      | false => simp
      | true =>
        cases hp : port with
        | none => simp
        | some o => simp [hr, hp] at hh
    exact ⟨q, chunk, r, hacc, h1, ⟨by rw [hdel]; exact hi.outs, hi.ne, hi.chunkNil, hi.chunkLt,
      fun o ho => (h2 o).mp ho, hi.suf⟩, Nat.le_refl _, fun _ => ⟨rfl, rfl⟩⟩

/-- The port loop touches only the output FIFOs, chunk counters and ports, handles each interface
once and ends without error. -/
theorem portLoop_ok {c : MasterCfg} {s : MasterState} {del : List (Nat × AxisOut)}
    {hist : List (Nat × List ScFlit)} (hi : PortInv c s del hist) (ready : Nat → Bool) (k : Nat)
    (hk : k ≤ c.n) :
    ∃ s', portLoop c ready k s = .ok s' ∧
      (∃ outq chunk port, s' = { s with outq, chunk, port }) ∧
      (∀ i, k ≤ i → s'.outq i = s.outq i ∧ s'.chunk i = s.chunk i ∧ s'.port i = s.port i) ∧
      (∀ i, i < k → PortOk (numFlits (c.dataw i)) (s'.outq i) (s'.chunk i) (s'.port i)
        (beatsOn i del ++ (if ready i then (s.port i).toList else [])) (histIf i hist)) ∧
      (∀ i, i < k → acceptPhase (numFlits (c.dataw i)) (s.outq i) (s.chunk i) (s.port i) (ready i) =
        .ok (s'.outq i, s'.chunk i) ∧ presentPhase (s'.outq i) = .ok (s'.port i)) ∧
      (∀ i, (s'.outq i).length ≤ (s.outq i).length) := by
  induction k with
  | zero => exact ⟨s, rfl, ⟨_, _, _, rfl⟩, by simp, by simp, by simp, by simp⟩
  | succ k ih =>
    obtain ⟨s1, h1, ⟨oq, ch, po, hs1⟩, h2, h3, h4, h5⟩ := ih (by omega)
    have hk1 := h2 k (Nat.le_refl k)
    obtain ⟨q', ch', r, a1, a2, a3, a4, _⟩ :=
      portStep_ok (numFlits_pos (c.dataw k)) (hi k (by omega)) (ready k)
    refine ⟨{ s1 with outq := upd s1.outq k q', chunk := upd s1.chunk k ch',
                      port := upd s1.port k r }, ?_, ?_, ?_, ?_, ?_, ?_⟩
    · simp only [portLoop, h1, hk1.1, hk1.2.1, hk1.2.2, a1, a2]
    · subst hs1; exact ⟨_, _, _, rfl⟩
    · intro i hik
      have hne : i ≠ k := by omega
      simp only [upd_ne _ _ hne]
      exact h2 i (by omega)
    · intro i hik
      by_cases he : i = k
      · subst he; simp only [upd_same]; exact a3
      · simp only [upd_ne _ _ he]; exact h3 i (by omega)
    · intro i hik
      by_cases he : i = k
      · subst he; simp only [upd_same]; exact ⟨a1, a2⟩
      · simp only [upd_ne _ _ he]; exact h4 i (by omega)
    · intro i
      by_cases he : i = k
      · subst he; simp only [upd_same]; exact a4
      · simp only [upd_ne _ _ he]; exact h5 i

theorem beatsOn_handshakes {c : MasterCfg} {s : MasterState} (ready : Nat → Bool) {i : Nat}
    (hi : i < c.n) :
    beatsOn i (portHandshakes c s ready) = if ready i then (s.port i).toList else [] := by
  have gen : ∀ n, beatsOn i ((List.range n).filterMap
      (fun i => if ready i then (s.port i).map (fun o => (i, o)) else none)) =
      if i < n then (if ready i then (s.port i).toList else []) else [] := by
    intro n
    induction n with
    | zero => simp [beatsOn]
    | succ n ih =>
      rw [List.range_succ, List.filterMap_append, beatsOn_append, ih]
      by_cases h : i = n
      · subst h
        cases hr : ready i <;> cases hp : s.port i <;> simp [beatsOn, hr, hp]
      · have h1 : ¬ (n = i) := fun e => h e.symm
        have h2 : i < n + 1 ↔ i < n := by omega
        simp only [h2]
        cases hr : ready n <;> cases hp : s.port n <;> simp [beatsOn, hr, hp, h1]
  rw [portHandshakes, gen, if_pos hi]

/-! ## all events -/

/-- Invariant of a run: `hist` is the sequence of packets completed so far. -/
structure MasterInv (c : MasterCfg) (s : MasterState) (h : MasterHist)
    (hist : List (Nat × List ScFlit)) : Prop where
  fifo : FifoInv c s h.accepted hist
  ports : PortInv c s h.delivered hist

theorem MasterInv.init (c : MasterCfg) :
    MasterInv c (MasterState.init c) MasterHist.empty [] :=
  ⟨FifoInv.init c, PortInv.init c⟩

/-- Specification: the flits read from the router are on existing channels and name existing
interfaces, consistently within a packet. -/
def GoodArrivals (c : MasterCfg) (acc : List BsFlit) : Prop :=
  (∀ b ∈ acc, b.vc < c.vcs) ∧ ∀ v, v < c.vcs → Coherent c.n (onVc v acc)

theorem GoodArrivals.prefix {c : MasterCfg} {a b : List BsFlit} (h : GoodArrivals c (a ++ b)) :
    GoodArrivals c a :=
  ⟨fun f hf => h.1 f (by simp [hf]), fun v hv => by
    have := h.2 v hv
    rw [onVc_append] at this
    exact this.prefix⟩

theorem masterStep_accepted (c : MasterCfg) (s : MasterState) (h : MasterHist) (e : MasterEvent) :
    ∃ l, (masterStep c s h e).1.accepted = h.accepted ++ l := by
  cases e with
  | noc a =>
    cases hh : s.held with
    | none => exact ⟨a.toList, by simp [masterStep, hh]⟩
    | some f => exact ⟨[], by simp [masterStep, hh]⟩
  | adapter cm =>
    refine ⟨[], ?_⟩
    simp only [masterStep]
    split <;> simp
  | node r => exact ⟨[], by simp [masterStep]⟩
  | tick => exact ⟨[], by simp [masterStep]⟩

theorem masterRun_accepted (c : MasterCfg) (es : List MasterEvent) :
    ∀ (s : MasterState) (h : MasterHist), ∃ l, (masterRun c s h es).1.accepted = h.accepted ++ l := by
  induction es with
  | nil => intro s h; exact ⟨[], by simp [masterRun]⟩
  | cons e es ih =>
    intro s h
    obtain ⟨l, hl⟩ := masterStep_accepted c s h e
    simp only [masterRun]
    split
    · rename_i h' err heq
      rw [heq] at hl
      exact ⟨l, hl⟩
    · rename_i h' s' heq
      rw [heq] at hl
      obtain ⟨l2, hl2⟩ := ih s' h'
      exact ⟨l ++ l2, by rw [hl2, hl]; simp⟩

theorem masterStep_inv {c : MasterCfg} (hn : 0 < c.n) (hvc : 0 < c.vcs) {s : MasterState}
    {h : MasterHist} {hist : List (Nat × List ScFlit)} (hi : MasterInv c s h hist)
    (e : MasterEvent) (hg : GoodArrivals c (masterStep c s h e).1.accepted) :
    ∃ s' hist', (masterStep c s h e).2 = .ok s' ∧
      MasterInv c s' (masterStep c s h e).1 (hist ++ hist') := by
  cases e with
  | noc a =>
    have hacc : (masterStep c s h (.noc a)).1.accepted =
        h.accepted ++ (match s.held with | none => a.toList | some _ => []) := by
      cases hh : s.held <;> simp [masterStep, hh]
    have hdel : (masterStep c s h (.noc a)).1.delivered = h.delivered := by
      cases hh : s.held <;> simp [masterStep, hh]
    have hstep : (masterStep c s h (.noc a)).2 = ejectStep c s a := by
      cases hh : s.held <;> simp [masterStep, hh]
    rw [hacc] at hg
    cases hh : s.held with
    | none =>
      have ha : ∀ f, a = some f → f.vc < c.vcs := by
        intro f hf
        exact hg.1 f (by simp [hh, hf])
      obtain ⟨s', h1, h2, h3, h4, h5, _⟩ := ejectStep_inv hi.fifo a ha
      refine ⟨s', [], by rw [hstep, h1], ⟨?_, ?_⟩⟩
      · rw [hacc, List.append_nil]; exact h2
      · intro i hin
        rw [hdel, List.append_nil, h3, h4, h5]
        exact hi.ports i hin
    | some f =>
      have he : ejectStep c s a = ejectStep c s none := by simp [ejectStep, hh]
      obtain ⟨s', h1, h2, h3, h4, h5, _⟩ := ejectStep_inv hi.fifo none (by simp)
      refine ⟨s', [], by rw [hstep, he, h1], ⟨?_, ?_⟩⟩
      · rw [hacc, List.append_nil]
        simpa [hh] using h2
      · intro i hin
        rw [hdel, List.append_nil, h3, h4, h5]
        exact hi.ports i hin
  | adapter cm =>
    have hga : GoodArrivals c h.accepted := by
      obtain ⟨l, hl⟩ := masterStep_accepted c s h (.adapter cm)
      rw [hl] at hg
      exact hg.prefix
    obtain ⟨s', popped, hist', h1, h2, h3, h4, h5, h6, _⟩ :=
      depackStep_inv hn hvc hi.fifo hga.2 cm
    have hstep : masterStep c s h (.adapter cm) = ({ h with pops := h.pops ++ popped }, .ok s') := by
      simp only [masterStep, h1]
    refine ⟨s', hist', by rw [hstep], ?_⟩
    rw [hstep]
    refine ⟨h2, fun i hin => ?_⟩
    have hp := hi.ports i hin
    rw [h3, h4, h5, histIf_append]
    have hne : ∀ p ∈ s.outq i ++ histIf i hist', p ≠ [] := by
      intro p hpm
      rw [List.mem_append] at hpm
      rcases hpm with hpm | hpm
      · exact hp.ne p hpm
      · simp only [histIf, List.mem_map, List.mem_filter] at hpm
        obtain ⟨x, ⟨hx, _⟩, rfl⟩ := hpm
        exact h6 x hx
    refine ⟨?_, hne, ?_, ?_, ?_,
      by obtain ⟨pre, hpre⟩ := hp.suf; exact ⟨pre, by rw [hpre, List.append_assoc]⟩⟩
    · rw [List.flatMap_append, List.flatMap_append, ← hp.outs, List.append_assoc]
      congr 1
      rw [List.drop_append_of_le_length]
      cases hq : s.outq i with
      | nil => rw [hp.chunkNil hq]; simp
      | cons p rest =>
        have := hp.chunkLt p rest hq
        simp only [List.flatMap_cons, List.length_append, shown, List.length_replicate]
        omega
    · intro he
      have : s.outq i = [] := by
        have := congrArg List.length he
        simp at this
        exact this.1
      exact hp.chunkNil this
    · intro p rest he
      cases hq : s.outq i with
      | nil =>
        rw [hp.chunkNil hq]
        exact numChunks_pos (List.length_pos_iff.mpr (hne p (by rw [he]; simp)))
          (numFlits_pos _)
      | cons p' rest' =>
        rw [hq] at he
        simp only [List.cons_append, List.cons.injEq] at he
        rw [← he.1]
        exact hp.chunkLt p' rest' hq
    · intro o ho
      obtain ⟨p, rest, hq, hpo⟩ := hp.port o ho
      exact ⟨p, rest ++ histIf i hist', by rw [hq]; rfl, hpo⟩
  | node ready =>
    obtain ⟨s', h1, ⟨oq, ch, po, hs'⟩, h2, h3, h4, h5⟩ := portLoop_ok hi.ports ready c.n (Nat.le_refl _)
    refine ⟨s', [], by simp [masterStep, h1], ?_⟩
    simp only [masterStep, List.append_nil]
    constructor
    · have hf := hi.fifo
      have e1 : s'.outq = oq := by subst hs'; rfl
      subst hs'
      refine ⟨hf.prio, hf.stream, hf.histOk, hf.idle, hf.busy, fun hd f hfm => ?_, hf.cnt, hf.le,
        hf.fifoLen, fun i => Nat.le_trans (h5 i) (hf.outLen i), hf.heldVc⟩
      exact Nat.lt_of_le_of_lt (h5 _) (hf.room hd f hfm)
    · intro i hin
      have := h3 i hin
      rw [beatsOn_append, beatsOn_handshakes ready hin]
      exact this
  | tick =>
    refine ⟨{ s with credit := none }, [], rfl, ?_⟩
    have hf := hi.fifo
    rw [List.append_nil]
    exact ⟨⟨hf.prio, hf.stream, hf.histOk, hf.idle, hf.busy, hf.room, hf.cnt, hf.le, hf.fifoLen,
      hf.outLen, hf.heldVc⟩, hi.ports⟩

theorem masterRun_inv {c : MasterCfg} (hn : 0 < c.n) (hvc : 0 < c.vcs) (es : List MasterEvent) :
    ∀ (s : MasterState) (h : MasterHist) (hist : List (Nat × List ScFlit)), MasterInv c s h hist →
      GoodArrivals c (masterRun c s h es).1.accepted →
      ∃ s' hist', (masterRun c s h es).2 = .ok s' ∧
        MasterInv c s' (masterRun c s h es).1 (hist ++ hist') := by
  induction es with
  | nil =>
    intro s h hist hi _
    exact ⟨s, [], rfl, by simpa [masterRun] using hi⟩
  | cons e es ih =>
    intro s h hist hi hg
    have hg1 : GoodArrivals c (masterStep c s h e).1.accepted := by
      simp only [masterRun] at hg
      split at hg
      · rename_i h' err heq
        rw [heq]; exact hg
      · rename_i h' s' heq
        obtain ⟨l, hl⟩ := masterRun_accepted c es s' h'
        rw [hl] at hg
        rw [heq]; exact hg.prefix
    obtain ⟨s1, hist1, h1, h2⟩ := masterStep_inv hn hvc hi e hg1
    have hpair : masterStep c s h e = ((masterStep c s h e).1, .ok s1) := by rw [← h1]
    have hrun : masterRun c s h (e :: es) = masterRun c s1 (masterStep c s h e).1 es := by
      rw [masterRun, hpair]
    rw [hrun] at hg ⊢
    obtain ⟨s2, hist2, h3, h4⟩ := ih s1 _ _ h2 hg
    exact ⟨s2, hist1 ++ hist2, h3, by rw [← List.append_assoc]; exact h4⟩

end RadSim
