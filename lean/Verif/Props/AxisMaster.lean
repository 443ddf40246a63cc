import Verif.Lemmas.AxisMasterLive
import Verif.Props.AxisPacket

/-!
# C11 - C17: AXI-Stream master adapter
-/

namespace RadSim

/-- A run of the adapter from power-up: what was seen, and the final state or the error. -/
def masterFrom (c : MasterCfg) (es : List MasterEvent) : MasterHist × Except MasterErr MasterState :=
  masterRun c (MasterState.init c) MasterHist.empty es

/-! ## sample data for the examples -/

/-- Two interfaces of 8 and 512 bits, five channels, ejection FIFOs of 16 flits, output FIFOs of
two packets. -/
def sampleMaster : MasterCfg where
  n := 2
  dataw := fun i => if i = 0 then 8 else 512
  vcs := 5
  depth := 16
  outDepth := 2

/-- The flits of a beat for interface `i`, as they leave the router. -/
def sampleArrivals (i dataw : Nat) (ty : FlitType) : List BsFlit :=
  (packetFlits sampleVc (numFlits dataw)
    { sampleTxn with tid := BitVec.ofNat 32 i, type := ty }).map (injectFlit 2 9)

/-- One adapter edge after each arrival. -/
def arriveAndDepack (fs : List BsFlit) : List MasterEvent :=
  fs.flatMap (fun f => [.noc (some f), .adapter true, .tick])

/-- All ports ready. -/
def allReady : Nat → Bool := fun _ => true

/-- Two packets of different channels, interleaved flit by flit, then read out. -/
def sampleRun : List MasterEvent :=
  arriveAndDepack ((List.zipWith (fun a b => [a, b]) (sampleArrivals 0 8 .readRequest)
    (sampleArrivals 1 8 .writeRequest)).flatten) ++
  [.adapter true, .adapter true, .adapter true, .adapter true, .adapter true,
   .node allReady, .node allReady]

theorem sampleRun_good : GoodArrivals sampleMaster (masterFrom sampleMaster sampleRun).1.accepted := by
  have e : (masterFrom sampleMaster sampleRun).1.accepted =
    (List.zipWith (fun a b => [a, b]) (sampleArrivals 0 8 .readRequest)
    (sampleArrivals 1 8 .writeRequest)).flatten := by rfl
  rw [e]
  constructor
  · decide
  · intro v hv
    change v < 5 at hv
    have h : v = 0 ∨ v = 1 ∨ v = 2 ∨ v = 3 ∨ v = 4 := by omega
    rcases h with rfl | rfl | rfl | rfl | rfl
    · exact ⟨by decide, fun _ => rfl, trivial⟩
    · exact ⟨by decide, fun _ => rfl, trivial⟩
    · exact ⟨by decide, trivial⟩
    · exact ⟨by decide, trivial⟩
    · exact ⟨by decide, trivial⟩

/-! ## C12, C13 -/

/-- **C12**, absence of errors: whatever the interleaving of channels, clocks and stalls, the
adapter never reads an empty queue, never trips its counter assertion and never indexes outside
its vectors, as long as packets name an existing interface. -/
theorem C12_depacketisation_never_fails (c : MasterCfg) (hn : 0 < c.n) (hvc : 0 < c.vcs)
    (es : List MasterEvent) (hg : GoodArrivals c (masterFrom c es).1.accepted) :
    ∃ s, (masterFrom c es).2 = .ok s := by
  obtain ⟨s, _, h, _⟩ := masterRun_inv hn hvc es _ _ _ (MasterInv.init c) hg
  exact ⟨s, h⟩

/-- **C13.** In every schedule there is one order `hist` of completed packets such that, for each
channel, the packets that entered on it are the ones completed on it, in order, followed by the
packets still inside; and for each port, the beats handed over so far followed by those still
queued are exactly the beats of the packets completed for this port, in order, each shown once per
chunk. -/
theorem C13_sink_lossless_ordered (c : MasterCfg) (hn : 0 < c.n) (hvc : 0 < c.vcs)
    (es : List MasterEvent) (hg : GoodArrivals c (masterFrom c es).1.accepted) :
    ∃ (s : MasterState) (hist : List (Nat × List ScFlit)), (masterFrom c es).2 = .ok s ∧
      (∀ x ∈ hist, x.1 < c.vcs ∧ ∃ i, i < c.n ∧ pktDest x.2 = some i) ∧
      (∀ v, v < c.vcs →
        packetsOf (onVc v (masterFrom c es).1.accepted) =
          (hist.filter (fun x => x.1 == v)).map (·.2) ++ packetsOf (inside s v)) ∧
      (∀ i, i < c.n →
        (beatsOn i (masterFrom c es).1.delivered).map some ++
          ((s.outq i).flatMap (fun p => List.replicate
            ((p.length + (numFlits (c.dataw i) - 1)) / numFlits (c.dataw i)) (axisOutput p))).drop
              (s.chunk i) =
        ((hist.filter (fun x => pktDest x.2 == some i)).map (·.2)).flatMap
          (fun p => List.replicate
            ((p.length + (numFlits (c.dataw i) - 1)) / numFlits (c.dataw i)) (axisOutput p))) := by
  obtain ⟨s, hist, h1, h2⟩ := masterRun_inv hn hvc es _ _ _ (MasterInv.init c) hg
  rw [List.nil_append] at h2
  refine ⟨s, hist, h1, ?_, ?_, ?_⟩
  · intro x hx
    obtain ⟨hcl, hxv⟩ := h2.fifo.histOk x hx
    refine ⟨hxv, ?_⟩
    obtain ⟨ini, last, he, _⟩ := hcl
    cases hx2 : x.2 with
    | nil => rw [hx2] at he; simp at he
    | cons f p =>
      refine ⟨f.destIf.toNat, ?_, rfl⟩
      have hc := (hg.2 x.1 hxv).1 f
      have hs := h2.fifo.stream x.1 hxv
      apply hc
      show f ∈ onVc x.1 (masterRun c _ _ es).1.accepted
      rw [hs, List.mem_append]
      left
      rw [List.mem_flatten]
      refine ⟨x.2, ?_, by rw [hx2]; simp⟩
      simp only [histVc, List.mem_map, List.mem_filter]
      exact ⟨x, ⟨hx, by simp⟩, rfl⟩
  · intro v hv
    have hs := h2.fifo.stream v hv
    show packetsOf (onVc v (masterRun c _ _ es).1.accepted) = histVc v hist ++ _
    rw [hs, packetsOf_flatten]
    intro p hp
    simp only [histVc, List.mem_map, List.mem_filter] at hp
    obtain ⟨x, ⟨hx, _⟩, rfl⟩ := hp
    exact (h2.fifo.histOk x hx).1
  · intro i hi
    exact (h2.ports i hi).outs

example : (masterFrom sampleMaster sampleRun).1.delivered.length = 2 := by rfl
example : GoodArrivals sampleMaster (masterFrom sampleMaster sampleRun).1.accepted ∧
    (masterFrom sampleMaster sampleRun).1.accepted.length = 4 := ⟨sampleRun_good, rfl⟩

/-- **C12.** Every beat handed over on a port is the reassembly of all the flits of exactly one
packet of one channel, addressed to this port. -/
theorem C12_reassembly_never_mixes (c : MasterCfg) (hn : 0 < c.n) (hvc : 0 < c.vcs)
    (es : List MasterEvent) (hg : GoodArrivals c (masterFrom c es).1.accepted)
    (i : Nat) (hi : i < c.n) (o : AxisOut) (ho : (i, o) ∈ (masterFrom c es).1.delivered) :
    ∃ v p, v < c.vcs ∧ p ∈ packetsOf (onVc v (masterFrom c es).1.accepted) ∧
      pktDest p = some i ∧ axisOutput p = some o := by
  obtain ⟨s, hist, _, hv, hpk, hout⟩ := C13_sink_lossless_ordered c hn hvc es hg
  have hmem : some o ∈ (beatsOn i (masterFrom c es).1.delivered).map some := by
    simp only [List.mem_map, beatsOn, List.mem_filter]
    exact ⟨o, ⟨(i, o), ⟨ho, by simp⟩, rfl⟩, rfl⟩
  have h2 := hout i hi
  have h3 : some o ∈ ((hist.filter (fun x => pktDest x.2 == some i)).map (·.2)).flatMap
          (fun p => List.replicate
            ((p.length + (numFlits (c.dataw i) - 1)) / numFlits (c.dataw i)) (axisOutput p)) := by
    rw [← h2, List.mem_append]
    exact Or.inl hmem
  simp only [List.mem_flatMap, List.mem_map, List.mem_filter, List.mem_replicate] at h3
  obtain ⟨p, ⟨x, ⟨hx, hd⟩, rfl⟩, _, hp⟩ := h3
  refine ⟨x.1, x.2, (hv x hx).1, ?_, by simpa using hd, hp.symm⟩
  rw [hpk x.1 (hv x hx).1, List.mem_append]
  left
  simp only [List.mem_map, List.mem_filter]
  exact ⟨x, ⟨hx, by simp⟩, rfl⟩

example : ∃ o, (1, o) ∈ (masterFrom sampleMaster sampleRun).1.delivered := ⟨_, List.mem_cons_of_mem _ (List.mem_cons_self ..)⟩

theorem numChunks_one {m nf : Nat} (h0 : 0 < m) (h : m ≤ nf) : (m + (nf - 1)) / nf = 1 := by
  apply Nat.div_eq_of_lt_le <;> omega

/-- **C13**, exactly once: when no packet is longer than a packet of the port it is addressed to
(the source port is not wider than the sink port), each packet gives exactly one beat, in order. -/
theorem C13_each_packet_one_beat (c : MasterCfg) (hn : 0 < c.n) (hvc : 0 < c.vcs)
    (es : List MasterEvent) (hg : GoodArrivals c (masterFrom c es).1.accepted)
    (hfit : ∀ v, v < c.vcs → ∀ p ∈ packetsOf (onVc v (masterFrom c es).1.accepted),
      ∀ i, pktDest p = some i → p.length ≤ numFlits (c.dataw i)) :
    ∃ (s : MasterState) (hist : List (Nat × List ScFlit)), (masterFrom c es).2 = .ok s ∧
      (∀ v, v < c.vcs →
        packetsOf (onVc v (masterFrom c es).1.accepted) =
          (hist.filter (fun x => x.1 == v)).map (·.2) ++ packetsOf (inside s v)) ∧
      (∀ i, i < c.n →
        (beatsOn i (masterFrom c es).1.delivered).map some ++ (s.outq i).map axisOutput =
        ((hist.filter (fun x => pktDest x.2 == some i)).map (·.2)).map axisOutput) := by
  obtain ⟨s, hist, h1, h2⟩ := masterRun_inv hn hvc es _ _ _ (MasterInv.init c) hg
  rw [List.nil_append] at h2
  have hcl : ∀ x ∈ hist, 0 < x.2.length := by
    intro x hx
    obtain ⟨ini, last, he, _⟩ := (h2.fifo.histOk x hx).1
    rw [he]; simp
  have hpk : ∀ v, v < c.vcs → packetsOf (onVc v (masterFrom c es).1.accepted) =
      histVc v hist ++ packetsOf (inside s v) := by
    intro v hv
    have hs := h2.fifo.stream v hv
    show packetsOf (onVc v (masterRun c _ _ es).1.accepted) = histVc v hist ++ _
    rw [hs, packetsOf_flatten]
    intro p hp
    simp only [histVc, List.mem_map, List.mem_filter] at hp
    obtain ⟨x, ⟨hx, _⟩, rfl⟩ := hp
    exact (h2.fifo.histOk x hx).1
  refine ⟨s, hist, h1, hpk, ?_⟩
  intro i hi
  have hp := h2.ports i hi
  have hone : ∀ p ∈ histIf i hist, shown (numFlits (c.dataw i)) p = [axisOutput p] := by
    intro p hpm
    simp only [histIf, List.mem_map, List.mem_filter] at hpm
    obtain ⟨x, ⟨hx, hd⟩, rfl⟩ := hpm
    have hxv := (h2.fifo.histOk x hx).2
    have hmem : x.2 ∈ packetsOf (onVc x.1 (masterFrom c es).1.accepted) := by
      rw [hpk x.1 hxv, List.mem_append]
      left
      simp only [histVc, List.mem_map, List.mem_filter]
      exact ⟨x, ⟨hx, by simp⟩, rfl⟩
    have hlen := hfit x.1 hxv x.2 hmem i (by simpa using hd)
    simp [shown, numChunks, numChunks_one (hcl x hx) hlen]
  have hflat : ∀ l : List (List ScFlit), (∀ p ∈ l, p ∈ histIf i hist) →
      l.flatMap (shown (numFlits (c.dataw i))) = l.map axisOutput := by
    intro l
    induction l with
    | nil => intro _; rfl
    | cons p l ih =>
      intro hl
      rw [List.flatMap_cons, hone p (hl p (by simp)), ih (fun q hq => hl q (by simp [hq]))]
      rfl
  obtain ⟨pre, hpre⟩ := hp.suf
  have hsub : ∀ p ∈ s.outq i, p ∈ histIf i hist := by
    intro p hpm; rw [hpre]; simp [hpm]
  have houts := hp.outs
  rw [hflat _ (fun _ h => h), hflat _ hsub] at houts
  show _ = (histIf i hist).map axisOutput
  rw [← houts]
  have hch : s.chunk i = 0 := by
    cases hq : s.outq i with
    | nil => exact hp.chunkNil hq
    | cons p rest =>
      have h3 := hp.chunkLt p rest hq
      have h4 := congrArg List.length (hone p (hsub p (by simp [hq])))
      simp only [shown, List.length_replicate, List.length_cons, List.length_nil] at h4
      omega
  rw [hch, List.drop_zero]
  rfl

example : ∀ v, v < sampleMaster.vcs →
    ∀ p ∈ packetsOf (onVc v (masterFrom sampleMaster sampleRun).1.accepted),
      ∀ i, pktDest p = some i → p.length ≤ numFlits (sampleMaster.dataw i) := by
  intro v hv
  change v < 5 at hv
  have h : v = 0 ∨ v = 1 ∨ v = 2 ∨ v = 3 ∨ v = 4 := by omega
  rcases h with rfl | rfl | rfl | rfl | rfl <;> intro p hp i hi
  · cases hp with
    | head => cases hi; decide
    | tail _ h => cases h
  · cases hp with
    | head => cases hi; decide
    | tail _ h => cases h
  all_goals cases hp

/-! ## C14 -/

theorem masterRun_append (c : MasterCfg) (es es' : List MasterEvent) :
    ∀ (s : MasterState) (h : MasterHist), masterRun c s h (es ++ es') =
      match masterRun c s h es with
      | (h', .error e) => (h', .error e)
      | (h', .ok s') => masterRun c s' h' es' := by
  induction es with
  | nil => intro s h; rfl
  | cons e es ih =>
    intro s h
    simp only [List.cons_append, masterRun]
    split
    · rename_i h1 err heq
      simp
    · rename_i h1 s1 heq
      exact ih s1 h1

theorem masterFrom_snoc (c : MasterCfg) (es : List MasterEvent) (e : MasterEvent) (s : MasterState)
    (h : (masterFrom c es).2 = .ok s) :
    masterFrom c (es ++ [e]) = masterStep c s (masterFrom c es).1 e := by
  unfold masterFrom at h ⊢
  rw [masterRun_append]
  generalize masterRun c (MasterState.init c) MasterHist.empty es = r at h ⊢
  obtain ⟨h', r⟩ := r
  simp only at h
  subst h
  simp only [masterRun]
  split <;> rename_i heq <;> rw [heq]

/-- **C14.** Once a port shows a beat, it keeps showing the same beat through every event other
than a clock edge at which its `tready` is high; and at such an edge exactly this beat is handed
over. -/
theorem C14_port_stable_until_ready (c : MasterCfg) (hn : 0 < c.n) (hvc : 0 < c.vcs)
    (es : List MasterEvent) (e : MasterEvent)
    (hg : GoodArrivals c (masterFrom c (es ++ [e])).1.accepted)
    (s : MasterState) (hs : (masterFrom c es).2 = .ok s) (i : Nat) (hi : i < c.n) (o : AxisOut)
    (ho : s.port i = some o) :
    ∃ s', (masterFrom c (es ++ [e])).2 = .ok s' ∧
      ((∀ r, e = .node r → r i = false) →
        s'.port i = some o ∧
        beatsOn i (masterFrom c (es ++ [e])).1.delivered =
          beatsOn i (masterFrom c es).1.delivered) ∧
      (∀ r, e = .node r → r i = true →
        beatsOn i (masterFrom c (es ++ [e])).1.delivered =
          beatsOn i (masterFrom c es).1.delivered ++ [o]) := by
  have hstep := masterFrom_snoc c es e s hs
  rw [hstep] at hg ⊢
  have hg0 : GoodArrivals c (masterFrom c es).1.accepted := by
    obtain ⟨l, hl⟩ := masterStep_accepted c s (masterFrom c es).1 e
    rw [hl] at hg
    exact hg.prefix
  obtain ⟨s0, hist, h1, h2⟩ := masterRun_inv hn hvc es _ _ _ (MasterInv.init c) hg0
  have hss : s0 = s := by
    have := h1.symm.trans hs
    simpa using this
  subst hss
  rw [List.nil_append] at h2
  change MasterInv c s0 (masterFrom c es).1 hist at h2
  cases e with
  | noc a =>
    obtain ⟨s', hist', h3, _⟩ := masterStep_inv hn hvc h2 (.noc a) hg
    refine ⟨s', h3, fun _ => ?_, by simp⟩
    have hej : ejectStep c s0 a = .ok s' := by
      cases hh : s0.held <;> simpa [masterStep, hh] using h3
    have hport : s'.port = s0.port := by
      simp only [ejectStep] at hej
      split at hej
      · cases hej; rfl
      · split at hej
        · split at hej <;> (cases hej; rfl)
        · cases hej
    refine ⟨by rw [hport]; exact ho, ?_⟩
    cases hh : s0.held <;> simp [masterStep, hh]
  | adapter cm =>
    obtain ⟨s', popped, hist', g1, _, _, g4, _⟩ := depackStep_inv hn hvc h2.fifo hg0.2 cm
    have hst : masterStep c s0 (masterFrom c es).1 (.adapter cm) =
        ({ (masterFrom c es).1 with pops := (masterFrom c es).1.pops ++ popped }, .ok s') := by
      simp only [masterStep, g1]
    rw [hst]
    exact ⟨s', rfl, fun _ => ⟨by rw [g4]; exact ho, rfl⟩, by simp⟩
  | node r =>
    obtain ⟨s', g1, _, _, _, g5, _⟩ := portLoop_ok h2.ports r c.n (Nat.le_refl _)
    refine ⟨s', g1, fun hr => ?_, fun r' hr' hri => ?_⟩
    · have hri := hr r rfl
      obtain ⟨a1, a2⟩ := g5 i hi
      obtain ⟨p, rest, hq, hpo⟩ := (h2.ports i hi).port o ho
      simp only [acceptPhase, hri, Bool.false_and, Bool.false_eq_true, if_false, Except.ok.injEq,
        Prod.mk.injEq] at a1
      rw [← a1.1, hq] at a2
      simp only [presentPhase, hpo, Except.ok.injEq] at a2
      refine ⟨a2.symm, ?_⟩
      simp only [masterStep, beatsOn_append]
      rw [beatsOn_handshakes r hi, hri]
      simp
    · cases hr'
      simp only [masterStep, beatsOn_append]
      rw [beatsOn_handshakes r hi, hri, ho]
      simp
  | tick => exact ⟨_, rfl, fun _ => ⟨ho, rfl⟩, by simp⟩

example : ∃ s o, (masterFrom sampleMaster (sampleRun.take 18)).2 = .ok s ∧ s.port 1 = some o :=
  ⟨_, _, rfl, rfl⟩

/-! ## C15 -/

/-- What C15 asks for: the beats shown for data `d` on a port of width `w` are consecutive slices. -/
def IsSliced (w : Nat) (d : BitVec 512) (beats : List AxisOut) : Prop :=
  ∀ k o, beats[k]? = some o → o.tdata = (d >>> (k * w)) &&& BitVec.ofNat 512 (2 ^ w - 1)

/-- A source port of 128 bits sends one beat to a sink port of 8 bits. -/
def narrowRun : List MasterEvent :=
  arriveAndDepack (sampleArrivals 0 128 .readRequest) ++
  [.adapter true, .adapter true, .adapter true, .node allReady, .node allReady, .node allReady,
   .node allReady]

set_option exponentiation.threshold 1024 in
/-- **C15** is false: the sink shows the whole beat again for each chunk. One beat of a 128-bit
source arrives at an 8-bit sink as two identical beats wider than the port, which are not the
slices of any data. -/
theorem C15_slices_violated :
    (∃ o, (masterFrom sampleMaster narrowRun).1.delivered = [(0, o), (0, o)] ∧
      o.tdata = BitVec.ofNat 512 12345) ∧
    ∀ d : BitVec 512, ¬ IsSliced 8 d (beatsOn 0 (masterFrom sampleMaster narrowRun).1.delivered) := by
  refine ⟨⟨_, rfl, by decide⟩, ?_⟩
  intro d h
  have h0 := h 0 _ rfl
  have h1 : BitVec.ofNat 512 12345 = (d >>> (0 * 8)) &&& BitVec.ofNat 512 (2 ^ 8 - 1) := by
    rw [← h0]; decide
  have h2 : (BitVec.ofNat 512 12345).getLsbD 12 = true := by decide
  rw [h1, BitVec.getLsbD_and] at h2
  have h3 : (BitVec.ofNat 512 (2 ^ 8 - 1)).getLsbD 12 = false := by decide
  rw [h3] at h2
  simp at h2

/-- **C15** (partial): a sink port at least as wide as the source port shows each beat of the
source once, with the source's data. Missing: narrower sinks, for which the claim is false
(`C15_slices_violated`). -/
theorem C15_wide_enough_partial (c : VcConfig) (radId portalId dataw w : Nat) (t : AxisTxn)
    (hw : dataw ≤ w) (hd : dataw ≤ 512) (hdata : t.tdata.toNat < 2 ^ dataw) :
    ∃ o, shown (numFlits w) ((packetFlits c (numFlits dataw) t).map (transport radId portalId)) =
        [some o] ∧ o.tdata = t.tdata := by
  obtain ⟨o, h1, h2, _⟩ := C01_axis_beat_round_trip c radId portalId dataw t hd hdata
  refine ⟨o, ?_, h2⟩
  have hlen : ((packetFlits c (numFlits dataw) t).map (transport radId portalId)).length =
      numFlits dataw := by simp [packetFlits]
  have hmono : numFlits dataw ≤ numFlits w := by
    unfold numFlits
    apply Nat.div_le_div_right
    omega
  unfold delivered at h1
  simp only [shown, numChunks, hlen, numChunks_one (numFlits_pos dataw) hmono, h1]
  rfl

set_option exponentiation.threshold 1024 in
example : (200 : Nat) ≤ 512 ∧ sampleTxn.tdata.toNat < 2 ^ 200 := by decide

/-! ## C11 -/

/-- **C11**, bound: in every schedule each ejection FIFO holds at most the configured number of
flits, and each output FIFO at most the configured number of packets. -/
theorem C11_ejection_bounded (c : MasterCfg) (hn : 0 < c.n) (hvc : 0 < c.vcs)
    (es : List MasterEvent) (hg : GoodArrivals c (masterFrom c es).1.accepted) :
    ∃ s, (masterFrom c es).2 = .ok s ∧ (∀ v, (s.fifos v).length ≤ c.depth) ∧
      ∀ i, (s.outq i).length ≤ c.outDepth := by
  obtain ⟨s, hist, h1, h2⟩ := masterRun_inv hn hvc es _ _ _ (MasterInv.init c) hg
  exact ⟨s, h1, h2.fifo.fifoLen, h2.fifo.outLen⟩

/-- **C11** is false in general: the process stops reading the ejection channel while a flit waits
for a full FIFO, and a flit that arrives meanwhile is lost, even one of another channel. Here the
FIFO holds one flit and three flits arrive. -/
theorem C11_drop_violated :
    ∃ es s, (masterFrom { sampleMaster with depth := 1 } es).2 = .ok s ∧
      (masterFrom { sampleMaster with depth := 1 } es).1.dropped.length = 1 ∧
      (∀ e ∈ es, ∃ f, e = .noc (some f)) := by
  refine ⟨(sampleArrivals 0 128 .readRequest).map (fun f => .noc (some f)), _, rfl, rfl, ?_⟩
  intro e he
  simp only [List.mem_map] at he
  obtain ⟨f, _, rfl⟩ := he
  exact ⟨f, rfl⟩

/-- Specification of a router that keeps at most `b` flits of a channel beyond the credits it got
back. -/
def RouterRespects (c : MasterCfg) (b : Nat) (s : MasterState) (h : MasterHist) :
    List MasterEvent → Prop
  | [] => True
  | e :: es =>
    (∀ f, e = .noc (some f) →
      (h.accepted ++ h.dropped).countP (fun g => g.vc == f.vc) < b + h.credits.count f.vc) ∧
    ∀ h' s', masterStep c s h e = (h', .ok s') → RouterRespects c b s' h' es

/-- Credit bookkeeping for C11 and C17. -/
structure DropInv (c : MasterCfg) (s : MasterState) (h : MasterHist) : Prop where
  held : s.held = none
  dropped : h.dropped = []
  fifo : ∀ v, (s.fifos v).length + h.pops.count v = h.accepted.countP (fun g => g.vc == v)
  credit : ∀ v, h.credits.count v + s.credit.toList.count v ≤ h.pops.count v

theorem dropInv_step {c : MasterCfg} (hn : 0 < c.n) (hvc : 0 < c.vcs) {b : Nat} (hb : b ≤ c.depth)
    {s : MasterState} {h : MasterHist} {hist : List (Nat × List ScFlit)}
    (hi : MasterInv c s h hist) (hd : DropInv c s h) (e : MasterEvent)
    (hg : GoodArrivals c (masterStep c s h e).1.accepted)
    (hr : ∀ f, e = .noc (some f) →
      (h.accepted ++ h.dropped).countP (fun g => g.vc == f.vc) < b + h.credits.count f.vc) :
    ∃ s', (masterStep c s h e).2 = .ok s' ∧ DropInv c s' (masterStep c s h e).1 := by
  cases e with
  | noc a =>
    have hst : masterStep c s h (.noc a) =
        ({ h with accepted := h.accepted ++ a.toList }, ejectStep c s a) := by
      simp [masterStep, hd.held]
    rw [hst] at hg ⊢
    cases a with
    | none =>
      refine ⟨{ s with push := s.pushNext, held := none }, by simp [ejectStep, hd.held], ?_⟩
      exact ⟨rfl, hd.dropped, by simpa using hd.fifo, hd.credit⟩
    | some f =>
      have hv : f.vc < c.vcs := hg.1 f (by simp)
      have hlt : (s.fifos f.vc).length < c.depth := by
        have h1 := hr f rfl
        have h2 := hd.fifo f.vc
        have h3 := hd.credit f.vc
        rw [hd.dropped, List.append_nil] at h1
        omega
      have he := ejectStep_some (c := c) (s := s) (arrive := some f) (f := f)
        (by simp [hd.held]) hv
      rw [if_pos hlt] at he
      refine ⟨_, he, ⟨rfl, hd.dropped, ?_, hd.credit⟩⟩
      intro v
      have := hd.fifo v
      by_cases hvf : v = f.vc
      · subst hvf
        simp [List.countP_append]
        omega
      · have hne : ¬ (f.vc = v) := fun e => hvf e.symm
        simp [List.countP_append, upd_ne _ _ hvf, hne]
        exact this
  | adapter cm =>
    have hga : GoodArrivals c h.accepted := by
      obtain ⟨l, hl⟩ := masterStep_accepted c s h (.adapter cm)
      rw [hl] at hg
      exact hg.prefix
    obtain ⟨s', popped, hist', h1, _, _, _, _, _, hlen, hcnt, hcr, hheld, _⟩ :=
      depackStep_inv hn hvc hi.fifo hga.2 cm
    have hst : masterStep c s h (.adapter cm) = ({ h with pops := h.pops ++ popped }, .ok s') := by
      simp only [masterStep, h1]
    rw [hst]
    refine ⟨s', rfl, ⟨by rw [hheld]; exact hd.held, hd.dropped, ?_, ?_⟩⟩
    · intro v
      have h2 := hd.fifo v
      have h3 := hcnt v
      simp only [List.count_append]
      omega
    · intro v
      have h2 := hd.credit v
      simp only [List.count_append]
      rw [hcr]
      cases hc : s.credit with
      | some w => simp only [hc] at h2 ⊢; omega
      | none =>
        simp only [hc, Option.toList_none, List.count_nil] at h2
        match popped, hlen with
        | [], _ => simp; omega
        | [x], _ => simp; omega
  | node r =>
    obtain ⟨s', g1, ⟨oq, ch, po, hs'⟩, _⟩ := portLoop_ok hi.ports r c.n (Nat.le_refl _)
    refine ⟨s', g1, ?_⟩
    subst hs'
    exact ⟨hd.held, hd.dropped, hd.fifo, hd.credit⟩
  | tick =>
    refine ⟨{ s with credit := none }, rfl, ⟨hd.held, hd.dropped, hd.fifo, ?_⟩⟩
    intro v
    have := hd.credit v
    simp [masterStep, List.count_append]
    exact this

/-- **C11** (partial): against a router that respects credits and has at most as many buffer slots
per channel as the ejection FIFO, no flit is ever dropped or even has to wait. Missing: FIFOs
smaller than the router's view of them, for which the claim is false (`C11_drop_violated`). -/
theorem C11_no_drop_partial (c : MasterCfg) (hn : 0 < c.n) (hvc : 0 < c.vcs) (b : Nat)
    (hb : b ≤ c.depth) (es : List MasterEvent)
    (hg : GoodArrivals c (masterFrom c es).1.accepted)
    (hr : RouterRespects c b (MasterState.init c) MasterHist.empty es) :
    ∃ s, (masterFrom c es).2 = .ok s ∧ s.held = none ∧ (masterFrom c es).1.dropped = [] := by
  have gen : ∀ (es : List MasterEvent) (s : MasterState) (h : MasterHist)
      (hist : List (Nat × List ScFlit)), MasterInv c s h hist → DropInv c s h →
      GoodArrivals c (masterRun c s h es).1.accepted → RouterRespects c b s h es →
      ∃ s', (masterRun c s h es).2 = .ok s' ∧ DropInv c s' (masterRun c s h es).1 := by
    intro es
    induction es with
    | nil => intro s h hist _ hd _ _; exact ⟨s, rfl, hd⟩
    | cons e es ih =>
      intro s h hist hi hd hg hr
      have hg1 : GoodArrivals c (masterStep c s h e).1.accepted := by
        simp only [masterRun] at hg
        split at hg
        · rename_i h' err heq
          rw [heq]; exact hg
        · rename_i h' s' heq
          obtain ⟨l, hl⟩ := masterRun_accepted c es s' h'
          rw [hl] at hg
          rw [heq]; exact hg.prefix
      obtain ⟨s1, hist1, h1, h2⟩ := masterStep_inv hn hvc hi e hg1
      obtain ⟨s1', h1', hd1⟩ := dropInv_step hn hvc hb hi hd e hg1 hr.1
      have : s1' = s1 := by have := h1'.symm.trans h1; simpa using this
      subst this
      have hpair : masterStep c s h e = ((masterStep c s h e).1, .ok s1') := by rw [← h1]
      have hrun : masterRun c s h (e :: es) = masterRun c s1' (masterStep c s h e).1 es := by
        rw [masterRun, hpair]
      rw [hrun] at hg ⊢
      exact ih s1' _ _ h2 hd1 hg (hr.2 _ _ hpair)
  have hd0 : DropInv c (MasterState.init c) MasterHist.empty :=
    ⟨rfl, rfl, by simp [MasterState.init, MasterHist.empty],
      by simp [MasterState.init, MasterHist.empty]⟩
  obtain ⟨s, h1, h2⟩ := gen es _ _ _ (MasterInv.init c) hd0 hg hr
  exact ⟨s, h1, h2.held, h2.dropped⟩

/-- A short run for the examples: the two flits of a beat arrive and are read. -/
def shortRun : List MasterEvent := arriveAndDepack (sampleArrivals 0 8 .readRequest)

example : RouterRespects sampleMaster 2 (MasterState.init sampleMaster) MasterHist.empty shortRun := by
  refine ⟨fun f hf => by simp [MasterHist.empty], fun h s he => ?_⟩
  cases he
  refine ⟨fun f hf => by simp at hf, fun h s he => ?_⟩
  cases he
  refine ⟨fun f hf => by simp at hf, fun h s he => ?_⟩
  cases he
  refine ⟨fun f hf => by cases hf; decide, fun h s he => ?_⟩
  cases he
  refine ⟨fun f hf => by simp at hf, fun h s he => ?_⟩
  cases he
  exact ⟨fun f hf => by simp at hf, fun h s he => trivial⟩

/-! ## C17 -/

/-- Specification of a schedule with at most one adapter edge between two NoC ticks; `b` says
whether there has been one since the last tick. -/
def Spaced : Bool → List MasterEvent → Prop
  | _, [] => True
  | b, .adapter _ :: es => b = false ∧ Spaced true es
  | _, .tick :: es => Spaced false es
  | b, .noc _ :: es => Spaced b es
  | b, .node _ :: es => Spaced b es

/-- **C17** is false in general: with two adapter edges between two NoC ticks, two flits leave the
FIFO and only one credit is ever returned. -/
theorem C17_credit_lost_violated :
    ∃ es s, (masterFrom sampleMaster es).2 = .ok s ∧
      (masterFrom sampleMaster es).1.pops = [0, 0] ∧ s.credit = none ∧
      (masterFrom sampleMaster es).1.credits = [0] :=
  ⟨(sampleArrivals 0 8 .readRequest).map (fun f => .noc (some f)) ++
    [.adapter true, .adapter true, .tick, .tick], _, rfl, rfl, rfl, rfl⟩

/-- **C17** (partial): when the adapter clock never ticks twice between two NoC ticks, the credits
returned, followed by the one about to be returned, are exactly the channels of the flits taken, in
order. Missing: a faster adapter clock, for which the claim is false
(`C17_credit_lost_violated`). -/
theorem C17_one_credit_per_flit_partial (c : MasterCfg) (hn : 0 < c.n) (hvc : 0 < c.vcs)
    (es : List MasterEvent) (hg : GoodArrivals c (masterFrom c es).1.accepted)
    (hsp : Spaced false es) :
    ∃ s, (masterFrom c es).2 = .ok s ∧
      (masterFrom c es).1.credits ++ s.credit.toList = (masterFrom c es).1.pops := by
  have gen : ∀ (es : List MasterEvent) (s : MasterState) (h : MasterHist)
      (hist : List (Nat × List ScFlit)) (b : Bool), MasterInv c s h hist →
      h.credits ++ s.credit.toList = h.pops → (b = false → s.credit = none) →
      GoodArrivals c (masterRun c s h es).1.accepted → Spaced b es →
      ∃ s', (masterRun c s h es).2 = .ok s' ∧
        (masterRun c s h es).1.credits ++ s'.credit.toList = (masterRun c s h es).1.pops := by
    intro es
    induction es with
    | nil => intro s h hist b _ hc _ _ _; exact ⟨s, rfl, hc⟩
    | cons e es ih =>
      intro s h hist b hi hc hb hg hsp
      have hg1 : GoodArrivals c (masterStep c s h e).1.accepted := by
        simp only [masterRun] at hg
        split at hg
        · rename_i h' err heq
          rw [heq]; exact hg
        · rename_i h' s' heq
          obtain ⟨l, hl⟩ := masterRun_accepted c es s' h'
          rw [hl] at hg
          rw [heq]; exact hg.prefix
      obtain ⟨s1, hist1, h1, h2⟩ := masterStep_inv hn hvc hi e hg1
      have hpair : masterStep c s h e = ((masterStep c s h e).1, .ok s1) := by rw [← h1]
      have hrun : masterRun c s h (e :: es) = masterRun c s1 (masterStep c s h e).1 es := by
        rw [masterRun, hpair]
      rw [hrun] at hg ⊢
      cases e with
      | noc a =>
        have hcr : (masterStep c s h (.noc a)).1.credits = h.credits ∧
            (masterStep c s h (.noc a)).1.pops = h.pops := by
          cases hh : s.held <;> simp [masterStep, hh]
        have hej : ejectStep c s a = .ok s1 := by
          cases hh : s.held <;> simpa [masterStep, hh] using h1
        have hsc : s1.credit = s.credit := by
          simp only [ejectStep] at hej
          split at hej
          · cases hej; rfl
          · split at hej
            · split at hej <;> (cases hej; rfl)
            · cases hej
        exact ih s1 _ _ b h2 (by rw [hcr.1, hcr.2, hsc]; exact hc) (by rw [hsc]; exact hb) hg hsp
      | adapter cm =>
        obtain ⟨hbf, hsp'⟩ := hsp
        have hga : GoodArrivals c h.accepted := by
          obtain ⟨l, hl⟩ := masterStep_accepted c s h (.adapter cm)
          rw [hl] at hg1
          exact hg1.prefix
        obtain ⟨s', popped, hist', g1, _, _, _, _, _, hlen, _, hcr, _, _⟩ :=
          depackStep_inv hn hvc hi.fifo hga.2 cm
        have hst : masterStep c s h (.adapter cm) =
            ({ h with pops := h.pops ++ popped }, .ok s') := by
          simp only [masterStep, g1]
        have hs1 : s1 = s' := by rw [hst] at h1; simpa using h1.symm
        subst hs1
        refine ih s1 _ _ true h2 ?_ (by simp) hg hsp'
        rw [hst]
        have hnone := hb hbf
        rw [hnone, Option.toList_none, List.append_nil] at hc
        rw [hcr, hnone]
        simp only [hc]
        match popped, hlen with
        | [], _ => simp
        | [x], _ => simp
      | node r =>
        obtain ⟨s', g1, ⟨oq, ch, po, hs'⟩, _⟩ := portLoop_ok hi.ports r c.n (Nat.le_refl _)
        have hs1 : s1 = s' := by
          have : (masterStep c s h (.node r)).2 = .ok s' := g1
          rw [h1] at this
          simpa using this
        subst hs1
        have hsc : s1.credit = s.credit := by subst hs'; rfl
        exact ih s1 _ _ b h2 (by rw [hsc]; exact hc) (by rw [hsc]; exact hb) hg hsp
      | tick =>
        have hs1 : s1 = { s with credit := none } := by
          simpa [masterStep] using h1.symm
        subst hs1
        refine ih _ _ _ false h2 ?_ (by simp) hg hsp
        simpa [masterStep] using hc
  exact gen es _ _ _ false (MasterInv.init c) rfl (fun _ => rfl) hg hsp

example : Spaced false shortRun := ⟨rfl, rfl, trivial⟩

/-! ## C16 -/

/-- Nothing has been taken out of the ejection FIFOs and no tail has entered them. -/
structure StuckInv (c : MasterCfg) (s : MasterState) (h : MasterHist) : Prop where
  push : ∀ v, s.push v = 0 ∧ s.pushNext v = 0 ∧ s.pop v = 0
  depack : s.depack = false
  outq : ∀ i, s.outq i = []
  port : ∀ i, s.port i = none
  del : h.delivered = []
  pops : h.pops = []

/-- **C16** is false: when the first packet of each channel is longer than the ejection FIFO, no
schedule whatever delivers anything or even takes a flit out of a FIFO. -/
theorem C16_long_packets_stuck_violated (c : MasterCfg) (hn : 0 < c.n) (hvc : 0 < c.vcs)
    (es : List MasterEvent) (hg : GoodArrivals c (masterFrom c es).1.accepted)
    (hlong : ∀ v, v < c.vcs →
      ∀ f ∈ (onVc v (masterFrom c es).1.accepted).take c.depth, f.tail = false) :
    (masterFrom c es).1.delivered = [] ∧ (masterFrom c es).1.pops = [] := by
  have gen : ∀ (es : List MasterEvent) (s : MasterState) (h : MasterHist),
      MasterInv c s h [] → StuckInv c s h →
      GoodArrivals c (masterRun c s h es).1.accepted →
      (∀ v, v < c.vcs →
        ∀ f ∈ (onVc v (masterRun c s h es).1.accepted).take c.depth, f.tail = false) →
      ∃ s', (masterRun c s h es).2 = .ok s' ∧ StuckInv c s' (masterRun c s h es).1 := by
    intro es
    induction es with
    | nil => intro s h _ hst _ _; exact ⟨s, rfl, hst⟩
    | cons e es ih =>
      intro s h hi hst hg hl
      have hpre : ∃ l, (masterRun c s h (e :: es)).1.accepted =
          (masterStep c s h e).1.accepted ++ l := by
        simp only [masterRun]
        split
        · rename_i h' err heq
          exact ⟨[], by simp [heq]⟩
        · rename_i h' s' heq
          obtain ⟨l, hl⟩ := masterRun_accepted c es s' h'
          exact ⟨l, by simp [heq, hl]⟩
      have hg1 : GoodArrivals c (masterStep c s h e).1.accepted := by
        obtain ⟨l, hl⟩ := hpre
        rw [hl] at hg
        exact hg.prefix
      have hl1 : ∀ v, v < c.vcs →
          ∀ f ∈ (onVc v (masterStep c s h e).1.accepted).take c.depth, f.tail = false := by
        obtain ⟨l, hle⟩ := hpre
        intro v hv f hf
        apply hl v hv f
        rw [hle, onVc_append, List.take_append]
        simp [hf]
      have key : ∃ s1, (masterStep c s h e).2 = .ok s1 ∧ MasterInv c s1 (masterStep c s h e).1 [] ∧
          StuckInv c s1 (masterStep c s h e).1 := by
        cases e with
        | noc a =>
          have hacc : (masterStep c s h (.noc a)).1.accepted =
              h.accepted ++ (match s.held with | none => a.toList | some _ => []) := by
            cases hh : s.held <;> simp [masterStep, hh]
          have hdel : (masterStep c s h (.noc a)).1.delivered = h.delivered ∧
              (masterStep c s h (.noc a)).1.pops = h.pops := by
            cases hh : s.held <;> simp [masterStep, hh]
          have hstep : (masterStep c s h (.noc a)).2 = ejectStep c s a := by
            cases hh : s.held <;> simp [masterStep, hh]
          have ha : ∀ f, (match s.held with | some f => some f | none => a) = some f →
              f.vc < c.vcs := by
            intro f hf
            cases hh : s.held with
            | none => exact hg1.1 f (by rw [hacc, hh]; simp only [hh] at hf; simp [hf])
            | some g =>
              simp only [hh, Option.some.injEq] at hf
              subst hf
              exact hi.fifo.heldVc g hh
          obtain ⟨s1, hist1, g1, g2⟩ := masterStep_inv hn hvc hi (.noc a) hg1
          refine ⟨s1, g1, ?_⟩
          rw [hstep] at g1
          have hE : FifoInv c s1 (masterStep c s h (.noc a)).1.accepted [] ∧
              s1.outq = s.outq ∧ s1.port = s.port := by
            cases hh : s.held with
            | none =>
              obtain ⟨s2, k1, k2, k3, k4, k5, _⟩ := ejectStep_inv hi.fifo a
                (fun f hf => ha f (by simp [hh, hf]))
              have : s1 = s2 := by have := g1.symm.trans k1; simpa using this
              subst this
              exact ⟨by rw [hacc]; exact k2, k3, k5⟩
            | some g =>
              have he : ejectStep c s a = ejectStep c s none := by simp [ejectStep, hh]
              obtain ⟨s2, k1, k2, k3, k4, k5, _⟩ := ejectStep_inv hi.fifo none (by simp)
              have : s1 = s2 := by rw [he] at g1; have := g1.symm.trans k1; simpa using this
              subst this
              refine ⟨?_, k3, k5⟩
              rw [hacc]
              simpa [hh] using k2
          have hpn : ∀ v, s1.push v = 0 ∧ s1.pushNext v = 0 ∧ s1.pop v = 0 ∧ s1.depack = false := by
            cases hcur : (match s.held with | some f => some f | none => a) with
            | none =>
              have hh : s.held = none := by
                cases hh : s.held with
                | none => rfl
                | some g => simp [hh] at hcur
              have haa : a = none := by simpa [hh] using hcur
              subst haa
              simp only [ejectStep, hh, Except.ok.injEq] at g1
              subst g1
              intro v
              exact ⟨(hst.push v).2.1, (hst.push v).2.1, (hst.push v).2.2, hst.depack⟩
            | some f =>
              have hv := ha f hcur
              have hes := ejectStep_some hcur hv
              rw [hes] at g1
              split at g1
              · rename_i hroom
                have hnt : f.tail = false := by
                  cases ht : f.tail with
                  | false => rfl
                  | true =>
                    -- the tail would be among the first `depth` flits of its channel
                    have hstr := hi.fifo.stream f.vc hv
                    have hins : inside s f.vc = s.fifos f.vc ++ onVc f.vc s.held.toList := by
                      simp [inside, hst.depack]
                    have hmem : ejectFlit f ∈
                        (onVc f.vc (masterStep c s h (.noc a)).1.accepted).take c.depth := by
                      have hE1 : ∃ t, onVc f.vc (masterStep c s h (.noc a)).1.accepted =
                          s.fifos f.vc ++ ejectFlit f :: t := by
                        rw [hacc, onVc_append, hstr, hins]
                        cases hh : s.held with
                        | none =>
                          have haa : a = some f := by simpa [hh] using hcur
                          subst haa
                          exact ⟨[], by simp [histVc, onVc]⟩
                        | some g =>
                          simp only [hh, Option.some.injEq] at hcur
                          subst hcur
                          exact ⟨[], by simp [histVc, onVc]⟩
                      obtain ⟨t, ht⟩ := hE1
                      rw [ht, List.take_append]
                      have : ∃ k, c.depth - (s.fifos f.vc).length = k + 1 :=
                        ⟨c.depth - (s.fifos f.vc).length - 1, by omega⟩
                      obtain ⟨k, hk⟩ := this
                      rw [hk, List.take_succ_cons]
                      simp
                    have := hl1 f.vc hv _ hmem
                    simp [ejectFlit, ht] at this
                simp only [Except.ok.injEq] at g1
                subst g1
                intro v
                exact ⟨(hst.push v).2.1, by simpa [hnt] using (hst.push v).2.1, (hst.push v).2.2,
                  hst.depack⟩
              · simp only [Except.ok.injEq] at g1
                subst g1
                intro v
                exact ⟨(hst.push v).2.1, (hst.push v).2.1, (hst.push v).2.2, hst.depack⟩
          refine ⟨⟨hE.1, ?_⟩, ⟨fun v => ⟨(hpn v).1, (hpn v).2.1, (hpn v).2.2.1⟩, (hpn 0).2.2.2,
            by rw [hE.2.1]; exact hst.outq, by rw [hE.2.2]; exact hst.port,
            by rw [hdel.1]; exact hst.del, by rw [hdel.2]; exact hst.pops⟩⟩
          have := g2.ports
          intro i hin
          have h3 := this i hin
          rw [hE.2.1, hst.outq i] at h3 ⊢
          rw [hE.2.2, hst.port i] at h3 ⊢
          rw [hdel.1, hst.del] at h3 ⊢
          exact ⟨by simp [beatsOn, histIf], by simp, h3.chunkNil, by simp, by simp,
            ⟨[], by simp [histIf]⟩⟩
        | adapter cm =>
          have hga : GoodArrivals c h.accepted := by
            obtain ⟨l, hl⟩ := masterStep_accepted c s h (.adapter cm)
            rw [hl] at hg1
            exact hg1.prefix
          obtain ⟨s', popped, hist', g1, g2, g3, g4, g5, _, _, _, _, _, g11⟩ :=
            depackStep_inv hn hvc hi.fifo hga.2 cm
          obtain ⟨rfl, rfl, prio, pu, rfl, hle⟩ := g11 (fun v => (hst.push v).2.1)
          have hst1 : masterStep c s h (.adapter cm) = (h, .ok { s with prio, push := pu }) := by
            simp only [masterStep, g1, List.append_nil]
          rw [hst1]
          refine ⟨_, rfl, ⟨g2, hi.ports⟩, ⟨fun v => ⟨?_, (hst.push v).2⟩, hst.depack, hst.outq,
            hst.port, hst.del, hst.pops⟩⟩
          have h1 := hle v
          have h2 := (hst.push v).2.1
          simp only at h1 ⊢
          omega
        | node r =>
          obtain ⟨s1, hist1, k1, k2⟩ := masterStep_inv hn hvc hi (.node r) hg1
          obtain ⟨s', g1, ⟨oq, ch, po, hs'⟩, hge, g4, g5, g6⟩ :=
            portLoop_ok hi.ports r c.n (Nat.le_refl _)
          have : s1 = s' := by
            have h3 : (masterStep c s h (.node r)).2 = .ok s' := g1
            have h4 := k1.symm.trans h3
            simpa using h4
          subst this
          have hoq : ∀ i, s1.outq i = [] := by
            intro i
            have := g6 i
            rw [hst.outq i] at this
            exact List.length_eq_zero_iff.mp (Nat.le_zero.mp this)
          have hpo : ∀ i, s1.port i = none := by
            intro i
            by_cases hin : i < c.n
            · have := (g5 i hin).2
              rw [hoq i] at this
              simpa [presentPhase] using this.symm
            · rw [(hge i (by omega)).2.2]; exact hst.port i
          have hhs : portHandshakes c s r = [] := by
            simp only [portHandshakes, List.filterMap_eq_nil_iff]
            intro i _
            simp [hst.port i]
          have hh : (masterStep c s h (.node r)).1 = h := by
            simp [masterStep, hhs]
          rw [hh]
          refine ⟨s1, k1, ⟨?_, ?_⟩, ⟨?_, ?_, hoq, hpo, hst.del, hst.pops⟩⟩
          · have hf := hi.fifo
            subst hs'
            exact ⟨hf.prio, hf.stream, hf.histOk, hf.idle, hf.busy,
              fun hd f hfm => Nat.lt_of_le_of_lt (g6 _) (hf.room hd f hfm), hf.cnt, hf.le,
              hf.fifoLen, fun i => Nat.le_trans (g6 i) (hf.outLen i), hf.heldVc⟩
          · intro i hin
            have h3 := g4 i hin
            rw [hst.port i] at h3
            simpa using h3
          · subst hs'; exact hst.push
          · subst hs'; exact hst.depack
        | tick =>
          have hf := hi.fifo
          exact ⟨_, rfl, ⟨⟨hf.prio, hf.stream, hf.histOk, hf.idle, hf.busy, hf.room, hf.cnt, hf.le,
            hf.fifoLen, hf.outLen, hf.heldVc⟩, hi.ports⟩,
            ⟨hst.push, hst.depack, hst.outq, hst.port, hst.del, hst.pops⟩⟩
      obtain ⟨s1, k1, k2, k3⟩ := key
      have hpair : masterStep c s h e = ((masterStep c s h e).1, .ok s1) := by rw [← k1]
      have hrun : masterRun c s h (e :: es) = masterRun c s1 (masterStep c s h e).1 es := by
        rw [masterRun, hpair]
      rw [hrun] at hg hl ⊢
      exact ih s1 _ k2 k3 hg hl
  have hst0 : StuckInv c (MasterState.init c) MasterHist.empty :=
    ⟨by simp [MasterState.init], rfl, by simp [MasterState.init], by simp [MasterState.init], rfl, rfl⟩
  obtain ⟨s, _, h2⟩ := gen es _ _ (MasterInv.init c) hst0 hg hlong
  exact ⟨h2.del, h2.pops⟩

/-- The hypotheses of `C16_long_packets_stuck_violated` hold for a three-flit packet and an
ejection FIFO of two flits, with all of the packet's flits already read from the router. -/
example : ∃ es, es.length = 9 ∧
    GoodArrivals { sampleMaster with depth := 2 }
      (masterFrom { sampleMaster with depth := 2 } es).1.accepted ∧
    (masterFrom { sampleMaster with depth := 2 } es).1.accepted.length = 3 ∧
    ∀ v, v < 5 → ∀ f ∈ (onVc v (masterFrom { sampleMaster with depth := 2 } es).1.accepted).take 2,
      f.tail = false := by
  refine ⟨arriveAndDepack (sampleArrivals 0 128 .readRequest), rfl, ?_, rfl, ?_⟩
  · have e : (masterFrom { sampleMaster with depth := 2 }
        (arriveAndDepack (sampleArrivals 0 128 .readRequest))).1.accepted =
        sampleArrivals 0 128 .readRequest := by rfl
    rw [e]
    constructor
    · decide
    · intro v hv
      change v < 5 at hv
      have h : v = 0 ∨ v = 1 ∨ v = 2 ∨ v = 3 ∨ v = 4 := by omega
      rcases h with rfl | rfl | rfl | rfl | rfl
      · exact ⟨by decide, fun _ => rfl, fun _ => rfl, trivial⟩
      all_goals exact ⟨by decide, trivial⟩
  · intro v hv
    have h : v = 0 ∨ v = 1 ∨ v = 2 ∨ v = 3 ∨ v = 4 := by omega
    rcases h with rfl | rfl | rfl | rfl | rfl <;> decide


theorem cutAtTails_flatten (ps : List (List ScFlit)) (l : List ScFlit)
    (h : ∀ p ∈ ps, ClosedPacket p) : (cutAtTails [] (ps.flatten ++ l)).2 = (cutAtTails [] l).2 := by
  induction ps with
  | nil => rfl
  | cons p ps ih =>
    obtain ⟨ini, last, rfl, h3, h2⟩ := h p (by simp)
    rw [List.flatten_cons, List.append_assoc, List.append_assoc, cutAtTails_noTail _ _ _ h2]
    simp only [List.singleton_append, cutAtTails, h3, if_true]
    exact ih (fun q hq => h q (by simp [hq]))

/-- **C16**, what holds instead: when every packet fits in an ejection FIFO (and so does the part
already received of a packet whose tail has not come yet), then from every reachable state, without
any further arrival, the adapter can reach a state in which every complete packet it accepted has
been handed over on its port. So no reachable state is a dead end. Missing: fairness of the
schedule, that is, that every schedule in which all clocks keep ticking gets there. -/
theorem C16_short_packets_deliverable_partial (c : MasterCfg) (hn : 0 < c.n) (hvc : 0 < c.vcs)
    (ho : 0 < c.outDepth) (es : List MasterEvent)
    (hg : GoodArrivals c (masterFrom c es).1.accepted)
    (hshort : ∀ v, v < c.vcs →
      (∀ p ∈ packetsOf (onVc v (masterFrom c es).1.accepted), p.length ≤ c.depth) ∧
      (cutAtTails [] (onVc v (masterFrom c es).1.accepted)).2.length ≤ c.depth) :
    ∃ (es' : List MasterEvent) (s' : MasterState) (hist : List (Nat × List ScFlit)),
      (∀ e ∈ es', e.isInternal = true) ∧ (masterFrom c (es ++ es')).2 = .ok s' ∧
      (masterFrom c (es ++ es')).1.accepted = (masterFrom c es).1.accepted ∧
      (∀ v, v < c.vcs → packetsOf (onVc v (masterFrom c es).1.accepted) =
        (hist.filter (fun x => x.1 == v)).map (·.2)) ∧
      (∀ i, i < c.n → (beatsOn i (masterFrom c (es ++ es')).1.delivered).map some =
        ((hist.filter (fun x => pktDest x.2 == some i)).map (·.2)).flatMap
          (fun p => List.replicate
            ((p.length + (numFlits (c.dataw i) - 1)) / numFlits (c.dataw i)) (axisOutput p))) := by
  obtain ⟨s, hist, h1, h2⟩ := masterRun_inv hn hvc es _ _ _ (MasterInv.init c) hg
  rw [List.nil_append] at h2
  have hrun : masterRun c (MasterState.init c) MasterHist.empty es =
      ((masterFrom c es).1, .ok s) := Prod.ext rfl h1
  -- states without complete packets and without a pending packet
  have idle : ∀ (s : MasterState) (h : MasterHist) (hist : List (Nat × List ScFlit)),
      MasterInv c s h hist → (∀ v, v < c.vcs → (s.fifos v).countP (fun f => f.tail) = 0) →
      s.depack = false := by
    intro s h hist hi hz
    cases hd : s.depack with
    | false => rfl
    | true =>
      obtain ⟨v, vs, k1, k2, _⟩ := hi.fifo.busy hd
      have hv : v < c.vcs := by simpa using hi.fifo.prio.subset (k1 ▸ List.mem_cons_self ..)
      have := hz v hv
      have := hi.fifo.cnt v
      have := hi.fifo.le v
      omega
  have noTail : ∀ (s : MasterState), (∀ v, v < c.vcs → (s.fifos v).countP (fun f => f.tail) = 0) →
      ∀ v, v < c.vcs → ∀ f ∈ s.fifos v, f.tail = false := by
    intro s hz v hv f hf
    have := List.countP_eq_zero.mp (hz v hv) f hf
    simpa using this
  have finish : ∀ (s' : MasterState) (h' : MasterHist) (hist' : List (Nat × List ScFlit))
      (es' : List MasterEvent), (∀ e ∈ es', e.isInternal = true) →
      masterRun c s (masterFrom c es).1 es' = (h', .ok s') → MasterInv c s' h' hist' →
      h'.accepted = (masterFrom c es).1.accepted → s'.held = none →
      (∀ i, i < c.n → s'.outq i = []) →
      (∀ v, v < c.vcs → (s'.fifos v).countP (fun f => f.tail) = 0) →
      ∃ (es' : List MasterEvent) (s' : MasterState) (hist : List (Nat × List ScFlit)),
      (∀ e ∈ es', e.isInternal = true) ∧ (masterFrom c (es ++ es')).2 = .ok s' ∧
      (masterFrom c (es ++ es')).1.accepted = (masterFrom c es).1.accepted ∧
      (∀ v, v < c.vcs → packetsOf (onVc v (masterFrom c es).1.accepted) =
        (hist.filter (fun x => x.1 == v)).map (·.2)) ∧
      (∀ i, i < c.n → (beatsOn i (masterFrom c (es ++ es')).1.delivered).map some =
        ((hist.filter (fun x => pktDest x.2 == some i)).map (·.2)).flatMap
          (fun p => List.replicate
            ((p.length + (numFlits (c.dataw i) - 1)) / numFlits (c.dataw i)) (axisOutput p))) := by
    intro s' h' hist' es' e1 e2 e3 e4 e5 e6 e7
    have hfull : masterFrom c (es ++ es') = (h', .ok s') := by
      show masterRun c _ _ (es ++ es') = _
      rw [masterRun_append' hrun]
      exact e2
    have hidle := idle s' h' hist' e3 e7
    refine ⟨es', s', hist', e1, by rw [hfull], by rw [hfull]; exact e4, ?_, ?_⟩
    · intro v hv
      have hs := e3.fifo.stream v hv
      rw [← e4, hs, packetsOf_flatten]
      · have hin : inside s' v = s'.fifos v := by
          simp [inside, hidle, e5, onVc]
        rw [hin, packetsOf, packetsOf_noTail _ (noTail s' e7 v hv)]
        simp [histVc]
      · intro p hp
        simp only [histVc, List.mem_map, List.mem_filter] at hp
        obtain ⟨x, ⟨hx, _⟩, rfl⟩ := hp
        exact (e3.fifo.histOk x hx).1
    · intro i hi
      have := (e3.ports i hi).outs
      rw [e6 i hi] at this
      rw [hfull]
      simp only [List.flatMap_nil, List.drop_nil, List.append_nil] at this
      exact this
  obtain ⟨es1, s1, h1', hist1, a1, a2, a3, a4, a5, a6, a7⟩ :=
    drain_fifos hn hvc ho _ s _ hist h2 hg (Nat.le_refl _)
  change masterRun c s (masterFrom c es).1 es1 = _ at a2
  change h1'.accepted = (masterFrom c es).1.accepted at a4
  cases hheld : s1.held with
  | none => exact finish s1 h1' hist1 es1 a1 a2 a3 a4 hheld a6 a7
  | some f =>
    have hfv := a3.fifo.heldVc f hheld
    have hg1 : GoodArrivals c h1'.accepted := by rw [a4]; exact hg
    have hidle := idle s1 h1' hist1 a3 a7
    have hcl : ∀ p ∈ histVc f.vc hist1, ClosedPacket p := by
      intro p hp
      simp only [histVc, List.mem_map, List.mem_filter] at hp
      obtain ⟨x, ⟨hx, _⟩, rfl⟩ := hp
      exact (a3.fifo.histOk x hx).1
    have hin : inside s1 f.vc = s1.fifos f.vc ++ [ejectFlit f] := by
      simp [inside, hidle, hheld, onVc]
    have hlen : (s1.fifos f.vc).length < c.depth := by
      have hs := a3.fifo.stream f.vc hfv
      rw [a4, hin] at hs
      obtain ⟨hsh1, hsh2⟩ := hshort f.vc hfv
      have hnt := noTail s1 a7 f.vc hfv
      rw [hs] at hsh1 hsh2
      rw [cutAtTails_flatten _ _ hcl, cutAtTails_noTail _ _ _ hnt] at hsh2
      rw [packetsOf_flatten _ _ hcl, packetsOf, cutAtTails_noTail _ _ _ hnt] at hsh1
      cases ht : (ejectFlit f).tail with
      | true =>
        have := hsh1 (s1.fifos f.vc ++ [ejectFlit f]) (by simp [cutAtTails, ht])
        simp at this; omega
      | false =>
        simp [cutAtTails, ht] at hsh2
        omega
    have hstep : masterStep c s1 h1' (.noc none) = (h1', .ok { s1 with
        push := s1.pushNext
        held := none
        fifos := upd s1.fifos f.vc (s1.fifos f.vc ++ [ejectFlit f])
        pushNext := if f.tail then upd s1.pushNext f.vc (s1.pushNext f.vc + 1) else s1.pushNext }) := by
      simp [masterStep, ejectStep, hheld, hfv, hlen]
    obtain ⟨s2, hist2, b1, b2⟩ := masterStep_inv hn hvc a3 (.noc none) (by rw [hstep]; exact hg1)
    rw [hstep] at b1 b2
    have hs2 : s2.held = none := by
      simp only [Except.ok.injEq] at b1
      rw [← b1]
    obtain ⟨es2, s3, h3, hist3, d1, d2, d3, d4, d5, d6, d7⟩ :=
      drain_fifos hn hvc ho _ s2 _ _ b2 hg1 (Nat.le_refl _)
    refine finish s3 h3 hist3 (es1 ++ .noc none :: es2) ?_ ?_ d3 (d4.trans a4) (by rw [d5, hs2]) d6 d7
    · intro e he
      simp only [List.mem_append, List.mem_cons] at he
      rcases he with he | rfl | he
      · exact a1 e he
      · rfl
      · exact d1 e he
    · rw [masterRun_append' a2, masterRun, hstep]
      simp only at b1 ⊢
      cases b1
      exact d2

/-- The hypotheses of `C16_short_packets_deliverable_partial` hold for the four-flit sample. -/
example : ∀ v, v < sampleMaster.vcs →
    (∀ p ∈ packetsOf (onVc v (masterFrom sampleMaster sampleRun).1.accepted),
      p.length ≤ sampleMaster.depth) ∧
    (cutAtTails [] (onVc v (masterFrom sampleMaster sampleRun).1.accepted)).2.length ≤
      sampleMaster.depth := by
  intro v hv
  change v < 5 at hv
  have h : v = 0 ∨ v = 1 ∨ v = 2 ∨ v = 3 ∨ v = 4 := by omega
  rcases h with rfl | rfl | rfl | rfl | rfl <;> exact ⟨by decide, by decide⟩

end RadSim
