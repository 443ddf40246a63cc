import Verif.Lemmas.AxisSlaveCredit
import Verif.Props.AxisPacket

/-!
# C05 - C09: AXI-Stream slave adapter
-/

namespace RadSim

/-! ## C05, C06: who is given ready -/

/-- The `tready` outputs that the ports see in a settled cycle, starting from the priority queue
the constructor built; `InputReady` restores that queue each time it runs
(`inputReady_range`, `rad-sim/sim/noc/axis_slave_adapter.cpp:78-105`). -/
def treadyOf (n : Nat) (inFull injFull : Bool) (valid : Nat → Bool) (i : Nat) : Bool :=
  match inputReady n inFull injFull valid (List.range n) with
  | some (_, ready) => ready i
  | none => false

/-- **C05.** In every cycle the arbitration ends, leaves its queue as it found it, gives ready to
at most one port, only to an existing port with valid data, to none when a buffer is full, and to
some port whenever one is valid and the buffers have room. -/
theorem C05_ready_is_one_hot (n : Nat) (hn : 0 < n) (inFull injFull : Bool) (valid : Nat → Bool) :
    (∃ ready, inputReady n inFull injFull valid (List.range n) = some (List.range n, ready)) ∧
    (∀ i j, treadyOf n inFull injFull valid i = true → treadyOf n inFull injFull valid j = true →
      i = j) ∧
    (∀ i, treadyOf n inFull injFull valid i = true →
      i < n ∧ valid i = true ∧ inFull = false ∧ injFull = false) ∧
    (inFull = false → injFull = false → (∃ i, i < n ∧ valid i = true) →
      ∃ i, treadyOf n inFull injFull valid i = true) := by
  have h := inputReady_range n hn inFull injFull valid
  have ht : ∀ i, treadyOf n inFull injFull valid i =
      (!inFull && (if injFull then none else (List.range n).find? valid) == some i) := by
    intro i; simp [treadyOf, h]
  refine ⟨⟨_, h⟩, ?_, ?_, ?_⟩
  · intro i j hi hj
    rw [ht] at hi hj
    simp only [Bool.and_eq_true, beq_iff_eq] at hi hj
    have := hi.2.symm.trans hj.2
    simpa using this
  · intro i hi
    rw [ht] at hi
    simp only [Bool.and_eq_true, beq_iff_eq, Bool.not_eq_true'] at hi
    cases hf : injFull with
    | true => simp [hf] at hi
    | false =>
      simp only [hf, Bool.false_eq_true, if_false] at hi
      have := find?_range_le hi.2
      exact ⟨this.1, this.2.1, hi.1, rfl⟩
  · intro h1 h2 ⟨i, hi, hv⟩
    cases hsel : (List.range n).find? valid with
    | none =>
      rw [List.find?_eq_none] at hsel
      exact absurd hv (hsel i (by simpa using hi))
    | some j => exact ⟨j, by rw [ht]; simp [h1, h2, hsel]⟩

example : treadyOf 4 false false (fun i => i == 2 || i == 3) 2 = true := by decide

/-- **C06** is false: port 0 wins every cycle in which it has data, so a port that keeps its valid
high is never given ready while port 0 keeps sending, for as long as one likes and whatever the
buffers do. -/
theorem C06_starvation_violated (n i : Nat) (hn : 0 < n) (hi : 0 < i)
    (inFull injFull : Nat → Bool) (valid : Nat → Nat → Bool) (hbusy : ∀ t, valid t 0 = true) :
    ∀ t, treadyOf n (inFull t) (injFull t) (valid t) i = false := by
  intro t
  have h := inputReady_range n hn (inFull t) (injFull t) (valid t)
  simp only [treadyOf, h]
  cases hf : injFull t with
  | true => simp
  | false =>
    simp only [Bool.false_eq_true, if_false]
    cases hsel : (List.range n).find? (valid t) with
    | none => simp
    | some j =>
      have h2 := find?_range_le hsel
      have : j = 0 := by
        by_cases hj : j = 0
        · exact hj
        · have := h2.2.2 0 (by omega)
          rw [hbusy t] at this
          cases this
      subst this
      have : ¬ (0 = i) := by omega
      simp [this]

example : treadyOf 2 false false (fun _ => true) 1 = false := by decide

/-- **C06** (partial): a port is given ready in the first cycle in which the buffers have room and
no lower-numbered port has data. Missing: service while lower-numbered ports keep sending, for
which the claim is false (`C06_starvation_violated`). -/
theorem C06_served_when_lower_ports_idle_partial (n i : Nat) (hi : i < n) (valid : Nat → Bool)
    (hv : valid i = true) (hlow : ∀ j, j < i → valid j = false) :
    treadyOf n false false valid i = true := by
  have h := inputReady_range n (by omega) false false valid
  simp only [treadyOf, h]
  have : (List.range n).find? valid = some i := by
    rw [List.find?_range_eq_some]
    exact ⟨hv, by simpa using hi, fun j hj => by simp [hlow j hj]⟩
  simp [this]

example : treadyOf 3 false false (fun i => i == 1 || i == 2) 1 = true :=
  C06_served_when_lower_ports_idle_partial 3 1 (by decide) _ (by decide) (by decide)

/-! ## C07, C08: occupancy and the stream -/

/-- **C07.** With no reset in between, in every interleaving of the three clocks, every stall
pattern and every credit pattern, the FIFO-size assertion never fires and the arbitration loop
always ends: the only way a run can stop is an error of the credit accounting. -/
theorem C07_assert_never_fires_partial (c : SlaveCfg) (hn : 0 < c.n) (es : List SlaveEvent)
    (hr : ∀ e ∈ es, e.isReset = false) (err : SlaveErr)
    (h : slaveRun c (SlaveState.init c) es = .error err) : ∃ b, err = .buf b := by
  have gen : ∀ (es : List SlaveEvent) (s : SlaveState), SlaveInv c s →
      (∀ e ∈ es, e.isReset = false) → slaveRun c s es = .error err → ∃ b, err = .buf b := by
    intro es
    induction es with
    | nil => intro s _ _ h; simp [slaveRun] at h
    | cons e es ih =>
      intro s hi hr h
      simp only [slaveRun] at h
      split at h
      · rename_i err' h1
        cases h
        exact slaveStep_no_fifo_error hn hi h1
      · rename_i s' out h1
        have hi' := (slaveStep_inv hn (hr e (by simp)) h1 hi).1
        split at h
        · rename_i err' h2
          cases h
          exact ih s' hi' (fun e he => hr e (by simp [he])) h2
        · simp at h
  exact gen es _ (SlaveInv.init c) hr h

/-- Helper for C07/C08: the invariant and the stream equation along a run. -/
theorem slaveRun_inv (c : SlaveCfg) (hn : 0 < c.n) :
    ∀ (es : List SlaveEvent) (s s' : SlaveState) (acc : List AxisTxn) (out : List BsFlit),
      SlaveInv c s → (∀ e ∈ es, e.isReset = false) → slaveRun c s es = .ok (s', acc, out) →
      SlaveInv c s' ∧ ∃ fs, out = fs.map (injectFlit c.radId c.portalId) ∧
        pending c s ++ acc.flatMap (beatFlits c) = fs ++ pending c s' := by
  intro es
  induction es with
  | nil =>
    intro s s' acc out hi _ h
    simp only [slaveRun, Except.ok.injEq, Prod.mk.injEq] at h
    obtain ⟨rfl, rfl, rfl⟩ := h
    exact ⟨hi, [], rfl, by simp⟩
  | cons e es ih =>
    intro s s' acc out hi hr h
    simp only [slaveRun] at h
    split at h
    · simp at h
    · rename_i s1 out1 h1
      split at h
      · simp at h
      · rename_i s2 acc2 out2 h2
        simp only [Except.ok.injEq, Prod.mk.injEq] at h
        obtain ⟨rfl, rfl, rfl⟩ := h
        obtain ⟨hi1, fs1, e1, e2⟩ := slaveStep_inv hn (hr e (by simp)) h1 hi
        obtain ⟨hi2, fs2, e3, e4⟩ := ih s1 s2 acc2 out2 hi1 (fun e he => hr e (by simp [he])) h2
        refine ⟨hi2, fs1 ++ fs2, by simp [e1, e3], ?_⟩
        rw [List.flatMap_append, ← List.append_assoc, e2, List.append_assoc, e4, List.append_assoc]

/-- **C07**, occupancy (partial: no reset during the run; with one, see `C07_reset_violated`): at
every instant the two FIFOs hold at most two beats and at most the configured number of flits. -/
theorem C07_occupancy_bounded_partial (c : SlaveCfg) (hn : 0 < c.n) (es : List SlaveEvent)
    (hr : ∀ e ∈ es, e.isReset = false) (s : SlaveState) (acc : List AxisTxn) (out : List BsFlit)
    (h : slaveRun c (SlaveState.init c) es = .ok (s, acc, out)) :
    s.inFifo.length ≤ 2 ∧ s.injFifo.length ≤ c.depth := by
  obtain ⟨hi, _⟩ := slaveRun_inv c hn es _ _ _ _ (SlaveInv.init c) hr h
  exact ⟨hi.inLen, hi.injLen⟩

/-- **C08.** With no reset in between, in every interleaving of the clocks and every stall
pattern: the flits handed to the NoC, followed by the flits still inside the adapter, are exactly
the packets of the beats that completed a handshake, in order. Nothing is lost, repeated,
reordered or invented. -/
theorem C08_source_lossless_ordered (c : SlaveCfg) (hn : 0 < c.n) (es : List SlaveEvent)
    (hr : ∀ e ∈ es, e.isReset = false) (s : SlaveState) (acc : List AxisTxn) (out : List BsFlit)
    (h : slaveRun c (SlaveState.init c) es = .ok (s, acc, out)) :
    ∃ inside : List ScFlit,
      out ++ inside.map (injectFlit c.radId c.portalId) =
        (acc.flatMap (fun t => packetFlits c.vc (numFlits (c.dataw t.iface)) t)).map
          (injectFlit c.radId c.portalId) ∧
      inside = s.toInj.toList ++ s.injFifo ++ (s.inFifo.flatMap
        (fun t => packetFlits c.vc (numFlits (c.dataw t.iface)) t)).drop s.cycle ∧
      (s.toInj = none → s.injFifo = [] → s.inFifo = [] → inside = []) := by
  obtain ⟨_, fs, e1, e2⟩ := slaveRun_inv c hn es _ _ _ _ (SlaveInv.init c) hr h
  refine ⟨pending c s, ?_, rfl, ?_⟩
  · have : pending c (SlaveState.init c) = [] := by simp [pending, SlaveState.init]
    rw [this, List.nil_append] at e2
    have e3 := congrArg (List.map (injectFlit c.radId c.portalId)) e2
    rw [List.map_append, ← e1] at e3
    exact e3.symm
  · intro h1 h2 h3
    simp [pending, h1, h2, h3]

/-- A configuration for the examples: two ports of 8 and 512 bits, injection FIFO of 4. -/
def sampleSlave : SlaveCfg where
  n := 2
  dataw := fun i => if i = 0 then 8 else 512
  types := fun _ => .readRequest
  vc := sampleVc
  depth := 4
  radId := 2
  portalId := 9
  buf := ⟨5, -1, 8, true⟩

/-- Both ports offer a beat. -/
def bothOffer : Nat → Option AxisTxn := fun _ => some sampleTxn

example : ∃ s acc out, slaveRun sampleSlave (SlaveState.init sampleSlave)
    [.node bothOffer false, .adapter, .noc [], .adapter, .node bothOffer false, .noc [0]] =
      .ok (s, acc, out) ∧ acc.length = 2 ∧ out.length = 2 := by
  refine ⟨_, _, _, rfl, ?_, ?_⟩ <;> decide

/-- **C07** is false when reset is asserted during operation: reset clears the full flag of the
input FIFO but not the FIFO, and the next beat trips the assertion. -/
theorem C07_reset_violated :
    ∃ es, slaveRun sampleSlave (SlaveState.init sampleSlave) es = .error .fifoAssert ∧
      (∀ e ∈ es, e.isReset = true ∨ ∃ b, e = .node b false) := by
  refine ⟨[.node bothOffer false, .node bothOffer false, .rstNode, .node bothOffer false], ?_, ?_⟩
  · rfl
  · intro e he
    simp only [List.mem_cons, List.not_mem_nil, or_false] at he
    rcases he with rfl | rfl | rfl | rfl
    · exact Or.inr ⟨_, rfl⟩
    · exact Or.inr ⟨_, rfl⟩
    · exact Or.inl rfl
    · exact Or.inr ⟨_, rfl⟩

/-- Reset during operation also breaks C08: the packetisation counter restarts in the middle of a
beat, so a two-flit beat puts three flits into the injection FIFO. -/
theorem C08_reset_violated :
    ∃ es s acc out, slaveRun sampleSlave (SlaveState.init sampleSlave) es = .ok (s, acc, out) ∧
      s.inFifo = [] ∧ s.toInj = none ∧
      (acc.flatMap (fun t => packetFlits sampleVc (numFlits (sampleSlave.dataw t.iface)) t)).length
        = 2 ∧
      out.length + s.injFifo.length = 3 := by
  refine ⟨[.node bothOffer false, .adapter, .rstAdapter, .adapter, .adapter], _, _, _, rfl, ?_⟩
  decide

/-- ... and the router's accounting then stops the program, because the second head flit takes a
channel that is still in use. -/
theorem C08_reset_aborts :
    ∃ es, slaveRun { sampleSlave with buf := ⟨5, -1, 8, false⟩ } (SlaveState.init sampleSlave) es =
      .error (.buf .takenInUse) :=
  ⟨[.node bothOffer false, .adapter, .rstAdapter, .adapter, .adapter, .noc [], .noc []], rfl⟩

/-! ## C09: flow control -/

/-- Specification of a router that returns credits only for flits it has been given: `sent` and
`cred` are the flits handed over and the credits returned so far. -/
def EnvOk (c : SlaveCfg) (s : SlaveState) (sent : List BsFlit) (cred : List Nat) :
    List SlaveEvent → Prop
  | [] => True
  | e :: es =>
    e.isReset = false ∧
    (∀ l, e = .noc l → l.Nodup ∧ ∀ s1 o, injectPhase c s = .ok (s1, o) →
      ∀ v ∈ l, cred.count v < (sent ++ o).countP (fun b => b.vc == v)) ∧
    ∀ s' o, slaveStep c s e = .ok (s', o) →
      EnvOk c s' (sent ++ o) (cred ++ (match e with | .noc l => l | _ => [])) es

/-- Specification: flits of channel `v` handed over but not yet credited after a run. -/
def outstanding (v : Nat) (out : List BsFlit) (es : List SlaveEvent) : Int :=
  (out.countP (fun b => b.vc == v) : Int) -
    ((es.flatMap (fun | .noc l => l | _ => [])).count v : Nat)

structure CreditInv (c : SlaveCfg) (s : SlaveState) (sent : List BsFlit) (cred : List Nat) :
    Prop where
  inv : SlaveInv c s
  buf : BufInv c.buf s.buf
  occ : ∀ v, s.buf.vcOcc v = (sent.countP (fun b => b.vc == v) : Int) - (cred.count v : Nat)
  mode : ∃ m, Framed c.buf.vcs m (pending c s) ∧ BufMode c.buf m s.buf
  sentVc : ∀ b ∈ sent, b.vc < c.buf.vcs

theorem creditInv_step {c : SlaveCfg} (hn : 0 < c.n) (hv : c.VcOk) (hc : c.buf.Ok)
    {s : SlaveState} {sent : List BsFlit} {cred : List Nat} (hi : CreditInv c s sent cred)
    (e : SlaveEvent) (hr : e.isReset = false)
    (he : ∀ l, e = .noc l → l.Nodup ∧ ∀ s1 o, injectPhase c s = .ok (s1, o) →
      ∀ v ∈ l, cred.count v < (sent ++ o).countP (fun b => b.vc == v)) :
    ∃ s' o, slaveStep c s e = .ok (s', o) ∧
      CreditInv c s' (sent ++ o) (cred ++ (match e with | .noc l => l | _ => [])) := by
  obtain ⟨m, hf, hm⟩ := hi.mode
  cases e with
  | node beats seen =>
    obtain ⟨s1, h1, hi1, hp, hb⟩ := nodeStep_inv hn hi.inv beats seen
    refine ⟨s1, [], by simp [slaveStep, h1], ⟨hi1, by rw [hb]; exact hi.buf, ?_, ⟨m, ?_, ?_⟩, ?_⟩⟩
    · simpa [hb] using hi.occ
    · rw [hp]; exact hf.append (framed_packets hv _)
    · rw [hb]; exact hm
    · simpa using hi.sentVc
  | adapter =>
    obtain ⟨hi1, hp, hb⟩ := adapterStep_inv hi.inv
    refine ⟨adapterStep c s, [], rfl, ⟨hi1, by rw [hb]; exact hi.buf, ?_, ⟨m, ?_, ?_⟩, ?_⟩⟩
    · simpa [hb] using hi.occ
    · rw [hp]; exact hf
    · rw [hb]; exact hm
    · simpa using hi.sentVc
  | noc l =>
    obtain ⟨hnd, hcr⟩ := he l rfl
    obtain ⟨s1, o, h1, hb1, hocc1, m', hf', hm'⟩ := injectPhase_ok hc hi.buf hm hf
    have hsv : ∀ b ∈ sent ++ o, b.vc < c.buf.vcs := by
      intro b hb
      rw [List.mem_append] at hb
      rcases hb with hb | hb
      · exact hi.sentVc b hb
      · rcases (injectPhase_cases h1 hi.inv).2 with ⟨rfl, _⟩ | ⟨f, rfl, hp, _⟩
        · simp at hb
        · rw [hp] at hf
          simp only [List.mem_singleton] at hb
          subst hb
          cases m with
          | none => exact hf.2.1
          | some v => show f.vc.toNat < _; rw [hf.2.1]; exact hf.2.2.1
    have hoccS : ∀ v, s1.buf.vcOcc v =
        ((sent ++ o).countP (fun b => b.vc == v) : Int) - (cred.count v : Nat) := by
      intro v
      rw [hocc1 v, hi.occ v, List.countP_append]
      push_cast
      omega
    have hlegal : ∀ v ∈ l, v < c.buf.vcs ∧ 0 < s1.buf.vcOcc v := by
      intro v hvl
      have := hcr s1 o h1 v hvl
      refine ⟨?_, by rw [hoccS v]; omega⟩
      have hpos : 0 < (sent ++ o).countP (fun b => b.vc == v) := by omega
      rw [List.countP_pos_iff] at hpos
      obtain ⟨b, hb, hbv⟩ := hpos
      have := hsv b hb
      simp only [beq_iff_eq] at hbv
      omega
    obtain ⟨b2, h2, hb2⟩ := processCredit_ok l hb1 hnd hlegal
    refine ⟨{ s1 with buf := b2 }, o, by simp [slaveStep, nocStep, h1, h2], ⟨?_, hb2, ?_,
      ⟨m', hf', hm'.credit l h2⟩, hsv⟩⟩
    · have := (injectPhase_cases h1 hi.inv).1
      exact ⟨this.prio, this.inLen, this.inFull, this.cycNil, this.cycCons, this.injLen⟩
    · intro v
      show b2.vcOcc v = _
      rw [processCredit_vcOcc l h2 v, hoccS v, List.count_append]
      push_cast
      omega
  | rstNode => simp [SlaveEvent.isReset] at hr
  | rstAdapter => simp [SlaveEvent.isReset] at hr
  | rstNoc => simp [SlaveEvent.isReset] at hr

/-- **C09.** Against a router that credits only flits it was given, in every interleaving and
stall pattern, for both `wait_for_tail_credit` settings: no run ever stops with an accounting
error (or otherwise), and on every channel the flits handed over but not yet credited never exceed
the channel's buffer. -/
theorem C09_injection_obeys_flow_control (c : SlaveCfg) (hn : 0 < c.n) (hv : c.VcOk)
    (hc : c.buf.Ok) (es : List SlaveEvent) (henv : EnvOk c (SlaveState.init c) [] [] es) :
    ∃ s acc out, slaveRun c (SlaveState.init c) es = .ok (s, acc, out) ∧
      ∀ v, v < c.buf.vcs → 0 ≤ outstanding v out es ∧ outstanding v out es ≤ c.buf.perVc := by
  have gen : ∀ (es : List SlaveEvent) (s : SlaveState) (sent : List BsFlit) (cred : List Nat),
      CreditInv c s sent cred → EnvOk c s sent cred es →
      ∃ s' acc out, slaveRun c s es = .ok (s', acc, out) ∧
        CreditInv c s' (sent ++ out) (cred ++ es.flatMap (fun | .noc l => l | _ => [])) := by
    intro es
    induction es with
    | nil => intro s sent cred hi _; exact ⟨s, [], [], rfl, by simpa using hi⟩
    | cons e es ih =>
      intro s sent cred hi henv
      obtain ⟨hr, he, hrest⟩ := henv
      obtain ⟨s1, o, h1, hi1⟩ := creditInv_step hn hv hc hi e hr he
      obtain ⟨s2, acc, out, h2, hi2⟩ := ih s1 _ _ hi1 (hrest s1 o h1)
      refine ⟨s2, handshakes c s e ++ acc, o ++ out, by simp [slaveRun, h1, h2], ?_⟩
      have e1 : sent ++ (o ++ out) = sent ++ o ++ out := by simp
      rw [e1, List.flatMap_cons, ← List.append_assoc]
      exact hi2
  have hinit : CreditInv c (SlaveState.init c) [] [] := by
    refine ⟨SlaveInv.init c, BufInv.init c.buf hc, by simp [SlaveState.init, BufState.init],
      ⟨none, by simp [pending, SlaveState.init, Framed], ⟨by simp [SlaveState.init, BufState.init],
        by simp⟩⟩, by simp⟩
  obtain ⟨s, acc, out, h, hi⟩ := gen es _ [] [] hinit henv
  refine ⟨s, acc, out, h, fun v hvv => ?_⟩
  have h1 := hi.buf.bound v hvv
  have h2 := hi.occ v
  simp only [List.nil_append] at h2
  unfold outstanding
  omega

example : sampleSlave.VcOk := by intro t; cases t <;> decide
example : sampleSlave.buf.Ok := ⟨by decide, by decide, by decide⟩
example : EnvOk sampleSlave (SlaveState.init sampleSlave) [] []
    [.node bothOffer false, .adapter, .noc [], .adapter, .noc [0]] := by
  refine ⟨rfl, by simp, fun s1 o1 h1 => ?_⟩
  cases h1
  refine ⟨rfl, by simp, fun s1 o1 h1 => ?_⟩
  cases h1
  refine ⟨rfl, fun l hl => ?_, fun s1 o1 h1 => ?_⟩
  · cases hl; exact ⟨by simp, by simp⟩
  cases h1
  refine ⟨rfl, by simp, fun s1 o1 h1 => ?_⟩
  cases h1
  refine ⟨rfl, fun l hl => ?_, fun s1 o1 h1 => trivial⟩
  cases hl
  refine ⟨by simp, fun s1 o h1 v hv => ?_⟩
  simp only [List.mem_singleton] at hv
  subst hv
  cases h1
  decide

end RadSim
