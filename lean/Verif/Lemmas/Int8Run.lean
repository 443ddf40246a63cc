import Verif.Lemmas.Int8Ref

/-! # The FIFOs and pipelines of a matrix vector multiplier of `mlp_int8` never fail -/

namespace RadSim.Int8

/-! ## FIFOs -/

/-- A FIFO after an edge without an error. -/
def Fifo.after {α : Type} (push pop : Bool) (d : α) (f : Fifo α) : Fifo α :=
  let m := (if pop then f.mem.tail else f.mem) ++ if push then [d] else []
  ⟨m, m.headD f.odata⟩

theorem tick_ok {α : Type} {k : FifoCfg} {push pop : Bool} {d : α} {f : Fifo α} (hp : pop = true → f.mem ≠ [])
    (hq : push = true → (if pop then f.mem.tail else f.mem).length < k.depth) :
    f.tick k push pop d = .ok (f.after push pop d) := by
  unfold Fifo.tick
  rw [if_neg (by
    intro h
    rw [Bool.and_eq_true, List.isEmpty_iff] at h
    exact hp h.1 h.2)]
  dsimp only
  rw [if_neg (by
    intro h
    rw [Bool.and_eq_true, beq_iff_eq] at h
    have := hq h.1
    omega)]
  cases push <;> simp [Fifo.after]

/-- `odata` shows the oldest element, if there is one. -/
def Fifo.Shows {α : Type} (f : Fifo α) : Prop := ∀ x ∈ f.mem.head?, f.odata = x

theorem after_shows {α : Type} (push pop : Bool) (d : α) (f : Fifo α) : (f.after push pop d).Shows := by
  intro x hx
  simp only [Fifo.after] at hx ⊢
  rw [Option.mem_def] at hx
  rw [List.headD_eq_head?_getD, hx]
  rfl

theorem Fifo.Shows.cons {α : Type} {f : Fifo α} (h : f.Shows) {x : α} {l : List α} (hm : f.mem = x :: l) : f.odata = x :=
  h x (by simp [hm])

/-! ## ghosts: what the stages of the pipelines hold together -/

/-- A stage in front of the datapaths. -/
structure Stage where
  i : Inst
  valid : Bool
  x : Vec
  red : Vec

/-- A stage behind the datapaths. -/
structure Back where
  i : Inst
  valid : Bool
  res : List (BitVec 32)

/-- A write on its way to the register files. -/
structure Write where
  wen : Nat → Bool
  addr : BitVec 9
  data : Vec

def Stage.idle : Stage := ⟨.default, false, [], []⟩
def Back.idle : Back := ⟨.default, false, []⟩
def Write.none : Write := ⟨fun _ => false, 0, []⟩

/-- The stage that comes in at an edge. -/
def stageIn (c : Mvm) (s : Sig) : Stage := ⟨s.inst.odata, instPop c s, s.input.odata, s.red.odata⟩

/-- The stage behind the datapaths that comes in at an edge. -/
def backIn (c : Mvm) (s : Sig) : Back :=
  ⟨s.instPipe.getLastD .default, s.validPipe.getLastD false && (s.instPipe.getLastD .default).release,
    (List.range c.lanes).map fun d => accNext c s d (s.instPipe.getLastD .default).accumRaddr⟩

/-- The write that comes in at an edge. -/
def writeIn (c : Mvm) (s : Sig) (took : Option Beat) : Write :=
  ⟨fun d => isTag took 3 && rfEn ((took.map (·.user)).getD 0) d,
    if isTag took 3 then rfAddr ((took.map (·.user)).getD 0) else s.rfWaddr,
    if isTag took 3 then unpack c ((took.map (·.data)).getD 0) else s.rfWdata⟩

/-- The module after an edge without an error. -/
def nextSig (c : Mvm) (s : Sig) (took : Option Beat) (ready : Bool) : Sig :=
  rfSettle s (clocked c s took (s.inst.after s.instPush (instPop c s) s.instData)
    (s.input.after s.inputPush (inputPop c s) s.inputData) (s.red.after s.redPush (redPop c s) s.redData)
    (s.out.after (s.dpvPipe.getLastD false) (outPop s ready) (outData c s)))

/-- The beat taken at an edge. -/
def took (c : Mvm) (s : Sig) (rx : Option Beat) : Option Beat := rx.filter fun b => rxReady c s b.user

/-- What holds in every state, whatever arrives. -/
structure Base (c : Mvm) (s : Sig) (fs : List Stage) (bs : List Back) (W : List Write) : Prop where
  instPipe : s.instPipe = fs.map (·.i)
  validPipe : s.validPipe = fs.map (·.valid)
  inputPipe : s.inputPipe = fs.map (·.x)
  redPipe : s.redPipe = fs.map (·.red)
  raddrs : s.raddrs = fs.map (·.i.rfRaddr)
  fsLen : fs.length = c.rdLat
  dpv : s.dpValid :: s.dpvPipe = bs.map (·.valid)
  dp : s.dpIn :: s.dpPipe = bs.map (·.res)
  instDp : s.instDp = bs.map (·.i)
  bsLen : bs.length = c.delay
  wens : s.rfWen :: s.wens = W.map (·.wen)
  waddrs : s.rfWaddr :: s.waddrs = W.map (·.addr)
  wdatas : s.rfWdata :: s.wdatas = W.map (·.data)
  wLen : W.length = c.wrLat + 1
  redOp : (fs.getLastD .idle).red ≠ [] → s.redOp = (fs.getLastD .idle).red
  inst : s.inst.Shows
  input : s.input.Shows
  red : s.red.Shows
  out : s.out.Shows
  inputWide : ∀ x ∈ s.input.mem ++ (if s.inputPush then [s.inputData] else []), x.length = c.lanes
  redWide : ∀ x ∈ s.red.mem ++ (if s.redPush then [s.redData] else []), x.length = c.lanes
  outWide : ∀ x ∈ s.out.mem, x.length = c.lanes + 2
  stageWide : ∀ f ∈ fs, f.valid = true → f.x.length = c.lanes ∧ (f.i.reduce = true → f.red.length = c.lanes)
  writeWide : ∀ e ∈ W, ∀ d, e.wen d = true → e.data.length = c.lanes
  instRoom : s.inst.mem.length + (if s.instPush then 1 else 0) + 3 ≤ c.fifoDepth
  inputRoom : s.input.mem.length + (if s.inputPush then 1 else 0) + 3 ≤ c.fifoDepth
  redRoom : s.red.mem.length + (if s.redPush then 1 else 0) + 3 ≤ c.fifoDepth
  outRoom : s.out.mem.length + bs.countP (·.valid) + fs.countP (·.valid) ≤ c.fifoDepth

theorem init_base {c : Mvm} (hc : c.Fits) : Base c (.init c) (List.replicate c.rdLat .idle)
    (List.replicate c.delay ⟨.default, false, List.replicate c.lanes 0⟩) (List.replicate (c.wrLat + 1) .none) := by
  have h1 := hc.delay
  have h2 := hc.fifo
  have h3 := hc.read
  obtain ⟨k, hk⟩ : ∃ k, c.delay = k + 1 := ⟨c.delay - 1, by omega⟩
  constructor
  case outRoom =>
    rw [List.countP_eq_zero.2 (by simp), List.countP_eq_zero.2 (by simp [Stage.idle])]
    simp [Sig.init]
  case redOp =>
    rw [show List.getLastD (List.replicate c.rdLat Stage.idle) Stage.idle = Stage.idle by
      obtain ⟨j, hj⟩ : ∃ j, c.rdLat = j + 1 := ⟨c.rdLat - 1, by omega⟩
      rw [List.getLastD_eq_getLast?, hj, List.getLast?_replicate]
      simp]
    simp [Stage.idle]
  case raddrs => simp [Sig.init, Stage.idle, Inst.default]
  any_goals simp [Sig.init, Stage.idle, Write.none, hk, List.replicate_succ, Fifo.Shows]
  all_goals omega

/-! ## what pops when -/

theorem instPop_iff {c : Mvm} {s : Sig} : instPop c s = true ↔ s.inst.mem ≠ [] ∧ s.input.mem ≠ [] ∧
    s.out.mem.length < c.outCfg.almost ∧ (s.inst.odata.reduce = true → s.red.mem ≠ []) := by
  unfold instPop Fifo.empty Fifo.almostFull
  cases s.inst.mem <;> cases s.input.mem <;> cases s.inst.odata.reduce <;> cases s.red.mem <;> simp

theorem redPop_eq (c : Mvm) (s : Sig) : redPop c s = (instPop c s && s.inst.odata.reduce) := by
  unfold redPop instPop
  cases s.inst.empty <;> cases s.input.empty <;> cases s.inst.odata.reduce <;> cases s.red.empty <;>
    cases s.out.almostFull c.outCfg <;> rfl

theorem inputPop_eq (c : Mvm) (s : Sig) : inputPop c s = (instPop c s && s.inst.odata.last) := rfl

theorem outPop_ne {s : Sig} {ready : Bool} (h : outPop s ready = true) : s.out.mem ≠ [] := by
  unfold outPop Fifo.empty at h
  intro h0
  simp [h0] at h

theorem Base.fs_ne {c : Mvm} {s : Sig} {fs : List Stage} {bs : List Back} {W : List Write} (B : Base c s fs bs W) (hc : c.Fits) :
    fs ≠ [] := by
  intro h
  have h1 := B.fsLen
  have h2 := hc.read
  rw [h, List.length_nil] at h1
  omega

theorem Base.bs_ne {c : Mvm} {s : Sig} {fs : List Stage} {bs : List Back} {W : List Write} (B : Base c s fs bs W) (hc : c.Fits) :
    bs ≠ [] := by
  intro h
  have h1 := B.bsLen
  have h2 := hc.delay
  rw [h, List.length_nil] at h1
  omega

theorem Base.validLast {c : Mvm} {s : Sig} {fs : List Stage} {bs : List Back} {W : List Write} (B : Base c s fs bs W) :
    s.validPipe.getLastD false = (fs.getLastD .idle).valid := by
  rw [B.validPipe, show false = Stage.idle.valid from rfl, getLastD_map]

theorem Base.instLast {c : Mvm} {s : Sig} {fs : List Stage} {bs : List Back} {W : List Write} (B : Base c s fs bs W) :
    s.instPipe.getLastD .default = (fs.getLastD .idle).i := by
  rw [B.instPipe, show Inst.default = Stage.idle.i from rfl, getLastD_map]

theorem Base.inputLast {c : Mvm} {s : Sig} {fs : List Stage} {bs : List Back} {W : List Write} (B : Base c s fs bs W) :
    s.inputPipe.getLastD [] = (fs.getLastD .idle).x := by
  rw [B.inputPipe, show ([] : Vec) = Stage.idle.x from rfl, getLastD_map]

theorem Base.dpvLast {c : Mvm} {s : Sig} {fs : List Stage} {bs : List Back} {W : List Write} (B : Base c s fs bs W) (hc : c.Fits) :
    s.dpvPipe.getLastD false = (bs.getLastD .idle).valid := by
  have hd : s.dpvPipe ≠ [] := by
    intro h0
    have := congrArg List.length B.dpv
    rw [h0, List.length_map, B.bsLen] at this
    have h9 : ([] : List Bool).length + 1 = c.delay := this
    rw [List.length_nil] at h9
    have := hc.delay
    omega
  have he : (s.dpValid :: s.dpvPipe).getLastD false = s.dpvPipe.getLastD false := by
    cases hx : s.dpvPipe with
    | nil => exact absurd hx hd
    | cons a l => rfl
  rw [← he, B.dpv, show false = Back.idle.valid from rfl, getLastD_map]

theorem edge_next {c : Mvm} {s : Sig} {fs : List Stage} {bs : List Back} {W : List Write} (hc : c.Fits) (B : Base c s fs bs W)
    (rx : Option Beat) (ready : Bool) : edge c s rx ready = .ok (nextSig c s (took c s rx) ready) := by
  have hl := hc.read
  have hfs : fs ≠ [] := by intro h; have := B.fsLen; rw [h] at this; simp at this; omega
  have hbs : bs ≠ [] := by intro h; have := B.bsLen; rw [h] at this; simp at this; have := hc.delay; omega
  have hroom1 := B.instRoom
  have hroom2 := B.inputRoom
  have hroom3 := B.redRoom
  have hroom4 := B.outRoom
  have h1 : (s.validPipe.getLastD false && decide ((s.inputPipe.getLastD []).length < c.lanes)) = false := by
    rw [B.validPipe, B.inputPipe, show false = Stage.idle.valid from rfl, show ([] : Vec) = Stage.idle.x from rfl,
      getLastD_map, getLastD_map]
    cases hv : (fs.getLastD .idle).valid with
    | false => rfl
    | true =>
      have hm : fs.getLastD .idle ∈ fs := by
        rw [List.getLastD_eq_getLast?, List.getLast?_eq_getLast_of_ne_nil hfs]
        exact List.getLast_mem hfs
      have := (B.stageWide _ hm hv).1
      rw [this]
      simp [Stage.idle]
  have h2 : s.inst.tick c.inCfg s.instPush (instPop c s) s.instData = .ok (s.inst.after s.instPush (instPop c s) s.instData) := by
    refine tick_ok (fun h => (instPop_iff.1 h).1) fun h => ?_
    rw [if_pos h] at hroom1
    simp only [Mvm.inCfg]
    split <;> (try rw [List.length_tail]) <;> omega
  have h3 : s.input.tick c.inCfg s.inputPush (inputPop c s) s.inputData =
      .ok (s.input.after s.inputPush (inputPop c s) s.inputData) := by
    refine tick_ok (fun h => ?_) fun h => ?_
    · rw [inputPop_eq, Bool.and_eq_true] at h
      exact (instPop_iff.1 h.1).2.1
    · rw [if_pos h] at hroom2
      simp only [Mvm.inCfg]
      split <;> (try rw [List.length_tail]) <;> omega
  have h4 : s.red.tick c.inCfg s.redPush (redPop c s) s.redData = .ok (s.red.after s.redPush (redPop c s) s.redData) := by
    refine tick_ok (fun h => ?_) fun h => ?_
    · rw [redPop_eq, Bool.and_eq_true] at h
      exact (instPop_iff.1 h.1).2.2.2 h.2
    · rw [if_pos h] at hroom3
      simp only [Mvm.inCfg]
      split <;> (try rw [List.length_tail]) <;> omega
  have h5 : s.out.tick c.outCfg (s.dpvPipe.getLastD false) (outPop s ready) (outData c s) =
      .ok (s.out.after (s.dpvPipe.getLastD false) (outPop s ready) (outData c s)) := by
    refine tick_ok outPop_ne fun h => ?_
    have : 0 < bs.countP (·.valid) := by
      rw [List.countP_pos_iff]
      rw [B.dpvLast hc] at h
      refine ⟨bs.getLastD .idle, ?_, h⟩
      rw [List.getLastD_eq_getLast?, List.getLast?_eq_getLast_of_ne_nil hbs]
      exact List.getLast_mem hbs
    simp only [Mvm.outCfg]
    split <;> (try rw [List.length_tail]) <;> omega
  unfold edge
  simp only [h1, h2, h3, h4, h5, bind, Except.bind, pure, Except.pure, Bool.false_eq_true, if_false]
  rfl

/-! ## the invariant is kept -/

theorem pipe_eq {α : Type} (x d : α) {l : List α} (h : l ≠ []) : pipe x l ++ [l.getLastD d] = x :: l := by
  have h1 := pipe_reverse x h
  have h2 := reverse_cons d h
  have h3 : (pipe x l ++ [l.getLastD d]).reverse = (x :: l).reverse := by
    rw [List.reverse_append, h1, List.reverse_cons (as := l), h2]
    rfl
  exact List.reverse_injective h3

theorem mem_pipe {α : Type} {x y : α} {l : List α} (h : y ∈ pipe x l) : y = x ∨ y ∈ l := by
  have := List.mem_of_mem_take h
  simpa using this

theorem countP_pipe {α : Type} (p : α → Bool) (x d : α) {l : List α} (h : l ≠ []) :
    (pipe x l).countP p + (if p (l.getLastD d) then 1 else 0) = l.countP p + if p x then 1 else 0 := by
  have := congrArg (List.countP p) (pipe_eq x d h)
  rw [List.countP_append, List.countP_cons, List.countP_cons] at this
  simpa using this

theorem after_room {α : Type} {f : Fifo α} {n : Nat} {push pop new old : Bool} {d : α}
    (h : f.mem.length + (if push then 1 else 0) + 3 ≤ n) (hp : pop = true → f.mem ≠ [])
    (hn : new = true → f.mem.length + 5 ≤ n ∨ old = true) (ho : old = true → pop = true) :
    (f.after push pop d).mem.length + (if new then 1 else 0) + 3 ≤ n := by
  have h0 : pop = true → f.mem.length ≠ 0 := fun h1 h2 => hp h1 (List.length_eq_zero_iff.1 h2)
  have h2 : old = true → f.mem.length ≠ 0 ∧ pop = true := fun h => ⟨h0 (ho h), ho h⟩
  have h3 : (f.after push pop d).mem.length = (if pop then f.mem.length - 1 else f.mem.length) + if push then 1 else 0 := by
    cases push <;> cases pop <;> simp [Fifo.after]
  rw [h3]
  cases hpo : pop
  · have : old = false := by
      cases hol : old
      · rfl
      · have := ho hol; rw [hpo] at this; cases this
    subst this
    cases new
    · simpa using h
    · have := hn rfl
      simp only [Bool.false_eq_true, or_false, if_true, if_false] at this h ⊢
      cases push <;> simp only [Bool.false_eq_true, if_true, if_false] at h ⊢ <;> omega
  · have := h0 hpo
    cases push <;> cases new <;> simp only [Bool.false_eq_true, if_true, if_false] at h ⊢ <;> omega

theorem after_mem {α : Type} {f : Fifo α} {push pop : Bool} {d x : α} (h : x ∈ (f.after push pop d).mem) :
    x ∈ f.mem ++ if push then [d] else [] := by
  simp only [Fifo.after, List.mem_append] at h ⊢
  rcases h with h | h
  · split at h
    · exact .inl (List.mem_of_mem_tail h)
    · exact .inl h
  · exact .inr h

theorem isTag_ready {c : Mvm} {s : Sig} {rx : Option Beat} {n : Nat} (h : isTag (took c s rx) n = true) :
    ∃ b, took c s rx = some b ∧ tag b.user = n ∧ rxReady c s b.user = true := by
  unfold isTag at h
  cases ht : took c s rx with
  | none => rw [ht] at h; simp at h
  | some b =>
    rw [ht] at h
    have h2 := Option.mem_filter_iff.1 ht
    exact ⟨b, rfl, by simpa using h, by simpa using h2.2⟩

theorem unpack_length (c : Mvm) (n : Nat) : (unpack c n).length = c.lanes := by simp [unpack]

theorem base_next {c : Mvm} {s : Sig} {fs : List Stage} {bs : List Back} {W : List Write} (hc : c.Fits) (B : Base c s fs bs W)
    (rx : Option Beat) (ready : Bool) : Base c (nextSig c s (took c s rx) ready) (pipe (stageIn c s) fs) (pipe (backIn c s) bs)
      (pipe (writeIn c s (took c s rx)) W) := by
  have hfs := B.fs_ne hc
  have hbs := B.bs_ne hc
  have hfifo := hc.fifo
  constructor
  case instPipe => rw [pipe_map, ← B.instPipe]; rfl
  case validPipe => rw [pipe_map, ← B.validPipe]; rfl
  case inputPipe => rw [pipe_map, ← B.inputPipe]; rfl
  case redPipe => rw [pipe_map, ← B.redPipe]; rfl
  case raddrs => rw [pipe_map, ← B.raddrs]; rfl
  case fsLen => rw [pipe_length, B.fsLen]
  case dpv => rw [pipe_map, ← B.dpv, pipe_cons]; rfl
  case dp => rw [pipe_map, ← B.dp, pipe_cons]; rfl
  case instDp => rw [pipe_map, ← B.instDp]; rfl
  case bsLen => rw [pipe_length, B.bsLen]
  case wens => rw [pipe_map, ← B.wens, pipe_cons]; rfl
  case waddrs => rw [pipe_map, ← B.waddrs, pipe_cons]; rfl
  case wdatas => rw [pipe_map, ← B.wdatas, pipe_cons]; rfl
  case wLen => rw [pipe_length, B.wLen]
  case redOp =>
    intro h
    have h1 : ((pipe (stageIn c s) fs).getLastD .idle).red = (pipe s.red.odata s.redPipe).getLastD [] := by
      rw [← getLastD_map Stage.red, pipe_map, ← B.redPipe]; rfl
    rw [h1] at h ⊢
    show (if ((pipe s.red.odata s.redPipe).getLastD []).length > 0 then _ else _) = _
    rw [if_pos (List.length_pos_iff.2 h)]
  case inst => exact after_shows _ _ _ _
  case input => exact after_shows _ _ _ _
  case red => exact after_shows _ _ _ _
  case out => exact after_shows _ _ _ _
  case inputWide =>
    intro x hx
    rw [List.mem_append] at hx
    rcases hx with hx | hx
    · exact B.inputWide x (after_mem hx)
    · change x ∈ (if isTag (took c s rx) 2 then [if isTag (took c s rx) 2 then unpack c _ else _] else []) at hx
      split at hx
      · rw [List.mem_singleton] at hx
        rw [hx, unpack_length]
      · simp at hx
  case redWide =>
    intro x hx
    rw [List.mem_append] at hx
    rcases hx with hx | hx
    · exact B.redWide x (after_mem hx)
    · change x ∈ (if isTag (took c s rx) 1 then [if isTag (took c s rx) 1 then unpack c _ else _] else []) at hx
      split at hx
      · rw [List.mem_singleton] at hx
        rw [hx, unpack_length]
      · simp at hx
  case outWide =>
    intro x hx
    have := after_mem hx
    rw [List.mem_append] at this
    rcases this with h | h
    · exact B.outWide x h
    · split at h
      · rw [List.mem_singleton] at h
        rw [h]
        simp [outData]
      · simp at h
  case stageWide =>
    intro f hf hv
    rcases mem_pipe hf with rfl | hf
    · have hp := instPop_iff.1 hv
      obtain ⟨x, l, hx⟩ := List.exists_cons_of_ne_nil hp.2.1
      constructor
      · show s.input.odata.length = _
        rw [B.input.cons hx]
        exact B.inputWide x (by simp [hx])
      · intro hr
        obtain ⟨y, l, hy⟩ := List.exists_cons_of_ne_nil (hp.2.2.2 hr)
        show s.red.odata.length = _
        rw [B.red.cons hy]
        exact B.redWide y (by simp [hy])
    · exact B.stageWide f hf hv
  case writeWide =>
    intro e he d hd
    rcases mem_pipe he with rfl | he
    · simp only [writeIn, Bool.and_eq_true] at hd
      simp only [writeIn, if_pos hd.1, unpack_length]
    · exact B.writeWide e he d hd
  case instRoom =>
    refine after_room (old := instPop c s) B.instRoom (fun h => (instPop_iff.1 h).1) (fun h => ?_) id
    change (if isTag (took c s rx) 0 then true else instPop c s) = true at h
    split at h
    · rename_i ht
      obtain ⟨b, -, h1, h2⟩ := isTag_ready ht
      unfold rxReady at h2
      rw [if_pos h1] at h2
      simp [Fifo.almostFull, Mvm.inCfg] at h2
      left
      omega
    · exact .inr h
  case inputRoom =>
    refine after_room (old := false) B.inputRoom (fun h => ?_) (fun h => ?_) (by simp)
    · rw [inputPop_eq, Bool.and_eq_true] at h
      exact (instPop_iff.1 h.1).2.1
    · obtain ⟨b, -, h1, h2⟩ := isTag_ready (n := 2) h
      unfold rxReady at h2
      rw [h1, if_neg (by decide), if_neg (by decide), if_pos rfl] at h2
      simp [Fifo.almostFull, Mvm.inCfg] at h2
      left
      omega
  case redRoom =>
    refine after_room (old := false) B.redRoom (fun h => ?_) (fun h => ?_) (by simp)
    · rw [redPop_eq, Bool.and_eq_true] at h
      exact (instPop_iff.1 h.1).2.2.2 h.2
    · obtain ⟨b, -, h1, h2⟩ := isTag_ready (n := 1) h
      unfold rxReady at h2
      rw [h1, if_neg (by decide), if_pos rfl] at h2
      simp [Fifo.almostFull, Mvm.inCfg] at h2
      left
      omega
  case outRoom =>
    have h1 := countP_pipe (·.valid) (stageIn c s) .idle hfs
    have h2 := countP_pipe (·.valid) (backIn c s) .idle hbs
    have h3 : (s.out.after (s.dpvPipe.getLastD false) (outPop s ready) (outData c s)).mem.length ≤
        s.out.mem.length + if (bs.getLastD .idle).valid then 1 else 0 := by
      rw [B.dpvLast hc]
      simp only [Fifo.after, List.length_append]
      have : (if (bs.getLastD Back.idle).valid = true then [outData c s] else []).length =
          if (bs.getLastD .idle).valid then 1 else 0 := by split <;> rfl
      rw [this]
      split <;> (try rw [List.length_tail]) <;> omega
    have h4 : (backIn c s).valid = true → (fs.getLastD .idle).valid = true := by
      intro h
      simp only [backIn, Bool.and_eq_true] at h
      rw [← B.validLast, h.1]
    have h5 : (if (backIn c s).valid = true then 1 else 0) ≤ (if (fs.getLastD .idle).valid = true then 1 else 0) := by
      by_cases h : (backIn c s).valid = true
      · rw [if_pos h, if_pos (h4 h)]
      · rw [if_neg h]; exact Nat.zero_le _
    have h6 := B.outRoom
    have h7 : List.countP (·.valid) (pipe (stageIn c s) fs) ≤ c.rdLat := by
      have := List.countP_le_length (p := (·.valid)) (l := pipe (stageIn c s) fs)
      rwa [pipe_length, B.fsLen] at this
    have h8 : List.countP (·.valid) (pipe (backIn c s) bs) ≤ c.delay := by
      have := List.countP_le_length (p := (·.valid)) (l := pipe (backIn c s) bs)
      rwa [pipe_length, B.bsLen] at this
    have h9 := hc.short
    show (s.out.after _ _ _).mem.length + _ + _ ≤ _
    by_cases hp : instPop c s = true
    · have h10 := (instPop_iff.1 hp).2.2.1
      simp only [Mvm.outCfg] at h10
      have h11 : (if (bs.getLastD .idle).valid = true then 1 else 0) ≤ 1 := by split <;> omega
      omega
    · have h10 : (if (stageIn c s).valid = true then 1 else 0) = 0 := if_neg hp
      omega

end RadSim.Int8
