import Verif.Lemmas.MvmRef
import Verif.Lemmas.AddClient

/-! # A matrix vector multiplier follows its program -/

namespace RadSim.Mlp

open AddDesign (Fifo FifoCfg FifoErr)

/-- A FIFO that holds `m`; `z` is what it shows when it is empty. -/
structure Holds {α : Type} (k : FifoCfg) (z : α) (f : Fifo α) (m : List α) : Prop where
  mem : f.mem = m
  empty : f.empty = m.isEmpty
  almostFull : f.almostFull = decide (k.almostFull ≤ m.length)
  rdata : f.rdata = m.headD z

theorem holds_show {α : Type} (k : FifoCfg) (z : α) (m : List α) : Holds k z (Fifo.show k z m) m := ⟨rfl, rfl, rfl, rfl⟩

theorem holds_reset {α : Type} {k : FifoCfg} (z : α) (h : 0 < k.almostFull) : Holds k z (Fifo.reset z) [] :=
  ⟨rfl, rfl, by simp [Fifo.reset]; omega, rfl⟩

theorem tick_holds {α : Type} (k : FifoCfg) (z : α) {z' : α} {f : Fifo α} {m : List α} (h : Holds k z' f m) {wen ren : Bool}
    {d : α} (hr : ren = true → m ≠ []) (hw : wen = true → (if ren then m.tail else m).length ≠ k.depth) :
    f.tick k z wen ren d = .ok (Fifo.show k z (AddDesign.after m wen ren d)) := by
  have : f.tick k z wen ren d = (Fifo.show k z m).tick k z wen ren d := by
    unfold Fifo.tick
    rw [h.mem]
    rfl
  rw [this]
  exact AddDesign.tick_show k z m wen ren d hr hw

/-- What the operations behind the dot products will release. -/
def backOuts (l : List Back) : List Out := l.filterMap fun b => if b.valid then some ⟨b.result, b.destLayer, b.destMvm⟩ else none

/-- The module has done what its program says, up to what is still on its way. -/
structure Follows (c : Mvm) (h : Seen) (s : Sig) (r : Ref) (d q f : List Out) : Prop where
  reach : Ref.Reach c (Ref.start h.ins h.reds) r
  calm : ∃ room, Calm c room s
  pc : r.pc = s.reg.pc
  ins : r.ins = s.reg.ififo.mem ++ if s.reg.iWen then [s.reg.iData] else []
  reds : r.reds = s.reg.rfifo.mem ++ if s.reg.rWen then [s.reg.rData] else []
  ififo : ∃ z, Holds c.inCfg z s.reg.ififo s.reg.ififo.mem
  rfifo : ∃ z, Holds c.inCfg z s.reg.rfifo s.reg.rfifo.mem
  outs : ∃ z z' , (z = c.zeros ∧ z' = [0] ∨ z = [] ∧ z' = []) ∧ Holds c.outCfg z s.reg.ofifo (q.map (·.vec)) ∧
    Holds c.outCfg z' s.reg.dlfifo (q.map fun o => [o.layer]) ∧ Holds c.outCfg z' s.reg.dmfifo (q.map fun o => [o.mvm])
  sent : h.sent = d.map c.wire
  out : r.out = d ++ q ++ backOuts s.reg.back.reverse ++ f
  flow : flow c (accOf s.reg.acc) (s.reg.front.zip s.reg.raddrs).reverse = some (r.acc, f)
  acc : ∀ j, s.reg.acc j = [] ∨ (s.reg.acc j).length = c.lanes
  front : s.reg.front.length = c.rfLatency
  raddrs : s.reg.raddrs.length = c.rfLatency
  back : s.reg.back.length = c.computeLatency
  room : q.length + s.reg.back.countP (·.valid) + s.reg.front.countP (·.valid) + 4 ≤ c.fifoSize
  iroom : s.reg.ififo.mem.length + (if s.reg.iWen then 1 else 0) + 3 ≤ c.fifoSize
  rroom : s.reg.rfifo.mem.length + (if s.reg.rWen then 1 else 0) + 3 ≤ c.fifoSize

theorem accOf_nil : accOf (fun _ => []) = fun _ => none := by
  funext j
  simp [accOf]

theorem flow_idle (c : Mvm) (a : Nat → Option Vec) (n m : Nat) :
    flow c a (List.replicate n (Front.idle, m)) = some (a, []) := by
  induction n with
  | zero => rfl
  | succ n ih =>
    rw [List.replicate_succ]
    simp only [flow, Front.idle, Bool.false_eq_true, if_false]
    exact ih

theorem init_follows {c : Mvm} (hc : c.Fits) : Follows c ⟨[], [], []⟩ (Sig.init c) (Ref.start [] []) [] [] [] := by
  have h := settle_of (c := c) (room := false) (p := ⟨.reset c, .reset, 0, false⟩)
    (s := ⟨.reset c, assign c ⟨.reset c, .reset, 0, false⟩, 0, false⟩) (by
      intro hs
      refine assign_eq rfl rfl ?_ ?_ rfl (.inl rfl)
      · simp only [senses, Bool.or_eq_false_iff, decide_eq_false_iff_not, not_not] at hs
        obtain ⟨⟨⟨⟨⟨⟨⟨⟨⟨⟨⟨⟨⟨⟨⟨⟨-, -⟩, h1⟩, h2⟩, -⟩, -⟩, -⟩, -⟩, -⟩, -⟩, -⟩, h3⟩, -⟩, -⟩, -⟩, -⟩, -⟩ := hs
        exact h3.symm
      · rfl)
  obtain ⟨hcalm, hreg, -⟩ := h
  have hreg : (Sig.init c).reg = .reset c := hreg
  have hfl := hc.fifo
  refine ⟨.refl, ⟨false, hcalm⟩, ?_, ?_, ?_, ⟨[], ?_⟩, ⟨[], ?_⟩, ⟨[], [], .inr ⟨rfl, rfl⟩, ?_, ?_, ?_⟩, rfl, ?_, ?_, ?_, ?_, ?_, ?_, ?_,
    ?_, ?_⟩ <;> rw [hreg]
  · rfl
  · rfl
  · rfl
  · exact holds_reset _ (by simp only [Mvm.inCfg]; omega)
  · exact holds_reset _ (by simp only [Mvm.inCfg]; omega)
  · exact holds_reset _ (by simp only [Mvm.outCfg]; omega)
  · exact holds_reset _ (by simp only [Mvm.outCfg]; omega)
  · exact holds_reset _ (by simp only [Mvm.outCfg]; omega)
  · simp [Reg.reset, Ref.start, backOuts, Back.idle]
  · simp only [Reg.reset, Ref.start]
    rw [accOf_nil, List.zip_replicate', List.reverse_replicate]
    exact flow_idle ..
  · exact fun _ => .inl rfl
  · simp [Reg.reset]
  · simp [Reg.reset]
  · simp [Reg.reset]
  · simp [Reg.reset, Front.idle, Back.idle, List.countP_replicate]
    omega
  · simp [Reg.reset, Fifo.reset]
    omega
  · simp [Reg.reset, Fifo.reset]
    omega

/-! ## an edge -/

/-- The signals of a module in which nothing changes any more. -/
theorem Calm.wires {c : Mvm} {room : Bool} {s : Sig} (h : Calm c room s) :
    s.wire.inst = c.prog s.reg.pc ∧ s.wire.raddr = (c.prog s.reg.pc).raddr ∧
    s.wire.oWen = (lastBack s.reg.back).valid ∧ s.wire.oData = (lastBack s.reg.back).result ∧
    s.wire.dlData = [(lastBack s.reg.back).destLayer] ∧ s.wire.dmData = [(lastBack s.reg.back).destMvm] ∧
    s.wire.oRen = (s.wire.txValid && s.txReady) := by
  have hi : s.wire.inst = c.prog s.reg.pc := by
    conv_lhs => rw [← h.wire]
    rfl
  refine ⟨hi, ?_, ?_, ?_, ?_, ?_, ?_⟩
  · conv_lhs => rw [← h.wire]
    rw [← hi]
    rfl
  all_goals
    conv_lhs => rw [← h.wire]
    rfl

/-- The signals that let an instruction start. -/
theorem Calm.fires {c : Mvm} {room : Bool} {s : Sig} (h : Calm c room s) {m m' : List Vec} {n : Nat}
    (hi : s.reg.ififo.empty = m.isEmpty) (hr : s.reg.rfifo.empty = m'.isEmpty)
    (ho : s.reg.ofifo.almostFull = decide (c.outCfg.almostFull ≤ n)) :
    s.wire.dotReduce = decide (m ≠ [] ∧ m' ≠ [] ∧ n < c.outCfg.almostFull ∧ (c.prog s.reg.pc).en = true ∧
      (c.prog s.reg.pc).jump = false ∧ (c.prog s.reg.pc).reduce = true) ∧
    s.wire.dot = decide (m ≠ [] ∧ n < c.outCfg.almostFull ∧ (c.prog s.reg.pc).en = true ∧
      (c.prog s.reg.pc).jump = false ∧ (c.prog s.reg.pc).reduce = false) ∧
    s.wire.rRen = s.wire.dotReduce ∧
    s.wire.iRen = ((s.wire.dotReduce || s.wire.dot) && (c.prog s.reg.pc).last) := by
  obtain ⟨hinst, -⟩ := h.wires
  have hlt : decide (c.outCfg.almostFull ≤ n) = !decide (n < c.outCfg.almostFull) := by
    rw [← decide_not]
    congr 1
    simp
  rw [hlt] at ho
  have hd : s.wire.dotReduce = decide (m ≠ [] ∧ m' ≠ [] ∧ n < c.outCfg.almostFull ∧ (c.prog s.reg.pc).en = true ∧
      (c.prog s.reg.pc).jump = false ∧ (c.prog s.reg.pc).reduce = true) := by
    conv_lhs => rw [← h.wire]
    simp only [assign, hinst, hi, hr, ho]
    cases m <;> cases m' <;> cases (c.prog s.reg.pc).en <;> cases (c.prog s.reg.pc).jump <;>
      cases (c.prog s.reg.pc).reduce <;> simp
  have hp : s.wire.dot = decide (m ≠ [] ∧ n < c.outCfg.almostFull ∧ (c.prog s.reg.pc).en = true ∧
      (c.prog s.reg.pc).jump = false ∧ (c.prog s.reg.pc).reduce = false) := by
    conv_lhs => rw [← h.wire]
    simp only [assign, hinst, hi, hr, ho]
    cases m <;> cases m' <;> cases (c.prog s.reg.pc).en <;> cases (c.prog s.reg.pc).jump <;>
      cases (c.prog s.reg.pc).reduce <;> simp
  have hrr : s.wire.rRen = s.wire.dotReduce := by
    rw [← h.wire]
    rfl
  refine ⟨hd, hp, hrr, ?_⟩
  rw [hd, hp]
  conv_lhs => rw [← h.wire]
  simp only [assign, hinst, hi, hr, ho]
  cases m <;> cases m' <;> cases (c.prog s.reg.pc).en <;> cases (c.prog s.reg.pc).jump <;>
    cases (c.prog s.reg.pc).reduce <;> cases (c.prog s.reg.pc).last <;> simp

theorem edge_ok {c : Mvm} {s : Sig} {rx : Rx} {acc : Nat → Vec} {v : Vec} {ififo rfifo ofifo : Fifo Vec}
    {dlfifo dmfifo : Fifo (List (BitVec 5))} (h1 : s.wire.raddr < c.memDepth) (h2 : nextPc s.reg s.wire < c.memDepth)
    (h3 : compute c s.reg = .ok (acc, v))
    (h4 : s.reg.ififo.tick c.inCfg c.zeros s.reg.iWen s.wire.iRen s.reg.iData = .ok ififo)
    (h5 : s.reg.rfifo.tick c.inCfg c.zeros s.reg.rWen s.wire.rRen s.reg.rData = .ok rfifo)
    (h6 : s.reg.ofifo.tick c.outCfg c.zeros s.wire.oWen s.wire.oRen s.wire.oData = .ok ofifo)
    (h7 : s.reg.dlfifo.tick c.outCfg [0] s.wire.oWen s.wire.oRen s.wire.dlData = .ok dlfifo)
    (h8 : s.reg.dmfifo.tick c.outCfg [0] s.wire.oWen s.wire.oRen s.wire.dmData = .ok dmfifo) :
    edge c s rx = .ok
      { pc := nextPc s.reg s.wire
        acc := acc
        front := shift (issue c s.reg s.wire) s.reg.front
        raddrs := shift s.wire.raddr s.reg.raddrs
        back := shift ⟨(s.reg.front.getLastD .idle).valid && (s.reg.front.getLastD .idle).release, v,
          (s.reg.front.getLastD .idle).destLayer, (s.reg.front.getLastD .idle).destMvm⟩ s.reg.back
        iWen := rx.valid && s.wire.rxReady && decide (tag s.rxUser = 3)
        iData := if rx.valid && s.wire.rxReady && decide (tag s.rxUser = 3) then rx.data else s.reg.iData
        rWen := rx.valid && s.wire.rxReady && decide (tag s.rxUser = 2)
        rData := if rx.valid && s.wire.rxReady && decide (tag s.rxUser = 2) then rx.data else s.reg.rData
        ififo, rfifo, ofifo, dlfifo, dmfifo } := by
  unfold edge
  simp only [h3, h4, h5, h6, h7, h8, Except.mapError, bind, Except.bind, pure, Except.pure]
  rw [if_neg (by omega)]

theorem flow_one {c : Mvm} {a : Nat → Option Vec} {f : Front} {n : Nat} (hv : f.valid = true) (h1 : f.accum < c.memDepth)
    (h2 : f.accumEn = true → a f.accum ≠ none) :
    flow c a [(f, n)] = some (fun j => if j = f.accum then some (f.value c n (a f.accum)) else a j,
      f.outs (f.value c n (a f.accum))) := by
  simp only [flow, hv, if_true]
  rw [if_neg]
  · simp
  · rintro (h | ⟨h, h'⟩)
    · omega
    · exact h2 h h'

theorem value_zeros (c : Mvm) (i : Inst) (v : Bool) (x : Vec) (n : Nat) (rl : Bool) (dl dm : BitVec 5) (a : Option Vec) :
    Front.value c ⟨v, x, c.zeros, n, i.accumEn, rl, dl, dm⟩ i.raddr a = value c i x none a := by
  have : ∀ d, c.zeros.getD d 0 = 0 := by
    intro d
    simp only [Mvm.zeros, List.getD, List.getElem?_replicate]
    split <;> rfl
  simp only [Front.value, value, this, Option.map_none, Option.getD_none]

/-- What is in the FIFOs lets the next instruction begin. -/
def Able (c : Mvm) (s : Sig) (r : Ref) : Prop :=
  ({ r with ins := s.reg.ififo.mem, reds := s.reg.rfifo.mem } : Ref).next c ≠ none

/-- What an edge does to the program: an instruction starts, or nothing happens. -/
theorem issue_ok {c : Mvm} {h : Seen} {s : Sig} {r : Ref} {d q f : List Out} (I : Follows c h s r d q f) (x y : List Vec)
    (hs : ¬ r.Fault c) : ∃ r' g,
      ((r' = r.more x y ∧ s.wire.iRen = false ∧ s.wire.rRen = false ∧ ¬ (q.length < c.outCfg.almostFull ∧ Able c s r)) ∨
        (r.more x y).next c = some r') ∧
      nextPc s.reg s.wire = r'.pc ∧
      flow c r.acc [(issue c s.reg s.wire, s.wire.raddr)] = some (r'.acc, g) ∧ r'.out = r.out ++ g ∧
      r'.ins = (if s.wire.iRen then s.reg.ififo.mem.tail else s.reg.ififo.mem) ++
        (if s.reg.iWen then [s.reg.iData] else []) ++ x ∧
      r'.reds = (if s.wire.rRen then s.reg.rfifo.mem.tail else s.reg.rfifo.mem) ++
        (if s.reg.rWen then [s.reg.rData] else []) ++ y ∧
      (s.wire.iRen = true → s.reg.ififo.mem ≠ []) ∧ (s.wire.rRen = true → s.reg.rfifo.mem ≠ []) ∧
      ((issue c s.reg s.wire).valid = true → q.length < c.outCfg.almostFull) := by
  obtain ⟨room, hcalm⟩ := I.calm
  obtain ⟨zi, hzi⟩ := I.ififo
  obtain ⟨zr, hzr⟩ := I.rfifo
  obtain ⟨z, z', -, ho, -, -⟩ := I.outs
  obtain ⟨hinst, hraddr, -⟩ := hcalm.wires
  obtain ⟨hdr, hdp, hrr, hir⟩ := hcalm.fires hzi.empty hzr.empty ho.almostFull
  rw [List.length_map] at hdr hdp
  simp only [Ref.Fault, not_or] at hs
  rw [I.pc] at hs
  obtain ⟨-, -, hacc⟩ := hs
  by_cases h1 : s.wire.dotReduce = true
  · -- an instruction that adds a vector
    have h1' := h1
    rw [hdr, decide_eq_true_eq] at h1'
    obtain ⟨hm, hm', hq, he, hj, hred⟩ := h1'
    have hdot : s.wire.dot = false := by
      rw [hdp]
      simp [hred]
    obtain ⟨a, as, ha⟩ : ∃ a as, s.reg.ififo.mem = a :: as := List.exists_cons_of_ne_nil hm
    obtain ⟨b, bs, hb⟩ : ∃ a as, s.reg.rfifo.mem = a :: as := List.exists_cons_of_ne_nil hm'
    have hacc' : ¬ (c.memDepth ≤ (c.prog s.reg.pc).accum ∨
        ((c.prog s.reg.pc).accumEn = true ∧ r.acc (c.prog s.reg.pc).accum = none)) := fun h => hacc ⟨he, hj, h⟩
    simp only [not_or] at hacc'
    have hnext := Ref.next_reduce (c := c) (s := r.more x y) (by simpa [Ref.more, I.pc] using he)
      (by simpa [Ref.more, I.pc] using hj) (by simpa [Ref.more, I.pc] using hred) (x := a)
      (xs := as ++ (if s.reg.iWen then [s.reg.iData] else []) ++ x) (y := b)
      (ys := bs ++ (if s.reg.rWen then [s.reg.rData] else []) ++ y) (by simp [Ref.more, I.ins, ha])
      (by simp [Ref.more, I.reds, hb])
    have hiss : issue c s.reg s.wire = ⟨true, a, b, (c.prog s.reg.pc).accum, (c.prog s.reg.pc).accumEn,
        (c.prog s.reg.pc).release, (c.prog s.reg.pc).destLayer, (c.prog s.reg.pc).destMvm⟩ := by
      simp only [issue, h1, if_true, hinst, hzi.rdata, hzr.rdata, ha, hb, List.headD_cons]
    refine ⟨_, (issue c s.reg s.wire).outs ((issue c s.reg s.wire).value c s.wire.raddr
      (r.acc (issue c s.reg s.wire).accum)), .inr hnext, ?_, ?_, ?_, ?_, ?_, fun _ => hm, fun _ => hm', fun _ => hq⟩
    · simp [nextPc, h1, Ref.put, Ref.more, I.pc]
    · rw [hiss, hraddr, flow_one rfl (by simpa using hacc'.1) (fun hen hnone => hacc'.2 ⟨hen, hnone⟩)]
      simp only [Ref.put, Ref.more, I.pc]
      rfl
    · simp only [hiss, hraddr, Ref.put, Ref.more, I.pc, Front.outs, Front.value, value, Option.map_some, Option.getD_some]
    · simp only [Ref.put, Ref.more, I.pc, I.ins, ha, hir, h1, Bool.true_or, Bool.true_and]
      split <;> simp
    · simp only [Ref.put, hrr, h1, if_true, hb, List.tail_cons]
  · have h1f : s.wire.dotReduce = false := by simpa using h1
    by_cases h2 : s.wire.dot = true
    · have h2' := h2
      rw [hdp, decide_eq_true_eq] at h2'
      obtain ⟨hm, hq, he, hj, hred⟩ := h2'
      obtain ⟨a, as, ha⟩ : ∃ a as, s.reg.ififo.mem = a :: as := List.exists_cons_of_ne_nil hm
      have hacc' : ¬ (c.memDepth ≤ (c.prog s.reg.pc).accum ∨
          ((c.prog s.reg.pc).accumEn = true ∧ r.acc (c.prog s.reg.pc).accum = none)) := fun h => hacc ⟨he, hj, h⟩
      simp only [not_or] at hacc'
      have hnext := Ref.next_plain (c := c) (s := r.more x y) (by simpa [Ref.more, I.pc] using he)
        (by simpa [Ref.more, I.pc] using hj) (by simpa [Ref.more, I.pc] using hred) (x := a)
        (xs := as ++ (if s.reg.iWen then [s.reg.iData] else []) ++ x) (by simp [Ref.more, I.ins, ha])
      have hiss : issue c s.reg s.wire = ⟨true, a, c.zeros, (c.prog s.reg.pc).accum, (c.prog s.reg.pc).accumEn,
          (c.prog s.reg.pc).release, (c.prog s.reg.pc).destLayer, (c.prog s.reg.pc).destMvm⟩ := by
        simp only [issue, h1f, h2, Bool.false_eq_true, if_true, if_false, hinst, hzi.rdata, ha, List.headD_cons]
      refine ⟨_, (issue c s.reg s.wire).outs ((issue c s.reg s.wire).value c s.wire.raddr
        (r.acc (issue c s.reg s.wire).accum)), .inr hnext, ?_, ?_, ?_, ?_, ?_, fun _ => hm, fun h => ?_, fun _ => hq⟩
      · simp [nextPc, h2, Ref.put, Ref.more, I.pc]
      · rw [hiss, hraddr, flow_one rfl (by simpa using hacc'.1) (fun hen hnone => hacc'.2 ⟨hen, hnone⟩)]
        simp only [Ref.put, Ref.more, I.pc, value_zeros]
      · simp only [hiss, hraddr, Ref.put, Ref.more, I.pc, Front.outs, value_zeros]
      · simp only [Ref.put, Ref.more, I.pc, I.ins, ha, hir, h2, Bool.or_true, Bool.true_and]
        split <;> simp
      · simp only [Ref.put, Ref.more, I.reds, hrr, h1f, Bool.false_eq_true, if_false]
      · rw [hrr, h1f] at h
        simp at h
    · have h2f : s.wire.dot = false := by simpa using h2
      have hiv : (issue c s.reg s.wire).valid = false := by simp [issue, h1f, h2f]
      have hir' : s.wire.iRen = false := by simp [hir, h1f, h2f]
      have hrr' : s.wire.rRen = false := by rw [hrr, h1f]
      have hflow : ∀ g, flow c g [(issue c s.reg s.wire, s.wire.raddr)] = some (g, []) := by
        intro g
        simp [flow, hiv]
      by_cases h3 : (c.prog s.reg.pc).en = true ∧ (c.prog s.reg.pc).jump = true
      · have hnext := Ref.next_jump (c := c) (s := r.more x y) (by simpa [Ref.more, I.pc] using h3.1)
          (by simpa [Ref.more, I.pc] using h3.2)
        refine ⟨_, _, .inr hnext, ?_, hflow _, ?_, ?_, ?_, ?_, ?_, ?_⟩
        · simp [nextPc, h1f, h2f, hinst, h3.1, h3.2, Ref.more, I.pc]
        · simp [Ref.more]
        · simp [Ref.more, hir', I.ins]
        · simp [Ref.more, hrr', I.reds]
        · simp [hir']
        · simp [hrr']
        · simp [hiv]
      · refine ⟨r.more x y, _, .inl ⟨rfl, hir', hrr', fun ⟨hq, hne⟩ => ?_⟩, ?_, hflow _, ?_, ?_, ?_, ?_, ?_, ?_⟩
        · unfold Able at hne
          obtain ⟨r'', hr''⟩ := Option.ne_none_iff_exists'.1 hne
          rcases Ref.next_cases hr'' with ⟨he, hj, -⟩ | ⟨he, hj, hd, a, as, b, bs, ha, hb, -⟩ | ⟨he, hj, hd, a, as, ha, -⟩
          · simp only [I.pc] at he hj
            exact h3 ⟨he, hj⟩
          · simp only [I.pc] at he hj hd ha hb
            apply h1
            rw [hdr, decide_eq_true_eq]
            exact ⟨by rw [ha]; simp, by rw [hb]; simp, hq, he, hj, hd⟩
          · simp only [I.pc] at he hj hd ha
            apply h2
            rw [hdp, decide_eq_true_eq]
            exact ⟨by rw [ha]; simp, hq, he, hj, hd⟩
        · simp only [nextPc, h1f, h2f, hinst, Bool.or_false, Bool.false_eq_true, if_false, Ref.more, I.pc]
          rw [if_neg (by simpa using h3)]
        · simp [Ref.more]
        · simp [Ref.more, hir', I.ins]
        · simp [Ref.more, hrr', I.reds]
        · simp [hir']
        · simp [hrr']
        · simp [hiv]

/-- What the module shows at its output. -/
theorem Follows.shows {c : Mvm} (hc : c.Fits) {h : Seen} {s : Sig} {r : Ref} {d q f : List Out} (I : Follows c h s r d q f) :
    s.wire.txValid = !q.isEmpty ∧ ∀ o q', q = o :: q' →
      ((⟨s.wire.txData, s.wire.txDest.1, s.wire.txDest.2⟩, s.wire.txUser) : Out × Nat) = c.wire o := by
  obtain ⟨room, hcalm⟩ := I.calm
  obtain ⟨z, z', hz, ho, hl, hm⟩ := I.outs
  have hwide : ∀ o ∈ q, 0 < o.vec.length := by
    intro o ho
    have : o ∈ r.out := by
      rw [I.out]
      simp [ho]
    rw [I.reach.wide (fun _ h => by simp [Ref.start] at h) o this]
    exact hc.lanes
  have hshow : (decide (s.reg.ofifo.rdata.length > 0) && !s.reg.ofifo.empty) = !q.isEmpty := by
    rw [ho.rdata, ho.empty]
    cases q with
    | nil => simp
    | cons o q =>
      have := hwide o (by simp)
      simp [this]
  refine ⟨?_, ?_⟩
  · rw [← hcalm.wire]
    exact hshow
  · rintro o q' rfl
    rw [← hcalm.wire]
    simp only [assign, hshow]
    simp only [List.isEmpty_cons, Bool.not_false, if_true, ho.rdata, hl.rdata, hm.rdata, List.map_cons,
      List.headD_cons, Mvm.wire]
    congr 1
    by_cases hh : o.layer.toInt = c.layer + 1
    · rw [if_pos hh, if_pos (by omega)]
      rfl
    · rw [if_neg hh, if_neg (by omega)]
      rfl

/-- An edge after which `Assign` does not run has not changed whether there is a result. -/
theorem null_seen {c : Mvm} {q q' : List Out} (hq : c.null ∉ q) (hq' : c.null ∉ q') {z : Vec}
    {z' : List (BitVec 5)} (hz : z = c.zeros ∧ z' = [0] ∨ z = [] ∧ z' = [])
    (h1 : (q.map (·.vec)).headD z = (q'.map (·.vec)).headD c.zeros)
    (h2 : (q.map fun o => [o.layer]).headD z' = (q'.map fun o => [o.layer]).headD [0])
    (h3 : (q.map fun o => [o.mvm]).headD z' = (q'.map fun o => [o.mvm]).headD [0]) : q.isEmpty = q'.isEmpty := by
  have hnull : ∀ o : Out, o.vec = c.zeros → o.layer = 0 → o.mvm = 0 → o = c.null := by
    rintro ⟨a, b, e⟩ rfl rfl rfl
    rfl
  cases q with
  | nil =>
    cases q' with
    | nil => rfl
    | cons o q' =>
      exfalso
      simp only [List.map_nil, List.headD_nil, List.map_cons, List.headD_cons] at h1 h2 h3
      rcases hz with ⟨rfl, rfl⟩ | ⟨rfl, rfl⟩
      · simp only [List.cons.injEq, and_true] at h2 h3
        exact hq' (by rw [← hnull o h1.symm h2.symm h3.symm]; simp)
      · simp at h2
  | cons o q =>
    cases q' with
    | nil =>
      exfalso
      simp only [List.map_nil, List.headD_nil, List.map_cons, List.headD_cons, List.cons.injEq, and_true] at h1 h2 h3
      exact hq (by rw [← hnull o h1 h2 h3]; simp)
    | cons o' q' => rfl

theorem countP_shift {α : Type} (p : α → Bool) (x : α) (d : α) {l : List α} (h : l ≠ []) :
    (shift x l).countP p + (if p (l.getLastD d) then 1 else 0) = l.countP p + if p x then 1 else 0 := by
  have h1 := congrArg (List.countP p) (shift_reverse x h)
  have h2 := congrArg (List.countP p) (reverse_cons d h)
  rw [List.countP_reverse, List.countP_append] at h1
  rw [List.countP_reverse, List.countP_cons] at h2
  simp only [List.countP_cons, List.countP_nil] at h1
  omega

/-- Everything that is left of a cycle once the edge is known. -/
theorem cycle_calm {c : Mvm} {s : Sig} {t : Cycle} {g : Reg} (he : edge c s t.rx = .ok g)
    (hs : senses s { s with reg := g, rxUser := t.user } = false → assign c { s with reg := g, rxUser := t.user } = s.wire) :
    ∃ s', cycle c s t = .ok s' ∧ Calm c (t.later.getLastD t.room) s' ∧ s'.reg = g ∧ s'.rxUser = t.user := by
  unfold cycle
  rw [he]
  simp only
  obtain ⟨h1, h2, h3⟩ := settle_of (room := t.room) (p := s) hs
  generalize settle c t.room s { s with reg := g, rxUser := t.user } = s' at h1 h2 h3
  suffices H : ∀ (l : List Bool) (s' : Sig) room, Calm c room s' → s'.reg = g → s'.rxUser = t.user →
      ∃ s'', l.foldl (fun z a => settle c a z z) s' = s'' ∧ Calm c (l.getLastD room) s'' ∧ s''.reg = g ∧ s''.rxUser = t.user by
    obtain ⟨s'', h, hr⟩ := H t.later s' _ h1 h2 h3
    exact ⟨s'', by rw [h], hr⟩
  intro l
  induction l with
  | nil => exact fun s' room h1 h2 h3 => ⟨s', rfl, h1, h2, h3⟩
  | cons a l ih =>
    intro s' room h1 h2 h3
    obtain ⟨k1, k2, k3⟩ := settle_same (room' := a) h1
    rw [List.getLastD_cons]
    exact ih _ _ k1 (k2.trans h2) (k3.trans h3)

theorem Sound.of_reach {c : Mvm} {h : Seen} {s : Sig} {t : Cycle} (hs : Sound c (h.add s t).ins (h.add s t).reds) {r : Ref}
    (hr : Ref.Reach c (Ref.start h.ins h.reds) r) : ∃ x y, Ref.Reach c (Ref.start (h.add s t).ins (h.add s t).reds) (r.more x y) ∧
      ¬ r.Fault c ∧
      x = (if t.rx.valid && s.wire.rxReady && decide (tag s.rxUser = 3) then [t.rx.data] else []) ∧
      y = (if t.rx.valid && s.wire.rxReady && decide (tag s.rxUser = 2) then [t.rx.data] else []) := by
  refine ⟨_, _, ?_, ?_, rfl, rfl⟩
  · exact hr.more _ _
  · exact fun hf => hs (r.more _ _) (hr.more _ _) hf

theorem tail_map {α β : Type} (b : Bool) (q : List α) (g : α → β) :
    (if b then (q.map g).tail else q.map g).length = (if b then q.tail else q).length := by
  cases b <;> simp

theorem after_map {β : Type} (b : Back) (q : List Out) (e : Bool) (k : β) (g : Out → β)
    (hk : k = g ⟨b.result, b.destLayer, b.destMvm⟩) :
    AddDesign.after (q.map g) b.valid e k = ((if e then q.tail else q) ++ backOuts [b]).map g := by
  subst hk
  unfold AddDesign.after backOuts
  cases hb : b.valid <;> cases e <;> simp [hb]

theorem after_length_le {α : Type} (m : List α) (w e : Bool) (k : α) :
    (AddDesign.after m w e k).length ≤ m.length + if w then 1 else 0 := by
  unfold AddDesign.after
  cases w <;> cases e <;> simp

theorem inRoom {α : Type} {m m' : List α} {w t : Bool} {n : Nat}
    (h : m'.length ≤ m.length + if w then 1 else 0) (hm : m.length + (if w then 1 else 0) + 3 ≤ n)
    (ht : t = true → m.length < n - 4) : m'.length + (if t then 1 else 0) + 3 ≤ n := by
  cases t with
  | false =>
    simp only [Bool.false_eq_true, if_false]
    omega
  | true =>
    have := ht rfl
    simp only [if_true]
    cases w <;> simp at h <;> omega

/-- A cycle. -/
theorem cycle_follows {c : Mvm} (hc : c.Fits) {h : Seen} {s : Sig} {r : Ref} {d q f : List Out} (I : Follows c h s r d q f)
    (t : Cycle) (hs : Sound c (h.add s t).ins (h.add s t).reds)
    (hn : ∀ r, Ref.Reach c (Ref.start (h.add s t).ins (h.add s t).reds) r → c.null ∉ r.out) :
    ∃ s' r' f', cycle c s t = .ok s' ∧
      Follows c (h.add s t) s' r' (d ++ if s.txReady then q.take 1 else [])
        ((if s.txReady then q.tail else q) ++ backOuts [lastBack s.reg.back]) f' ∧
      (∃ x y, (h.add s t).ins = h.ins ++ x ∧ (h.add s t).reds = h.reds ++ y ∧ ((r.more x y).next c = some r' ∨
        (r' = r.more x y ∧ s'.reg.ififo.mem = r.ins ∧ s'.reg.rfifo.mem = r.reds ∧
          ¬ (q.length < c.outCfg.almostFull ∧ Able c s r)))) ∧
      s'.txReady = (s'.wire.txValid && t.later.getLastD t.room) ∧
      (∃ b, b.valid = ((s.reg.front.getLastD .idle).valid && (s.reg.front.getLastD .idle).release) ∧
        s'.reg.back = shift b s.reg.back) ∧
      ∃ a, s'.reg.front = shift a s.reg.front := by
  obtain ⟨x, y, hmore, hfault, hx, hy⟩ := hs.of_reach I.reach
  obtain ⟨r', g, hr', hpc, hflow', hout, hins, hreds, hie, hre, hiq⟩ := issue_ok I x y hfault
  have hreach : Ref.Reach c (Ref.start (h.add s t).ins (h.add s t).reds) r' := by
    rcases hr' with ⟨rfl, -⟩ | hr'
    · exact hmore
    · exact .tail hmore hr'
  have hnf := hs _ hreach
  simp only [Ref.Fault, not_or, not_le] at hfault hnf
  obtain ⟨room, hcalm⟩ := I.calm
  obtain ⟨zi, hzi⟩ := I.ififo
  obtain ⟨zr, hzr⟩ := I.rfifo
  obtain ⟨z, z', hz, ho, hl, hm⟩ := I.outs
  obtain ⟨hinst, hraddr, hw1, hw2, hw3, hw4, hw5⟩ := hcalm.wires
  obtain ⟨htv, htd⟩ := I.shows hc
  have hfr : s.reg.front ≠ [] := by
    intro h0
    have := I.front
    rw [h0] at this
    have := hc.read
    simp at *
    omega
  have hbk : s.reg.back ≠ [] := by
    intro h0
    have := I.back
    rw [h0] at this
    have := hc.compute
    simp at *
    omega
  have hzlen : s.reg.front.length = s.reg.raddrs.length := I.front.trans I.raddrs.symm
  have hzne : s.reg.front.zip s.reg.raddrs ≠ [] := by
    intro h0
    have := congrArg List.length h0
    rw [List.length_zip, ← hzlen, I.front] at this
    have := hc.read
    simp at *
    omega
  have hoRen : s.wire.oRen = (!q.isEmpty && s.txReady) := by rw [hw5, htv]
  -- the oldest operation
  have hfl := I.flow
  rw [reverse_cons (Front.idle, 0) hzne, getLastD_zip _ _ hzlen] at hfl
  obtain ⟨acc, v, o', hcomp, hacc, hfl', hfo⟩ := compute_ok hc I.acc hfl
  -- the FIFOs
  have hroom := I.room
  have hiroom := I.iroom
  have hrroom := I.rroom
  have hcnt : (lastBack s.reg.back).valid = true → 1 ≤ s.reg.back.countP (·.valid) := by
    intro hv
    have := reverse_cons Back.idle hbk
    have h2 := congrArg (List.countP (·.valid)) this
    rw [List.countP_reverse, List.countP_cons] at h2
    have : ((s.reg.back.getLastD .idle).valid) = true := hv
    rw [this] at h2
    simp only [if_true] at h2
    omega
  have hoq : s.wire.oRen = true → q ≠ [] := by
    rw [hoRen]
    rintro hh rfl
    simp at hh
  have hcap : s.wire.oWen = true → (if s.wire.oRen then q.tail else q).length ≠ c.fifoSize := by
    intro hv
    rw [hw1] at hv
    have := hcnt hv
    have : (if s.wire.oRen then q.tail else q).length ≤ q.length := by
      split
      · simp
      · exact Nat.le_refl _
    omega
  have t1 := tick_holds c.inCfg c.zeros hzi (wen := s.reg.iWen) (ren := s.wire.iRen) (d := s.reg.iData) hie (by
    intro hv
    have : (if s.wire.iRen then s.reg.ififo.mem.tail else s.reg.ififo.mem).length ≤ s.reg.ififo.mem.length := by
      split
      · simp
      · exact Nat.le_refl _
    rw [hv] at hiroom
    simp only [if_true, Mvm.inCfg] at hiroom ⊢
    omega)
  have t2 := tick_holds c.inCfg c.zeros hzr (wen := s.reg.rWen) (ren := s.wire.rRen) (d := s.reg.rData) hre (by
    intro hv
    have : (if s.wire.rRen then s.reg.rfifo.mem.tail else s.reg.rfifo.mem).length ≤ s.reg.rfifo.mem.length := by
      split
      · simp
      · exact Nat.le_refl _
    rw [hv] at hrroom
    simp only [if_true, Mvm.inCfg] at hrroom ⊢
    omega)
  have t3 := tick_holds c.outCfg c.zeros ho (wen := s.wire.oWen) (ren := s.wire.oRen) (d := s.wire.oData)
    (fun hh => by simpa using hoq hh) (fun hh => by rw [tail_map]; exact hcap hh)
  have t4 := tick_holds c.outCfg [0] hl (wen := s.wire.oWen) (ren := s.wire.oRen) (d := s.wire.dlData)
    (fun hh => by simpa using hoq hh) (fun hh => by rw [tail_map]; exact hcap hh)
  have t5 := tick_holds c.outCfg [0] hm (wen := s.wire.oWen) (ren := s.wire.oRen) (d := s.wire.dmData)
    (fun hh => by simpa using hoq hh) (fun hh => by rw [tail_map]; exact hcap hh)
  have hq' : (if s.wire.oRen then q.tail else q) = if s.txReady then q.tail else q := by
    rw [hoRen]
    cases q <;> simp
  have he := edge_ok (rx := t.rx) (by rw [hraddr, ← I.pc]; exact hfault.2.1) (by rw [hpc]; exact hnf.1) hcomp t1 t2 t3 t4 t5
  rw [hw1, hw2, hw3, hw4, after_map _ q _ _ (·.vec) rfl, after_map _ q _ _ (fun o => [o.layer]) rfl,
    after_map _ q _ _ (fun o => [o.mvm]) rfl, hq'] at he
  -- the results
  have hbo : backOuts s.reg.back.reverse = backOuts [lastBack s.reg.back] ++ backOuts s.reg.back.reverse.tail := by
    conv_lhs => rw [reverse_cons Back.idle hbk]
    unfold backOuts lastBack
    rw [← List.filterMap_append]
    rfl
  have hout' : r'.out = (d ++ if s.txReady then q.take 1 else []) ++
      ((if s.txReady then q.tail else q) ++ backOuts [lastBack s.reg.back]) ++
      backOuts (shift (⟨(s.reg.front.getLastD .idle).valid && (s.reg.front.getLastD .idle).release, v,
          (s.reg.front.getLastD .idle).destLayer, (s.reg.front.getLastD .idle).destMvm⟩ : Back) s.reg.back).reverse ++ (o' ++ g) := by
    rw [shift_reverse _ hbk, hout, I.out, hbo, hfo]
    have h1 : (if s.txReady then q.take 1 else []) ++ (if s.txReady then q.tail else q) = q := by
      cases s.txReady
      · simp
      · cases q <;> simp
    have h2 : backOuts (s.reg.back.reverse.tail ++ [⟨(s.reg.front.getLastD .idle).valid &&
        (s.reg.front.getLastD .idle).release, v, (s.reg.front.getLastD .idle).destLayer,
        (s.reg.front.getLastD .idle).destMvm⟩]) = backOuts s.reg.back.reverse.tail ++
          (if (s.reg.front.getLastD .idle).valid then (s.reg.front.getLastD .idle).outs v else []) := by
      unfold backOuts Front.outs
      rw [List.filterMap_append]
      congr 1
      generalize s.reg.front.getLastD .idle = k
      cases hk1 : k.valid <;> cases hk2 : k.release <;> simp_all
    rw [h2]
    conv_lhs => rw [← h1]
    simp only [List.append_assoc]
  have hnull' : c.null ∉ (if s.txReady then q.tail else q) ++ backOuts [lastBack s.reg.back] := by
    intro hh
    apply hn r' hreach
    rw [hout']
    simp only [List.mem_append] at hh ⊢
    exact .inl (.inl (.inr hh))
  have hnull : c.null ∉ q := by
    intro hh
    apply hn _ hmore
    have : (r.more x y).out = r.out := rfl
    rw [this, I.out]
    simp [hh]
  obtain ⟨s', hcyc, hcalm', hreg, huser⟩ := cycle_calm he (by
    intro hns
    simp only [senses, Bool.or_eq_false_iff, decide_eq_false_iff_not, not_not] at hns
    obtain ⟨⟨⟨⟨⟨⟨⟨⟨⟨⟨⟨⟨⟨⟨⟨⟨n1, n2⟩, -⟩, -⟩, n3⟩, n4⟩, n5⟩, n6⟩, n7⟩, n8⟩, n9⟩, -⟩, n10⟩, n11⟩, n12⟩, n13⟩, n14⟩ := hns
    have hemp : s.reg.ofifo.empty = ((if s.txReady then q.tail else q) ++ backOuts [lastBack s.reg.back]).isEmpty := by
      rw [ho.empty, List.isEmpty_map]
      refine null_seen hnull hnull' hz ?_ ?_ ?_
      · rw [← ho.rdata, n2]
        rfl
      · rw [← hl.rdata, n11]
        rfl
      · rw [← hm.rdata, n12]
        rfl
    conv_rhs => rw [← hcalm.wire]
    unfold assign
    simp only at n1 n2 n3 n4 n5 n6 n7 n8 n9 n10 n11 n12 n13 n14 ⊢
    have hemp' : (Fifo.show c.outCfg c.zeros (((if s.txReady then q.tail else q) ++
        backOuts [lastBack s.reg.back]).map (·.vec))).empty = s.reg.ofifo.empty := by
      rw [hemp]
      exact List.isEmpty_map
    rw [← n1, ← n2, ← n3, ← n4, ← n5, ← n6, ← n7, ← n8, ← n9, ← n10, ← n11, ← n12, ← n13, ← n14, hemp'])
  refine ⟨s', r', o' ++ g, hcyc, ?_, ⟨x, y, by rw [hx]; rfl, by rw [hy]; rfl, ?_⟩, hcalm'.ready, ⟨_, ?_, by rw [hreg]⟩,
    ⟨_, by rw [hreg]⟩⟩
  · have hins' : (h.add s t).ins = h.ins ++ x := by
      rw [hx]
      rfl
    refine ⟨hreach, ⟨_, hcalm'⟩, ?_, ?_, ?_, ⟨c.zeros, ?_⟩, ⟨c.zeros, ?_⟩, ⟨c.zeros, [0], .inl ⟨rfl, rfl⟩, ?_, ?_, ?_⟩, ?_,
      ?_, ?_, ?_, ?_, ?_, ?_, ?_, ?_, ?_⟩ <;> try rw [hreg]
    · exact hpc.symm
    · rw [hins, hx]
      simp only [Fifo.show, AddDesign.after]
      cases (t.rx.valid && s.wire.rxReady && decide (tag s.rxUser = 3)) <;> rfl
    · rw [hreds, hy]
      simp only [Fifo.show, AddDesign.after]
      cases (t.rx.valid && s.wire.rxReady && decide (tag s.rxUser = 2)) <;> rfl
    · exact holds_show ..
    · exact holds_show ..
    · exact holds_show ..
    · exact holds_show ..
    · exact holds_show ..
    · simp only [Seen.add, I.sent, List.map_append]
      congr 1
      rw [htv]
      cases q with
      | nil => simp
      | cons o q =>
        rw [htd o q rfl]
        cases s.txReady <;> simp
    · exact hout'
    · rw [shift_zip _ _ hzlen, shift_reverse _ hzne, flow_append _ hfl', hflow']
      rfl
    · exact hacc
    · rw [shift_length, I.front]
    · rw [shift_length, I.raddrs]
    · rw [shift_length, I.back]
    · have hb := countP_shift (·.valid) (⟨(s.reg.front.getLastD .idle).valid && (s.reg.front.getLastD .idle).release, v,
        (s.reg.front.getLastD .idle).destLayer, (s.reg.front.getLastD .idle).destMvm⟩ : Back) Back.idle hbk
      have hf := countP_shift (·.valid) (issue c s.reg s.wire) Front.idle hfr
      have hb' := List.countP_le_length (p := fun x : Back => x.valid) (l := shift (⟨(s.reg.front.getLastD .idle).valid &&
        (s.reg.front.getLastD .idle).release, v, (s.reg.front.getLastD .idle).destLayer,
        (s.reg.front.getLastD .idle).destMvm⟩ : Back) s.reg.back)
      have hf' := List.countP_le_length (p := fun x : Front => x.valid) (l := shift (issue c s.reg s.wire) s.reg.front)
      rw [shift_length, I.back] at hb'
      rw [shift_length, I.front] at hf'
      have hlb : s.reg.back.getLastD .idle = lastBack s.reg.back := rfl
      rw [hlb] at hb
      have hql : ((if s.txReady then q.tail else q) ++ backOuts [lastBack s.reg.back]).length ≤
          q.length + if (lastBack s.reg.back).valid then 1 else 0 := by
        rw [List.length_append]
        have h1 : (if s.txReady then q.tail else q).length ≤ q.length := by
          split
          · simp
          · exact Nat.le_refl _
        have h2 : (backOuts [lastBack s.reg.back]).length = if (lastBack s.reg.back).valid then 1 else 0 := by
          unfold backOuts
          cases hv : (lastBack s.reg.back).valid <;> simp [hv]
        omega
      have hfit := hc.fifo
      by_cases hiv : (issue c s.reg s.wire).valid = true
      · have hq := hiq hiv
        simp only [Mvm.outCfg] at hq
        dsimp only
        have : (if (lastBack s.reg.back).valid then 1 else 0) ≤ 1 := by split <;> omega
        omega
      · rw [if_neg hiv] at hf
        have : (if ((s.reg.front.getLastD .idle).valid && (s.reg.front.getLastD .idle).release) = true then 1 else 0) ≤
            (if (s.reg.front.getLastD .idle).valid then 1 else 0) := by
          cases (s.reg.front.getLastD .idle).valid <;> cases (s.reg.front.getLastD .idle).release <;> simp
        have hI := I.room
        dsimp only at hb ⊢
        omega
    · refine inRoom (m := s.reg.ififo.mem) (after_length_le ..) hiroom ?_
      intro ht
      simp only [Bool.and_eq_true, decide_eq_true_eq] at ht
      have hrdy : s.wire.rxReady = !s.reg.ififo.almostFull := by
        rw [← hcalm.wire]
        simp [assign, ht.2]
      rw [hrdy, hzi.almostFull] at ht
      have := ht.1.2
      simp [Mvm.inCfg] at this
      omega
    · refine inRoom (m := s.reg.rfifo.mem) (after_length_le ..) hrroom ?_
      intro ht
      simp only [Bool.and_eq_true, decide_eq_true_eq] at ht
      have hrdy : s.wire.rxReady = !s.reg.rfifo.almostFull := by
        rw [← hcalm.wire]
        simp [assign, ht.2]
      rw [hrdy, hzr.almostFull] at ht
      have := ht.1.2
      simp [Mvm.inCfg] at this
      omega
  · rcases hr' with ⟨h1, h2, h3, h4⟩ | hr'
    · refine .inr ⟨h1, ?_, ?_, h4⟩
      · rw [hreg, I.ins, h2]
        rfl
      · rw [hreg, I.reds, h3]
        rfl
    · exact .inl hr'
  · rfl

end RadSim.Mlp
