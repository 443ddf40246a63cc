import Verif.Lemmas.Int8Run

/-! # A matrix vector multiplier of `mlp_int8` follows the reference -/

namespace RadSim.Int8

/-- The accumulators in 8 bits. -/
def low (acc : Nat → BitVec 9 → BitVec 32) (a : BitVec 9) (d : Nat) : BitVec 8 := (acc d a).setWidth 8

/-- What an instruction with value `v` lets out. -/
def outs (c : Mvm) (i : Inst) (v : Nat → BitVec 8) : List Out :=
  if i.release then [⟨(List.range c.lanes).map v, i.releaseDest.toNat, i.releaseOp⟩] else []

/-- The accumulators with a new value. -/
def upd (A : BitVec 9 → Nat → BitVec 8) (i : Inst) (v : Nat → BitVec 8) : BitVec 9 → Nat → BitVec 8 :=
  fun a => if a = i.accumRaddr then v else A a

/-- The stages, oldest first, on accumulators. -/
def flow (c : Mvm) (w : Nat → BitVec 9 → Vec) :
    (BitVec 9 → Nat → BitVec 8) → List Stage → (BitVec 9 → Nat → BitVec 8) × List Out
  | A, [] => (A, [])
  | A, f :: fs =>
    if f.valid then
      ((flow c w (upd A f.i (value c w f.i f.x f.red (A f.i.accumRaddr))) fs).1,
        outs c f.i (value c w f.i f.x f.red (A f.i.accumRaddr)) ++
          (flow c w (upd A f.i (value c w f.i f.x f.red (A f.i.accumRaddr))) fs).2)
    else flow c w A fs

theorem flow_snoc (c : Mvm) (w : Nat → BitVec 9 → Vec) (A : BitVec 9 → Nat → BitVec 8) (l : List Stage) (f : Stage) :
    flow c w A (l ++ [f]) = if f.valid then
      (upd (flow c w A l).1 f.i (value c w f.i f.x f.red ((flow c w A l).1 f.i.accumRaddr)),
        (flow c w A l).2 ++ outs c f.i (value c w f.i f.x f.red ((flow c w A l).1 f.i.accumRaddr)))
    else flow c w A l := by
  induction l generalizing A with
  | nil =>
    simp only [List.nil_append, flow]
    split <;> simp
  | cons g l ih =>
    simp only [List.cons_append, flow, ih]
    split <;> split <;> simp

theorem flow_idle (c : Mvm) (w : Nat → BitVec 9 → Vec) (A : BitVec 9 → Nat → BitVec 8) (l : List Stage)
    (h : ∀ f ∈ l, f.valid = false) : flow c w A l = (A, []) := by
  induction l with
  | nil => rfl
  | cons g l ih =>
    rw [flow, if_neg (by simp [h g (by simp)])]
    exact ih fun f hf => h f (by simp [hf])

/-- The results behind the datapaths, oldest first. -/
def backs (c : Mvm) (bs : List Back) : List Out :=
  bs.flatMap fun b => if b.valid then
    [⟨(List.range c.lanes).map fun d => (b.res.getD d 0).setWidth 8, b.i.releaseDest.toNat, b.i.releaseOp⟩] else []

/-- An entry of the output FIFO. -/
def entry (o : Out) : Vec := o.vec ++ [BitVec.ofNat 8 o.dest, if o.input then 1 else 0]

/-- Whether a write is for engine `d` and address `a`. -/
def hit (d : Nat) (a : BitVec 9) (e : Write) : Bool := e.wen d && decide (a = e.addr)

/-- The newest `n` places on the way to the register files hold no write. -/
def Quiet (W : List Write) (n : Nat) : Prop := ∀ e ∈ W.take n, ∀ d, e.wen d = false

/-- What is on its way to the instruction FIFO. -/
def pendI (s : Sig) : List Inst := if s.instPush then [s.instData] else []

/-- What is on its way to the input FIFO. -/
def pendX (s : Sig) : List Vec := if s.inputPush then [s.inputData] else []

/-- What is on its way to the reduction FIFO. -/
def pendR (s : Sig) : List Vec := if s.redPush then [s.redData] else []

structure Follows (c : Mvm) (s : Sig) (fs : List Stage) (bs : List Back) (W : List Write) (h : Seen) (r : Ref)
    (gone q f : List Out) : Prop where
  reach : Ref.After c h.taken r
  ring : s.inst.mem ++ pendI s = (programOf h.taken).rotate r.pc
  ins : s.input.mem ++ pendX s = r.ins
  reds : s.red.mem ++ pendR s = r.reds
  flow : flow c (weights c h.taken) (low s.acc) fs.reverse = (r.acc, f)
  out : r.out = gone ++ q ++ backs c bs.reverse ++ f
  fifo : s.out.mem = q.map entry
  qWide : ∀ o ∈ q, o.vec.length = c.lanes
  sent : List.Forall₂ (Carries c) h.sent gone
  weights : ∀ d a, weights c h.taken d a = ((W.find? (hit d a)).map (·.data)).getD (s.mem d a)
  read : ∀ d, (W.getLastD .none).wen d = false → s.rdata d = s.mem d (fs.getLastD .idle).i.rfRaddr
  last : ∀ d a, hit d a (W.getLastD .none) = true → s.mem d a = (W.getLastD .none).data
  idle : (∀ b ∈ h.taken, b.kind ≠ 2) → s.input.mem = [] ∧ s.inputPush = false ∧ ∀ f ∈ fs, f.valid = false
  push : s.inputPush = true → Quiet W 1
  mem : s.input.mem ≠ [] → Quiet W 2
  stage : ∀ (k : Nat) (f : Stage), fs[k]? = some f → f.valid = true → Quiet W (3 + k)

theorem init_follows (c : Mvm) : Follows c (.init c) (List.replicate c.rdLat .idle)
    (List.replicate c.delay ⟨.default, false, List.replicate c.lanes 0⟩) (List.replicate (c.wrLat + 1) .none) ⟨[], []⟩
    (.start [] []) [] [] [] := by
  have hn : ∀ e ∈ List.replicate (c.wrLat + 1) Write.none, ∀ d, e.wen d = false := by
    intro e he d
    rw [List.eq_of_mem_replicate he]
    rfl
  have hl : (List.replicate (c.wrLat + 1) Write.none).getLastD .none = .none := by
    rw [List.getLastD_eq_getLast?, List.getLast?_replicate]; simp
  have hq : ∀ n, Quiet (List.replicate (c.wrLat + 1) Write.none) n := fun n e he => hn e (List.mem_of_mem_take he)
  constructor
  case reach => exact .refl
  case ring => simp [Sig.init, pendI, programOf]
  case ins => simp [Sig.init, pendX, Ref.start]
  case reds => simp [Sig.init, pendR, Ref.start]
  case flow =>
    rw [flow_idle]
    · simp only [Ref.start, Sig.init, Prod.mk.injEq, and_true]
      rfl
    · intro f hf
      rw [List.mem_reverse] at hf
      rw [List.eq_of_mem_replicate hf]
      rfl
  case out =>
    have : backs c (List.replicate c.delay (⟨.default, false, List.replicate c.lanes 0⟩ : Back)).reverse = [] := by
      unfold backs
      rw [List.flatMap_eq_nil_iff]
      intro b hb
      rw [List.mem_reverse] at hb
      rw [List.eq_of_mem_replicate hb]
      simp
    rw [this]
    rfl
  case fifo => rfl
  case qWide => simp
  case sent => exact .nil
  case weights =>
    intro d a
    rw [List.find?_eq_none.2]
    · rfl
    · intro e he
      simp [hit, hn e he]
  case read =>
    intro d _
    rfl
  case last =>
    intro d a h
    rw [hl] at h
    simp [hit, Write.none] at h
  case idle =>
    intro _
    refine ⟨rfl, rfl, fun f hf => ?_⟩
    rw [List.eq_of_mem_replicate hf]
    rfl
  case push => intro _; exact hq _
  case mem => intro _; exact hq _
  case stage => intro k f _ _; exact hq _

/-! ## the weights -/

theorem last_of_cons {α β : Type} (g : α → β) (d : α) {x : β} {l : List β} {W : List α} (h : x :: l = W.map g) (hl : l ≠ []) :
    l.getLastD (g d) = g (W.getLastD d) := by
  rw [← getLastD_map g, ← h]
  cases l with
  | nil => exact absurd rfl hl
  | cons y l => rfl

theorem Base.wens_ne {c : Mvm} {s : Sig} {fs : List Stage} {bs : List Back} {W : List Write} (B : Base c s fs bs W) (hc : c.Fits) :
    2 ≤ W.length := by
  have := B.wLen
  have := hc.write
  have := hc.read
  omega

theorem tail_ne {α β : Type} {g : α → β} {x : β} {l : List β} {W : List α} (h : x :: l = W.map g) (hw : 2 ≤ W.length) : l ≠ [] := by
  rintro rfl
  have := congrArg List.length h
  rw [List.length_map] at this
  have h9 : ([] : List β).length + 1 = W.length := this
  rw [List.length_nil] at h9
  omega

theorem Base.wenLast {c : Mvm} {s : Sig} {fs : List Stage} {bs : List Back} {W : List Write} (B : Base c s fs bs W) (hc : c.Fits) :
    s.wens.getLastD (fun _ => false) = (W.getLastD .none).wen :=
  last_of_cons Write.wen .none B.wens (tail_ne B.wens (B.wens_ne hc))

theorem Base.waddrLast {c : Mvm} {s : Sig} {fs : List Stage} {bs : List Back} {W : List Write} (B : Base c s fs bs W) (hc : c.Fits) :
    s.waddrs.getLastD 0 = (W.getLastD .none).addr :=
  last_of_cons Write.addr .none B.waddrs (tail_ne B.waddrs (B.wens_ne hc))

theorem Base.wdataLast {c : Mvm} {s : Sig} {fs : List Stage} {bs : List Back} {W : List Write} (B : Base c s fs bs W) (hc : c.Fits) :
    s.wdatas.getLastD [] = (W.getLastD .none).data :=
  last_of_cons Write.data .none B.wdatas (tail_ne B.wdatas (B.wens_ne hc))

theorem Base.raddrLast {c : Mvm} {s : Sig} {fs : List Stage} {bs : List Back} {W : List Write} (B : Base c s fs bs W) :
    s.raddrs.getLastD 0 = (fs.getLastD .idle).i.rfRaddr := by
  rw [B.raddrs, show (0 : BitVec 9) = (fun f : Stage => f.i.rfRaddr) .idle from rfl, getLastD_map]

theorem getLastD_mem {α : Type} {l : List α} (d : α) (h : l ≠ []) : l.getLastD d ∈ l := by
  rw [List.getLastD_eq_getLast?, List.getLast?_eq_getLast_of_ne_nil h]
  exact List.getLast_mem h

/-- The register files between two states that keep `Base`. -/
theorem settle_last {c : Mvm} {p n : Sig} {fs fs' : List Stage} {bs bs' : List Back} {W W' : List Write} (hc : c.Fits)
    (B : Base c p fs bs W) (B' : Base c (rfSettle p n) fs' bs' W') (hn : n.mem = p.mem)
    (h : ∀ d a, hit d a (W.getLastD .none) = true → p.mem d a = (W.getLastD .none).data) (d : Nat) (a : BitVec 9)
    (hw : hit d a (W'.getLastD .none) = true) : (rfSettle p n).mem d a = (W'.getLastD .none).data := by
  have e1 : n.wens.getLastD (fun _ => false) = _ := B'.wenLast hc
  have e2 : n.waddrs.getLastD 0 = _ := B'.waddrLast hc
  have e3 : n.wdatas.getLastD [] = _ := B'.wdataLast hc
  unfold hit at hw
  rw [Bool.and_eq_true, decide_eq_true_eq] at hw
  have hne : W' ≠ [] := by
    intro h0
    have := B'.wens_ne hc
    rw [h0, List.length_nil] at this
    omega
  have hl := B'.writeWide _ (getLastD_mem .none hne) d hw.1
  have hlanes := hc.lanes
  show (if _ then _ else _) = _
  rw [e1, e2, e3]
  by_cases hs : rfSenses p n d = true
  · rw [if_pos (by simp only [hs, hw.1, ← hw.2, hl, Bool.and_eq_true, decide_eq_true_eq]; refine ⟨⟨⟨trivial, trivial⟩, ?_⟩, trivial⟩; omega)]
  · rw [if_neg (by simp [hs]), hn]
    have hs2 := hs
    unfold rfSenses at hs2
    simp only [Bool.or_eq_true, decide_eq_true_eq, not_or, Decidable.not_not, e1, e2, e3, B.wenLast hc, B.waddrLast hc,
      B.wdataLast hc] at hs2
    rw [h d a (by
      unfold hit
      rw [← hs2.2, ← hs2.1.1.2, hw.1, hw.2]
      simp), ← hs2.1.2]

theorem settle_keep {c : Mvm} {p n : Sig} {fs' : List Stage} {bs' : List Back} {W' : List Write} (hc : c.Fits)
    (B' : Base c (rfSettle p n) fs' bs' W') (d : Nat) (a : BitVec 9)
    (hw : hit d a (W'.getLastD .none) = false) : (rfSettle p n).mem d a = n.mem d a := by
  have e1 : n.wens.getLastD (fun _ => false) = _ := B'.wenLast hc
  have e2 : n.waddrs.getLastD 0 = _ := B'.waddrLast hc
  show (if _ then _ else _) = _
  rw [e1, e2, if_neg]
  unfold hit at hw
  intro h
  simp only [Bool.and_eq_true, decide_eq_true_eq] at h
  rw [h.1.1.2] at hw
  simp [h.2] at hw

theorem settle_read {c : Mvm} {p n : Sig} {fs fs' : List Stage} {bs bs' : List Back} {W W' : List Write} (hc : c.Fits)
    (B : Base c p fs bs W) (B' : Base c (rfSettle p n) fs' bs' W') (hn : n.mem = p.mem) (hr : n.rdata = p.rdata)
    (h : ∀ d, (W.getLastD .none).wen d = false → p.rdata d = p.mem d (fs.getLastD .idle).i.rfRaddr) (d : Nat)
    (hw : (W'.getLastD .none).wen d = false) :
    (rfSettle p n).rdata d = (rfSettle p n).mem d (fs'.getLastD .idle).i.rfRaddr := by
  have e1 : n.wens.getLastD (fun _ => false) = _ := B'.wenLast hc
  have e2 : n.raddrs.getLastD 0 = _ := B'.raddrLast
  rw [settle_keep hc B' d _ (by unfold hit; rw [hw]; rfl), hn]
  show (if _ then _ else _) = _
  rw [e2, hn]
  split
  · rfl
  · rename_i hs
    unfold rfSenses at hs
    simp only [Bool.or_eq_true, decide_eq_true_eq, not_or, Decidable.not_not, e1, e2, B.wenLast hc, B.raddrLast] at hs
    rw [hr, h d (by rw [← hs.2, hw]), hs.1.1.1]

theorem settle_weights {c : Mvm} {p n : Sig} {fs fs' : List Stage} {bs bs' : List Back} {W : List Write} {e : Write} (hc : c.Fits)
    (B : Base c p fs bs W) (B' : Base c (rfSettle p n) fs' bs' (pipe e W)) (hn : n.mem = p.mem)
    (h : ∀ d a, hit d a (W.getLastD .none) = true → p.mem d a = (W.getLastD .none).data) (d : Nat) (a : BitVec 9) :
    (((pipe e W).find? (hit d a)).map (·.data)).getD ((rfSettle p n).mem d a) =
      if hit d a e then e.data else ((W.find? (hit d a)).map (·.data)).getD (p.mem d a) := by
  have hW : W ≠ [] := by
    intro h0
    have := B.wens_ne hc
    rw [h0, List.length_nil] at this
    omega
  have hpe := pipe_eq e .none hW
  have h1 : (if hit d a e then e.data else ((W.find? (hit d a)).map (·.data)).getD (p.mem d a)) =
      (((e :: W).find? (hit d a)).map (·.data)).getD (p.mem d a) := by
    rw [List.find?_cons]
    split
    · rename_i h; simp [h]
    · rename_i h; simp [h]
  rw [h1, ← hpe, List.find?_append]
  cases hf : (pipe e W).find? (hit d a) with
  | some x => simp
  | none =>
    have hne : pipe e W ≠ [] := by
      intro h0
      have := congrArg List.length h0
      rw [pipe_length, List.length_nil, List.length_eq_zero_iff] at this
      exact hW this
    have hlast : hit d a ((pipe e W).getLastD .none) = false := by
      have := List.find?_eq_none.1 hf _ (getLastD_mem .none hne)
      simpa using this
    rw [settle_keep hc B' d a hlast, hn]
    simp only [Option.none_or, Option.map_none, Option.getD_none, List.find?_cons, List.find?_nil]
    split
    · rename_i hh
      simpa using h d a hh
    · rfl

/-! ## the datapaths -/

theorem Follows.rdata {c : Mvm} {s : Sig} {fs : List Stage} {bs : List Back} {W : List Write} {h : Seen} {r : Ref}
    {gone q f : List Out} (hc : c.Fits) (B : Base c s fs bs W) (F : Follows c s fs bs W h r gone q f)
    (hv : (fs.getLastD .idle).valid = true) (d : Nat) :
    s.rdata d = Int8.weights c h.taken d (fs.getLastD .idle).i.rfRaddr := by
  have hfs := B.fs_ne hc
  have hl : fs[c.rdLat - 1]? = some (fs.getLastD .idle) := by
    rw [List.getLastD_eq_getLast?, List.getLast?_eq_getElem?, B.fsLen, List.getElem?_eq_getElem (by rw [B.fsLen]; have := hc.read; omega)]
    rfl
  have hq := F.stage _ _ hl hv
  have hW : W.take (3 + (c.rdLat - 1)) = W := by
    apply List.take_of_length_le
    have := B.wLen
    have := hc.write
    have := hc.read
    omega
  unfold Quiet at hq
  rw [hW] at hq
  have hne : W ≠ [] := by
    intro h0
    have := B.wens_ne hc
    rw [h0, List.length_nil] at this
    omega
  rw [F.weights, List.find?_eq_none.2 (by intro e he; simp [hit, hq e he]), F.read d (hq _ (getLastD_mem _ hne) d)]
  rfl

theorem value_plain {c : Mvm} {w : Nat → BitVec 9 → Vec} {i : Inst} (hi : i.reduce = false) (x y : Vec) (A : Nat → BitVec 8) :
    value c w i x y A = value c w i x [] A := by
  funext d
  simp [value, hi]

theorem low_next {c : Mvm} {s : Sig} {fs : List Stage} {bs : List Back} {W : List Write} {h : Seen} {r : Ref}
    {gone q f : List Out} (hc : c.Fits) (B : Base c s fs bs W) (F : Follows c s fs bs W h r gone q f)
    (hv : (fs.getLastD .idle).valid = true) :
    low (accNext c s) = upd (low s.acc) (fs.getLastD .idle).i (value c (Int8.weights c h.taken) (fs.getLastD .idle).i
      (fs.getLastD .idle).x (fs.getLastD .idle).red (low s.acc (fs.getLastD .idle).i.accumRaddr)) := by
  funext a d
  have hred : (fs.getLastD .idle).i.reduce = true → s.redOp = (fs.getLastD .idle).red := by
    intro hr
    apply B.redOp
    intro h0
    have := (B.stageWide _ (getLastD_mem .idle (B.fs_ne hc)) hv).2 hr
    rw [h0, List.length_nil] at this
    have := hc.lanes
    omega
  simp only [low, upd, accNext, B.validLast, B.instLast, B.inputLast, hv, Bool.true_and, decide_eq_true_eq]
  by_cases ha : a = (fs.getLastD Stage.idle).i.accumRaddr
  · rw [if_pos ha, if_pos ha, F.rdata hc B hv, BitVec.setWidth_add _ _ (by decide), BitVec.setWidth_add _ _ (by decide), dot8]
    unfold value
    rw [add_comm]
    congr 1
    · congr 1
      cases hr : (fs.getLastD Stage.idle).i.reduce with
      | false => rfl
      | true => rw [if_pos rfl, if_pos rfl, hred hr, setWidth_signExtend]
    · rw [ha]
      split <;> rfl
  · rw [if_neg ha, if_neg ha]
    rfl

theorem low_idle {c : Mvm} {s : Sig} {fs : List Stage} {bs : List Back} {W : List Write} (B : Base c s fs bs W)
    (hv : (fs.getLastD .idle).valid = false) : accNext c s = s.acc := by
  funext d a
  simp only [accNext, B.validLast, hv, Bool.false_and, Bool.false_eq_true, if_false]

/-- What the oldest stage lets out. -/
theorem back_out {c : Mvm} {s : Sig} {fs : List Stage} {bs : List Back} {W : List Write} {h : Seen} {r : Ref}
    {gone q f : List Out} (hc : c.Fits) (B : Base c s fs bs W) (F : Follows c s fs bs W h r gone q f) :
    ∃ f', flow c (Int8.weights c h.taken) (low (accNext c s)) fs.reverse.tail = (r.acc, f') ∧
      f = backs c [backIn c s] ++ f' := by
  have hF := F.flow
  rw [reverse_cons .idle (B.fs_ne hc), Int8.flow] at hF
  cases hv : (fs.getLastD .idle).valid with
  | false =>
    rw [hv, if_neg (by simp)] at hF
    rw [low_idle B hv]
    refine ⟨f, hF, ?_⟩
    simp only [backs, backIn, B.validLast, hv, Bool.false_and, List.flatMap_cons, List.flatMap_nil, Bool.false_eq_true, if_false,
      List.append_nil, List.nil_append]
  | true =>
    rw [hv, if_pos rfl, Prod.mk.injEq] at hF
    rw [low_next hc B F hv]
    refine ⟨_, Prod.ext hF.1 rfl, ?_⟩
    rw [← hF.2]
    congr 1
    simp only [outs, backs, backIn, B.validLast, B.instLast, hv, Bool.true_and, List.flatMap_cons, List.flatMap_nil,
      List.append_nil]
    split
    · congr 1
      rw [Out.mk.injEq]
      refine ⟨?_, rfl, rfl⟩
      refine List.map_congr_left fun d hd => ?_
      have hd' : d < c.lanes := List.mem_range.1 hd
      have hnext := congrFun (congrFun (low_next hc B F hv) (fs.getLastD .idle).i.accumRaddr) d
      simp only [upd, if_true] at hnext
      rw [← hnext, List.getD_eq_getElem?_getD, List.getElem?_map, List.getElem?_range hd']
      rfl
    · rfl

theorem backs_append (c : Mvm) (a b : List Back) : backs c (a ++ b) = backs c a ++ backs c b := by simp [backs]

theorem backs_step {c : Mvm} {bs : List Back} (h : bs ≠ []) (b : Back) :
    backs c [bs.getLastD .idle] ++ backs c (pipe b bs).reverse = backs c bs.reverse ++ backs c [b] := by
  have := reverse_cons .idle h
  rw [pipe_reverse _ h, backs_append]
  conv_rhs => rw [this]
  rw [← List.append_assoc, ← backs_append]
  rfl

/-! ## the output -/

theorem Base.outData {c : Mvm} {s : Sig} {fs : List Stage} {bs : List Back} {W : List Write} (hc : c.Fits) (B : Base c s fs bs W) :
    (if s.dpvPipe.getLastD false then [outData c s] else []) = (backs c [bs.getLastD .idle]).map entry := by
  have h1 : s.dpPipe.getLastD [] = (bs.getLastD .idle).res :=
    last_of_cons Back.res .idle B.dp (tail_ne B.dp (by have := B.bsLen; have := hc.delay; omega))
  have h2 : s.instDp.getLastD .default = (bs.getLastD .idle).i := by
    rw [B.instDp, show Inst.default = Back.idle.i from rfl, getLastD_map]
  rw [B.dpvLast hc]
  simp only [backs, List.flatMap_cons, List.flatMap_nil, List.append_nil, Int8.outData, h1, h2]
  split
  · simp only [List.map_cons, List.map_nil, entry, List.cons.injEq, and_true, List.append_cancel_left_eq]
    apply BitVec.eq_of_toNat_eq
    simp
  · rfl

theorem pack_entry {c : Mvm} {o : Out} (ho : o.vec.length = c.lanes) : Carries c (txBeat c (entry o)) o := by
  have h1 : (entry o).getD c.lanes 0 = BitVec.ofNat 8 o.dest := by
    simp [entry, List.getD_eq_getElem?_getD, ho]
  have h2 : (entry o).getD (c.lanes + 1) 0 = if o.input then 1 else 0 := by
    simp [entry, List.getD_eq_getElem?_getD, ho]
  constructor
  · intro l _
    have : (entry o).take c.lanes = o.vec := by simp [entry, ← ho]
    simp only [txBeat, this, pack_lane]
  · simp only [txBeat, h2]
    cases o.input <;> decide
  · intro hd
    simp only [txBeat, h1]
    rw [BitVec.toInt_eq_toNat_cond, BitVec.toNat_ofNat]
    rw [Nat.mod_eq_of_lt (by omega), if_pos (by omega)]

/-! ## the reference moves with the pops -/

/-- The reference after the pops of an edge. -/
def Ref.popped (c : Mvm) (w : Nat → BitVec 9 → Vec) (s : Sig) (r : Ref) : Ref :=
  if instPop c s then
    r.put c s.inst.odata (value c w s.inst.odata s.input.odata s.red.odata (r.acc s.inst.odata.accumRaddr))
      (if s.inst.odata.reduce then r.reds.tail else r.reds)
  else r

theorem popped_reach {c : Mvm} {s : Sig} {fs : List Stage} {bs : List Back} {W : List Write} {h : Seen} {r : Ref}
    {gone q f : List Out} (B : Base c s fs bs W) (F : Follows c s fs bs W h r gone q f) :
    Ref.After c h.taken (r.popped c (Int8.weights c h.taken) s) := by
  unfold Ref.popped
  split
  · rename_i hp
    have hp := instPop_iff.1 hp
    obtain ⟨i, is, hi⟩ := List.exists_cons_of_ne_nil hp.1
    obtain ⟨x, xs, hx⟩ := List.exists_cons_of_ne_nil hp.2.1
    have hring := F.ring
    have hins := F.ins
    rw [hi] at hring
    rw [hx] at hins
    have hpc : (programOf h.taken)[r.pc % (programOf h.taken).length]? = some s.inst.odata := by
      rw [B.inst.cons hi]
      have hne : programOf h.taken ≠ [] := by
        intro h0
        rw [h0] at hring
        simp at hring
      have h1 := congrArg (·[0]?) hring
      simp only [List.cons_append, List.getElem?_cons_zero] at h1
      rw [List.getElem?_rotate (by exact List.length_pos_iff.2 hne)] at h1
      rw [h1]
      simp
    refine .tail F.reach ?_
    rw [B.input.cons hx]
    cases hr : s.inst.odata.reduce with
    | false =>
      rw [value_plain hr]
      simp only [Bool.false_eq_true, if_false]
      exact Ref.next_plain hpc hins.symm hr
    | true =>
      obtain ⟨y, ys, hy⟩ := List.exists_cons_of_ne_nil (hp.2.2.2 hr)
      have hreds := F.reds
      rw [hy] at hreds
      rw [B.red.cons hy, ← hreds]
      exact Ref.next_reduce hpc hins.symm hr hreds.symm
  · exact F.reach

theorem popped_ring {c : Mvm} {s : Sig} {fs : List Stage} {bs : List Back} {W : List Write} {h : Seen} {r : Ref}
    {gone q f : List Out} (B : Base c s fs bs W) (F : Follows c s fs bs W h r gone q f) :
    (if instPop c s then s.inst.mem.tail else s.inst.mem) ++ pendI s ++ (if instPop c s then [s.inst.odata] else []) =
      (programOf h.taken).rotate (r.popped c (Int8.weights c h.taken) s).pc := by
  have hring := F.ring
  unfold Ref.popped
  split
  · rename_i hp
    have hp := instPop_iff.1 hp
    obtain ⟨i, is, hi⟩ := List.exists_cons_of_ne_nil hp.1
    show _ = (programOf h.taken).rotate (r.pc + 1)
    rw [← List.rotate_rotate, ← hring, hi, B.inst.cons hi]
    simp
  · rw [← hring]
    simp

theorem popped_ins {c : Mvm} {s : Sig} {fs : List Stage} {bs : List Back} {W : List Write} {h : Seen} {r : Ref}
    {gone q f : List Out} (F : Follows c s fs bs W h r gone q f) :
    (if inputPop c s then s.input.mem.tail else s.input.mem) ++ pendX s = (r.popped c (Int8.weights c h.taken) s).ins := by
  have hins := F.ins
  rw [inputPop_eq]
  unfold Ref.popped
  cases hp : instPop c s with
  | false => simpa using hins
  | true =>
    obtain ⟨x, xs, hx⟩ := List.exists_cons_of_ne_nil (instPop_iff.1 hp).2.1
    simp only [Bool.true_and, if_true, Ref.put]
    rw [← hins, hx]
    split <;> rfl

theorem popped_reds {c : Mvm} {s : Sig} {fs : List Stage} {bs : List Back} {W : List Write} {h : Seen} {r : Ref}
    {gone q f : List Out} (F : Follows c s fs bs W h r gone q f) :
    (if redPop c s then s.red.mem.tail else s.red.mem) ++ pendR s = (r.popped c (Int8.weights c h.taken) s).reds := by
  have hreds := F.reds
  rw [redPop_eq]
  unfold Ref.popped
  cases hp : instPop c s with
  | false => simpa using hreds
  | true =>
    simp only [Bool.true_and, if_true, Ref.put]
    cases hr : s.inst.odata.reduce with
    | false => simpa using hreds
    | true =>
      obtain ⟨x, xs, hx⟩ := List.exists_cons_of_ne_nil ((instPop_iff.1 hp).2.2.2 hr)
      rw [← hreds, hx]
      rfl

theorem popped_flow {c : Mvm} {s : Sig} {fs : List Stage} {bs : List Back} {W : List Write} {h : Seen} {r : Ref}
    {gone q f : List Out} (hc : c.Fits) (B : Base c s fs bs W) (F : Follows c s fs bs W h r gone q f) :
    ∃ f', flow c (Int8.weights c h.taken) (low (accNext c s)) (pipe (stageIn c s) fs).reverse =
        ((r.popped c (Int8.weights c h.taken) s).acc, f') ∧
      (r.popped c (Int8.weights c h.taken) s).out = gone ++ q ++ backs c bs.reverse ++ backs c [backIn c s] ++ f' := by
  obtain ⟨f', h1, h2⟩ := back_out hc B F
  rw [pipe_reverse _ (B.fs_ne hc), flow_snoc, h1]
  have hout := F.out
  unfold Ref.popped
  show ∃ f'', (if instPop c s then _ else _) = _ ∧ _
  cases hp : instPop c s with
  | false => exact ⟨f', rfl, by rw [if_neg (by simp), hout, h2]; simp⟩
  | true =>
    refine ⟨_, rfl, ?_⟩
    rw [if_pos rfl]
    simp only [Ref.put, hout, h2, outs, stageIn, List.append_assoc]
    rfl

theorem beat_kind (b : Beat) : b.kind < 4 := Nat.mod_lt _ (by decide)

/-! ## an edge -/

theorem mem_next (c : Mvm) (s : Sig) (T : Option Beat) (ready : Bool) : (nextSig c s T ready).inst.mem =
    (if instPop c s then s.inst.mem.tail else s.inst.mem) ++ pendI s := rfl

theorem quiet_pipe {W : List Write} {n : Nat} {e : Write} (h : Quiet W n) (he : ∀ d, e.wen d = false) : Quiet (pipe e W) (n + 1) := by
  intro x hx d
  unfold pipe at hx
  rw [List.take_take] at hx
  have hx2 : x ∈ (e :: W).take (n + 1) := List.IsPrefix.mem hx (List.take_prefix_take_left (Nat.min_le_left _ _))
  rw [List.take_succ_cons, List.mem_cons] at hx2
  rcases hx2 with rfl | hx2
  · exact he d
  · exact h x hx2 d

theorem follows_next {c : Mvm} {s : Sig} {fs : List Stage} {bs : List Back} {W : List Write} {h : Seen} {r : Ref}
    {gone q f : List Out} (hc : c.Fits) (B : Base c s fs bs W) (F : Follows c s fs bs W h r gone q f) (t : Cycle)
    (ho : Ordered (h.add c s t).taken) :
    ∃ r' gone' q' f', r'.pc = r.pc + (if instPop c s then 1 else 0) ∧
      Follows c (nextSig c s (took c s t.rx) t.ready) (pipe (stageIn c s) fs) (pipe (backIn c s) bs)
        (pipe (writeIn c s (took c s t.rx)) W) (h.add c s t) r' gone' q' f' := by
  have B' := base_next hc B t.rx t.ready
  have hT : (h.add c s t).taken = h.taken ++ (took c s t.rx).toList := rfl
  generalize hTT : took c s t.rx = T at *
  -- loading, or only vectors from now on
  have hmode : (∀ b ∈ h.taken, b.kind ≠ 2) ∨ ∀ b ∈ T, b.kind = 1 ∨ b.kind = 2 := by
    cases T with
    | none => right; simp
    | some b =>
      rw [hT] at ho
      rcases (Ordered.snoc ho).2 with h | h
      · right; simpa using h
      · left; exact h
  have hnopop : (∀ b ∈ h.taken, b.kind ≠ 2) → instPop c s = false := by
    intro hl
    cases hp : instPop c s
    · rfl
    · exact absurd (F.idle hl).1 (instPop_iff.1 hp).2.1
  have hprog : (∀ b ∈ T, b.kind = 1 ∨ b.kind = 2) → programOf (h.taken ++ T.toList) = programOf h.taken := by
    intro hk
    rw [programOf_append]
    cases T with
    | none => simp [programOf]
    | some b =>
      rcases hk b rfl with h | h <;> simp [programOf, h]
  have hwei : (∀ b ∈ T, b.kind = 1 ∨ b.kind = 2) → Int8.weights c (h.taken ++ T.toList) = Int8.weights c h.taken := by
    intro hk
    cases T with
    | none => simp
    | some b =>
      funext d a
      rw [Option.toList_some, weights_append, if_neg]
      unfold Beat.loads
      rcases hk b rfl with h | h <;> simp [h]
  have htag : ∀ n, isTag T n = T.any fun b => decide (b.kind = n) := by
    intro n
    unfold isTag
    simp only [tag_kind]
  have hquiet : (∀ b ∈ T, b.kind ≠ 3) → ∀ d, (writeIn c s T).wen d = false := by
    intro hk d
    simp only [writeIn, htag]
    cases T with
    | none => rfl
    | some b => simp [hk b rfl]
  obtain ⟨f', hfl, hout⟩ := popped_flow hc B F
  have hX : pendX (nextSig c s T t.ready) = inputsOf c T.toList := by
    show (if isTag T 2 then [if isTag T 2 then unpack c _ else _] else []) = _
    rw [htag]
    cases T with
    | none => rfl
    | some b =>
      by_cases hb : b.kind = 2
      · simp [inputsOf, hb, unpack_vec]
      · simp [inputsOf, hb]
  have hR : pendR (nextSig c s T t.ready) = addsOf c T.toList := by
    show (if isTag T 1 then [if isTag T 1 then unpack c _ else _] else []) = _
    rw [htag]
    cases T with
    | none => rfl
    | some b =>
      by_cases hb : b.kind = 1
      · simp [addsOf, hb, unpack_vec]
      · simp [addsOf, hb]
  have hI : pendI (nextSig c s T t.ready) = (if instPop c s then [s.inst.odata] else []) ∧
      programOf T.toList = [] ∨ instPop c s = false ∧ pendI (nextSig c s T t.ready) = programOf T.toList := by
    show (if (if isTag T 0 then true else instPop c s) then [if isTag T 0 then Inst.fromBv _ else _] else []) = _ ∧ _ ∨
      _ ∧ (if (if isTag T 0 then true else instPop c s) then [if isTag T 0 then Inst.fromBv _ else _] else []) = _
    rw [htag]
    cases T with
    | none => left; simp [programOf]
    | some b =>
      by_cases hb : b.kind = 0
      · right
        constructor
        · rcases hmode with hm | hm
          · exact hnopop hm
          · have := hm b rfl; omega
        · simp [programOf, hb, fromBv_inst]
      · left
        simp [programOf, hb]
  have hload : (∀ b ∈ h.taken, b.kind ≠ 2) → inputsOf c h.taken = [] := by
    intro hl
    simp only [inputsOf, List.map_eq_nil_iff, List.filter_eq_nil_iff, decide_eq_true_eq]
    exact hl
  set r1 := r.popped c (Int8.weights c h.taken) s with hr1
  have hstart : (∀ b ∈ h.taken, b.kind ≠ 2) → r1 = .start [] (addsOf c h.taken) := by
    intro hl
    have hre := F.reach
    unfold Ref.After at hre
    rw [hload hl] at hre
    rw [hr1]
    unfold Ref.popped
    rw [hnopop hl, if_neg (by simp)]
    exact hre.still
  have hpopo : (outPop s t.ready) = (txValid s && t.ready) := by
    unfold outPop txValid Fifo.empty
    cases hm : s.out.mem with
    | nil => simp
    | cons o l =>
      have h1 := B.outWide o (by simp [hm])
      rw [B.out.cons hm, h1]
      simp
  have hmem : (nextSig c s T t.ready).out.mem = (if outPop s t.ready then s.out.mem.tail else s.out.mem) ++
      (backs c [bs.getLastD .idle]).map entry := by
    rw [← B.outData hc]
    rfl
  have hwideb : ∀ b : Back, ∀ o ∈ backs c [b], o.vec.length = c.lanes := by
    intro b o ho
    simp only [backs, List.flatMap_cons, List.flatMap_nil, List.append_nil] at ho
    split at ho
    · rw [List.mem_singleton] at ho
      rw [ho]
      simp
    · simp at ho
  have hbs := backs_step (c := c) (B.bs_ne hc) (backIn c s)
  -- what was handed over
  obtain ⟨gone', q0, hg, hq0, hsent⟩ : ∃ gone' q0, gone ++ q = gone' ++ q0 ∧
      (if outPop s t.ready then s.out.mem.tail else s.out.mem) = q0.map entry ∧
      List.Forall₂ (Carries c) (h.add c s t).sent gone' := by
    show ∃ gone' q0, _ ∧ _ ∧ List.Forall₂ (Carries c) (h.sent ++ if txValid s && t.ready then _ else []) gone'
    rw [hpopo]
    cases hp : (txValid s && t.ready) with
    | false => exact ⟨gone, q, rfl, by simpa using F.fifo, by simpa using F.sent⟩
    | true =>
      have hp2 := outPop_ne (hpopo.trans hp)
      have hfifo := F.fifo
      cases hq : q with
      | nil => rw [hq] at hfifo; exact absurd hfifo hp2
      | cons o l =>
        rw [hq, List.map_cons] at hfifo
        refine ⟨gone ++ [o], l, by simp, by simp [hfifo], ?_⟩
        refine List.rel_append F.sent (.cons ?_ .nil)
        rw [B.out.cons hfifo]
        exact pack_entry (F.qWide o (by simp [hq]))
  have hq0w : ∀ o ∈ q0, o.vec.length = c.lanes := by
    intro o ho
    have h1 : (q0.map entry).length ≤ q.length := by
      rw [← hq0, F.fifo]
      split <;> simp
    rw [List.length_map] at h1
    have h2 : q0 <:+ q := by
      have ha : q0 <:+ gone ++ q := ⟨gone', hg.symm⟩
      exact List.suffix_of_suffix_length_le ha (List.suffix_append _ _) h1
    exact F.qWide o (h2.subset ho)
  refine ⟨r1.more (inputsOf c T.toList) (addsOf c T.toList), gone', q0 ++ backs c [bs.getLastD .idle], f', ?_, ?_⟩
  · show r1.pc = _
    rw [hr1]
    unfold Ref.popped
    split <;> rfl
  have hreach := popped_reach B F
  constructor
  case reach =>
    rw [hT]
    unfold Ref.After
    rw [inputsOf_append, addsOf_append]
    rcases hmode with hm | hm
    · rw [hstart hm, hload hm]
      exact .refl
    · rw [hprog hm, hwei hm]
      exact Ref.Reach.more _ _ hreach
  case ring =>
    have hring := popped_ring B F
    rw [hT]
    show (if instPop c s then s.inst.mem.tail else s.inst.mem) ++ pendI s ++ _ = List.rotate _ r1.pc
    rcases hI with ⟨h1, h2⟩ | ⟨h1, h2⟩
    · rw [h1, programOf_append, h2, List.append_nil]
      exact hring
    · rw [h2, programOf_append]
      rcases hmode with hm | hm
      · rw [h1, ← hr1, hstart hm] at hring
        rw [hstart hm, h1]
        simp only [Ref.start, List.rotate_zero, Bool.false_eq_true, if_false, List.append_nil] at hring ⊢
        rw [hring]
      · have h3 := hprog hm
        rw [programOf_append] at h3
        have h4 : programOf T.toList = [] := by simpa using h3
        rw [h4, List.append_nil, List.append_nil]
        rw [h1] at hring ⊢
        simpa using hring
  case ins =>
    show (if inputPop c s then s.input.mem.tail else s.input.mem) ++ pendX s ++ _ = r1.ins ++ _
    rw [hX, popped_ins F]
  case reds =>
    show (if redPop c s then s.red.mem.tail else s.red.mem) ++ pendR s ++ _ = r1.reds ++ _
    rw [hR, popped_reds F]
  case flow =>
    show flow c _ (low (accNext c s)) _ = (r1.acc, f')
    rw [hT]
    rcases hmode with hm | hm
    · have hall : ∀ g ∈ (pipe (stageIn c s) fs).reverse, g.valid = false := by
        intro g hg
        rw [List.mem_reverse] at hg
        rcases mem_pipe hg with rfl | hg
        · exact hnopop hm
        · exact (F.idle hm).2.2 g hg
      rw [flow_idle _ _ _ _ hall] at hfl ⊢
      exact hfl
    · rw [hwei hm]
      exact hfl
  case out =>
    show r1.out = _
    rw [hout]
    have : gone' ++ (q0 ++ backs c [bs.getLastD Back.idle]) ++ backs c (pipe (backIn c s) bs).reverse =
        (gone' ++ q0) ++ (backs c [bs.getLastD Back.idle] ++ backs c (pipe (backIn c s) bs).reverse) := by
      simp only [List.append_assoc]
    rw [this, hbs, ← hg]
    simp only [List.append_assoc]
  case fifo => rw [hmem, hq0, List.map_append]
  case qWide =>
    intro o ho
    rw [List.mem_append] at ho
    rcases ho with ho | ho
    · exact hq0w o ho
    · exact hwideb _ o ho
  case sent => exact hsent
  case weights =>
    intro d a
    unfold nextSig at B' ⊢
    rw [settle_weights hc B B' rfl F.last d a, hT, ← F.weights]
    cases T with
    | none =>
      rw [if_neg (by simp [hit, writeIn, isTag])]
      simp
    | some b =>
      rw [Option.toList_some, weights_append]
      have : hit d a (writeIn c s (some b)) = b.loads d a := by
        rw [loads_iff]
        simp only [hit, writeIn, isTag, Option.any_some, Option.map_some, Option.getD_some]
        by_cases hb : tag b.user = 3 <;> simp [hb]
      rw [this]
      by_cases hb : b.loads d a = true
      · rw [if_pos hb, if_pos hb]
        rw [loads_iff] at hb
        simp only [Bool.and_eq_true, decide_eq_true_eq] at hb
        simp [writeIn, isTag, hb.1.1, unpack_vec]
      · rw [if_neg hb, if_neg hb]
  case read =>
    unfold nextSig at B' ⊢
    exact settle_read hc B B' rfl rfl F.read
  case last =>
    unfold nextSig at B' ⊢
    exact settle_last hc B B' rfl F.last
  case idle =>
    intro hk
    rw [hT] at hk
    have hk1 : ∀ b ∈ h.taken, b.kind ≠ 2 := fun b hb => hk b (by simp [hb])
    obtain ⟨h1, h2, h3⟩ := F.idle hk1
    refine ⟨?_, ?_, ?_⟩
    · show (if inputPop c s then s.input.mem.tail else s.input.mem) ++ (if s.inputPush then [s.inputData] else []) = []
      simp [h1, h2]
    · show isTag T 2 = false
      rw [htag]
      cases T with
      | none => rfl
      | some b => simpa using hk b (by simp)
    · intro g hg
      rcases mem_pipe hg with rfl | hg
      · exact hnopop hk1
      · exact h3 g hg
  case push =>
    intro hp
    change isTag T 2 = true at hp
    rw [htag] at hp
    have : ∀ d, (writeIn c s T).wen d = false := by
      apply hquiet
      cases T with
      | none => simp
      | some b =>
        have : b.kind = 2 := by simpa using hp
        simp [this]
    exact quiet_pipe (n := 0) (by intro e he; simp at he) this
  case mem =>
    intro hm
    change (if inputPop c s then s.input.mem.tail else s.input.mem) ++ (if s.inputPush then [s.inputData] else []) ≠ [] at hm
    rcases hmode with hl | hl
    · obtain ⟨h1, h2, -⟩ := F.idle hl
      exfalso
      apply hm
      simp [h1, h2]
    · refine quiet_pipe (n := 1) ?_ (hquiet fun b hb => by have := hl b hb; omega)
      by_cases hp : s.inputPush = true
      · exact F.push hp
      · have : s.input.mem ≠ [] := by
          intro h0
          apply hm
          simp [h0, hp]
        intro e he
        exact F.mem this e (List.IsPrefix.mem he (List.take_prefix_take_left (by decide)))
  case stage =>
    intro k g hg hv
    have hk : k < (pipe (stageIn c s) fs).length := (List.getElem?_eq_some_iff.1 hg).1
    rw [pipe_length] at hk
    rw [pipe_get _ _ _ hk] at hg
    rcases hmode with hl | hl
    · exfalso
      cases k with
      | zero =>
        simp only [List.getElem?_cons_zero, Option.some.injEq] at hg
        rw [← hg] at hv
        have := hnopop hl
        exact absurd hv (by show ¬instPop c s = true; rw [this]; simp)
      | succ k =>
        rw [List.getElem?_cons_succ] at hg
        rw [(F.idle hl).2.2 g (List.mem_of_getElem? hg)] at hv
        cases hv
    · have hw := hquiet fun b hb => by have := hl b hb; omega
      cases k with
      | zero =>
        simp only [List.getElem?_cons_zero, Option.some.injEq] at hg
        rw [← hg] at hv
        exact quiet_pipe (n := 2) (F.mem (instPop_iff.1 hv).2.1) hw
      | succ k =>
        rw [List.getElem?_cons_succ] at hg
        exact quiet_pipe (n := 3 + k) (F.stage k g hg hv) hw

end RadSim.Int8
