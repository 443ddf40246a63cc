import Verif.Model.NpuPath
import Verif.Lemmas.NpuAccum

/-!
# The data path of a sector as a function of the micro-ops issued so far

`h` is the list of the inputs of the cycles without a stall, the newest first. -/

namespace RadSim.Npu

/-- Nothing issued. -/
def idle : SectorIn := ⟨false, .default, fun _ _ _ => 0⟩

/-- The input `i` cycles ago. -/
def past (h : List SectorIn) (i : Nat) : SectorIn := h.getD i idle

@[simp] theorem past_succ (x : SectorIn) (h : List SectorIn) (i : Nat) : past (x :: h) (i + 1) = past h i := by simp [past]
@[simp] theorem past_zero (x : SectorIn) (h : List SectorIn) : past (x :: h) 0 = x := by simp [past]
theorem past_drop (h : List SectorIn) (k i : Nat) : past (h.drop k) i = past h (k + i) := by
  simp [past, List.getD_eq_getElem?_getD, List.getElem?_drop]

/-- The contents of a pipeline. -/
def pipe {α : Type} (n : Nat) (F : Nat → α) : List α := (List.range n).map F

theorem pipe_shift {α : Type} (n : Nat) (F : Nat → α) {x : α} {l : List α} (hx : x = F 0) (hl : l = pipe n fun i => F (i + 1)) :
    shift n x l = pipe n F := by
  subst hx hl
  unfold shift pipe
  apply List.ext_getElem?
  intro j
  rw [List.getElem?_take]
  rcases j with _ | j
  · rcases n with _ | n <;> simp
  · simp only [List.getElem?_cons_succ, List.getElem?_map]
    by_cases h : j + 1 < n
    · rw [if_pos h, List.getElem?_range (by omega), List.getElem?_range h]
      rfl
    · rw [if_neg h, List.getElem?_eq_none (by simp; omega)]
      rfl

theorem pipe_getD {α : Type} {n : Nat} {F : Nat → α} {i : Nat} {d : α} (h : i < n) : (pipe n F).getD i d = F i := by
  simp [pipe, List.getD_eq_getElem?_getD, List.getElem?_map, List.getElem?_range h]

/-- The part of a vector read with a micro-op. -/
def part (t : Nat) (x : SectorIn) : Nat → Int := fun l => x.vrf t x.uop.vrfAddr (10 * x.uop.vrfRdId + l)

def loads (x : SectorIn) : Bool := x.valid && x.uop.vrfEn

def zeroDots : Dots := .of fun _ => 0

/-- The banks after a history. -/
def bankOf (t : Nat) (b : Bank) : List SectorIn → Bank
  | [] => b
  | x :: h => if loads x then (bankOf t b h).load x.uop.regSel (part t x) else bankOf t b h

/-- What is at the output of a register file one cycle after the newest address. -/
def readOf (m : List (List Int)) (r : List Int) : List SectorIn → List Int
  | [] => r
  | x :: h =>
    if (past h 0).uop.mrfAddr ≠ x.uop.mrfAddr then m.getD (past h 0).uop.mrfAddr (readOf m r h) else readOf m r h

/-- The newest result. -/
def resOf (t : Nat) (c : Tile) : List SectorIn → Dots
  | [] => zeroDots
  | x :: h =>
    if (past (x :: h) 11).valid then
      (bankOf t c.bank (x :: h)).dots (past (x :: h) 11).uop.regSel (readOf c.rf.mem c.rf.rdata ((x :: h).drop 10))
    else resOf t c h

theorem drop_cases (h : List SectorIn) (k : Nat) :
    h.drop k = past h k :: h.drop (k + 1) ∨ (h.drop k = [] ∧ h.drop (k + 1) = [] ∧ ∀ i, past h (k + i) = idle) := by
  by_cases hk : k < h.length
  · left
    rw [List.drop_eq_getElem_cons hk]
    simp [past, List.getD_eq_getElem?_getD, hk]
  · right
    refine ⟨List.drop_eq_nil_of_le (by omega), List.drop_eq_nil_of_le (by omega), fun i => ?_⟩
    simp only [past, List.getD_eq_getElem?_getD]
    rw [List.getElem?_eq_none (by omega)]
    rfl

theorem bankOf_step (t : Nat) (b : Bank) (h : List SectorIn) (k : Nat) :
    bankOf t b (h.drop k) = if loads (past h k) then (bankOf t b (h.drop (k + 1))).load (past h k).uop.regSel (part t (past h k))
      else bankOf t b (h.drop (k + 1)) := by
  rcases drop_cases h k with e | ⟨e1, e2, e3⟩
  · rw [e]
    rfl
  · rw [e1, e2, show past h k = idle from e3 0]
    rfl

theorem readOf_step (m : List (List Int)) (r : List Int) (h : List SectorIn) (k : Nat) :
    readOf m r (h.drop k) =
      if (past h (k + 1)).uop.mrfAddr ≠ (past h k).uop.mrfAddr then
        m.getD (past h (k + 1)).uop.mrfAddr (readOf m r (h.drop (k + 1))) else readOf m r (h.drop (k + 1)) := by
  rcases drop_cases h k with e | ⟨e1, e2, e3⟩
  · rw [e]
    show (if (past (h.drop (k + 1)) 0).uop.mrfAddr ≠ _ then _ else _) = _
    rw [past_drop]
  · rw [e1, e2, show past h k = idle from e3 0, show past h (k + 1) = idle from e3 1, if_neg (by simp)]

theorem resOf_step (t : Nat) (c : Tile) (h : List SectorIn) (k : Nat) :
    resOf t c (h.drop k) =
      if (past h (k + 11)).valid then
        (bankOf t c.bank (h.drop k)).dots (past h (k + 11)).uop.regSel (readOf c.rf.mem c.rf.rdata (h.drop (k + 10)))
      else resOf t c (h.drop (k + 1)) := by
  rcases drop_cases h k with e | ⟨e1, e2, e3⟩
  · rw [e]
    show (if (past (past h k :: h.drop (k + 1)) 11).valid = true then _ else _) = _
    have e' : past (past h k :: h.drop (k + 1)) 11 = past h (k + 11) := by rw [← e, past_drop]
    rw [e', ← e, List.drop_drop]
  · rw [e1, e2, show past h (k + 11) = idle from e3 11]
    rfl

/-- What a tile holds. `c0` is the tile at the start. -/
structure TileInv (t : Nat) (c0 : Tile) (h : List SectorIn) (c : Tile) : Prop where
  vrf : c.vrf = pipe 4 fun i => part t (past h i)
  delay : c.delay = pipe 3 fun i => ⟨loads (past h (4 + i)), (past h (4 + i)).uop.regSel, part t (past h (4 + i))⟩
  bank : c.bank = bankOf t c0.bank (h.drop 7)
  mem : c.rf.mem = c0.rf.mem
  raddr : c.rf.raddr0 = (past h 16).uop.mrfAddr
  wen : c.rf.wen0 = false
  waddr : c.rf.waddr0 < c0.rf.mem.length
  rdata : c.rf.rdata = readOf c0.rf.mem c0.rf.rdata (h.drop 16)
  res : c.res = pipe 9 fun k => resOf t c0 (h.drop (7 + k))

theorem rf_read {D : Type} [DecidableEq D] {r : RegFile D} {a : Nat} (hw : r.wen0 = false) (ha : a < r.mem.length)
    (hwa : r.waddr0 < r.mem.length) :
    r.tick ⟨a, r.waddr0, r.wdata0, false⟩ =
      some ⟨r.mem, a, r.raddr0, r.waddr0, r.wdata0, false, if r.raddr0 ≠ a then r.mem.getD r.raddr0 r.rdata else r.rdata⟩ := by
  unfold RegFile.tick RegFile.wakes
  rw [if_neg (by simp only; omega)]
  simp only [hw]
  by_cases h : r.raddr0 = a <;> simp [h]

theorem TileInv.tick {t : Nat} {c0 c : Tile} {h : List SectorIn} (hi : TileInv t c0 h c) (x : SectorIn)
    (ha : (past h 15).uop.mrfAddr < c0.rf.mem.length) :
    ∃ c', c.tick t x (loads (past h 3)) (past h 3).uop.regSel (past h 17).valid (past h 17).uop.regSel (past h 15).uop.mrfAddr =
      some c' ∧ TileInv t c0 (x :: h) c' := by
  have hrf := rf_read hi.wen (a := (past h 15).uop.mrfAddr) (by rw [hi.mem]; exact ha) (by rw [hi.mem]; exact hi.waddr)
  have hd : c.delay.getD 2 ⟨false, false, fun _ => 0⟩ =
      ⟨loads (past h 6), (past h 6).uop.regSel, part t (past h 6)⟩ := by
    rw [hi.delay, pipe_getD (by decide)]
  have hb : (if (c.delay.getD 2 ⟨false, false, fun _ => 0⟩).valid then
        c.bank.load (c.delay.getD 2 ⟨false, false, fun _ => 0⟩).sel (c.delay.getD 2 ⟨false, false, fun _ => 0⟩).part else c.bank) =
      bankOf t c0.bank ((x :: h).drop 7) := by
    rw [hd, hi.bank, bankOf_step t c0.bank (x :: h) 7]
    rfl
  refine ⟨⟨shift 4 (part t x) c.vrf, shift 3 ⟨loads (past h 3), (past h 3).uop.regSel, c.vrf.getD 3 fun _ => 0⟩ c.delay,
    bankOf t c0.bank ((x :: h).drop 7), ⟨c.rf.mem, (past h 15).uop.mrfAddr, c.rf.raddr0, c.rf.waddr0, c.rf.wdata0, false,
      if c.rf.raddr0 ≠ (past h 15).uop.mrfAddr then c.rf.mem.getD c.rf.raddr0 c.rf.rdata else c.rf.rdata⟩, shift 9 (if (past h 17).valid then
      (bankOf t c0.bank ((x :: h).drop 7)).dots (past h 17).uop.regSel c.rf.rdata else c.res.getD 0 (.of fun _ => 0)) c.res⟩, ?_, ?_⟩
  · unfold Tile.tick
    rw [hrf]
    simp only [hb]
    rfl
  constructor
  · exact pipe_shift 4 _ rfl hi.vrf
  · refine pipe_shift 3 _ ?_ hi.delay
    show Load.mk _ _ (c.vrf.getD 3 fun _ => 0) = _
    rw [hi.vrf, pipe_getD (by decide)]
    rfl
  · rfl
  · exact hi.mem
  · rfl
  · rfl
  · exact hi.waddr
  · show (if c.rf.raddr0 ≠ _ then c.rf.mem.getD c.rf.raddr0 c.rf.rdata else c.rf.rdata) = _
    rw [hi.raddr, hi.mem, hi.rdata, readOf_step _ _ (x :: h) 16]
    rfl
  · refine pipe_shift 9 _ ?_ hi.res
    rw [hi.rdata, hi.res, pipe_getD (by decide), resOf_step t c0 (x :: h) (7 + 0)]
    rfl

/-- All the tiles. -/
def TilesInv (h : List SectorIn) : Nat → List Tile → List Tile → Prop
  | _, [], [] => True
  | t, c0 :: cs0, c :: cs => TileInv t c0 h c ∧ TilesInv h (t + 1) cs0 cs
  | _, _, _ => False

theorem TilesInv.tick {h : List SectorIn} (x : SectorIn) : ∀ {t : Nat} {cs0 cs : List Tile}, TilesInv h t cs0 cs →
    (∀ c ∈ cs0, (past h 15).uop.mrfAddr < c.rf.mem.length) →
    ∃ cs', tickTiles x (loads (past h 3)) (past h 3).uop.regSel (past h 17).valid (past h 17).uop.regSel
      (past h 15).uop.mrfAddr t cs = some cs' ∧ TilesInv (x :: h) t cs0 cs'
  | _, [], [], _, _ => ⟨[], rfl, trivial⟩
  | t, c0 :: cs0, c :: cs, ⟨h1, h2⟩, ha => by
    obtain ⟨c', e1, g1⟩ := h1.tick x (ha c0 (by simp))
    obtain ⟨cs', e2, g2⟩ := TilesInv.tick x h2 fun c hc => ha c (by simp [hc])
    exact ⟨c' :: cs', by simp only [tickTiles, e1, e2], g1, g2⟩

/-- The sum of the newest results of the tiles. -/
def sumRes (l : List SectorIn) : Nat → List Tile → Dots → Dots
  | _, [], s => s
  | t, c0 :: cs0, s => sumRes l (t + 1) cs0 (s + resOf t c0 l)

theorem reduce_eq {h : List SectorIn} : ∀ {t : Nat} {cs0 cs : List Tile} (s : Dots), TilesInv h t cs0 cs →
    cs.foldl (fun s c => s + c.res.getD 8 (.of fun _ => 0)) s = sumRes (h.drop 15) t cs0 s
  | _, [], [], _, _ => rfl
  | t, c0 :: cs0, c :: cs, s, ⟨h1, h2⟩ => by
    have e : c.res.getD 8 (.of fun _ => 0) = resOf t c0 (h.drop 15) := by
      rw [h1.res, pipe_getD (by decide)]
    rw [List.foldl_cons, e, reduce_eq _ h2]
    rfl

/-- What the accumulator is given. -/
def feedOf (cs0 : List Tile) (h : List SectorIn) : AccIn Dots :=
  ⟨(past h 31).valid, (past h 31).uop.accumOp, (past h 31).uop.accumSize, sumRes (h.drop 20) 0 cs0 zeroDots⟩

/-- What the sector holds. -/
structure SectorInv (cs0 : List Tile) (h : List SectorIn) (s : Sector) : Prop where
  inst : s.inst = pipe 32 fun i => (past h i).uop
  valid : s.valid = pipe 18 fun i => (past h i).valid
  addr : s.addr = pipe 16 fun i => (past h i).uop.mrfAddr
  tiles : TilesInv h 0 cs0 s.tiles
  resValid : s.resValid = pipe 9 fun i => (past h (18 + i)).valid
  red : s.red = pipe 5 fun i => sumRes (h.drop (16 + i)) 0 cs0 zeroDots
  redValid : s.redValid = pipe 5 fun i => (past h (27 + i)).valid

theorem SectorInv.feed {cs0 : List Tile} {h : List SectorIn} {s : Sector} (hi : SectorInv cs0 h s) : s.feed = feedOf cs0 h := by
  unfold Sector.feed feedOf
  rw [hi.redValid, hi.inst, hi.red, pipe_getD (by decide), pipe_getD (by decide), pipe_getD (by decide)]

theorem SectorInv.tick {cs0 : List Tile} {h : List SectorIn} {s : Sector} (hi : SectorInv cs0 h s) (x : SectorIn)
    (ha : ∀ c ∈ cs0, (past h 15).uop.mrfAddr < c.rf.mem.length) {a : Acc Dots} (hacc : s.acc.tick (feedOf cs0 h) = some a) :
    ∃ s', s.tick x = some (s.last, s') ∧ SectorInv cs0 (x :: h) s' ∧ s'.acc = a ∧ s'.last = s.acc.out := by
  obtain ⟨cs, e1, g1⟩ := hi.tiles.tick x ha
  have e2 : (s.valid.getD 3 false && (s.inst.getD 3 .default).vrfEn) = loads (past h 3) := by
    rw [hi.valid, hi.inst, pipe_getD (by decide), pipe_getD (by decide)]
    rfl
  have e3 : (s.inst.getD 3 .default).regSel = (past h 3).uop.regSel := by rw [hi.inst, pipe_getD (by decide)]
  have e4 : s.valid.getD 17 false = (past h 17).valid := by rw [hi.valid, pipe_getD (by decide)]
  have e5 : (s.inst.getD 17 .default).regSel = (past h 17).uop.regSel := by rw [hi.inst, pipe_getD (by decide)]
  have e6 : s.addr.getD 15 0 = (past h 15).uop.mrfAddr := by rw [hi.addr, pipe_getD (by decide)]
  unfold Sector.tick
  rw [e2, e3, e4, e5, e6, e1, hi.feed, hacc]
  refine ⟨_, rfl, ?_, rfl, rfl⟩
  constructor
  · exact pipe_shift 32 _ rfl hi.inst
  · exact pipe_shift 18 _ rfl hi.valid
  · exact pipe_shift 16 _ rfl hi.addr
  · exact g1
  · exact pipe_shift 9 _ rfl hi.resValid
  · refine pipe_shift 5 _ ?_ hi.red
    exact reduce_eq _ hi.tiles
  · refine pipe_shift 5 _ ?_ hi.redValid
    rw [hi.resValid, pipe_getD (by decide)]
    rfl

/-- What the accumulator is given in a sequence of cycles. -/
def feedsOf (cs0 : List Tile) : List SectorIn → List (Option SectorIn) → List (Option (AccIn Dots))
  | _, [] => []
  | h, none :: es => none :: feedsOf cs0 h es
  | h, some x :: es => some (feedOf cs0 h) :: feedsOf cs0 (x :: h) es

theorem SectorInv.run {cs0 : List Tile} : ∀ (es : List (Option SectorIn)) {h : List SectorIn} {s : Sector}, SectorInv cs0 h s →
    (∀ c ∈ cs0, 0 < c.rf.mem.length) →
    (∀ c ∈ cs0, (∀ x ∈ h, x.uop.mrfAddr < c.rf.mem.length) ∧ ∀ x, some x ∈ es → x.uop.mrfAddr < c.rf.mem.length) →
    ∀ {o : List Dots} {a : Acc Dots}, s.acc.run (feedsOf cs0 h es) = some (o, a) →
    ∃ os s', s.run es = some (os, s') ∧ os ++ s'.last = s.last ++ o ∧ SectorInv cs0 ((es.filterMap id).reverse ++ h) s' ∧ s'.acc = a
  | [], h, s, hi, h0, ha, o, a, hr => by
    simp only [feedsOf, Acc.run, Option.some.injEq, Prod.mk.injEq] at hr
    obtain ⟨rfl, rfl⟩ := hr
    exact ⟨[], s, rfl, by simp, hi, rfl⟩
  | none :: es, h, s, hi, h0, ha, o, a, hr =>
    SectorInv.run es hi h0 (fun c hc => ⟨(ha c hc).1, fun x hx => (ha c hc).2 x (by simp [hx])⟩) hr
  | some x :: es, h, s, hi, h0, ha, o, a, hr => by
    have ha' : ∀ c ∈ cs0, (past h 15).uop.mrfAddr < c.rf.mem.length := by
      intro c hc
      unfold past
      rw [List.getD_eq_getElem?_getD]
      by_cases hl : 15 < h.length
      · rw [List.getElem?_eq_getElem hl]
        exact (ha c hc).1 _ (List.getElem_mem hl)
      · rw [List.getElem?_eq_none (by omega)]
        exact h0 c hc
    simp only [feedsOf, Acc.run] at hr
    split at hr
    · cases hr
    · rename_i a1 e1
      split at hr
      · cases hr
      · rename_i o2 a2 e2
        simp only [Option.some.injEq, Prod.mk.injEq] at hr
        obtain ⟨rfl, rfl⟩ := hr
        obtain ⟨s', g1, g2, g3, g4⟩ := hi.tick x ha' e1
        rw [← g3] at e2
        obtain ⟨os, s'', f1, f2, f3, f4⟩ := SectorInv.run es g2 h0 (fun c hc => ⟨fun y hy => by
          rcases List.mem_cons.1 hy with rfl | hy
          · exact (ha c hc).2 y (by simp)
          · exact (ha c hc).1 y hy, fun y hy => (ha c hc).2 y (by simp [hy])⟩) e2
        refine ⟨s.last ++ os, s'', by simp only [Sector.run, g1, f1], ?_, ?_, f4⟩
        · rw [List.append_assoc, f2, g4]
        · rw [List.filterMap_cons_some (f := id) rfl, List.reverse_cons, List.append_assoc]
          exact f3

end RadSim.Npu
