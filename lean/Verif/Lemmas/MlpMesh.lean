import Verif.Lemmas.MlpPort
import Verif.Spec.MlpMesh

/-! # What the NoC hands to the modules of the design `mlp` -/

namespace RadSim.Mlp

open AxisNoc (In Offered Exists FitsPort nodeOf portOf deliveredAt acceptedFor beatIn)
open Net (mesh Allocs)

variable {σ τ ρ ρ' : Type} {VA : Alloc.Cls σ ρ} {SA : Alloc.Cls τ ρ'} {d : Params} {va : Nat → σ} {sa : Nat → τ}
  {rng : Nat → Nat × Nat} {n : Nat}

theorem prefix_of_eq {α : Type} {a b : List α} (h : a = b) : a <+: b := h ▸ List.prefix_refl _

/-- What the modules offer. -/
def Sends (d : Params) (u p : Nat) (b : AxisTxn) : Prop :=
  p = 0 ∧ ∃ src, d.block u = some src ∧ ∃ dest, d.D.Has dest ∧ ∃ v : Vec, v.length = d.D.dim ∧ ∃ user, b = txBeat d dest v user

theorem Works.same (hw : Works d rng) {b b' : Block} (h : d.D.Has b) (h' : d.D.Has b') : d.node b = d.node b' ↔ b = b' := by
  constructor
  · intro e
    have h1 := (hw.apart (d.node b) b).2 ⟨h, rfl⟩
    have h2 := (hw.apart (d.node b) b').2 ⟨h', e.symm⟩
    rw [h1] at h2
    exact Option.some.inj h2
  · rintro rfl; rfl

theorem Works.dests (hw : Works d rng) {u : Nat} (hu : u < d.noc.m.nodes) {dest : Block} (hd : d.D.Has dest) (v : Vec) (user : Nat) :
    nodeOf (d.noc.sc u) (txBeat d dest v user) = d.node dest ∧ portOf (txBeat d dest v user) = 0 := by
  have h1 := (hw.placed dest hd).2
  have h2 := hw.rad
  have h3 := h2.2 u hu
  have e : (txBeat d dest v user).tdest.toNat = d.rad * 16384 + d.node dest := by
    unfold txBeat
    dsimp only
    rw [BitVec.toNat_ofNat, Nat.mod_eq_of_lt]
    show _ < 2 ^ 21
    omega
  refine ⟨?_, rfl⟩
  unfold nodeOf
  rw [e, h3, if_pos (by omega)]
  omega

theorem sends_ok (hw : Works d rng) {u p : Nat} {b : AxisTxn} (h : Sends d u p b) : Exists d.noc u p b ∧ FitsPort d.noc u p b := by
  obtain ⟨rfl, src, hs0, dest, hd, v, hv, user, rfl⟩ := h
  obtain ⟨hs, rfl⟩ := (hw.apart _ _).1 hs0
  have hu := (hw.placed src hs).1
  obtain ⟨h1, h2⟩ := hw.dests hu hd v user
  have hn := (hw.placed dest hd).1
  have hl := hw.lanes
  refine ⟨⟨by rw [h1]; exact hn, by rw [h1, h2]; exact (hw.setup.ports _ hn).2⟩, ?_, ?_, ?_⟩
  · rw [(hw.wide src hs).1]; exact hl
  · rw [(hw.wide src hs).1]; exact pack_lt hv
  · rw [h1, h2, (hw.wide src hs).1, (hw.wide dest hd).2]

/-- The vectors for one module that another has handed over. -/
def outbox (d : Params) (x : AxisNoc.Sys σ τ) (src dst : Block) : List (Vec × Nat) :=
  ((x.got (d.node src)).filter fun t => nodeOf (d.noc.sc (d.node src)) t = d.node dst).map fun t =>
    (unpack d.D.dim t.tdata, t.tuser.toNat)

/-- What a module has taken, sorted by source, are the first vectors of each source for it. -/
theorem inbox_marked (hw : Works d rng) (ha : Allocs VA SA (mesh d.noc.m) d.noc.b va sa) {i : Nat → In ρ ρ'}
    (ht : ∀ k < n, AxisNoc.InTime (i k)) (ho : ∀ k < n, Offered d.noc (Sends d) (i k)) {y : AxisNoc.Sys σ τ}
    (hx : AxisNoc.after VA SA d.noc va sa i n = .ok y) {dst : Block} (hd : d.D.Has dst) :
    ∃ L : List (Block × (Vec × Nat)), L.map (·.2) = inbox d y dst ∧
      ∀ e ∈ L, d.D.Has e.1 ∧ (L.filter fun z => z.1 = e.1).map (·.2) <+: outbox d y e.1 dst := by
  have hinv := AxisNoc.inv_all hw.setup ha (P := Sends d) (fun u p b h => (sends_ok hw h).1) n ht ho
  have hxs : y = AxisNoc.st VA SA d.noc va sa i n := by
    have := hinv.ok
    rw [hx] at this
    exact Except.ok.inj this
  have hgood : ∀ u < d.noc.m.nodes, ∀ b ∈ y.got u, (∃ src, d.block u = some src) ∧ portOf b = 0 ∧
      b.type = (d.noc.sc u).types 0 := by
    intro u hu b hb
    rw [hxs] at hb
    obtain ⟨p, hp, b', ⟨rfl, src, hs, dest, -, v, -, user, rfl⟩, rfl⟩ := hinv.good u hu b hb
    exact ⟨⟨src, hs⟩, rfl, rfl⟩
  have hn := (hw.placed dst hd).1
  obtain ⟨marks, hlen, hmarks, hp⟩ := AxisNoc.C93_delivered hw.setup ha ht (fun k hk u hu beats seen hm p hp b hb =>
    sends_ok hw (ho k hk u hu beats seen hm p hp b hb)) hx hn (hw.setup.ports _ hn).2
  have hz : ∀ z ∈ marks.zip (deliveredAt y (d.node dst) 0), ∃ src, d.D.Has src ∧ d.block z.1.1 = some src ∧
      z.1 = (d.node src, (d.noc.sc (d.node src)).types 0) := by
    intro z hz
    have hw1 := hmarks _ (List.of_mem_zip hz).1
    have hm : z.2 ∈ acceptedFor d.noc y z.1.1 (d.node dst) 0 z.1.2 := by
      refine ((hp z.1.1 hw1 z.1.2).1).subset (List.mem_map.2 ⟨z, ?_, rfl⟩)
      rw [List.mem_filter]
      exact ⟨hz, by simp⟩
    unfold acceptedFor at hm
    obtain ⟨t, ht, -⟩ := List.mem_map.1 hm
    rw [List.mem_filter, decide_eq_true_eq] at ht
    obtain ⟨⟨src, hs⟩, -, hty⟩ := hgood _ hw1 t ht.1
    obtain ⟨h1, h2⟩ := (hw.apart _ _).1 hs
    refine ⟨src, h1, hs, ?_⟩
    apply Prod.ext h2.symm
    rw [h2, ← hty]
    exact ht.2.2.2.symm
  refine ⟨(marks.zip (deliveredAt y (d.node dst) 0)).map fun z =>
    ((d.block z.1.1).getD .coll, (unpack d.D.dim z.2.tdata, z.2.tuser.toNat)), ?_, ?_⟩
  · unfold inbox
    rw [List.map_map]
    have : (marks.zip (deliveredAt y (d.node dst) 0)).map (·.2) = deliveredAt y (d.node dst) 0 :=
      List.map_snd_zip (by omega)
    conv_rhs => rw [← this]
    rw [List.map_map]
    rfl
  · intro e he
    obtain ⟨z, hzm, rfl⟩ := List.mem_map.1 he
    obtain ⟨src, h1, h2, h3⟩ := hz z hzm
    rw [h2, Option.getD_some]
    refine ⟨h1, ?_⟩
    have hu := (hw.placed src h1).1
    have key := ((hp _ hu _).2 (hw.channel _ hu)).map fun b : AxisNoc.Beat => (unpack d.D.dim b.tdata, b.tuser.toNat)
    have e1 : outbox d y src dst = (acceptedFor d.noc y (d.node src) (d.node dst) 0 ((d.noc.sc (d.node src)).types 0)).map
        fun b : AxisNoc.Beat => (unpack d.D.dim b.tdata, b.tuser.toNat) := by
      unfold outbox acceptedFor
      rw [List.map_map]
      have : (y.got (d.node src)).filter (fun t => nodeOf (d.noc.sc (d.node src)) t = d.node dst ∧ portOf t = 0 ∧
          t.type = (d.noc.sc (d.node src)).types 0) =
          (y.got (d.node src)).filter fun t => nodeOf (d.noc.sc (d.node src)) t = d.node dst := by
        apply List.filter_congr
        intro t ht
        obtain ⟨-, h4, h5⟩ := hgood _ hu t ht
        simp [h4, h5]
      rw [this]
      rfl
    rw [e1]
    refine List.IsPrefix.trans (prefix_of_eq ?_) key
    rw [List.filter_map, List.map_map, List.map_map]
    have : (marks.zip (deliveredAt y (d.node dst) 0)).filter ((fun z : Block × (Vec × Nat) => decide (z.1 = src)) ∘ fun z =>
        ((d.block z.1.1).getD .coll, (unpack d.D.dim z.2.tdata, z.2.tuser.toNat))) =
        (marks.zip (deliveredAt y (d.node dst) 0)).filter fun z => z.1 = (d.node src, (d.noc.sc (d.node src)).types 0) := by
      apply List.filter_congr
      intro z' hz'
      obtain ⟨src', h1', h2', h3'⟩ := hz z' hz'
      simp only [Function.comp_apply, h2', Option.getD_some, decide_eq_decide]
      constructor
      · rintro rfl; exact h3'
      · intro h4
        have : z'.1.1 = d.node src := by rw [h4]
        rw [this, (hw.apart _ _).2 ⟨h1, rfl⟩] at h2'
        exact (Option.some.inj h2').symm
    rw [this]
    rfl

/-! ## who sends what to whom -/

/-- A beat of a matrix vector multiplier as accepted. -/
def mvmTxn (d : Params) (l m : Nat) (e : Out × Nat) : AxisTxn :=
  registerTxn (d.noc.sc (d.node (.mvm l m))) 0 (txBeat d (destBlock e.1.layer e.1.mvm) e.1.vec e.2)

/-- A beat of a dispatcher as accepted. -/
def dispTxn (d : Params) (m : Nat) (v : Vec) : AxisTxn :=
  registerTxn (d.noc.sc (d.node (.disp m))) 0 (txBeat d (.mvm 0 m) v (3 * 8192))

/-- The tag in the user bits. -/
def tagOf (user : Nat) : Nat := user / 2 ^ 13 % 8

/-- The beats a module sends. -/
theorem sent_kind {D : Design} {q : Consts} (h : D.Ok q) {l m : Nat} (hl : l < D.layers) (hm : m < D.mvms l)
    {sent : List (Out × Nat)} {out : List Out} (hs : sent <+: out.map (D.mvm q l m).wire) (ho : Along (idealOut D l m) out)
    {e : Out × Nat} (he : e ∈ sent) : e.1.vec.length = D.dim ∧
      ((l + 1 = D.layers ∧ m + 1 = D.mvms l ∧ destBlock e.1.layer e.1.mvm = .coll ∧ e.2 = 3 * 8192) ∨
      (l + 1 < D.layers ∧ m + 1 = D.mvms l ∧ ∃ m' < D.mvms (l + 1), e.1.layer.toNat = l + 2 ∧ e.1.mvm.toNat = m' ∧
        destBlock e.1.layer e.1.mvm = .mvm (l + 1) m' ∧ e.2 = 3 * 8192) ∨
      (m + 1 < D.mvms l ∧ e.1.layer.toNat = l + 1 ∧ e.1.mvm.toNat = m + 1 ∧
        destBlock e.1.layer e.1.mvm = .mvm l (m + 1) ∧ e.2 = 2 * 8192)) := by
  obtain ⟨hb1, hb2⟩ := h.bounds
  have hb := hb2 l hl
  obtain ⟨o, ho1, rfl⟩ := List.mem_map.1 (hs.subset he)
  obtain ⟨i, hi⟩ := List.getElem?_of_mem ho1
  rw [ho i o hi]
  have hly : (D.mvm q l m).layer = l := rfl
  refine ⟨by simp [Mvm.wire, idealOut, partSum], ?_⟩
  unfold Mvm.wire idealOut
  rw [hly]
  dsimp only
  by_cases h1 : m = D.mvms l - 1
  · by_cases h2 : l = D.layers - 1
    · left
      have hd : D.dest l m (i % D.limy l) = (0, 0) := by
        unfold Design.dest
        rw [if_pos ⟨h2, h1⟩]
      rw [hd]
      have hne : ¬ (BitVec.ofNat 5 0).toInt = (l : Int) + 1 := by
        rw [toInt_small (by omega)]; omega
      rw [if_neg hne]
      exact ⟨by omega, by omega, rfl, rfl⟩
    · right; left
      have hM' := h.mvms (l + 1) (by omega)
      have hb' := hb2 (l + 1) (by omega)
      have hmod := Nat.mod_lt (i % D.limy l) hM'
      have hd : D.dest l m (i % D.limy l) = (l + 2, i % D.limy l % D.mvms (l + 1)) := by
        unfold Design.dest
        rw [if_neg (by omega), if_pos h1]
      rw [hd]
      have hne : ¬ (BitVec.ofNat 5 (l + 2)).toInt = (l : Int) + 1 := by
        rw [toInt_small (by omega)]; omega
      rw [if_neg hne]
      refine ⟨by omega, by omega, _, hmod, toNat_small (by omega), toNat_small (by omega), ?_, rfl⟩
      unfold destBlock
      rw [toInt_small (by omega), if_neg (by omega), toNat_small (by omega)]
      congr 1
      dsimp only
      omega
  · right; right
    have hd : D.dest l m (i % D.limy l) = (l + 1, m + 1) := by
      unfold Design.dest
      rw [if_neg (by omega), if_neg h1]
    rw [hd]
    have he : (BitVec.ofNat 5 (l + 1)).toInt = (l : Int) + 1 := by
      rw [toInt_small (by omega)]; omega
    rw [if_pos he]
    refine ⟨by omega, toNat_small (by omega), toNat_small (by omega), ?_, rfl⟩
    unfold destBlock
    rw [toInt_small (by omega), if_neg (by omega), toNat_small (by omega)]
    congr 1
    dsimp only
    omega

/-- All modules have sent beginnings of the right streams. -/
structure Mid (d : Params) (y : AxisNoc.Sys σ τ) : Prop where
  mvm : ∀ l < d.D.layers, ∀ m < d.D.mvms l, ∃ out sent, Along (idealOut d.D l m) out ∧ out.length ≤ d.D.tests * d.D.limy l ∧
    sent <+: out.map (d.D.mvm d.q l m).wire ∧ y.got (d.node (.mvm l m)) = sent.map (mvmTxn d l m)
  disp : ∀ m < d.D.mvms 0, ∃ sent, sent <+: d.lines m ∧ y.got (d.node (.disp m)) = sent.map (dispTxn d m)
  coll : y.got (d.node .coll) = []

section
variable {y : AxisNoc.Sys σ τ}

theorem outbox_mvm (hw : Works d rng) {l m : Nat} (hl : l < d.D.layers) (hm : m < d.D.mvms l) {out : List Out}
    {sent : List (Out × Nat)} (ho : Along (idealOut d.D l m) out) (hs : sent <+: out.map (d.D.mvm d.q l m).wire)
    (hg : y.got (d.node (.mvm l m)) = sent.map (mvmTxn d l m)) {dst : Block} (hd : d.D.Has dst) :
    outbox d y (.mvm l m) dst = (sent.filter fun e => destBlock e.1.layer e.1.mvm = dst).map fun e => (e.1.vec, e.2) := by
  have hu := (hw.placed (.mvm l m) ⟨hl, hm⟩).1
  unfold outbox
  rw [hg, List.filter_map, List.map_map]
  have hall : ∀ e ∈ sent, e.1.vec.length = d.D.dim ∧ d.D.Has (destBlock e.1.layer e.1.mvm) ∧ e.2 < 2 ^ 75 := by
    intro e he
    obtain ⟨h1, h2⟩ := sent_kind hw.ok hl hm hs ho he
    refine ⟨h1, ?_⟩
    rcases h2 with ⟨-, -, h3, h4⟩ | ⟨h5, -, m', hm', -, -, h3, h4⟩ | ⟨h5, -, -, h3, h4⟩
    · rw [h3, h4]; exact ⟨trivial, by decide⟩
    · rw [h3, h4]; exact ⟨⟨h5, hm'⟩, by decide⟩
    · rw [h3, h4]; exact ⟨⟨hl, h5⟩, by decide⟩
  have e1 : sent.filter ((fun t : AxisTxn => decide (nodeOf (d.noc.sc (d.node (.mvm l m))) t = d.node dst)) ∘ mvmTxn d l m) =
      sent.filter fun e => destBlock e.1.layer e.1.mvm = dst := by
    apply List.filter_congr
    intro e he
    obtain ⟨-, h2, -⟩ := hall e he
    simp only [Function.comp_apply, decide_eq_decide]
    have : nodeOf (d.noc.sc (d.node (.mvm l m))) (mvmTxn d l m e) = d.node (destBlock e.1.layer e.1.mvm) :=
      (hw.dests hu h2 e.1.vec e.2).1
    rw [this, hw.same h2 hd]
  rw [e1]
  apply List.map_congr_left
  intro e he
  obtain ⟨h1, -, h3⟩ := hall e (List.mem_filter.1 he).1
  apply Prod.ext
  · exact unpack_pack hw.lanes h1
  · show (BitVec.ofNat 75 e.2).toNat = e.2
    rw [BitVec.toNat_ofNat, Nat.mod_eq_of_lt h3]

theorem lines_length (hw : Works d rng) {m : Nat} (hm : m < d.D.mvms 0) :
    d.lines m = (d.D.inputFile m).map parse ∧ ∀ v ∈ d.lines m, v.length = d.D.dim := by
  have h1 : d.lines m = (d.D.inputFile m).map parse := by
    unfold Params.lines
    apply List.map_congr_left
    intro line hline
    exact readLine_eq (hw.inputs m hm line hline)
  refine ⟨h1, fun v hv => ?_⟩
  rw [h1, inputFile_eq hw.ok hm, List.map_map, List.mem_map] at hv
  obtain ⟨i, -, rfl⟩ := hv
  simp [parse]

theorem readLine_length : ∀ line : List Int, (readLine line).length = line.length
  | [] => rfl
  | v :: vs => by
    rw [readLine]
    split
    · simp
    · split
      · simp
      · rw [List.length_cons, List.length_cons, readLine_length vs]

theorem golden_length (hw : Works d rng) : d.golden.length = d.D.goldenFile.length ∧ ∀ v ∈ d.golden, v.length = d.D.dim := by
  unfold Params.golden
  refine ⟨List.length_map _, fun v hv => ?_⟩
  rw [List.mem_map] at hv
  obtain ⟨line, hline, rfl⟩ := hv
  rw [goldenFile_eq hw.ok, List.mem_map] at hline
  obtain ⟨i, -, rfl⟩ := hline
  rw [readLine_length, List.length_map, List.length_range]

/-- The driver reads what the file says, if the numbers fit. -/
theorem golden_read (h : InRange d.D.goldenFile) : d.golden = d.D.goldenFile.map parse := by
  unfold Params.golden
  apply List.map_congr_left
  intro line hline
  exact readLine_eq (h line hline)

theorem golden_shows (hw : Works d rng) : ∀ line ∈ d.D.goldenFile, parse line ≠ List.replicate d.D.dim 0 := by
  intro line hline he
  obtain ⟨v, hv, hne⟩ := hw.shows line hline
  have : BitVec.ofInt 32 v ∈ parse line := List.mem_map_of_mem hv
  rw [he] at this
  have := congrArg BitVec.toNat (List.eq_of_mem_replicate this)
  rw [BitVec.toNat_ofInt] at this
  simp at this
  omega

theorem outbox_disp (hw : Works d rng) {m : Nat} (hm : m < d.D.mvms 0) {sent : List Vec} (hs : sent <+: d.lines m)
    (hg : y.got (d.node (.disp m)) = sent.map (dispTxn d m)) {dst : Block} (hd : d.D.Has dst) :
    outbox d y (.disp m) dst = if dst = .mvm 0 m then sent.map fun v => (v, 3 * 8192) else [] := by
  have hu := (hw.placed (.disp m) hm).1
  have h0 : d.D.Has (.mvm 0 m) := ⟨hw.ok.layers, hm⟩
  unfold outbox
  rw [hg, List.filter_map, List.map_map]
  have hn : ∀ v, nodeOf (d.noc.sc (d.node (.disp m))) (dispTxn d m v) = d.node (.mvm 0 m) := fun v => (hw.dests hu h0 v (3 * 8192)).1
  split
  · rename_i he
    subst he
    rw [List.filter_eq_self.2 (by intro v _; simp [hn])]
    apply List.map_congr_left
    intro v hv
    apply Prod.ext
    · exact unpack_pack hw.lanes ((lines_length hw hm).2 v (hs.subset hv))
    · rfl
  · rename_i he
    rw [List.filter_eq_nil_iff.2, List.map_nil]
    intro v _
    simp only [Function.comp_apply, hn, decide_eq_true_eq]
    rw [hw.same h0 hd]
    exact fun h => he h.symm

theorem outbox_coll (h : Mid d y) (dst : Block) : outbox d y .coll dst = [] := by
  unfold outbox
  rw [h.coll]
  rfl

/-- Where the input vectors of a matrix vector multiplier come from. -/
def feeder (D : Design) (l m : Nat) : Block :=
  match l with
  | 0 => .disp m
  | l + 1 => .mvm l (D.mvms l - 1)

/-- A matrix vector multiplier is sent beats by two modules at most, with different tags. -/
theorem outbox_kind (hw : Works d rng) (h : Mid d y) {l m : Nat} (hl : l < d.D.layers) (hm : m < d.D.mvms l) {src : Block}
    (hs : d.D.Has src) {b : Vec × Nat} (hb : b ∈ outbox d y src (.mvm l m)) :
    (tagOf b.2 = 3 ∧ src = feeder d.D l m) ∨ (tagOf b.2 = 2 ∧ ∃ m', m = m' + 1 ∧ src = .mvm l m') := by
  have hd : d.D.Has (.mvm l m) := ⟨hl, hm⟩
  cases src with
  | coll => rw [outbox_coll h] at hb; cases hb
  | disp m' =>
    obtain ⟨sent, h1, h2⟩ := h.disp m' hs
    rw [outbox_disp hw hs h1 h2 hd] at hb
    split at hb
    · rename_i he
      cases he
      obtain ⟨v, -, rfl⟩ := List.mem_map.1 hb
      exact .inl ⟨by dsimp only [tagOf]; omega, rfl⟩
    · cases hb
  | mvm l' m' =>
    obtain ⟨out, sent, h1, -, h3, h4⟩ := h.mvm l' hs.1 m' hs.2
    rw [outbox_mvm hw hs.1 hs.2 h1 h3 h4 hd] at hb
    obtain ⟨e, he, rfl⟩ := List.mem_map.1 hb
    rw [List.mem_filter, decide_eq_true_eq] at he
    rcases (sent_kind hw.ok hs.1 hs.2 h3 h1 he.1).2 with ⟨-, -, h5, -⟩ | ⟨-, h6, k, -, -, -, h5, h7⟩ | ⟨-, -, -, h5, h7⟩
    · rw [h5] at he; cases he.2
    · rw [h5] at he
      cases he.2
      left
      dsimp only
      rw [h7]
      refine ⟨rfl, ?_⟩
      simp only [feeder]
      congr 1
      omega
    · rw [h5] at he
      cases he.2
      right
      dsimp only
      rw [h7]
      exact ⟨rfl, m', rfl, rfl⟩

/-- The collector is sent beats by the last module only. -/
theorem outbox_last (hw : Works d rng) (h : Mid d y) {src : Block} (hs : d.D.Has src) {b : Vec × Nat}
    (hb : b ∈ outbox d y src .coll) : src = .mvm (d.D.layers - 1) (d.D.mvms (d.D.layers - 1) - 1) := by
  cases src with
  | coll => rw [outbox_coll h] at hb; cases hb
  | disp m' =>
    obtain ⟨sent, h1, h2⟩ := h.disp m' hs
    rw [outbox_disp hw hs h1 h2 (show d.D.Has .coll from trivial)] at hb
    simp at hb
  | mvm l' m' =>
    obtain ⟨out, sent, h1, -, h3, h4⟩ := h.mvm l' hs.1 m' hs.2
    rw [outbox_mvm hw hs.1 hs.2 h1 h3 h4 (show d.D.Has .coll from trivial)] at hb
    obtain ⟨e, he, rfl⟩ := List.mem_map.1 hb
    rw [List.mem_filter, decide_eq_true_eq] at he
    rcases (sent_kind hw.ok hs.1 hs.2 h3 h1 he.1).2 with ⟨h6, h7, -, -⟩ | ⟨-, h6, k, -, -, -, h5, h7⟩ | ⟨-, -, -, h5, h7⟩
    · have : d.D.layers - 1 = l' := by omega
      rw [this]
      congr 1
      omega
    · rw [h5] at he; cases he.2
    · rw [h5] at he; cases he.2

/-- The vectors with a tag. -/
def withTag (b : List (Vec × Nat)) (k : Nat) : List Vec := (b.filter fun e => tagOf e.2 = k).map (·.1)

variable {L : List (Block × (Vec × Nat))}

/-- What a matrix vector multiplier has taken is right. -/
theorem Mid.right (hw : Works d rng) (h : Mid d y) {l m : Nat} (hl : l < d.D.layers) (hm : m < d.D.mvms l)
    (hL : ∀ e ∈ L, d.D.Has e.1 ∧ (L.filter fun z => z.1 = e.1).map (·.2) <+: outbox d y e.1 (.mvm l m)) :
    Right d.D l m (withTag (L.map (·.2)) 3) (withTag (L.map (·.2)) 2) ∧
      ∀ b ∈ L.map (·.2), tagOf b.2 = 3 ∨ tagOf b.2 = 2 := by
  have hd : d.D.Has (.mvm l m) := ⟨hl, hm⟩
  have hmem : ∀ e ∈ L, e.2 ∈ outbox d y e.1 (.mvm l m) := by
    intro e he
    exact (hL e he).2.subset (List.mem_map.2 ⟨e, by simp [he], rfl⟩)
  have hk : ∀ e ∈ L, (tagOf e.2.2 = 3 ∧ e.1 = feeder d.D l m) ∨ (tagOf e.2.2 = 2 ∧ ∃ m', m = m' + 1 ∧ e.1 = .mvm l m') :=
    fun e he => outbox_kind hw h hl hm (hL e he).1 (hmem e he)
  have hfeed : d.D.Has (feeder d.D l m) := by
    cases l with
    | zero => exact hm
    | succ l =>
      have := hw.ok.mvms l (by omega)
      exact ⟨by omega, by omega⟩
  have hne : ∀ m', feeder d.D l m ≠ .mvm l m' := by
    intro m' he
    cases l with
    | zero => cases he
    | succ l =>
      simp only [feeder, Block.mvm.injEq] at he
      omega
  have h3 : (L.map (·.2)).filter (fun b => tagOf b.2 = 3) <+: outbox d y (feeder d.D l m) (.mvm l m) := by
    refine tagged (fun b : Vec × Nat => tagOf b.2) (acc := fun k => outbox d y k (.mvm l m)) (fun e he => (hL e he).2) ?_ ?_
    · intro b hb
      rcases outbox_kind hw h hl hm hfeed hb with h1 | ⟨-, m', -, h1⟩
      · exact h1.1
      · exact absurd h1 (hne m')
    · intro e he hne b hb
      rcases outbox_kind hw h hl hm (hL e he).1 hb with h1 | ⟨h1, -⟩
      · exact absurd h1.2 hne
      · omega
  have hin : ∃ g, withTag (L.map (·.2)) 3 <+: g ∧ Along (feed d.D l m) g ∧ g.length ≤ d.D.tests * d.D.limx l := by
    have h3 := h3.map (·.1)
    cases l with
    | zero =>
      obtain ⟨sent, h1, h2⟩ := h.disp m hm
      simp only [feeder] at h3
      rw [outbox_disp hw hm h1 h2 hd, if_pos rfl, List.map_map] at h3
      have e : List.map ((fun x : Vec × Nat => x.1) ∘ fun v => (v, 3 * 8192)) sent = sent := List.map_id _
      rw [e] at h3
      obtain ⟨ha, hb⟩ := inputFile_right hw.ok hm
      rw [(lines_length hw hm).1] at h1
      exact ⟨_, h3.trans h1, ha, hb.le⟩
    | succ l =>
      have hM := hw.ok.mvms l (by omega)
      obtain ⟨out, sent, h1, h2, h4, h5⟩ := h.mvm l (by omega) (d.D.mvms l - 1) (by omega)
      simp only [feeder] at h3
      rw [outbox_mvm hw (by omega) (by omega) h1 h4 h5 hd, List.map_map] at h3
      obtain ⟨ha, hb, -⟩ := toward_next hw.ok hl hm h4 h1 h2
      refine ⟨_, h3.trans (prefix_of_eq ?_), ha, hb⟩
      unfold toward
      rw [← List.filterMap_eq_map, List.filterMap_filter]
      apply List.filterMap_congr
      intro e he
      rcases (sent_kind hw.ok (by omega) (by omega) h4 h1 he).2 with ⟨h6, -⟩ | ⟨-, -, k, -, h6, h7, h8, h9⟩ | ⟨h6, -⟩
      · omega
      · simp only [h6, h7, h8, h9, Block.mvm.injEq, true_and, Function.comp_apply]
        by_cases hkm : k = m <;> simp [hkm]
      · omega
  obtain ⟨g, hg1, hg2, hg3⟩ := hin
  refine ⟨?_, fun b hb => ?_⟩
  · cases m with
    | zero =>
      have e : withTag (L.map (·.2)) 2 = [] := by
        unfold withTag
        rw [List.map_eq_nil_iff, List.filter_eq_nil_iff]
        intro b hb
        obtain ⟨e, he, rfl⟩ := List.mem_map.1 hb
        rcases hk e he with ⟨h1, -⟩ | ⟨-, m', h1, -⟩
        · simp [h1]
        · omega
      rw [e]
      exact ⟨hg2.of_prefix hg1, fun h0 => absurd rfl h0, hg1.length_le.trans hg3, Nat.zero_le _, fun _ => rfl⟩
    | succ m =>
      obtain ⟨out, sent, h1, h2, h4, h5⟩ := h.mvm l hl m (by omega)
      have hs : d.D.Has (.mvm l m) := ⟨hl, by omega⟩
      have h6 : (L.map (·.2)).filter (fun b => tagOf b.2 = 2) <+: outbox d y (.mvm l m) (.mvm l (m + 1)) := by
        refine tagged (fun b : Vec × Nat => tagOf b.2) (acc := fun k => outbox d y k (.mvm l (m + 1))) (fun e he => (hL e he).2) ?_ ?_
        · intro b hb
          rcases outbox_kind hw h hl hm hs hb with h1 | h1
          · exact absurd h1.2.symm (hne m)
          · exact h1.1
        · intro e he hne b hb
          rcases outbox_kind hw h hl hm (hL e he).1 hb with h1 | ⟨-, m', h7, h8⟩
          · omega
          · have : m' = m := by omega
            subst this
            exact absurd h8 hne
      have h6 := h6.map (·.1)
      rw [outbox_mvm hw hl (by omega) h1 h4 h5 hd, List.map_map] at h6
      obtain ⟨ha, hb⟩ := toward_beside hw.ok hl hm h4 h1
      have hp : withTag (L.map (·.2)) 2 <+: toward (l + 1) (m + 1) 2 sent := by
        refine h6.trans (prefix_of_eq ?_)
        unfold toward
        rw [← List.filterMap_eq_map, List.filterMap_filter]
        apply List.filterMap_congr
        intro e he
        rcases (sent_kind hw.ok hl (by omega) h4 h1 he).2 with ⟨-, h6, -⟩ | ⟨-, h6, -⟩ | ⟨-, h6, h7, h8, h9⟩
        · omega
        · omega
        · simp [h6, h7, h8, h9]
      refine ⟨hg2.of_prefix hg1, fun _ => ha.of_prefix hp, hg1.length_le.trans hg3, ?_, fun h0 => absurd h0 (by omega)⟩
      have h2' := h4.length_le
      rw [List.length_map] at h2'
      have := hp.length_le
      omega
  · obtain ⟨e, he, rfl⟩ := List.mem_map.1 hb
    rcases hk e he with ⟨h1, -⟩ | ⟨h1, -⟩
    · exact .inl h1
    · exact .inr h1

/-- What the last module sends. -/
theorem golden_sent {D : Design} {q : Consts} (h : D.Ok q) {out : List Out}
    (ho1 : Along (idealOut D (D.layers - 1) (D.mvms (D.layers - 1) - 1)) out) (hlen : out.length ≤ D.tests * D.limy (D.layers - 1)) :
    out.map (·.vec) <+: D.goldenFile.map parse := by
  have hl : D.layers - 1 < D.layers := by
    have := h.layers
    omega
  have hout : out <+: (List.range (D.tests * D.limy (D.layers - 1))).map (idealOut D (D.layers - 1) (D.mvms (D.layers - 1) - 1)) := by
    rw [List.prefix_iff_eq_take]
    apply List.ext_getElem?
    intro i
    rw [List.getElem?_take]
    by_cases hi : i < out.length
    · rw [if_pos hi, List.getElem?_map, List.getElem?_range (by omega), List.getElem?_eq_getElem hi]
      exact congrArg some (ho1 i _ (List.getElem?_eq_getElem hi))
    · rw [if_neg hi, List.getElem?_eq_none (by omega)]
  refine (hout.map _).trans (prefix_of_eq ?_)
  rw [goldenFile_eq h, List.map_map, List.map_map]
  apply List.map_congr_left
  intro i _
  simp only [Function.comp_apply, idealOut, partSum_last h hl, Nat.sub_add_cancel h.layers]
  unfold parse blockOf
  rw [List.map_map]
  rfl

/-- What the collector has taken is right. -/
theorem Mid.golden (hw : Works d rng) (h : Mid d y)
    (hL : ∀ e ∈ L, d.D.Has e.1 ∧ (L.filter fun z => z.1 = e.1).map (·.2) <+: outbox d y e.1 .coll) :
    (L.map (·.2)).map (·.1) <+: d.D.goldenFile.map parse := by
  have hlay := hw.ok.layers
  have hM := hw.ok.mvms (d.D.layers - 1) (by omega)
  obtain ⟨out, sent, h1, h2, h4, h5⟩ := h.mvm (d.D.layers - 1) (by omega) (d.D.mvms (d.D.layers - 1) - 1) (by omega)
  have hmem : ∀ e ∈ L, e.1 = .mvm (d.D.layers - 1) (d.D.mvms (d.D.layers - 1) - 1) := by
    intro e he
    refine outbox_last hw h (hL e he).1 ((hL e he).2.subset (List.mem_map.2 ⟨e, by simp [he], rfl⟩))
  have hp : L.map (·.2) <+: outbox d y (.mvm (d.D.layers - 1) (d.D.mvms (d.D.layers - 1) - 1)) .coll := by
    cases hcs : L with
    | nil => exact List.nil_prefix
    | cons e l =>
      have he : e ∈ L := by rw [hcs]; simp
      have := (hL e he).2
      rw [hmem e he] at this
      rw [← hcs]
      rwa [List.filter_eq_self.2 (by intro z hz; simp [hmem z hz])] at this
  have hp := hp.map (·.1)
  rw [outbox_mvm hw (by omega) (by omega) h1 h4 h5 (show d.D.Has .coll from trivial)] at hp
  refine List.IsPrefix.trans hp (List.IsPrefix.trans (l₂ := sent.map fun e => e.1.vec) ?_ ?_)
  · apply prefix_of_eq
    rw [List.filter_eq_self.2, List.map_map]
    · rfl
    · intro e he
      rcases (sent_kind hw.ok (by omega) (by omega) h4 h1 he).2 with ⟨-, -, h6, -⟩ | ⟨h6, -⟩ | ⟨h6, -⟩
      · simp [h6]
      · omega
      · omega
  · refine (h4.map _).trans (List.IsPrefix.trans (prefix_of_eq ?_) (golden_sent hw.ok h1 h2))
    rw [List.map_map]
    rfl

end

end RadSim.Mlp
