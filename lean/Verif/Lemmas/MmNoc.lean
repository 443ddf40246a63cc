import Verif.Lemmas.Noc
import Verif.Lemmas.MmNocNode
import Verif.Spec.MmNoc

/-! # The adapters of a NoC with AXI memory-mapped ports keep the laws of `Lemmas/Noc.lean` -/

namespace RadSim.MmNoc

open MmSink (Beat decode)
open AxisNoc (clsOf)
open Noc (Made Comes Laws)

/-- What a node takes. -/
def Wel (c : Cfg) (u : Nat) (ty : FlitType) (_ : Nat) : Prop :=
  match (c.nc u).kind with
  | .none => False
  | .slave => ty = .readReply ∨ ty = .writeReply
  | .master => ty = .readRequest ∨ ty = .writeRequest ∨ ty = .writeData

/-- The transactions of a node. -/
def txns (k : Kind) (s : Node) : List MmTxn :=
  match k with
  | .none => []
  | .slave => reqTxns none s.reqs
  | .master => s.rsps.map rspTxn

/-- Their packets. -/
def pks (c : Cfg) (u : Nat) (s : Node) : List (List BsFlit) :=
  (txns (c.nc u).kind s).map (onWire (c.nc u).mm.vc (c.nc u).dataw)

/-- Adapter edges since the last node edge after `n` periods. -/
def gapTo (c : Cfg) (inp : Nat → Nat → NodeIn) (u n : Nat) : Option Nat :=
  gapAfter none (clocksTo (c.nc u).kind (fun k => inp k u) n)

/-- The request side. -/
structure GoodReq (c : Cfg) (gap : Option Nat) (u : Nat) (s : Node) (se : List BsFlit) (cr : List Nat) : Prop where
  inv : ReqInv (c.nc u).mm s.req gap s.reqs se
  opened : wOnlyOpen false s.reqs
  out : Out c.b.buf s.req.k s.buf se cr
  off : ∀ x ∈ ReqOffer.beats s.req.off, ReqFits c u x
  fits : ∀ x ∈ s.reqs, ReqFits c u x

/-- The response side. -/
structure GoodRsp (c : Cfg) (gap : Option Nat) (u : Nat) (s : Node) (se : List BsFlit) (cr : List Nat) : Prop where
  ready : rspReadyFor s.rsp
  pkt : PktInv (c.nc u).mm s.rsp.k gap (s.rsps.map rspTxn) se
  out : Out c.b.buf s.rsp.k s.buf se cr
  off : ∀ x ∈ RspOffer.beats s.rsp.off, RspFits c u x
  fits : ∀ x ∈ s.rsps, RspFits c u x

/-- What holds at a node. -/
def Good (c : Cfg) (inp : Nat → Nat → NodeIn) (u n : Nat) (s : Node) (se : List BsFlit) (cr : List Nat) (ac : List BsFlit)
    (re : List Nat) : Prop :=
  match (c.nc u).kind with
  | .none => s = .init (c.nc u) ∧ se = [] ∧ ac = [] ∧ re = []
  | .slave => GoodReq c (gapTo c inp u n) u s se cr ∧ Sink (c.nc u).sink s.sink s.hist ac re
  | .master => GoodRsp c (gapTo c inp u n) u s se cr ∧ Sink (c.nc u).sink s.sink s.hist ac re

/-! ## packets -/

/-- A transaction goes to a node that takes it. -/
def TxnFits (c : Cfg) (t : MmTxn) : Prop :=
  t.dest.toNat < c.m.nodes ∧ Wel c t.dest.toNat t.type.flitType 0

theorem vc_begins (r : VcRanges) (t : FlitType) : vcidFromType r.begins t = r.first t := by cases t <;> rfl

section
variable {c : Cfg} {rng : Nat → Nat × Nat} {r : Nat → Nat}

theorem Setup.noc (h : Setup c rng r) : Noc.Setup c.noc rng where
  k := h.k
  n := h.n
  ok := h.ok
  rf := h.rf
  vcs := h.vcs
  few t := Nat.le_of_eq (h.one t).1

theorem Setup.vcOk (h : Setup c rng r) {u : Nat} (hu : u < c.m.nodes) (hk : (c.nc u).kind ≠ .none) :
    VcOk c.b.buf (c.nc u).mm := by
  intro t
  have h1 := (h.types u hu hk t).1
  have h2 := h.one t
  have h3 := h.vcs (clsOf t)
  have h4 : vcidFromType (c.nc u).mm.vc t = (rng (clsOf t)).1 := by
    rw [← h1]; exact vc_begins _ t
  rw [h4]
  refine ⟨h2.2, ?_⟩
  show _ < c.b.vcs
  omega

theorem made_onWire (h : Setup c rng r) {u : Nat} (hu : u < c.m.nodes) (hk : (c.nc u).kind ≠ .none) {t : MmTxn}
    (ht : TxnFits c t) : Made c.m rng (Wel c) (onWire (c.nc u).mm.vc (c.nc u).dataw t) := by
  have hv := (h.vcOk hu hk t.type.flitType).1
  have hv' : vcidFromType (c.nc u).mm.vc t.type.flitType = (rng (clsOf t.type.flitType)).1 := by
    rw [← (h.types u hu hk t.type.flitType).1]; exact vc_begins _ _
  have hpos := mmFlits_pos (c.nc u).dataw t.type
  have hmem : ∀ f ∈ onWire (c.nc u).mm.vc (c.nc u).dataw t, ∃ i,
      f = mmInject (mmFlitOf (c.nc u).mm.vc (mmFlits (c.nc u).dataw t.type) t i) := by
    intro f hf
    unfold onWire mmPacket at hf
    simp only [List.map_map, List.mem_map] at hf
    obtain ⟨i, -, rfl⟩ := hf
    exact ⟨i, rfl⟩
  refine ⟨?_, MmSink.onWire_closed _ _ _, ?_, ?_⟩
  · unfold onWire mmPacket
    rw [List.map_map]
    constructor
    · intro a ha
      obtain ⟨k, hk⟩ : ∃ k, mmFlits (c.nc u).dataw t.type = k + 1 := ⟨mmFlits (c.nc u).dataw t.type - 1, by omega⟩
      rw [hk, List.range_eq_range', List.range'_succ, List.map_cons] at ha
      simp only [List.head?_cons, Option.mem_def, Option.some.injEq] at ha
      subst ha
      rfl
    · rw [List.isChain_map, List.isChain_range]
      intro m hm
      refine ⟨?_, fun _ => rfl⟩
      simp [mmInject, mmFlitOf]
      omega
  · intro f hf
    obtain ⟨i, rfl⟩ := hmem f hf
    show (BitVec.ofNat 3 _).toNat = _
    rw [BitVec.toNat_ofNat, Nat.mod_eq_of_lt (by omega), hv']
    rfl
  · intro f hf
    obtain ⟨i, rfl⟩ := hmem f hf
    exact ht

theorem reqTxns_fit {u : Nat} (acc : List ReqBeat) : ∀ (l : Option (BitVec 64)) (o : Bool), wOnlyOpen o acc →
    (o = true → l ≠ none) → (∀ a, l = some a → nodeOf a < c.m.nodes ∧ (c.nc (nodeOf a)).kind = .master) →
    (∀ x ∈ acc, ReqFits c u x) → ∀ t ∈ reqTxns l acc, TxnFits c t := by
  have key : ∀ (a : BitVec 64) (t : MmTxn), t.dest = mmNode a → (t.type = .ar ∨ t.type = .aw ∨ t.type = .w) →
      nodeOf a < c.m.nodes ∧ (c.nc (nodeOf a)).kind = .master → TxnFits c t := by
    intro a t hd ht h
    have e : t.dest.toNat = nodeOf a := by rw [hd]; exact toNat_mmNode a
    refine ⟨by rw [e]; exact h.1, ?_⟩
    unfold Wel
    rw [e, h.2]
    rcases ht with ht | ht | ht <;> rw [ht] <;> simp [MmType.flitType]
  induction acc with
  | nil => intro l o _ _ _ _ t ht; cases ht
  | cons b acc ih =>
    intro l o hw hl hn hf t ht
    have hf' : ∀ x ∈ acc, ReqFits c u x := fun x hx => hf x (by simp [hx])
    have hb := hf b (by simp)
    cases b with
    | ar a =>
      rcases List.mem_cons.1 ht with rfl | ht
      · exact key a.addr _ rfl (.inl rfl) hb
      · exact ih l o hw hl hn hf' t ht
    | aw a =>
      rcases List.mem_cons.1 ht with rfl | ht
      · exact key a.addr _ rfl (.inr (.inl rfl)) hb
      · refine ih (some a.addr) true hw (by simp) ?_ hf' t ht
        rintro _ ⟨⟩
        exact hb
    | w x =>
      obtain ⟨rfl, hw⟩ := hw
      rcases List.mem_cons.1 ht with rfl | ht
      · cases l with
        | none => exact absurd rfl (hl rfl)
        | some a => exact key a _ rfl (.inr (.inr rfl)) (hn a rfl)
      · exact ih l _ hw (fun _ => hl rfl) hn hf' t ht

theorem rspTxns_fit {u : Nat} {acc : List RspBeat} (hf : ∀ x ∈ acc, RspFits c u x) :
    ∀ t ∈ acc.map rspTxn, TxnFits c t := by
  intro t ht
  obtain ⟨b, hb, rfl⟩ := List.mem_map.1 ht
  have h := hf b hb
  cases b with
  | r x =>
    have e : (rspTxn (.r x)).dest.toNat = nodeOf x.user := toNat_mmNode x.user
    refine ⟨by rw [e]; exact h.1, ?_⟩
    unfold Wel
    rw [e, h.2.1]
    exact .inl rfl
  | b x =>
    have e : (rspTxn (.b x)).dest.toNat = nodeOf x.user := toNat_mmNode x.user
    refine ⟨by rw [e]; exact h.1, ?_⟩
    unfold Wel
    rw [e, h.2]
    exact .inr rfl

theorem pkt_sent {k : Pkt} {gap : Option Nat} {cap : List MmTxn} {out : List BsFlit} {mc : MmCfg}
    (h : PktInv mc k gap cap out) : out <+: (cap.map (onWire mc.vc mc.dataw)).flatten := by
  obtain ⟨done, pend, rfl, h2, -⟩ := h
  rw [List.map_append, List.flatten_append]
  refine List.IsPrefix.trans ?_ (List.prefix_append _ _)
  refine List.IsPrefix.trans ⟨_, h2⟩ (MmSink.prefix_of_eq ?_)
  rw [List.map_flatten, List.map_map]
  rfl

/-! ## the sink side -/

theorem wel_channel {u : Nat} {ty : FlitType} {d : Nat} (h : Wel c u ty d) : (c.nc u).kind ≠ .none ∧
    ∃ k ∈ MmSink.channels (c.nc u).sink.master, ty = k.flitType := by
  unfold Wel at h
  cases hk : (c.nc u).kind with
  | none => rw [hk] at h; exact h.elim
  | slave =>
    rw [hk] at h
    refine ⟨by simp, ?_⟩
    have : (c.nc u).sink.master = false := by simp [NodeCfg.sink, hk]
    rw [this]
    rcases h with rfl | rfl
    · exact ⟨.r, by simp [MmSink.channels], rfl⟩
    · exact ⟨.b, by simp [MmSink.channels], rfl⟩
  | master =>
    rw [hk] at h
    refine ⟨by simp, ?_⟩
    have : (c.nc u).sink.master = true := by simp [NodeCfg.sink, hk]
    rw [this]
    rcases h with rfl | rfl | rfl
    · exact ⟨.ar, by simp [MmSink.channels], rfl⟩
    · exact ⟨.aw, by simp [MmSink.channels], rfl⟩
    · exact ⟨.w, by simp [MmSink.channels], rfl⟩

theorem Setup.separate (h : Setup c rng r) {u : Nat} (hu : u < c.m.nodes) (hk : (c.nc u).kind ≠ .none) :
    MmSink.Separate (c.nc u).sink := by
  intro t _ t' _ v h1 h2 h3 h4
  have a1 := h.types u hu hk t
  have a2 := h.types u hu hk t'
  have a3 := h.one t
  have a4 := h.one t'
  apply h.apart
  change (c.nc u).vcs.first t ≤ v at h1
  change v ≤ (c.nc u).vcs.last t at h2
  change (c.nc u).vcs.first t' ≤ v at h3
  change v ≤ (c.nc u).vcs.last t' at h4
  omega

theorem Setup.single (h : Setup c rng r) {u : Nat} (hu : u < c.m.nodes) (hk : (c.nc u).kind ≠ .none) (t : FlitType) :
    (c.nc u).sink.vcs.first t = (c.nc u).sink.vcs.last t ∧ (c.nc u).sink.vcs.last t < 8 := by
  have a1 := h.types u hu hk t
  have a3 := h.one t
  show (c.nc u).vcs.first t = (c.nc u).vcs.last t ∧ (c.nc u).vcs.last t < 8
  omega

theorem Setup.belongs (h : Setup c rng r) {u : Nat} (hu : u < c.m.nodes) {l : List BsFlit}
    (hc : Comes c.b rng (Wel c) u l) : MmSink.Belongs (c.nc u).sink l := by
  intro f hf
  obtain ⟨hk, k, h1, h2⟩ := wel_channel (hc.wel f hf)
  have a1 := h.types u hu hk f.type
  have a2 := hc.range f hf
  refine ⟨k, h1, h2, ?_⟩
  show (c.nc u).vcs.first f.type ≤ f.vc ∧ f.vc ≤ (c.nc u).vcs.last f.type
  omega

/-! ## the laws -/

theorem clocksTo_succ (k : Kind) (i : Nat → NodeIn) (n : Nat) : clocksTo k i (n + 1) = clocksTo k i n ++ clocksOf k (i n) := by
  simp [clocksTo, List.range_succ]

theorem gap_period {r' : Nat} {k : Kind} {i : Nat → NodeIn} {N n : Nat} (h : GapOk r' none (clocksTo k i N)) (hn : n < N) :
    GapOk r' (gapAfter none (clocksTo k i n)) (clocksOf k (i n)) := by
  have : ∃ z, clocksTo k i N = clocksTo k i (n + 1) ++ z := by
    obtain ⟨d, rfl⟩ : ∃ d, N = n + 1 + d := ⟨N - (n + 1), by omega⟩
    refine ⟨(List.range d).flatMap fun t => clocksOf k (i (n + 1 + t)), ?_⟩
    unfold clocksTo
    rw [List.range_add, List.flatMap_append, List.flatMap_map]
  obtain ⟨z, hz⟩ := this
  rw [hz] at h
  have h1 := h.append_left
  rw [clocksTo_succ] at h1
  exact ((gapOk_append _ _).1 h1).2

theorem gap_noc {r' : Nat} (a b : List (Bool × Bool)) (g : Option Nat) :
    (GapOk r' g (a ++ b) → GapOk r' g (a ++ (false, false) :: b)) ∧
      gapAfter g (a ++ (false, false) :: b) = gapAfter g (a ++ b) := by
  have e : ∀ g' : Option Nat, gapNext g' false false = g' := fun g' => rfl
  constructor
  · intro h
    rw [gapOk_append] at h ⊢
    refine ⟨h.1, ?_, ?_, ?_⟩
    · intro x; cases x
    · intro x; cases x
    · rw [e]; exact h.2
  · rw [gapAfter_append, gapAfter_append]
    rfl

theorem clocks_req (i : NodeIn) (accept : Bool) : (reqEvents i accept).map ReqEvent.clocks =
    (i.reqPre.map fun x => (x.1, x.2.1)) ++ (false, false) :: i.reqPost.map fun x => (x.1, x.2.1) := by
  unfold reqEvents
  simp only [List.map_append, List.map_cons, List.map_map]
  rfl

theorem clocks_rsp (i : NodeIn) (accept : Bool) : (rspEvents i accept).map RspEvent.clocks =
    (i.rspPre.map fun x => (x.1, x.2.1)) ++ (false, false) :: i.rspPost.map fun x => (x.1, x.2.1) := by
  unfold rspEvents
  simp only [List.map_append, List.map_cons, List.map_map]
  rfl

end

section
variable {ρ ρ' : Type} {c : Cfg} {rng : Nat → Nat × Nat} {r : Nat → Nat} {N : Nat} {i : Nat → In ρ ρ'}

theorem good_req (hs : Setup c rng r) (hr : Runs c r N i) {u n : Nat} (hu : u < c.m.nodes) (hn : n < N)
    (hk : (c.nc u).kind = .slave) {s : Node} {se : List BsFlit} {cr l : List Nat}
    (h : GoodReq c (gapTo c (fun k => (i k).ad) u n) u s se cr) (hl : l.Nodup)
    (hc : ∀ v, (cr ++ l).count v ≤ se.countP fun f => f.vc == v) :
    ∃ accept buf', injectBuf c.b.buf (reqRun (c.nc u).mm s.req (((i n).ad u).reqPre.map reqEdge)).1.k s.buf l =
        .ok (accept, buf') ∧
      (reqRun (c.nc u).mm s.req (reqEvents ((i n).ad u) accept)).2.2.length ≤ 1 ∧
      ∀ sink hist, GoodReq c (gapTo c (fun k => (i k).ad) u (n + 1)) u
        { s with req := (reqRun (c.nc u).mm s.req (reqEvents ((i n).ad u) accept)).1,
                 reqs := s.reqs ++ (reqRun (c.nc u).mm s.req (reqEvents ((i n).ad u) accept)).2.1,
                 buf := buf', sink := sink, hist := hist }
        (se ++ (reqRun (c.nc u).mm s.req (reqEvents ((i n).ad u) accept)).2.2) (cr ++ l) := by
  have hk' : (c.nc u).kind ≠ .none := by rw [hk]; simp
  have hv := hs.vcOk hu hk'
  obtain ⟨p1, p2⟩ := reqEdges (c.nc u).mm ((i n).ad u).reqPre s.req
  obtain ⟨accept, buf', e1, e2, e3⟩ := (h.out.grows hv p1).inject hs.ok.buf hl hc
  obtain ⟨q1, q2⟩ := req_period (c.nc u).mm s.req ((i n).ad u) accept
  refine ⟨accept, buf', e1, by rw [q1]; exact e2, fun sink hist => ?_⟩
  have hg := gap_period (hr.clocks u hu) hn
  have hg2 := gap_noc (r' := r u) (((i n).ad u).reqPre.map fun x => (x.1, x.2.1))
    (((i n).ad u).reqPost.map fun x => (x.1, x.2.1)) (gapTo c (fun k => (i k).ad) u n)
  have hcl : clocksOf (c.nc u).kind ((i n).ad u) = (((i n).ad u).reqPre.map fun x => (x.1, x.2.1)) ++
      (((i n).ad u).reqPost.map fun x => (x.1, x.2.1)) := by
    rw [hk]; simp [clocksOf]
  rw [hcl] at hg
  have hgap : gapTo c (fun k => (i k).ad) u (n + 1) =
      gapAfter (gapTo c (fun k => (i k).ad) u n) ((reqEvents ((i n).ad u) accept).map ReqEvent.clocks) := by
    unfold gapTo
    rw [clocksTo_succ, gapAfter_append, hcl, clocks_req]
    exact (gap_noc (r' := 0) _ _ _).2.symm
  obtain ⟨g1, g2⟩ := req_run (hs.clock u hu hk') (reqEvents ((i n).ad u) accept) h.inv h.opened (by
    rw [clocks_req]; exact hg2.1 hg)
  have hoff := (hr.offers n hn).req u hu hk
  obtain ⟨f1, f2⟩ := req_offered (c.nc u).mm (ReqFits c u) (reqEvents ((i n).ad u) accept) s.req h.off (by
    intro e he x hx
    unfold reqEvents at he
    have hmem : ∃ y ∈ ((i n).ad u).reqPre ++ ((i n).ad u).reqPost, e = reqEdge y ∨ ∃ a, e = .noc a := by
      rcases List.mem_append.1 he with he | he
      · obtain ⟨y, hy, rfl⟩ := List.mem_map.1 he
        exact ⟨y, by simp [hy], .inl rfl⟩
      · rcases List.mem_cons.1 he with rfl | he
        · cases hx
        · obtain ⟨y, hy, rfl⟩ := List.mem_map.1 he
          exact ⟨y, by simp [hy], .inl rfl⟩
    obtain ⟨y, hy, rfl | ⟨a, rfl⟩⟩ := hmem
    · obtain ⟨o1, o2, o3⟩ := hoff y hy
      simp only [reqOffered, reqEdge, ReqOffer.beats, List.mem_append, List.mem_map, Option.mem_toList] at hx
      rcases hx with (⟨a, ha, rfl⟩ | ⟨a, ha, rfl⟩) | ⟨a, ha, rfl⟩
      · exact o1 a ha
      · exact o2 a ha
      · exact o3 a ha
    · cases hx)
  refine ⟨?_, g2, ?_, f1, ?_⟩
  · rw [hgap]; exact g1
  · rw [q1]; exact e3.grows hv q2
  · intro x hx
    rcases List.mem_append.1 hx with hx | hx
    · exact h.fits x hx
    · exact f2 x hx

theorem good_rsp (hs : Setup c rng r) (hr : Runs c r N i) {u n : Nat} (hu : u < c.m.nodes) (hn : n < N)
    (hk : (c.nc u).kind = .master) {s : Node} {se : List BsFlit} {cr l : List Nat}
    (h : GoodRsp c (gapTo c (fun k => (i k).ad) u n) u s se cr) (hl : l.Nodup)
    (hc : ∀ v, (cr ++ l).count v ≤ se.countP fun f => f.vc == v) :
    ∃ accept buf', injectBuf c.b.buf (rspRun (c.nc u).mm s.rsp (((i n).ad u).rspPre.map rspEdge)).1.k s.buf l =
        .ok (accept, buf') ∧
      (rspRun (c.nc u).mm s.rsp (rspEvents ((i n).ad u) accept)).2.2.length ≤ 1 ∧
      ∀ sink hist, GoodRsp c (gapTo c (fun k => (i k).ad) u (n + 1)) u
        { s with rsp := (rspRun (c.nc u).mm s.rsp (rspEvents ((i n).ad u) accept)).1,
                 rsps := s.rsps ++ (rspRun (c.nc u).mm s.rsp (rspEvents ((i n).ad u) accept)).2.1,
                 buf := buf', sink := sink, hist := hist }
        (se ++ (rspRun (c.nc u).mm s.rsp (rspEvents ((i n).ad u) accept)).2.2) (cr ++ l) := by
  have hk' : (c.nc u).kind ≠ .none := by rw [hk]; simp
  have hv := hs.vcOk hu hk'
  obtain ⟨p1, p2⟩ := rspEdges (c.nc u).mm ((i n).ad u).rspPre s.rsp
  obtain ⟨accept, buf', e1, e2, e3⟩ := (h.out.grows hv p1).inject hs.ok.buf hl hc
  obtain ⟨q1, q2⟩ := rsp_period (c.nc u).mm s.rsp ((i n).ad u) accept
  refine ⟨accept, buf', e1, by rw [q1]; exact e2, fun sink hist => ?_⟩
  have hg := gap_period (hr.clocks u hu) hn
  have hg2 := gap_noc (r' := r u) (((i n).ad u).rspPre.map fun x => (x.1, x.2.1))
    (((i n).ad u).rspPost.map fun x => (x.1, x.2.1)) (gapTo c (fun k => (i k).ad) u n)
  have hcl : clocksOf (c.nc u).kind ((i n).ad u) = (((i n).ad u).rspPre.map fun x => (x.1, x.2.1)) ++
      (((i n).ad u).rspPost.map fun x => (x.1, x.2.1)) := by
    rw [hk]; simp [clocksOf]
  rw [hcl] at hg
  have hgap : gapTo c (fun k => (i k).ad) u (n + 1) =
      gapAfter (gapTo c (fun k => (i k).ad) u n) ((rspEvents ((i n).ad u) accept).map RspEvent.clocks) := by
    unfold gapTo
    rw [clocksTo_succ, gapAfter_append, hcl, clocks_rsp]
    exact (gap_noc (r' := 0) _ _ _).2.symm
  obtain ⟨g1, g2⟩ := rsp_run (hs.clock u hu hk') (rspEvents ((i n).ad u) accept) h.ready h.pkt (by
    rw [clocks_rsp]; exact hg2.1 hg)
  have hoff := (hr.offers n hn).rsp u hu hk
  obtain ⟨f1, f2⟩ := rsp_offered (c.nc u).mm (RspFits c u) (rspEvents ((i n).ad u) accept) s.rsp h.off (by
    intro e he x hx
    unfold rspEvents at he
    have hmem : ∃ y ∈ ((i n).ad u).rspPre ++ ((i n).ad u).rspPost, e = rspEdge y ∨ ∃ a, e = .noc a := by
      rcases List.mem_append.1 he with he | he
      · obtain ⟨y, hy, rfl⟩ := List.mem_map.1 he
        exact ⟨y, by simp [hy], .inl rfl⟩
      · rcases List.mem_cons.1 he with rfl | he
        · cases hx
        · obtain ⟨y, hy, rfl⟩ := List.mem_map.1 he
          exact ⟨y, by simp [hy], .inl rfl⟩
    obtain ⟨y, hy, rfl | ⟨a, rfl⟩⟩ := hmem
    · obtain ⟨o1, o2⟩ := hoff y hy
      simp only [rspOffered, rspEdge, RspOffer.beats, List.mem_append, List.mem_map, Option.mem_toList] at hx
      rcases hx with ⟨a, ha, rfl⟩ | ⟨a, ha, rfl⟩
      · exact o1 a ha
      · exact o2 a ha
    · cases hx)
  refine ⟨g1, ?_, ?_, f1, ?_⟩
  · rw [hgap]; exact g2
  · rw [q1]; exact e3.grows hv q2
  · intro x hx
    rcases List.mem_append.1 hx with hx | hx
    · exact h.fits x hx
    · exact f2 x hx

theorem laws (hs : Setup c rng r) (hr : Runs c r N i) :
    Laws c.noc rng (Wel c) N (fun n => (i n).ad) (pks c) (Good c fun n => (i n).ad) where
  init := by
    intro u hu
    show Good c _ u 0 (Node.init (c.nc u)) [] [] [] []
    unfold Good
    cases hk : (c.nc u).kind with
    | none => exact ⟨rfl, rfl, rfl, rfl⟩
    | slave =>
      exact ⟨⟨ReqInv.init _, trivial, Out.init _ hs.ok.buf,
        fun x hx => (by cases hx), fun x hx => (by cases hx)⟩, Sink.init _⟩
    | master =>
      exact ⟨⟨⟨rfl, rfl⟩, PktInv.init _, Out.init _ hs.ok.buf, fun x hx => (by cases hx), fun x hx => (by cases hx)⟩,
        Sink.init _⟩
  sent := by
    intro u hu n s se cr ac re h
    unfold Good at h
    unfold pks txns
    cases hk : (c.nc u).kind with
    | none =>
      rw [hk] at h
      rw [h.2.1]
      exact ⟨List.nil_prefix, by intro p hp; cases hp⟩
    | slave =>
      rw [hk] at h
      refine ⟨pkt_sent h.1.inv.pkt, ?_⟩
      intro p hp
      obtain ⟨t, ht, rfl⟩ := List.mem_map.1 hp
      exact made_onWire hs hu (by rw [hk]; simp)
        (reqTxns_fit _ none false h.1.opened (by simp) (by simp) h.1.fits t ht)
    | master =>
      rw [hk] at h
      refine ⟨pkt_sent h.1.pkt, ?_⟩
      intro p hp
      obtain ⟨t, ht, rfl⟩ := List.mem_map.1 hp
      exact made_onWire hs hu (by rw [hk]; simp) (rspTxns_fit h.1.fits t ht)
  occ := by
    intro u hu n s se cr ac re h v
    unfold Good at h
    cases hk : (c.nc u).kind with
    | none =>
      rw [hk] at h
      rw [h.2.1]
      have := hs.ok.buf.perVc_pos
      simp only [List.countP_nil]
      show ((0 : Nat) : Int) ≤ (c.b.buf.perVc : Int) + _
      omega
    | slave => rw [hk] at h; exact h.1.out.occ_le hs.ok.buf v
    | master => rw [hk] at h; exact h.1.out.occ_le hs.ok.buf v
  ret := by
    intro u hu n s se cr ac re h v
    unfold Good at h
    cases hk : (c.nc u).kind with
    | none => rw [hk] at h; rw [h.2.2.2]; simp
    | slave =>
      rw [hk] at h
      exact h.2.ret (fun k _ => (hs.single hu (by rw [hk]; simp) _).2) v
    | master =>
      rw [hk] at h
      exact h.2.ret (fun k _ => (hs.single hu (by rw [hk]; simp) _).2) v
  step := by
    intro u hu n hn s se cr ac re h l a hl hcr hc hro
    show ∃ s' out, nodeStep c.b.buf (c.nc u) ((i n).ad u) l a s = .ok (s', out) ∧ out.length ≤ 1 ∧
      Good c _ u (n + 1) s' (se ++ out) (cr ++ l) (ac ++ a.toList) (re ++ s.sink.credit.toList)
    have hb := hs.belongs hu hc
    have hroom : (c.nc u).kind ≠ .none → ∀ v, ((ac ++ a.toList).countP fun g => g.vc == v) ≤
        (c.nc u).sink.depth + re.count v := by
      intro hk v
      have h1 := hro v
      have h2 := hs.deep u hu hk
      change (_ : Int) ≤ (c.b.buf.perVc : Int) + _ at h1
      show _ ≤ (c.nc u).ejDepth + _
      omega
    unfold Good at h ⊢
    unfold nodeStep
    cases hk : (c.nc u).kind with
    | none =>
      rw [hk] at h
      obtain ⟨rfl, rfl, rfl, rfl⟩ := h
      have ha : a = none := by
        cases a with
        | none => rfl
        | some f =>
          exact absurd hk (wel_channel (hc.wel f (by simp))).1
      refine ⟨_, [], rfl, by simp, rfl, rfl, by rw [ha]; rfl, rfl⟩
    | slave =>
      rw [hk] at h
      have hk' : (c.nc u).kind ≠ .none := by rw [hk]; simp
      obtain ⟨accept, buf', e1, e2, e3⟩ := good_req hs hr hu hn hk h.1 hl hcr
      obtain ⟨s', h', e4, e5⟩ := h.2.period (hs.separate hu hk') (fun k _ => (hs.single hu hk' _).1)
        (fun k _ => (hs.single hu hk' _).2) hb (hroom hk') ((i n).ad u)
      dsimp only
      rw [e1]
      dsimp only
      rw [e4]
      exact ⟨_, _, rfl, e2, e3 s' h', e5⟩
    | master =>
      rw [hk] at h
      have hk' : (c.nc u).kind ≠ .none := by rw [hk]; simp
      obtain ⟨accept, buf', e1, e2, e3⟩ := good_rsp hs hr hu hn hk h.1 hl hcr
      obtain ⟨s', h', e4, e5⟩ := h.2.period (hs.separate hu hk') (fun k _ => (hs.single hu hk' _).1)
        (fun k _ => (hs.single hu hk' _).2) hb (hroom hk') ((i n).ad u)
      dsimp only
      rw [e1]
      dsimp only
      rw [e4]
      exact ⟨_, _, rfl, e2, e3 s' h', e5⟩

end

/-! ## what a packet is shown as -/

theorem head_onWire (vc : VcConfig) (dataw : Nat) (t : MmTxn) (P : BsFlit → Bool) :
    (onWire vc dataw t).head?.any P = P (mmInject (mmFlitOf vc (mmFlits dataw t.type) t 0)) := by
  obtain ⟨fs, h⟩ := mmPacket_head vc dataw t
  simp [onWire, h]

/-- Packets of the requests for node `u` on channel `k` decode to these requests. -/
theorem decode_reqs {c : Cfg} {w u : Nat} {vc : VcConfig} {k : MmType} (acc : List ReqBeat) :
    ∀ (l : Option (BitVec 64)) (o : Bool) (d : Nat), wOnlyOpen o acc → (o = true → l ≠ none) →
    (∀ a, l = some a → d = nodeOf a) → (∀ x ∈ acc, ReqFits c w x) →
    ((((reqTxns l acc).map (onWire vc (c.nc w).dataw)).filter fun p =>
        p.head?.any fun f => f.dest = u ∧ f.type = k.flitType).map (decode k)).map core =
      (((routed d acc).filter fun y => y.1 = u ∧ y.2.type = k).map (·.2)).map core := by
  have key : ∀ (t : MmTxn) (b : Beat) (n : Nat) (ps : List (List BsFlit)) (ys : List (Nat × Beat)),
      t.dest.toNat = n → t.type = b.type → core (decode t.type (onWire vc (c.nc w).dataw t)) = core b →
      ((ps.filter fun p => p.head?.any fun f => f.dest = u ∧ f.type = k.flitType).map (decode k)).map core =
        ((ys.filter fun y => y.1 = u ∧ y.2.type = k).map (·.2)).map core →
      (((onWire vc (c.nc w).dataw t :: ps).filter fun p =>
          p.head?.any fun f => f.dest = u ∧ f.type = k.flitType).map (decode k)).map core =
        ((((n, b) :: ys).filter fun y => y.1 = u ∧ y.2.type = k).map (·.2)).map core := by
    intro t b n ps ys h1 h2 h3 h4
    rw [List.filter_cons, List.filter_cons, head_onWire]
    have e1 : (mmInject (mmFlitOf vc (mmFlits (c.nc w).dataw t.type) t 0)).dest = n := h1
    have e2 : (mmInject (mmFlitOf vc (mmFlits (c.nc w).dataw t.type) t 0)).type = t.type.flitType := rfl
    rw [e1, e2]
    by_cases hn : n = u ∧ b.type = k
    · rw [if_pos (by simp [hn, h2]), if_pos (by simp [hn])]
      simp only [List.map_cons]
      rw [h4]
      congr 1
      rw [← h3, h2, hn.2]
    · have : ¬ (n = u ∧ t.type.flitType = k.flitType) := fun e => hn ⟨e.1, by rw [← h2]; exact MmSink.flitType_inj e.2⟩
      rw [if_neg (by simpa using this), if_neg (by simpa using hn)]
      exact h4
  induction acc with
  | nil => intro l o d _ _ _ _; rfl
  | cons b acc ih =>
    intro l o d hw hl hd hf
    have hf' : ∀ x ∈ acc, ReqFits c w x := fun x hx => hf x (by simp [hx])
    have hb := hf b (by simp)
    cases b with
    | ar a =>
      refine key (captureAr a) (.req (.ar a)) (nodeOf a.addr) _ _ (toNat_mmNode a.addr) rfl ?_ (ih l o d hw hl hd hf')
      obtain ⟨g1, g2, g3⟩ := C18_address_survives vc (c.nc w).dataw a (captureAr a) (.inl rfl)
      simp only [captureAr, decode, core] at g1 g2 g3 ⊢
      rw [g1, g2, g3]
    | aw a =>
      refine key (captureAw a) (.req (.aw a)) (nodeOf a.addr) _ _ (toNat_mmNode a.addr) rfl ?_
        (ih (some a.addr) true (nodeOf a.addr) hw (by simp) (by rintro _ ⟨⟩; rfl) hf')
      obtain ⟨g1, g2, g3⟩ := C18_address_survives vc (c.nc w).dataw a (captureAw a) (.inr rfl)
      simp only [captureAw, captureAr, decode, core] at g1 g2 g3 ⊢
      rw [g1, g2, g3]
    | w x =>
      obtain ⟨rfl, hw⟩ := hw
      cases l with
      | none => exact absurd rfl (hl rfl)
      | some a =>
        refine key (captureW x (mmNode a)) (.req (.w x)) d _ _ ?_ rfl ?_ (ih (some a) _ d hw (by simp) hd hf')
        · rw [hd a rfl]; exact toNat_mmNode a
        · show core (.req (.w _)) = _
          rw [C18_write_data_survives vc (c.nc w).dataw x _ hb]

/-- Packets of the responses for node `u` on channel `k` decode to these responses. -/
theorem decode_rsps {c : Cfg} {w u : Nat} {vc : VcConfig} {k : MmType} (acc : List RspBeat)
    (hf : ∀ x ∈ acc, RspFits c w x) :
    ((((acc.map rspTxn).map (onWire vc (c.nc w).dataw)).filter fun p =>
        p.head?.any fun f => f.dest = u ∧ f.type = k.flitType).map (decode k)).map core =
      (((answered acc).filter fun y => y.1 = u ∧ y.2.type = k).map (·.2)).map core := by
  have key : ∀ (t : MmTxn) (b : Beat) (n : Nat) (ps : List (List BsFlit)) (ys : List (Nat × Beat)),
      t.dest.toNat = n → t.type = b.type → core (decode t.type (onWire vc (c.nc w).dataw t)) = core b →
      ((ps.filter fun p => p.head?.any fun f => f.dest = u ∧ f.type = k.flitType).map (decode k)).map core =
        ((ys.filter fun y => y.1 = u ∧ y.2.type = k).map (·.2)).map core →
      (((onWire vc (c.nc w).dataw t :: ps).filter fun p =>
          p.head?.any fun f => f.dest = u ∧ f.type = k.flitType).map (decode k)).map core =
        ((((n, b) :: ys).filter fun y => y.1 = u ∧ y.2.type = k).map (·.2)).map core := by
    intro t b n ps ys h1 h2 h3 h4
    rw [List.filter_cons, List.filter_cons, head_onWire]
    have e1 : (mmInject (mmFlitOf vc (mmFlits (c.nc w).dataw t.type) t 0)).dest = n := h1
    have e2 : (mmInject (mmFlitOf vc (mmFlits (c.nc w).dataw t.type) t 0)).type = t.type.flitType := rfl
    rw [e1, e2]
    by_cases hn : n = u ∧ b.type = k
    · rw [if_pos (by simp [hn, h2]), if_pos (by simp [hn])]
      simp only [List.map_cons]
      rw [h4]
      congr 1
      rw [← h3, h2, hn.2]
    · have : ¬ (n = u ∧ t.type.flitType = k.flitType) := fun e => hn ⟨e.1, by rw [← h2]; exact MmSink.flitType_inj e.2⟩
      rw [if_neg (by simpa using this), if_neg (by simpa using hn)]
      exact h4
  induction acc with
  | nil => rfl
  | cons b acc ih =>
    have ih := ih fun x hx => hf x (by simp [hx])
    have hb := hf b (by simp)
    cases b with
    | r x =>
      refine key (captureR x) (.rsp (.r x)) (nodeOf x.user) _ _ (toNat_mmNode x.user) rfl ?_ ih
      show core (.rsp (.r _)) = _
      rw [C18_read_data_survives vc (c.nc w).dataw x hb.2.2]
    | b x =>
      refine key (captureB x) (.rsp (.b x)) (nodeOf x.user) _ _ (toNat_mmNode x.user) rfl ?_ ih
      show core (.rsp (.b _)) = _
      rw [C18_response_survives vc (c.nc w).dataw x]

end RadSim.MmNoc
