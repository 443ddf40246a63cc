import Verif.Props.AxiMm
import Verif.Lemmas.AxiMmSinkLive
import Verif.Lemmas.RouterPackets

/-! # Properties of the sink side of the AXI memory-mapped adapters -/

namespace RadSim.MmSink

/-! ## specification -/

/-- The channels an adapter shows to its module: requests from the NoC at a master port, responses at a slave port. -/
def channels : Bool → List MmType
  | true => [.ar, .aw, .w]
  | false => [.r, .b]

/-- The virtual channels of the types an adapter receives do not overlap. -/
def Separate (c : Cfg) : Prop := DisjointRanges c.vcs ((channels c.master).map MmType.flitType)

/-- The flits that reach an adapter: of a type that it receives, on a virtual channel of that type. -/
def Belongs (c : Cfg) (l : List BsFlit) : Prop := ∀ f ∈ l, ∃ k ∈ channels c.master, f.type = k.flitType ∧
  c.vcs.first f.type ≤ f.vc ∧ f.vc ≤ c.vcs.last f.type

/-- The flits of a type. -/
def typed (k : MmType) (l : List BsFlit) : List BsFlit := l.filter fun f => f.type = k.flitType

/-- What the module should see of a packet. -/
def decode : MmType → List BsFlit → Beat
  | .ar, p => .req (.ar (addrOut (headOf p) (rebuilt p)))
  | .aw, p => .req (.aw (addrOut (headOf p) (rebuilt p)))
  | .w, p => .req (.w (dataOut (headOf p) (rebuilt p)))
  | .r, p => .rsp (.r (rdOut (headOf p) (rebuilt p)))
  | .b, p => .rsp (.b (respOut (headOf p) (rebuilt p)))

/-- The beats of a channel among those shown. -/
def onChannel (k : MmType) (h : Hist) : List Beat := (h.shown.map (·.1)).filter fun b => b.type = k

/-! ## from the specification to the model -/

theorem types_eq (c : Cfg) : c.types = channels c.master := by
  unfold Cfg.types
  cases c.master <;> rfl

theorem flitType_inj {j k : MmType} (h : j.flitType = k.flitType) : j = k := by
  cases j <;> cases k <;> first | rfl | cases h

theorem class_of_range {c : Cfg} (hs : Separate c) {k : MmType} (hk : k ∈ channels c.master) {v : Nat}
    (h1 : c.vcs.first k.flitType ≤ v) (h2 : v ≤ c.vcs.last k.flitType) : c.classOf v = some k := by
  unfold Cfg.classOf
  unfold Separate at hs
  cases hm : c.master with
  | true =>
    rw [hm] at hs hk
    rw [if_pos rfl]
    exact C23_request_type_recovered _ hs k (by simpa [channels] using hk) v h1 h2
  | false =>
    rw [hm] at hs hk
    rw [if_neg (by simp)]
    exact C23_response_type_recovered _ hs k (by simpa [channels] using hk) v h1 h2

theorem belongs_class {c : Cfg} (hs : Separate c) {l : List BsFlit} (hb : Belongs c l) {f : BsFlit} (hf : f ∈ l) :
    ∃ k ∈ channels c.master, f.type = k.flitType ∧ c.classOf f.vc = some k := by
  obtain ⟨k, hk, ht, h1, h2⟩ := hb f hf
  exact ⟨k, hk, ht, class_of_range hs hk (ht ▸ h1) (ht ▸ h2)⟩

theorem belongs_mapped {c : Cfg} (hs : Separate c) {l : List BsFlit} (hb : Belongs c l) : Mapped c l := by
  intro f hf
  obtain ⟨k, -, -, h⟩ := belongs_class hs hb hf
  rw [h]; rfl

theorem belongs_typed {c : Cfg} (hs : Separate c) {l : List BsFlit} (hb : Belongs c l) : Typed c l := by
  intro f hf k hk
  obtain ⟨j, -, ht, h⟩ := belongs_class hs hb hf
  rw [h] at hk
  cases hk
  exact ht

theorem ofClass_eq {c : Cfg} (hs : Separate c) {l : List BsFlit} (hb : Belongs c l) (k : MmType) :
    ofClass c k l = (typed k l).map mmEject := by
  unfold ofClass typed
  congr 1
  apply List.filter_congr
  intro f hf
  obtain ⟨j, -, ht, h⟩ := belongs_class hs hb hf
  rw [h, ht]
  by_cases hjk : j = k
  · simp [hjk]
  · have : ¬ j.flitType = k.flitType := fun e => hjk (flitType_inj e)
    simp [hjk, this]

theorem whole_ofClass {c : Cfg} (hs : Separate c) {l : List BsFlit} (hb : Belongs c l) (k : MmType) :
    whole (·.tail) (ofClass c k l) = (whole (·.tail) (typed k l)).map (List.map mmEject) := by
  rw [ofClass_eq hs hb, whole_map]
  rfl

theorem beat_decode {m : Bool} {k : MmType} (hk : k ∈ channels m) {p : List BsFlit} (hp : p ≠ [])
    (ht : ∀ f ∈ p, f.type = k.flitType) : beatOf m (p.map mmEject) = some (decode k p) := by
  cases p with
  | nil => exact absurd rfl hp
  | cons f p =>
    have h := ht f (by simp)
    simp only [List.map_cons, beatOf]
    have h' : (mmEject f).type = k.flitType := h
    rw [h']
    cases m <;> cases k <;> simp [channels] at hk <;> rfl

/-- The beats of a channel are those of the packets of its class. -/
theorem filter_beats {m : Bool} (made : List (MmType × List ScFlit))
    (hmade : ∀ x ∈ made, ∃ b, beatOf m x.2 = some b ∧ b.type = x.1) (k : MmType) : ∀ l r : List Beat,
    (l ++ r).map some = made.map (fun x => beatOf m x.2) →
    ((l.filter fun b => b.type = k) ++ r.filter fun b => b.type = k).map some = (madeOf k made).map (beatOf m) := by
  induction made with
  | nil =>
    intro l r h
    simp only [List.map_nil, List.map_eq_nil_iff, List.append_eq_nil_iff] at h
    obtain ⟨rfl, rfl⟩ := h
    rfl
  | cons x made ih =>
    intro l r h
    have ih := ih (fun y hy => hmade y (by simp [hy]))
    obtain ⟨b, hb, ht⟩ := hmade x (by simp)
    have key : ∀ (l' : List Beat), (l' ++ []).map some = made.map (fun x => beatOf m x.2) →
        ((b :: l').filter fun b => b.type = k).map some = (madeOf k (x :: made)).map (beatOf m) := by
      intro l' hl'
      have := ih l' [] hl'
      simp only [List.filter_nil, List.append_nil] at this
      unfold madeOf at this ⊢
      by_cases hk : x.1 = k
      · rw [List.filter_cons_of_pos (by simp [ht, hk]), List.filter_cons_of_pos (by simp [hk])]
        simp only [List.map_cons, hb]
        rw [this]
      · rw [List.filter_cons_of_neg (by simp [ht, hk]), List.filter_cons_of_neg (by simp [hk])]
        exact this
    rw [← List.filter_append]
    generalize l ++ r = q at h ⊢
    cases q with
    | nil => simp at h
    | cons y q =>
      simp only [List.map_cons, hb] at h
      have h1 := (List.cons.inj h).1
      cases h1
      exact key q (by simpa using (List.cons.inj h).2)

theorem map_decode {c : Cfg} (hs : Separate c) {l : List BsFlit} (hb : Belongs c l) {k : MmType}
    (hk : k ∈ channels c.master) : (whole (·.tail) (ofClass c k l)).map (beatOf c.master) =
      ((whole (·.tail) (typed k l)).map (decode k)).map some := by
  rw [whole_ofClass hs hb, List.map_map, List.map_map]
  apply List.map_congr_left
  intro p hp
  obtain ⟨h1, h2⟩ := whole_mem (·.tail) (typed k l) (fun f => f.type = k.flitType)
    (fun f hf => by simpa using (List.mem_filter.1 hf).2) p hp
  exact beat_decode hk h1 h2

theorem some_prefix {α : Type} {a b : List α} (h : a.map some <+: b.map some) : a <+: b := by
  obtain ⟨t, ht⟩ := h
  obtain ⟨x, y, h1, h2, -⟩ := List.map_eq_append_iff.1 ht.symm
  have : x = a := (List.map_injective_iff.2 (fun _ _ => Option.some.inj)) h2
  exact ⟨y, by rw [h1, this]⟩

theorem prefix_of_eq {α : Type} {a b : List α} (h : a = b) : a <+: b := h ▸ List.prefix_rfl

/-! ## C88: every packet is shown once, in order -/

/-- The beats of a channel are those of packets that have been reassembled, which fit the ejection FIFO. -/
theorem shown_made (c : Cfg) (es : List Event) (hs : Separate c)
    (hb : Belongs c (run c (State.init c) Hist.empty es).1.accepted) :
    (∃ s, (run c (State.init c) Hist.empty es).2 = .ok s) ∧
    ∀ k ∈ channels c.master, ∃ ms, onChannel k (run c (State.init c) Hist.empty es).1 <+: ms.map (decode k) ∧
      ms <+: whole (·.tail) (typed k (run c (State.init c) Hist.empty es).1.accepted) ∧ ∀ p ∈ ms, p.length ≤ c.depth := by
  obtain ⟨s, made, pres, hr, hi, -⟩ := run_all es (All.init c) (belongs_mapped hs hb)
  refine ⟨⟨s, by rw [hr]⟩, ?_⟩
  intro k hk
  generalize (run c (State.init c) Hist.empty es).1 = h at *
  have hmade : ∀ x ∈ made, ∃ b, beatOf c.master x.2 = some b ∧ b.type = x.1 :=
    fun x hx => made_beat hi.1.1 (belongs_typed hs hb) hx
  -- the beats of all packets made
  have hall : ∃ r : List Beat, (h.shown.map (·.1) ++ r).map some = made.map fun x => beatOf c.master x.2 := by
    have h1 := hi.1.2.order
    have h2 := hi.1.2.beats
    have : made.map (fun x => beatOf c.master x.2) =
        ((h.shown.map (·.1)) ++ s.port.toList).map some ++ (s.cur.toList ++ s.outq).map (beatOf c.master) := by
      rw [← h2, ← List.map_append, ← List.append_assoc, ← h1, List.map_map]
      rfl
    have hex : ∃ q : List Beat, (s.cur.toList ++ s.outq).map (beatOf c.master) = q.map some := by
      refine ⟨(s.cur.toList ++ s.outq).filterMap (beatOf c.master), ?_⟩
      have hmem : ∀ p ∈ s.cur.toList ++ s.outq, ∃ b, beatOf c.master p = some b := by
        intro p hp
        have : p ∈ made.map (·.2) := by rw [h1, List.append_assoc]; exact List.mem_append_right _ hp
        obtain ⟨x, hx, rfl⟩ := List.mem_map.1 this
        obtain ⟨b, hb', -⟩ := hmade x hx
        exact ⟨b, hb'⟩
      generalize s.cur.toList ++ s.outq = q at hmem
      induction q with
      | nil => rfl
      | cons p q ih =>
        obtain ⟨b, hb'⟩ := hmem p (by simp)
        rw [List.filterMap_cons, hb', List.map_cons, hb', List.map_cons, ih (fun x hx => hmem x (by simp [hx]))]
    obtain ⟨q, hq⟩ := hex
    exact ⟨s.port.toList ++ q, by rw [this, hq]; simp⟩
  obtain ⟨r, hr'⟩ := hall
  have h3 := filter_beats made hmade k _ _ hr'
  have hkt : k ∈ c.types := by rw [types_eq]; exact hk
  have h4 := hi.1.1.stream k hkt
  have h5 : whole (·.tail) (ofClass c k h.accepted) = madeOf k made ++ whole (·.tail) (inside c s k) := by
    rw [h4]
    apply whole_flatten_append
    intro p hp
    obtain ⟨x, hx, rfl⟩ := List.mem_map.1 hp
    exact (hi.1.1.closed x (List.mem_of_mem_filter hx)).1
  rw [whole_ofClass hs hb] at h5
  obtain ⟨ms, q, g1, g2, -⟩ := List.map_eq_append_iff.1 h5
  refine ⟨ms, ?_, ⟨q, g1.symm⟩, ?_⟩
  · apply some_prefix
    have h6 : (ms.map (decode k)).map some = (madeOf k made).map (beatOf c.master) := by
      rw [← g2, List.map_map, List.map_map]
      apply List.map_congr_left
      intro p hp
      obtain ⟨e1, e2⟩ := whole_mem (·.tail) (typed k h.accepted) (fun f => f.type = k.flitType)
        (fun f hf => by simpa using (List.mem_filter.1 hf).2) p (by rw [g1]; exact List.mem_append_left _ hp)
      exact (beat_decode hk e1 e2).symm
    rw [h6, ← h3]
    unfold onChannel
    rw [List.map_append]
    exact List.prefix_append _ _
  · intro p hp
    have : p.map mmEject ∈ madeOf k made := by rw [← g2]; exact List.mem_map.2 ⟨p, hp, rfl⟩
    obtain ⟨x, hx, hxe⟩ := List.mem_map.1 this
    have := hi.2.made x (List.mem_of_mem_filter hx)
    rw [hxe, List.length_map] at this
    exact this

/-- **C88.** However the clocks interleave and whatever the module does with its ready signals, the adapter does not stop
the simulation, and on each channel it shows the packets of that channel, each once and in the order of arrival. -/
theorem C88_order (c : Cfg) (es : List Event) (hs : Separate c)
    (hb : Belongs c (run c (State.init c) Hist.empty es).1.accepted) :
    (∃ s, (run c (State.init c) Hist.empty es).2 = .ok s) ∧
    ∀ k ∈ channels c.master, onChannel k (run c (State.init c) Hist.empty es).1 <+:
      (whole (·.tail) (typed k (run c (State.init c) Hist.empty es).1.accepted)).map (decode k) := by
  obtain ⟨h1, h2⟩ := shown_made c es hs hb
  refine ⟨h1, fun k hk => ?_⟩
  obtain ⟨ms, g1, g2, -⟩ := h2 k hk
  exact g1.trans (g2.map _)

/-- The complete packets at the front of a sequence of packets. -/
theorem whole_prefix {α : Type} (tail : α → Bool) (ps : List (List α)) (hp : ∀ p ∈ ps, Closed tail p) (l : List α)
    (h : l <+: ps.flatten) : whole tail l <+: ps := by
  obtain ⟨t, ht⟩ := h
  have h1 := whole_flatten_append tail ps [] hp
  rw [List.append_nil, ← ht] at h1
  have h2 : whole tail l <+: whole tail (l ++ t) := by
    unfold whole cut
    rw [List.foldl_append]
    rcases l.foldl (fun c x => if tail x then (c.1 ++ [c.2 ++ [x]], []) else (c.1, c.2 ++ [x])) ([], []) with ⟨a, b⟩
    have := fold_first tail t a [] b
    rw [List.append_nil] at this
    rw [this]
    exact List.prefix_append _ _
  rw [h1] at h2
  simpa [whole, cut] using h2

theorem onWire_closed (vc : VcConfig) (dataw : Nat) (t : MmTxn) : Closed (·.tail) (onWire vc dataw t) := by
  have hn : 0 < mmFlits dataw t.type := by
    cases t.type <;> simp [mmFlits, flitW]
  obtain ⟨n, hn⟩ : ∃ n, mmFlits dataw t.type = n + 1 := ⟨mmFlits dataw t.type - 1, by omega⟩
  refine ⟨(List.range n).map fun i => mmInject (mmFlitOf vc (n + 1) t i), mmInject (mmFlitOf vc (n + 1) t n), ?_, ?_, ?_⟩
  · unfold onWire mmPacket
    rw [hn, List.range_succ, List.map_map, List.map_append]
    rfl
  · simp [mmInject, mmFlitOf]
  · intro f hf
    obtain ⟨i, hi, rfl⟩ := List.mem_map.1 hf
    have := List.mem_range.1 hi
    simp [mmInject, mmFlitOf]
    omega

/-- A transaction as it was handed to the adapter on the other side of the NoC, which packed it with the given
configuration. -/
structure Sent (β : Type) where
  vc : VcConfig
  dataw : Nat
  beat : β
  dest : BitVec 21

/-- **C88**, write data: if the write-data flits read so far are the packets of some beats, the last perhaps incomplete,
then the beats shown are the first of these beats, unchanged. -/
theorem C88_write_data (c : Cfg) (es : List Event) (hm : c.master = true) (hs : Separate c)
    (hb : Belongs c (run c (State.init c) Hist.empty es).1.accepted) (xs : List (Sent DataBeat))
    (hx : ∀ x ∈ xs, x.beat.data.toNat < 2 ^ x.dataw)
    (ha : typed .w (run c (State.init c) Hist.empty es).1.accepted <+:
      (xs.map fun x => onWire x.vc x.dataw (captureW x.beat x.dest)).flatten) :
    onChannel .w (run c (State.init c) Hist.empty es).1 <+: xs.map fun x => .req (.w x.beat) := by
  have h1 := (C88_order c es hs hb).2 .w (by rw [hm]; simp [channels])
  have h2 := whole_prefix (·.tail) _ (by
    intro p hp
    obtain ⟨x, -, rfl⟩ := List.mem_map.1 hp
    exact onWire_closed _ _ _) _ ha
  refine h1.trans ?_
  have h3 := h2.map (decode .w)
  rw [List.map_map] at h3
  have h4 : xs.map (decode .w ∘ fun x => onWire x.vc x.dataw (captureW x.beat x.dest)) =
      xs.map fun x => .req (.w x.beat) := by
    apply List.map_congr_left
    intro x hx'
    show Beat.req (.w _) = _
    rw [C18_write_data_survives x.vc x.dataw x.beat x.dest (hx x hx')]
  rwa [h4] at h3

/-- **C88**, read data. -/
theorem C88_read_data (c : Cfg) (es : List Event) (hm : c.master = false) (hs : Separate c)
    (hb : Belongs c (run c (State.init c) Hist.empty es).1.accepted) (xs : List (Sent RdBeat))
    (hx : ∀ x ∈ xs, x.beat.data.toNat < 2 ^ x.dataw)
    (ha : typed .r (run c (State.init c) Hist.empty es).1.accepted <+:
      (xs.map fun x => onWire x.vc x.dataw (captureR x.beat)).flatten) :
    onChannel .r (run c (State.init c) Hist.empty es).1 <+: xs.map fun x => .rsp (.r x.beat) := by
  have h1 := (C88_order c es hs hb).2 .r (by rw [hm]; simp [channels])
  have h2 := whole_prefix (·.tail) _ (by
    intro p hp
    obtain ⟨x, -, rfl⟩ := List.mem_map.1 hp
    exact onWire_closed _ _ _) _ ha
  refine h1.trans ?_
  have h3 := h2.map (decode .r)
  rw [List.map_map] at h3
  have h4 : xs.map (decode .r ∘ fun x => onWire x.vc x.dataw (captureR x.beat)) =
      xs.map fun x => .rsp (.r x.beat) := by
    apply List.map_congr_left
    intro x hx'
    show Beat.rsp (.r _) = _
    rw [C18_read_data_survives x.vc x.dataw x.beat (hx x hx')]
  rwa [h4] at h3

/-- **C88**, write responses. -/
theorem C88_response (c : Cfg) (es : List Event) (hm : c.master = false) (hs : Separate c)
    (hb : Belongs c (run c (State.init c) Hist.empty es).1.accepted) (xs : List (Sent RespBeat))
    (ha : typed .b (run c (State.init c) Hist.empty es).1.accepted <+:
      (xs.map fun x => onWire x.vc x.dataw (captureB x.beat)).flatten) :
    onChannel .b (run c (State.init c) Hist.empty es).1 <+: xs.map fun x => .rsp (.b x.beat) := by
  have h1 := (C88_order c es hs hb).2 .b (by rw [hm]; simp [channels])
  have h2 := whole_prefix (·.tail) _ (by
    intro p hp
    obtain ⟨x, -, rfl⟩ := List.mem_map.1 hp
    exact onWire_closed _ _ _) _ ha
  refine h1.trans ?_
  have h3 := h2.map (decode .b)
  rw [List.map_map] at h3
  have h4 : xs.map (decode .b ∘ fun x => onWire x.vc x.dataw (captureB x.beat)) =
      xs.map fun x => .rsp (.b x.beat) := by
    apply List.map_congr_left
    intro x hx'
    show Beat.rsp (.b _) = _
    rw [C18_response_survives x.vc x.dataw x.beat]
  rwa [h4] at h3

/-- The fields of an address beat that reach the other side (C18). -/
def addressOf : Beat → BitVec 8 × BitVec 64 × BitVec 64
  | .req (.ar a) => (a.id, a.addr, a.user)
  | .req (.aw a) => (a.id, a.addr, a.user)
  | _ => (0, 0, 0)

/-- **C88**, addresses. -/
theorem C88_address (c : Cfg) (es : List Event) (hm : c.master = true) (hs : Separate c)
    (hb : Belongs c (run c (State.init c) Hist.empty es).1.accepted) (xs : List (Sent AddrBeat)) :
    (typed .ar (run c (State.init c) Hist.empty es).1.accepted <+:
        (xs.map fun x => onWire x.vc x.dataw (captureAr x.beat)).flatten →
      (onChannel .ar (run c (State.init c) Hist.empty es).1).map addressOf <+:
        xs.map fun x => (x.beat.id, x.beat.addr, x.beat.user)) ∧
    (typed .aw (run c (State.init c) Hist.empty es).1.accepted <+:
        (xs.map fun x => onWire x.vc x.dataw (captureAw x.beat)).flatten →
      (onChannel .aw (run c (State.init c) Hist.empty es).1).map addressOf <+:
        xs.map fun x => (x.beat.id, x.beat.addr, x.beat.user)) := by
  have h1 := (C88_order c es hs hb).2
  constructor <;> intro ha
  · have h2 := whole_prefix (·.tail) _ (by
      intro p hp
      obtain ⟨x, -, rfl⟩ := List.mem_map.1 hp
      exact onWire_closed _ _ _) _ ha
    refine ((h1 .ar (by rw [hm]; simp [channels])).map addressOf).trans ?_
    refine ((h2.map (decode .ar)).map addressOf).trans (prefix_of_eq ?_)
    rw [List.map_map, List.map_map]
    apply List.map_congr_left
    intro x hx'
    obtain ⟨g1, g2, g3⟩ := C18_address_survives x.vc x.dataw x.beat (captureAr x.beat) (.inl rfl)
    show (_, _, _) = _
    rw [g1, g2, g3]
  · have h2 := whole_prefix (·.tail) _ (by
      intro p hp
      obtain ⟨x, -, rfl⟩ := List.mem_map.1 hp
      exact onWire_closed _ _ _) _ ha
    refine ((h1 .aw (by rw [hm]; simp [channels])).map addressOf).trans ?_
    refine ((h2.map (decode .aw)).map addressOf).trans (prefix_of_eq ?_)
    rw [List.map_map, List.map_map]
    apply List.map_congr_left
    intro x hx'
    obtain ⟨g1, g2, g3⟩ := C18_address_survives x.vc x.dataw x.beat (captureAw x.beat) (.inr rfl)
    show (_, _, _) = _
    rw [g1, g2, g3]

/-! ### an example -/

/-- A master port with one virtual channel per type. -/
def port5 : Cfg := ⟨true, fiveVcs, 8⟩

/-- A read request, a write request and a write of two flits. -/
def someBeats : List BsFlit :=
  onWire fiveVcs.begins 90 (captureAr ⟨1, 0x600, 0, 0, 0, 7⟩) ++
  onWire fiveVcs.begins 90 (captureAw ⟨2, 0x700, 0, 0, 0, 8⟩) ++
  onWire fiveVcs.begins 90 (captureW ⟨2, 0xabcdef0123456789abcdef, true, 8⟩ 0)

/-- All ports ready. -/
def ready : MmType → Bool := fun _ => true

/-- One edge of each clock, with a flit or none. -/
def turn (a : Option BsFlit) : List Event := [.noc a, .adapter true, .node ready, .tick]

theorem port5_separate : Separate port5 := by
  intro t ht u hu v h1 h2 h3 h4
  simp [channels, port5, MmType.flitType] at ht hu
  rcases ht with rfl | rfl | rfl <;> rcases hu with rfl | rfl | rfl <;>
    first | rfl | (simp only [port5, fiveVcs] at *; omega)

theorem someBeats_run : (run port5 (State.init port5) Hist.empty (someBeats.flatMap fun f => turn (some f))).1.accepted =
    someBeats := by
  decide +kernel

example : Separate port5 ∧ Belongs port5 someBeats ∧
    onChannel .w (run port5 (State.init port5) Hist.empty
      ((someBeats.flatMap fun f => turn (some f)) ++ turn none ++ turn none)).1 =
        [.req (.w ⟨2, 0xabcdef0123456789abcdef, true, 8⟩)] := by
  refine ⟨port5_separate, ?_, by decide +kernel⟩
  unfold Belongs
  decide +kernel

/-! ## C89: packets are not mixed -/

/-- One packet: it starts with its only head, and all its flits have the same packet number. -/
def Single (p : List BsFlit) : Prop := ∃ f r, p = f :: r ∧ f.head = true ∧ ∀ g ∈ r, g.head = false ∧ g.pid = f.pid

theorem packets_whole {l : List BsFlit} (h : Packets (·.head) (·.tail) (·.pid) l) :
    (∀ p ∈ whole (·.tail) l, Single p) ∧ (rest (·.tail) l = [] ∨ Single (rest (·.tail) l)) := by
  induction l using List.reverseRecOn with
  | nil => exact ⟨fun p hp => (by cases hp), Or.inl rfl⟩
  | append_singleton l x ih =>
    obtain ⟨h1, h2⟩ := packets_snoc.1 h
    obtain ⟨i1, i2⟩ := ih h1
    have hs : Single (rest (·.tail) l ++ [x]) := by
      rcases i2 with hr | ⟨f, r, hr, hf, hg⟩
      · refine ⟨x, [], by rw [hr]; rfl, ?_, by simp⟩
        rcases List.eq_nil_or_concat l with rfl | ⟨l', a, rfl⟩
        · exact h2
        · rw [List.concat_eq_append] at h2 hr
          simp only [Fits, List.getLast?_append, List.getLast?_singleton, Option.some_or] at h2
          refine Eq.trans h2.1 ?_
          show a.tail = true
          rw [rest_snoc] at hr
          cases ha : a.tail with
          | true => rfl
          | false => rw [if_neg (by simp [ha])] at hr; simp at hr
      · rcases List.eq_nil_or_concat (f :: r) with hn | ⟨l', a, hl'⟩
        · cases hn
        · rw [List.concat_eq_append] at hl'
          obtain ⟨h3, h4⟩ := last_of_rest (hr.trans hl')
          unfold Fits at h2
          rw [h3] at h2
          obtain ⟨h5, h6⟩ := h2
          refine ⟨f, r ++ [x], by rw [hr]; rfl, hf, ?_⟩
          intro g hg'
          rcases List.mem_append.1 hg' with hg' | hg'
          · exact hg g hg'
          · rw [List.mem_singleton] at hg'
            subst hg'
            refine ⟨Eq.trans h5 h4, ?_⟩
            refine Eq.trans (h6 h4) ?_
            show a.pid = f.pid
            have ha : a ∈ f :: r := by rw [hl']; simp
            rcases List.mem_cons.1 ha with rfl | ha
            · rfl
            · exact (hg a ha).2
    rw [whole_snoc, rest_snoc]
    constructor
    · intro p hp
      rcases List.mem_append.1 hp with hp | hp
      · exact i1 p hp
      · split at hp
        · rw [List.mem_singleton] at hp
          subst hp
          exact hs
        · cases hp
    · split
      · exact .inl rfl
      · exact .inr hs

/-- **C89** for one virtual channel per packet type: when the network delivers whole packets on every virtual channel,
every beat shown comes from the flits of one packet, and no packet is skipped or shown twice. Missing: types with
several virtual channels, see below. -/
theorem C89_unmixed_partial (c : Cfg) (es : List Event) (hs : Separate c)
    (hb : Belongs c (run c (State.init c) Hist.empty es).1.accepted)
    (h1 : ∀ k ∈ channels c.master, c.vcs.first k.flitType = c.vcs.last k.flitType)
    (hp : ∀ v, Packets (·.head) (·.tail) (·.pid)
      ((run c (State.init c) Hist.empty es).1.accepted.filter fun f => f.vc = v)) :
    ∀ k ∈ channels c.master,
      let mine := (run c (State.init c) Hist.empty es).1.accepted.filter fun f => f.vc = c.vcs.first k.flitType
      onChannel k (run c (State.init c) Hist.empty es).1 <+: (whole (·.tail) mine).map (decode k) ∧
      ∀ p ∈ whole (·.tail) mine, Single p := by
  intro k hk
  dsimp only
  have ho := (C88_order c es hs hb).2 k hk
  have he : typed k (run c (State.init c) Hist.empty es).1.accepted =
      (run c (State.init c) Hist.empty es).1.accepted.filter fun f => f.vc = c.vcs.first k.flitType := by
    unfold typed
    apply List.filter_congr
    intro f hf
    obtain ⟨j, hj, ht, h2, h3⟩ := hb f hf
    have hv : f.vc = c.vcs.first j.flitType := by
      have := h1 j hj
      rw [ht] at h2 h3
      omega
    by_cases hjk : j = k
    · subst hjk; simp [ht, hv]
    · have hne : ¬ j.flitType = k.flitType := fun e => hjk (flitType_inj e)
      have hvne : ¬ c.vcs.first j.flitType = c.vcs.first k.flitType := by
        intro e
        apply hjk
        have a1 := class_of_range hs hj (v := c.vcs.first j.flitType) (Nat.le_refl _) (by rw [h1 j hj])
        have a2 := class_of_range hs hk (v := c.vcs.first k.flitType) (Nat.le_refl _) (by rw [h1 k hk])
        rw [e, a2] at a1
        cases a1
        rfl
      simp [ht, hv, hne, hvne]
  rw [he] at ho
  exact ⟨ho, (packets_whole (hp _)).1⟩

example : (∀ k ∈ channels port5.master, port5.vcs.first k.flitType = port5.vcs.last k.flitType) ∧
    Packets (·.head) (·.tail) (·.pid) (someBeats.filter fun f => f.vc = 2) ∧
    (whole (·.tail) (someBeats.filter fun f => f.vc = 2)).length = 1 := by
  refine ⟨by decide, ?_, by decide +kernel⟩
  unfold Packets
  refine ⟨by decide +kernel, ?_⟩
  have : someBeats.filter (fun f => f.vc = 2) =
    onWire fiveVcs.begins 90 (captureW ⟨2, 0xabcdef0123456789abcdef, true, 8⟩ 0) := by decide +kernel
  rw [this]
  have : (onWire fiveVcs.begins 90 (captureW ⟨2, 0xabcdef0123456789abcdef, true, 8⟩ 0)) =
    [mmInject (mmFlitOf fiveVcs.begins 2 (captureW ⟨2, 0xabcdef0123456789abcdef, true, 8⟩ 0) 0),
     mmInject (mmFlitOf fiveVcs.begins 2 (captureW ⟨2, 0xabcdef0123456789abcdef, true, 8⟩ 0) 1)] := by decide +kernel
  rw [this]
  refine .cons_cons ⟨by decide +kernel, fun _ => by decide +kernel⟩ (.singleton _)

/-- Two virtual channels for write data. -/
def sixVcs : VcRanges where
  first t := match t with
    | .readRequest => 0 | .writeRequest => 1 | .writeData => 2 | .readReply => 4 | .writeReply => 5
  last t := match t with
    | .readRequest => 0 | .writeRequest => 1 | .writeData => 3 | .readReply => 4 | .writeReply => 5

/-- Two writes, from two modules. -/
def write1 : DataBeat := ⟨1, 0x111111111111111111111, true, 0⟩
/-- The other write. -/
def write2 : DataBeat := ⟨2, 0x222222222222222222222, true, 0⟩

/-- The flits of the first on the one virtual channel. -/
def wire1 : List BsFlit := onWire ⟨0, 1, 2, 4, 5⟩ 90 (captureW write1 0)
/-- The flits of the second on the other. -/
def wire2 : List BsFlit := onWire ⟨0, 1, 3, 4, 5⟩ 90 (captureW write2 0)

/-- **C89** is false with several virtual channels for a type: all of them share one ejection FIFO. Two packets whose
flits arrive in turn, each in order on its own virtual channel, are shown as two beats neither of which was sent. -/
theorem C89_two_vcs_violated : ∃ (c : Cfg) (es : List Event), Separate c ∧
    Belongs c (run c (State.init c) Hist.empty es).1.accepted ∧
    ((run c (State.init c) Hist.empty es).1.accepted.filter fun f => f.vc = 2) = wire1 ∧
    ((run c (State.init c) Hist.empty es).1.accepted.filter fun f => f.vc = 3) = wire2 ∧
    (run c (State.init c) Hist.empty es).1.accepted.length = wire1.length + wire2.length ∧
    (onChannel .w (run c (State.init c) Hist.empty es).1).length = 2 ∧
    Beat.req (.w write1) ∉ onChannel .w (run c (State.init c) Hist.empty es).1 ∧
    Beat.req (.w write2) ∉ onChannel .w (run c (State.init c) Hist.empty es).1 := by
  refine ⟨⟨true, sixVcs, 8⟩, ((wire1.zip wire2).flatMap fun x => turn (some x.1) ++ turn (some x.2)) ++ (List.replicate 4 (turn none)).flatten,
    ?_, ?_, by decide +kernel, by decide +kernel, by decide +kernel, by decide +kernel, by decide +kernel,
    by decide +kernel⟩
  · intro t ht u hu v h1 h2 h3 h4
    simp [channels, MmType.flitType] at ht hu
    rcases ht with rfl | rfl | rfl <;> rcases hu with rfl | rfl | rfl <;>
      first | rfl | (simp only [sixVcs] at *; omega)
  · unfold Belongs
    decide +kernel

/-! ## C90: the handshake -/

/-- The ready signals at the node's clock edges. -/
def readies (es : List Event) : List (MmType → Bool) :=
  es.filterMap fun e => match e with
    | .node r => some r
    | _ => none

/-- A channel that is ready at one edge of the node's clock is ready at the next. -/
def Steady (es : List Event) : Prop := (readies es).IsChain fun r r' => ∀ k, r k = true → r' k = true

theorem out_ready {c : Cfg} {s s' : State} {r : MmType → Bool} (h : outStep c s r = .ok s') :
    ∀ b, s'.port = some b → r b.type = true := by
  rw [outStep_eq] at h
  split at h
  · cases h; intro b hb; cases hb
  · cases h
  · split at h
    · cases h; intro b hb; cases hb
    · rename_i b _
      split at h
      · rename_i hr
        cases h
        intro b' hb'
        cases hb'
        exact hr
      · cases h; intro b hb; cases hb

theorem step_port {c : Cfg} {s s' : State} {h h' : Hist} {e : Event} (he : step c s h e = (h', .ok s'))
    (hn : ∀ r, e ≠ .node r) : s'.port = s.port ∧ h'.shown = h.shown := by
  cases e with
  | noc a =>
    have h2 : ejectStep c s a = .ok s' := congrArg Prod.snd he
    have h1 : (step c s h (.noc a)).1 = h' := congrArg Prod.fst he
    constructor
    · rw [ejectStep_eq] at h2
      split at h2
      · cases h2; rfl
      · split at h2
        · cases h2
        · split at h2 <;> (cases h2; rfl)
    · rw [← h1]
      unfold step
      dsimp only
      cases s.held <;> rfl
  | adapter b =>
    unfold step at he
    dsimp only at he
    split at he
    · cases he
    · rename_i t v ht
      cases he
      refine ⟨?_, rfl⟩
      have key : ∀ u : State, u.port = s.port → popPhase u = .ok (s', v) → s'.port = s.port := by
        intro u hu hp
        unfold popPhase at hp
        repeat' split at hp
        all_goals first | (cases hp; exact hu) | cases hp
      have key' : ∀ u : State, u.port = s.port →
          (if u.depack then popPhase u else popPhase { u with prio := search u c.types.length u.prio }) = .ok (s', v) →
          s'.port = s.port := by
        intro u hu hp
        split at hp
        · exact key _ hu hp
        · exact key { u with prio := search u c.types.length u.prio } hu hp
      cases b with
      | false => exact key' s rfl ht
      | true => exact key' { s with push := s.pushNext } rfl ht
  | node r => exact absurd rfl (hn r)
  | tick => cases he; exact ⟨rfl, rfl⟩

theorem step_shown_err {c : Cfg} {s : State} {h h' : Hist} {e : Event} {x : Err} (he : step c s h e = (h', .error x))
    (hn : ∀ r, e ≠ .node r) : h'.shown = h.shown := by
  have h1 : (step c s h e).1 = h' := by rw [he]
  rw [← h1]
  cases e with
  | noc a =>
    unfold step
    dsimp only
    cases s.held <;> rfl
  | adapter b =>
    unfold step
    dsimp only
    split <;> rfl
  | node r => exact absurd rfl (hn r)
  | tick => rfl

/-- **C90** for a module that does not lower a ready signal: every beat shown is taken. Missing: modules that lower
ready, see below. -/
theorem C90_taken_partial (c : Cfg) (es : List Event) (hst : Steady es) :
    ∀ x ∈ (run c (State.init c) Hist.empty es).1.shown, x.2 = true := by
  have key : ∀ (es : List Event) (s : State) (h : Hist), Steady es → (∀ x ∈ h.shown, x.2 = true) →
      (∀ r ∈ (readies es).head?, ∀ b, s.port = some b → r b.type = true) →
      ∀ x ∈ (run c s h es).1.shown, x.2 = true := by
    intro es
    induction es with
    | nil => intro s h _ hh _; exact hh
    | cons e es ih =>
      intro s h hst hh hr
      by_cases hn : ∃ r, e = .node r
      · obtain ⟨r, rfl⟩ := hn
        have hst' : Steady (.node r :: es) := hst
        unfold Steady readies at hst'
        rw [List.filterMap_cons] at hst'
        dsimp only at hst'
        have hhead := hr r (by simp [readies])
        have hh' : ∀ x ∈ (step c s h (.node r)).1.shown, x.2 = true := by
          intro x hx
          unfold step at hx
          dsimp only at hx
          rcases List.mem_append.1 hx with hx | hx
          · exact hh x hx
          · obtain ⟨b, hb, rfl⟩ := List.mem_map.1 hx
            exact hhead b (by simpa using hb)
        unfold run
        split
        · rename_i h' err he
          rw [he] at hh'
          exact hh'
        · rename_i h' s' he
          rw [he] at hh'
          refine ih s' h' (List.isChain_cons.1 hst').2 hh' ?_
          intro r' hr' b hb
          have h1 := out_ready (show outStep c s r = .ok s' from congrArg Prod.snd he) b hb
          have : ∀ r' ∈ (readies es).head?, ∀ k, r k = true → r' k = true := by
            rw [List.isChain_cons] at hst'
            exact hst'.1
          exact this r' hr' _ h1
      · have hne : ∀ r, e ≠ .node r := fun r he => hn ⟨r, he⟩
        have hread : readies (e :: es) = readies es := by
          unfold readies
          rw [List.filterMap_cons]
          cases e with
          | node r => exact absurd rfl (hne r)
          | _ => rfl
        unfold run
        split
        · rename_i h' err he
          rw [step_shown_err he hne]
          exact hh
        · rename_i h' s' he
          obtain ⟨h1, h2⟩ := step_port he hne
          refine ih s' h' (by unfold Steady at hst ⊢; rwa [hread] at hst) (by rw [h2]; exact hh) ?_
          rw [← hread, h1]
          exact hr
  refine key es _ _ hst (by intro x hx; cases hx) ?_
  intro r _ b hb
  cases hb

example : Steady ((someBeats.flatMap fun f => turn (some f)) ++ turn none ++ turn none) ∧
    (run port5 (State.init port5) Hist.empty
      ((someBeats.flatMap fun f => turn (some f)) ++ turn none ++ turn none)).1.shown.length = 3 := by
  refine ⟨?_, by decide +kernel⟩
  have : ∀ l : List (MmType → Bool), (∀ r ∈ l, r = ready) → l.IsChain fun r r' => ∀ k, r k = true → r' k = true := by
    intro l hl
    induction l with
    | nil => exact .nil
    | cons r l ih =>
      refine List.isChain_cons.2 ⟨?_, ih fun x hx => hl x (by simp [hx])⟩
      intro r' hr' k _
      have : r' = ready := hl r' (by
        have := List.mem_of_mem_head? hr'
        simp [this])
      rw [this]; rfl
  apply this
  intro r hr
  obtain ⟨e, he, h⟩ := List.mem_filterMap.1 hr
  have : ∀ a, e ∈ turn a → r = ready := by
    intro a ha
    simp [turn] at ha
    rcases ha with rfl | rfl | rfl | rfl <;> simp at h
    exact h.symm
  rcases List.mem_append.1 he with he | he
  · rcases List.mem_append.1 he with he | he
    · obtain ⟨f, -, hf⟩ := List.mem_flatMap.1 he
      exact this _ hf
    · exact this _ he
  · exact this _ he

/-- While no ready signal is high, no valid signal is raised. -/
theorem low_run (c : Cfg) (es : List Event) (hl : ∀ r ∈ readies es, ∀ k, r k = false) : ∀ (s : State) (h : Hist),
    s.port = none → (run c s h es).1.shown = h.shown := by
  induction es with
  | nil => intro s h _; rfl
  | cons e es ih =>
    intro s h hp
    by_cases hn : ∃ r, e = .node r
    · obtain ⟨r, rfl⟩ := hn
      have hr : ∀ k, r k = false := hl r (by simp [readies])
      have hl' : ∀ r ∈ readies es, ∀ k, r k = false := fun r' h' => hl r' (by
        unfold readies at h' ⊢
        rw [List.filterMap_cons]
        exact List.mem_cons_of_mem _ h')
      have h1 : (step c s h (.node r)).1.shown = h.shown := by
        unfold step
        dsimp only
        rw [hp]
        simp
      unfold run
      split
      · rename_i h' err he
        rw [he] at h1
        exact h1
      · rename_i h' s' he
        rw [he] at h1
        refine (ih hl' s' h' ?_).trans h1
        have := out_ready (show outStep c s r = .ok s' from congrArg Prod.snd he)
        cases hs' : s'.port with
        | none => rfl
        | some b =>
          have := this b hs'
          rw [hr] at this
          cases this
    · have hne : ∀ r, e ≠ .node r := fun r he => hn ⟨r, he⟩
      have hread : readies (e :: es) = readies es := by
        unfold readies
        rw [List.filterMap_cons]
        cases e with
        | node r => exact absurd rfl (hne r)
        | _ => rfl
      rw [hread] at hl
      unfold run
      split
      · rename_i h' err he
        exact step_shown_err he hne
      · rename_i h' s' he
        obtain ⟨h1, h2⟩ := step_port he hne
        exact (ih hl s' h' (h1.trans hp)).trans h2

/-- **C90** is false for a module that waits for valid before it raises ready, as AXI permits: with a complete packet in
the adapter, valid stays low as long as ready does. -/
theorem C90_valid_waits_violated : ∃ (c : Cfg) (es : List Event), Separate c ∧
    Belongs c (run c (State.init c) Hist.empty es).1.accepted ∧
    (whole (·.tail) (typed .ar (run c (State.init c) Hist.empty es).1.accepted)).length = 1 ∧
    ∀ fs, (∀ r ∈ readies fs, ∀ k, r k = false) → (run c (State.init c) Hist.empty (es ++ fs)).1.shown = [] := by
  refine ⟨port5, (onWire fiveVcs.begins 90 (captureAr ⟨1, 0x600, 0, 0, 0, 7⟩)).map fun f => .noc (some f),
    port5_separate, ?_, by decide +kernel, ?_⟩
  · unfold Belongs
    decide +kernel
  · intro fs hf
    apply low_run _ _ _ _ _ rfl
    intro r hr
    unfold readies at hr
    rw [List.filterMap_append] at hr
    rcases List.mem_append.1 hr with hr | hr
    · obtain ⟨e, he, h⟩ := List.mem_filterMap.1 hr
      obtain ⟨f, -, rfl⟩ := List.mem_map.1 he
      cases h
    · exact hf r hr

theorem run_append_shown (c : Cfg) (fs : List Event) : ∀ (s : State) (h : Hist),
    ∃ l, (run c s h fs).1.shown = h.shown ++ l := by
  induction fs with
  | nil => intro s h; exact ⟨[], by simp [run]⟩
  | cons e fs ih =>
    intro s h
    have hstep : ∃ l, (step c s h e).1.shown = h.shown ++ l := by
      cases e with
      | noc a => exact ⟨[], by unfold step; dsimp only; cases s.held <;> simp⟩
      | adapter b => exact ⟨[], by unfold step; dsimp only; split <;> simp⟩
      | node r => exact ⟨_, rfl⟩
      | tick => exact ⟨[], by simp [step]⟩
    obtain ⟨l, hl⟩ := hstep
    unfold run
    split
    · rename_i h' err he
      rw [he] at hl
      exact ⟨l, hl⟩
    · rename_i h' s' he
      rw [he] at hl
      obtain ⟨l', hl'⟩ := ih s' h'
      exact ⟨l ++ l', by rw [hl', hl]; simp⟩

/-- The edges of `C90_lost_violated`: a read request arrives, ready is high when it gets to the port and low one cycle
later. -/
def lossy : List Event :=
  ((onWire fiveVcs.begins 90 (captureAr ⟨1, 0x600, 0, 0, 0, 7⟩)).map fun f => .noc (some f)) ++
    [.adapter true, .adapter true, .node ready, .node fun _ => false]

theorem lossy_end : ∃ s, (run port5 (State.init port5) Hist.empty lossy).2 = .ok s := by
  have : (match (run port5 (State.init port5) Hist.empty lossy).2 with | .ok _ => true | .error _ => false) = true := by
    decide +kernel
  cases h : (run port5 (State.init port5) Hist.empty lossy).2 with
  | ok s => exact ⟨s, rfl⟩
  | error e => rw [h] at this; cases this

/-- **C90** is false for a module that lowers ready: valid is high for one cycle only, whatever ready is at its end, and
the beat is gone. Here the only read request is never taken, whatever follows. -/
theorem C90_lost_violated : ∃ (c : Cfg) (es : List Event), Separate c ∧
    Belongs c (run c (State.init c) Hist.empty es).1.accepted ∧
    (run c (State.init c) Hist.empty es).1.shown.map (fun x => (x.1.type, x.2)) = [(.ar, false)] ∧
    ∀ fs, (run c (State.init c) Hist.empty (es ++ fs)).1.accepted = (run c (State.init c) Hist.empty es).1.accepted →
      ∀ x ∈ (run c (State.init c) Hist.empty (es ++ fs)).1.shown, x.1.type = .ar → x.2 = false := by
  have hacc : (run port5 (State.init port5) Hist.empty lossy).1.accepted =
      onWire fiveVcs.begins 90 (captureAr ⟨1, 0x600, 0, 0, 0, 7⟩) := by decide +kernel
  have hb : Belongs port5 (run port5 (State.init port5) Hist.empty lossy).1.accepted := by
    rw [hacc]
    unfold Belongs
    decide +kernel
  have hsh : (run port5 (State.init port5) Hist.empty lossy).1.shown.map (fun x => (x.1.type, x.2)) = [(.ar, false)] := by
    decide +kernel
  refine ⟨port5, lossy, port5_separate, hb, hsh, ?_⟩
  intro fs hf x hx hxt
  obtain ⟨s, hs⟩ := lossy_end
  have hrun := run_append port5 lossy fs (s := State.init port5) (h := Hist.empty) (s' := s) (Prod.ext rfl hs)
  obtain ⟨l, hl⟩ := run_append_shown port5 fs s (run port5 (State.init port5) Hist.empty lossy).1
  rw [← hrun] at hl
  have hlen := ((C88_order port5 (lossy ++ fs) port5_separate (by rw [hf]; exact hb)).2 .ar
    (by decide)).length_le
  have hw : (whole (·.tail) (typed .ar (onWire fiveVcs.begins 90 (captureAr ⟨1, 0x600, 0, 0, 0, 7⟩)))).length = 1 := by
    decide +kernel
  rw [hf, hacc, List.length_map, hw] at hlen
  unfold onChannel at hlen
  rw [hl] at hlen hx
  cases hsl : (run port5 (State.init port5) Hist.empty lossy).1.shown with
  | nil => rw [hsl] at hsh; cases hsh
  | cons y ys =>
    rw [hsl] at hsh hlen hx
    simp only [List.map_cons, List.cons.injEq, List.map_eq_nil_iff, Prod.mk.injEq] at hsh
    obtain ⟨⟨hy1, hy2⟩, rfl⟩ := hsh
    simp only [List.cons_append, List.nil_append, List.map_cons] at hlen
    rw [List.filter_cons_of_pos (by simp [hy1]), List.length_cons] at hlen
    rcases List.mem_cons.1 hx with rfl | hx
    · exact hy2
    · exfalso
      have : x.1 ∈ (l.map (·.1)).filter fun b => b.type = .ar :=
        List.mem_filter.2 ⟨List.mem_map.2 ⟨x, hx, rfl⟩, by simp [hxt]⟩
      have := List.length_pos_of_mem this
      omega

/-! ## C91: every packet is delivered -/

/-- In a list of flits there are never `n` in a row without a tail: packets have at most `n` flits. -/
def Limited (n : Nat) (l : List BsFlit) : Prop := ∀ pre mid post, l = pre ++ mid ++ post →
  (∀ f ∈ mid, f.tail = false) → mid.length < n

theorem limited_short {c : Cfg} (hs : Separate c) {l : List BsFlit} (hb : Belongs c l)
    (h : ∀ k ∈ channels c.master, Limited c.depth (typed k l)) : Short c l := by
  intro k hk pre mid post he ht
  rw [types_eq] at hk
  rw [ofClass_eq hs hb] at he
  obtain ⟨a, b, h1, h2, h3⟩ := List.map_eq_append_iff.1 he
  obtain ⟨a1, a2, h4, h5, h6⟩ := List.map_eq_append_iff.1 h2
  have := h k hk a1 a2 b (by rw [h1, h4]) (by
    intro f hf
    exact ht (mmEject f) (by rw [← h6]; exact List.mem_map.2 ⟨f, hf, rfl⟩))
  rw [← h6, List.length_map]
  exact this

/-- **C91** for packets that fit the ejection FIFO: once the module is ready and no more flits arrive, every complete
packet has been shown after four rounds of the three clocks for each flit, however often the clocks rise in a round.
Missing: longer packets, see below. -/
theorem C91_delivered_partial (c : Cfg) (es : List Event) (rs : List (List Event)) (hs : Separate c)
    (hb : Belongs c (run c (State.init c) Hist.empty es).1.accepted)
    (hl : ∀ k ∈ channels c.master, Limited c.depth (typed k (run c (State.init c) Hist.empty es).1.accepted))
    (hr : ∀ r ∈ rs, Round r) (hn : 4 * (run c (State.init c) Hist.empty es).1.accepted.length < rs.length) :
    ∀ k ∈ channels c.master, onChannel k (run c (State.init c) Hist.empty (es ++ rs.flatten)).1 =
      (whole (·.tail) (typed k (run c (State.init c) Hist.empty es).1.accepted)).map (decode k) := by
  have hm := belongs_mapped hs hb
  have hty := belongs_typed hs hb
  have hsh := limited_short hs hb hl
  obtain ⟨s, made, pres, h1, h2, h3⟩ := run_all es (All.init c) hm
  have hload : load s < rs.length := by
    have h4 : load (State.init c) = 0 := rfl
    have h5 : Hist.empty.accepted.length = 0 := rfl
    omega
  obtain ⟨s', h', made', pres', g1, g2, g3, g4, g5⟩ := drain rs h2 hm hty hsh hr hload
  obtain ⟨f1, f2⟩ := final_shown g3 g4 g5
  rw [run_append c es _ h1, g1]
  intro k hk
  have hmade : ∀ x ∈ made', ∃ b, beatOf c.master x.2 = some b ∧ b.type = x.1 :=
    fun x hx => made_beat g3.1.1 (g2 ▸ hty) hx
  have h6 := filter_beats made' hmade k (h'.shown.map (·.1)) [] (by
    rw [f2]
    simp [List.map_map, Function.comp_def])
  rw [← f1 k (by rw [types_eq]; exact hk), g2, map_decode hs hb hk] at h6
  simp only [List.filter_nil, List.append_nil] at h6
  exact (List.map_injective_iff.2 fun _ _ => Option.some.inj) h6

theorem turn_round : Round (turn none) := by
  refine ⟨?_, [], [], [], [.tick], true, ready, rfl⟩
  intro e he
  simp [turn] at he
  rcases he with rfl | rfl | rfl | rfl
  · rfl
  · trivial
  · exact fun _ => rfl
  · trivial

theorem limited_of_short {n : Nat} {l : List BsFlit} (h : l.length < n) : Limited n l := by
  intro pre mid post he _
  have := congrArg List.length he
  simp at this
  omega

example : Belongs port5 someBeats ∧ (∀ k ∈ channels port5.master, Limited port5.depth (typed k someBeats)) ∧
    Round (turn none) ∧ (whole (·.tail) (typed .w someBeats)).length = 1 := by
  refine ⟨by unfold Belongs; decide +kernel, ?_, turn_round, by decide +kernel⟩
  intro k _
  apply limited_of_short
  refine Nat.lt_of_le_of_lt (List.length_filter_le _ _) ?_
  decide +kernel

theorem whole_first {α : Type} (tail : α → Bool) {l p : List α} {ps : List (List α)} (h : whole tail l = p :: ps) :
    p <+: l ∧ ∃ x ∈ p, tail x = true := by
  constructor
  · have := cut_flatten (tail := tail) l
    rw [h, List.flatten_cons, List.append_assoc] at this
    exact ⟨_, this⟩
  · have key : ∀ l : List α, ∀ q ∈ whole tail l, ∃ x ∈ q, tail x = true := by
      intro l
      induction l using List.reverseRecOn with
      | nil => intro q hq; cases hq
      | append_singleton l x ih =>
        intro q hq
        rw [whole_snoc] at hq
        rcases List.mem_append.1 hq with hq | hq
        · exact ih q hq
        · split at hq
          · rename_i hx
            rw [List.mem_singleton] at hq
            subst hq
            exact ⟨x, by simp, hx⟩
          · cases hq
    exact key l p (by rw [h]; simp)

/-- A packet that is longer than the ejection FIFO blocks its channel: neither it nor any packet after it is ever
shown, whatever happens. -/
theorem C91_long_blocks (c : Cfg) (es : List Event) (hs : Separate c)
    (hb : Belongs c (run c (State.init c) Hist.empty es).1.accepted) (k : MmType) (hk : k ∈ channels c.master)
    (ps : List (List BsFlit)) (l : List BsFlit) (hps : ∀ p ∈ ps, Closed (·.tail) p)
    (ha : typed k (run c (State.init c) Hist.empty es).1.accepted = ps.flatten ++ l)
    (hl : ∀ f ∈ l.take c.depth, f.tail = false) :
    onChannel k (run c (State.init c) Hist.empty es).1 <+: ps.map (decode k) := by
  obtain ⟨ms, g1, g2, g3⟩ := (shown_made c es hs hb).2 k hk
  rw [ha, whole_flatten_append _ _ _ hps] at g2
  refine g1.trans (List.IsPrefix.map _ ?_)
  by_cases hlen : ms.length ≤ ps.length
  · exact List.prefix_of_prefix_length_le g2 (List.prefix_append _ _) hlen
  · exfalso
    obtain ⟨t, ht⟩ := g2
    have h1 : ps <+: ms := List.prefix_of_prefix_length_le (List.prefix_append _ (whole (·.tail) l)) ⟨t, ht⟩ (by omega)
    obtain ⟨u, rfl⟩ := h1
    cases u with
    | nil => simp at hlen
    | cons p u =>
      rw [List.append_assoc] at ht
      have h2 := (List.append_cancel_left ht).symm
      obtain ⟨h3, x, hx, hxt⟩ := whole_first _ h2
      have h4 := g3 p (by simp)
      obtain ⟨q, rfl⟩ := h3
      have : x ∈ (p ++ q).take c.depth := by
        rw [List.take_append]
        exact List.mem_append_left _ (by rwa [List.take_of_length_le h4])
      rw [hl x this] at hxt
      cases hxt

/-- The flits of a write of 512 bits. -/
def wide : List BsFlit := onWire fiveVcs.begins 512 (captureW ⟨1, 5, true, 0⟩ 0)

/-- **C91** is false for packets that are longer than the ejection FIFO: a write of 512 bits has eight flits, and with
a FIFO of seven entries it is never shown. -/
theorem C91_long_violated : ∃ c : Cfg, Separate c ∧
    (∃ es, (run c (State.init c) Hist.empty es).1.accepted = wide) ∧
    ∀ es, Belongs c (run c (State.init c) Hist.empty es).1.accepted →
      typed .w (run c (State.init c) Hist.empty es).1.accepted <+: wide →
      onChannel .w (run c (State.init c) Hist.empty es).1 = [] := by
  have hsep : Separate ⟨true, fiveVcs, 7⟩ := port5_separate
  refine ⟨⟨true, fiveVcs, 7⟩, hsep, ⟨wide.flatMap fun f => turn (some f), by decide +kernel⟩, ?_⟩
  intro es hb hp
  have := C91_long_blocks _ es hsep hb .w (by decide) [] _ (by simp) rfl (by
    obtain ⟨t, ht⟩ := hp
    have h7 : ∀ f ∈ wide.take 7, f.tail = false := by decide +kernel
    intro f hf
    apply h7
    rw [← ht, List.take_append]
    exact List.mem_append_left _ hf)
  simpa using this

/-! ## C17 for the memory-mapped adapters: credits -/

/-- At most one adapter edge between two ticks of the NoC; `b` says whether there has been one since the last tick. -/
def Spaced : Bool → List Event → Prop
  | _, [] => True
  | b, .adapter _ :: es => b = false ∧ Spaced true es
  | _, .tick :: es => Spaced false es
  | b, .noc _ :: es => Spaced b es
  | b, .node _ :: es => Spaced b es

/-- **C17** for the memory-mapped adapters, when the adapter clock never rises twice between two ticks of the NoC: with
the credit that is about to be returned, every virtual channel has got as many credits as flits of it were read, but for
those that are still waiting in the adapter, at most five FIFOs and one flit. Missing: a faster adapter clock, for which
the claim is false (`C17_aximm_credit_lost_violated`). -/
theorem C17_aximm_credits_partial (c : Cfg) (es : List Event) (hs : Separate c)
    (hb : Belongs c (run c (State.init c) Hist.empty es).1.accepted)
    (h8 : ∀ f ∈ (run c (State.init c) Hist.empty es).1.accepted, f.vc < 8) (hsp : Spaced false es) :
    ∃ (s : State) (rest : Nat → Nat), (run c (State.init c) Hist.empty es).2 = .ok s ∧
      (∀ v, ((run c (State.init c) Hist.empty es).1.accepted.countP fun f => f.vc = v) =
        ((run c (State.init c) Hist.empty es).1.credits ++ s.credit.toList).count v + rest v) ∧
      ∀ v, rest v ≤ 5 * c.depth + 1 := by
  have gen : ∀ (es : List Event) (s : State) (h : Hist) (made : List (MmType × List ScFlit)) (pres : List (List ScFlit))
      (b : Bool), All c s h made pres → Counted s h → h.credits ++ s.credit.toList = h.pops →
      (b = false → s.credit = none) → Mapped c (run c s h es).1.accepted → Spaced b es →
      ∃ s', (run c s h es).2 = .ok s' ∧ Counted s' (run c s h es).1 ∧
        (run c s h es).1.credits ++ s'.credit.toList = (run c s h es).1.pops ∧ ∀ k, (s'.fifos k).length ≤ c.depth := by
    intro es
    induction es with
    | nil =>
      intro s h made pres b hi hc hcr _ _ _
      exact ⟨s, rfl, hc, hcr, hi.1.1.fifoLen⟩
    | cons e es ih =>
      intro s h made pres b hi hc hcr hbn hm hsp
      obtain ⟨s1, made1, pres1, h1, h2, -⟩ := step_all hi e (mapped_step hm)
      rw [run_cons es h1] at hm ⊢
      have h1' : (step c s h e).2 = .ok s1 := by rw [h1]
      cases e with
      | noc a =>
        have he : ejectStep c s a = .ok s1 := h1'
        have hst : (step c s h (.noc a)).1.accepted = h.accepted ++ fresh s a ∧ (step c s h (.noc a)).1.pops = h.pops ∧
            (step c s h (.noc a)).1.credits = h.credits := by
          unfold step fresh
          dsimp only
          cases s.held <;> simp
        have hcred := (eject_counted he 0).2
        refine ih s1 _ made1 pres1 b h2 ?_ ?_ ?_ hm hsp
        · intro v
          have := (eject_counted he v).1
          have := hc v
          rw [hst.1, hst.2.1, List.countP_append]
          omega
        · rw [hst.2.1, hst.2.2, hcred]; exact hcr
        · rw [hcred]; exact hbn
      | adapter x =>
        have hd : ∃ w, depackStep c s x = .ok (s1, w) ∧ (step c s h (.adapter x)).1 = { h with pops := h.pops ++ w } := by
          unfold step at h1' ⊢
          dsimp only at h1' ⊢
          cases hd : depackStep c s x with
          | error err => rw [hd] at h1'; cases h1'
          | ok y =>
            obtain ⟨t, w⟩ := y
            rw [hd] at h1'
            cases h1'
            exact ⟨w, rfl, rfl⟩
        obtain ⟨w, hd, hst⟩ := hd
        obtain ⟨hb0, hsp'⟩ := hsp
        refine ih s1 _ made1 pres1 true h2 ?_ ?_ (by simp) hm hsp'
        · intro v
          have := (depack_counted hd v).1
          have := hc v
          rw [hst]
          simp only [List.count_append]
          omega
        · rw [hst]
          dsimp only
          have hn := hbn hb0
          rw [hn] at hcr
          rcases (depack_counted hd 0).2 with ⟨g1, g2⟩ | ⟨y, g1, g2⟩
          · rw [g1, g2, hn, ← hcr]; simp
          · rw [g1, g2, hn, ← hcr]; simp
      | node r =>
        have he : outStep c s r = .ok s1 := h1'
        have hsame : s1.fifos = s.fifos ∧ s1.held = s.held ∧ s1.credit = s.credit := by
          rw [outStep_eq] at he
          split at he
          · cases he; exact ⟨rfl, rfl, rfl⟩
          · cases he
          · split at he
            · cases he; exact ⟨rfl, rfl, rfl⟩
            · split at he <;> (cases he; exact ⟨rfl, rfl, rfl⟩)
        refine ih s1 _ made1 pres1 b h2 ?_ ?_ ?_ hm hsp
        · intro v
          have := hc v
          simpa [waiting, hsame.1, hsame.2.1, step] using this
        · rw [hsame.2.2]; exact hcr
        · rw [hsame.2.2]; exact hbn
      | tick =>
        cases h1'
        refine ih _ _ made1 pres1 false h2 ?_ ?_ (fun _ => rfl) hm hsp
        · intro v
          have := hc v
          simpa [waiting, step] using this
        · simpa [step] using hcr
  obtain ⟨s, h1, h2, h3, h4⟩ := gen es (State.init c) Hist.empty [] [] false (All.init c)
    (by intro v; simp [waiting, vcCount, State.init, Hist.empty]) rfl (fun _ => rfl) (belongs_mapped hs hb) hsp
  refine ⟨s, fun v => waiting v s, h1, ?_, ?_⟩
  · intro v
    rw [h3, ← h2 v]
    apply List.countP_congr
    intro f hf
    have := h8 f hf
    have e : (BitVec.ofNat 3 f.vc).toNat = f.vc := by
      rw [BitVec.toNat_ofNat]
      exact Nat.mod_eq_of_lt this
    rw [e]
  · intro v
    have hle : ∀ k, vcCount v (s.fifos k) ≤ c.depth := fun k => Nat.le_trans List.countP_le_length (h4 k)
    have h5 := hle .ar
    have h6 := hle .aw
    have h7 := hle .w
    have h8 := hle .r
    have h9 := hle .b
    have h10 : (s.held.toList.countP fun f => (BitVec.ofNat 3 f.vc).toNat = v) ≤ 1 := by
      refine Nat.le_trans List.countP_le_length ?_
      cases s.held <;> simp
    simp only [waiting]
    omega

theorem turns_spaced (l : List BsFlit) : Spaced false (l.flatMap fun f => turn (some f)) := by
  induction l with
  | nil => trivial
  | cons f l ih => exact ⟨rfl, ih⟩

example : Spaced false (someBeats.flatMap fun f => turn (some f)) ∧ (∀ f ∈ someBeats, f.vc < 8) ∧
    (run port5 (State.init port5) Hist.empty (someBeats.flatMap fun f => turn (some f))).1.credits.length = 5 :=
  ⟨turns_spaced _, by decide +kernel, by decide +kernel⟩

/-- **C17** is false for the memory-mapped adapters in general: with two adapter edges between two ticks of the NoC, two
flits leave the FIFO and only one credit is ever returned. -/
theorem C17_aximm_credit_lost_violated : ∃ (c : Cfg) (es : List Event), Separate c ∧
    Belongs c (run c (State.init c) Hist.empty es).1.accepted ∧
    (run c (State.init c) Hist.empty es).1.pops = [0, 0] ∧
    (run c (State.init c) Hist.empty es).1.credits = [0] ∧
    (match (run c (State.init c) Hist.empty es).2 with | .ok s => s.credit | .error _ => some 0) = none := by
  refine ⟨port5, ((onWire fiveVcs.begins 90 (captureAr ⟨1, 0x600, 0, 0, 0, 7⟩)).map fun f => .noc (some f)) ++
    [.adapter true, .adapter true, .tick, .tick], port5_separate, ?_, by decide +kernel, by decide +kernel,
    by decide +kernel⟩
  unfold Belongs
  decide +kernel

end RadSim.MmSink
