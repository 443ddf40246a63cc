import Verif.Lemmas.AximmSource

/-! # What the modules of `aximm_hello_world` do at an edge -/

namespace RadSim.Hello

open MmNoc
open MmSink (Beat)

variable {d : Params}

/-! ## requests and their kinds -/

def kindOf : Plain → MmType
  | .ar .. => .ar
  | .aw .. => .aw
  | .w .. => .w

def beatPlain : Beat → Option Plain
  | .req b => some (plain b)
  | .rsp _ => none

def toAr (d : Params) (x : Cmd) : Plain := .ar (d.pBase + x.addr) d.qBase
def toAw (d : Params) (x : Cmd) : Plain := .aw (d.pBase + x.addr) d.qBase
def toW (d : Params) (x : Cmd) : Plain := .w x.data true d.qBase

def wr (l : List Cmd) : List Cmd := l.filter (·.write)
def rd (l : List Cmd) : List Cmd := l.filter (!·.write)

theorem requests_ar (l : List Cmd) : (l.flatMap (requests d)).filter (kindOf · = .ar) = (rd l).map (toAr d) := by
  induction l with
  | nil => rfl
  | cons x l ih =>
    rw [List.flatMap_cons, List.filter_append, ih]
    unfold requests rd
    cases h : x.write <;> simp [h, kindOf, toAr]

theorem requests_aw (l : List Cmd) : (l.flatMap (requests d)).filter (kindOf · = .aw) = (wr l).map (toAw d) := by
  induction l with
  | nil => rfl
  | cons x l ih =>
    rw [List.flatMap_cons, List.filter_append, ih]
    unfold requests wr
    cases h : x.write <;> simp [h, kindOf, toAw]

theorem requests_w (l : List Cmd) : (l.flatMap (requests d)).filter (kindOf · = .w) = (wr l).map (toW d) := by
  induction l with
  | nil => rfl
  | cons x l ih =>
    rw [List.flatMap_cons, List.filter_append, ih]
    unfold requests wr
    cases h : x.write <;> simp [h, kindOf, toW]

theorem rd_wr_length (l : List Cmd) : (rd l).length + (wr l).length = l.length := by
  induction l with
  | nil => rfl
  | cons x l ih =>
    unfold rd wr at *
    cases h : x.write <;> simp [h] <;> omega

/-! ## the memory -/

def memory (m : BitVec 64 → BitVec 512) : List Cmd → BitVec 64 → BitVec 512
  | [] => m
  | x :: l => if x.write then memory (fun a => if a = x.addr then x.data else m a) l else memory m l

theorem answers_append (l k : List Cmd) : ∀ m, answers m (l ++ k) = answers m l ++ answers (memory m l) k := by
  induction l with
  | nil => intro m; rfl
  | cons x l ih =>
    intro m
    simp only [List.cons_append, answers, memory]
    split <;> rw [ih] <;> rfl

theorem memory_append (l k : List Cmd) : ∀ m, memory m (l ++ k) = memory (memory m l) k := by
  induction l with
  | nil => intro m; rfl
  | cons x l ih =>
    intro m
    simp only [List.cons_append, memory]
    split <;> rw [ih]

theorem answers_length (l : List Cmd) : ∀ m, (answers m l).length = l.length := by
  induction l with
  | nil => intro m; rfl
  | cons x l ih =>
    intro m
    simp only [answers]
    split <;> simp [ih]

/-! ## the requester -/

/-- The requester, given the beats handed over and whether the adapter has taken one at the last edge. -/
structure QInv (d : Params) (v : Driver) (q : Requester) (reqs : List ReqBeat) (busy : Bool) : Prop where
  idx : v.idx ≤ d.trace.length
  sent : ∃ done, d.trace.take v.idx = done ++ q.fifo ∧ reqs.map plain = done.flatMap (requests d) ++
    if q.awAccepted then ((q.fifo.flatMap (requests d)).take 1) else []
  open_ : awOpen false reqs = q.awAccepted
  head : q.awAccepted = true → ∃ x l, q.fifo = x :: l ∧ x.write = true
  fresh : busy = false → ∃ id, q.off = reqOffer d id q.awAccepted q.fifo
  offs : ∃ id acc l, q.off = reqOffer d id acc l ∧ ∀ x ∈ l, x ∈ d.trace

theorem QInv.prefix {v : Driver} {q : Requester} {reqs : List ReqBeat} {busy : Bool} (h : QInv d v q reqs busy) :
    reqs.map plain <+: d.trace.flatMap (requests d) := by
  obtain ⟨done, h1, h2⟩ := h.sent
  have h3 : d.trace = done ++ (q.fifo ++ d.trace.drop v.idx) := by
    rw [← List.append_assoc, ← h1, List.take_append_drop]
  rw [h2, h3, List.flatMap_append]
  refine List.prefix_append_right_inj _ |>.2 ?_
  rw [List.flatMap_append]
  split
  · exact (List.take_prefix _ _).trans (List.prefix_append _ _)
  · exact List.nil_prefix

theorem QInv.fifo_sub {v : Driver} {q : Requester} {reqs : List ReqBeat} {busy : Bool} (h : QInv d v q reqs busy) :
    ∀ x ∈ q.fifo, x ∈ d.trace := by
  intro x hx
  obtain ⟨done, h1, -⟩ := h.sent
  have : x ∈ d.trace.take v.idx := by rw [h1]; exact List.mem_append_right _ hx
  exact List.mem_of_mem_take this

theorem QInv.init : QInv d ⟨false, 0⟩ .init [] false where
  idx := Nat.zero_le _
  sent := ⟨[], rfl, rfl⟩
  open_ := rfl
  head := by intro h; cases h
  fresh := fun _ => ⟨0, rfl⟩
  offs := ⟨0, false, [], rfl, by intro x hx; cases hx⟩

/-- The push and the driver. -/
theorem pushed {v : Driver} {q : Requester} (hi : v.idx ≤ d.trace.length) :
    (v.edge d.trace (!q.full)).idx ≤ d.trace.length ∧
    ∃ new, (if q.full then q.fifo else q.fifo ++ (v.offer d.trace).toList) = q.fifo ++ new ∧
      d.trace.take (v.edge d.trace (!q.full)).idx = d.trace.take v.idx ++ new := by
  unfold Driver.edge
  dsimp only
  cases hf : q.full with
  | true => exact ⟨by simpa using hi, [], by simp, by simp⟩
  | false =>
    unfold Driver.offer
    split
    · by_cases hl : v.idx < d.trace.length
      · have hg : d.trace[v.idx]? = some d.trace[v.idx] := List.getElem?_eq_getElem hl
        rw [hg]
        refine ⟨by simp; omega, [d.trace[v.idx]], by simp, ?_⟩
        have e : (if (some d.trace[v.idx]).isSome && !false then v.idx + 1 else v.idx) = v.idx + 1 := by simp
        rw [e, List.take_add_one, hg]
        rfl
      · have hg : d.trace[v.idx]? = none := List.getElem?_eq_none (by omega)
        rw [hg]
        exact ⟨by simpa using hi, [], by simp, by simp⟩
    · exact ⟨by simpa using hi, [], by simp, by simp⟩

theorem plain_offer {id : BitVec 32} {acc : Bool} {l : List Cmd} {b : ReqBeat} (h : b ∈ ReqOffer.beats (reqOffer d id acc l)) :
    ∃ x r, l = x :: r ∧ ((x.write = true ∧ ((acc = false ∧ isAw b = true ∧ plain b = toAw d x) ∨ (isW b = true ∧ plain b = toW d x))) ∨
      (x.write = false ∧ isAr b = true ∧ plain b = toAr d x)) := by
  cases l with
  | nil => simp [reqOffer, ReqOffer.beats] at h
  | cons x r =>
    refine ⟨x, r, rfl, ?_⟩
    simp only [reqOffer] at h
    cases hw : x.write with
    | true =>
      left
      refine ⟨rfl, ?_⟩
      rw [if_pos hw] at h
      cases acc with
      | true =>
        simp [ReqOffer.beats] at h
        subst h
        exact Or.inr ⟨rfl, rfl⟩
      | false =>
        simp [ReqOffer.beats] at h
        rcases h with rfl | rfl
        · exact Or.inl ⟨rfl, rfl, rfl⟩
        · exact Or.inr ⟨rfl, rfl⟩
    | false =>
      right
      rw [if_neg (by rw [hw]; simp)] at h
      simp [ReqOffer.beats] at h
      subst h
      exact ⟨rfl, rfl, rfl⟩

theorem any_one {α : Type} (P : α → Bool) (b : α) : ([b].any P) = P b := by simp

theorem isAw_iff {b : ReqBeat} (h : isAw b = true) : isW b = false ∧ isAr b = false ∧ ∃ a, b = .aw a := by
  cases b <;> first | exact ⟨rfl, rfl, _, rfl⟩ | cases h
theorem isW_iff {b : ReqBeat} (h : isW b = true) : isAw b = false ∧ isAr b = false ∧ ∃ a, b = .w a := by
  cases b <;> first | exact ⟨rfl, rfl, _, rfl⟩ | cases h
theorem isAr_iff {b : ReqBeat} (h : isAr b = true) : isAw b = false ∧ isW b = false ∧ ∃ a, b = .ar a := by
  cases b <;> first | exact ⟨rfl, rfl, _, rfl⟩ | cases h

/-- An edge of the requester at which the adapter takes nothing. -/
theorem QInv.edge_none {v : Driver} {q : Requester} {reqs : List ReqBeat} {busy : Bool} (h : QInv d v q reqs busy)
    (seen : List (Beat × Bool)) : ∃ q', q.edge d (v.offer d.trace) [] seen = some q' ∧ q'.got = q.got ++ response seen ∧
      QInv d (v.edge d.trace (!q.full)) q' reqs false := by
  obtain ⟨h1, new, h2, h3⟩ := pushed (d := d) (v := v) (q := q) h.idx
  obtain ⟨done, s1, s2⟩ := h.sent
  unfold Requester.edge
  rw [h2]
  refine ⟨_, rfl, rfl, ?_⟩
  refine ⟨h1, ⟨done, by rw [h3, s1, List.append_assoc], ?_⟩, h.open_, ?_, fun _ => ⟨q.id, rfl⟩, ⟨q.id, q.awAccepted, _, rfl, ?_⟩⟩
  · rw [s2]
    dsimp only
    split
    · rename_i ha
      obtain ⟨x, l, e, hw⟩ := h.head ha
      rw [e]
      simp [List.flatMap_cons, requests, hw]
    · rfl
  · intro ha
    obtain ⟨x, l, e, hw⟩ := h.head ha
    exact ⟨x, l ++ new, by dsimp only; rw [e]; rfl, hw⟩
  · intro x hx
    have : x ∈ d.trace.take (v.edge d.trace (!q.full)).idx := by
      rw [h3, s1, List.append_assoc]
      exact List.mem_append_right _ hx
    exact List.mem_of_mem_take this

/-- An edge of the requester at which the adapter takes a beat. -/
theorem QInv.edge_some {v : Driver} {q : Requester} {reqs : List ReqBeat} (h : QInv d v q reqs false) {b : ReqBeat}
    (hb : b ∈ ReqOffer.beats q.off) (hw : wOnlyOpen false (reqs ++ [b])) (seen : List (Beat × Bool)) :
    ∃ q', q.edge d (v.offer d.trace) [b] seen = some q' ∧ q'.got = q.got ++ response seen ∧
      QInv d (v.edge d.trace (!q.full)) q' (reqs ++ [b]) true := by
  obtain ⟨h1, new, h2, h3⟩ := pushed (d := d) (v := v) (q := q) h.idx
  obtain ⟨done, s1, s2⟩ := h.sent
  obtain ⟨id, hoff⟩ := h.fresh rfl
  rw [hoff] at hb
  obtain ⟨x, r, hf, hcase⟩ := plain_offer hb
  rw [wOnlyOpen_append, h.open_] at hw
  have hmem : ∀ y ∈ q.fifo ++ new, y ∈ d.trace := by
    intro y hy
    have : y ∈ d.trace.take (v.edge d.trace (!q.full)).idx := by
      rw [h3, s1, List.append_assoc]
      exact List.mem_append_right _ hy
    exact List.mem_of_mem_take this
  unfold Requester.edge
  simp only [h2, any_one]
  rcases hcase with ⟨hwr, ⟨ha, k1, k2⟩ | ⟨k1, k2⟩⟩ | ⟨hwr, k1, k2⟩
  · obtain ⟨-, -, a, rfl⟩ := isAw_iff k1
    rw [if_pos k1]
    refine ⟨_, rfl, rfl, ⟨h1, ⟨done, by rw [h3, s1, List.append_assoc], ?_⟩, ?_, fun _ => ⟨x, r ++ new, by dsimp only; rw [hf]; rfl, hwr⟩,
      (fun e => by cases e), ⟨q.id, q.awAccepted, _, rfl, hmem⟩⟩⟩
    · rw [List.map_append, s2, ha]
      dsimp only
      rw [hf, if_pos rfl, List.cons_append, List.flatMap_cons]
      simp [requests, hwr, k2, toAw]
    · rw [awOpen_append, h.open_]
      rfl
  · obtain ⟨k3, k4, a, rfl⟩ := isW_iff k1
    have ha : q.awAccepted = true := by
      have := hw.2
      simpa [wOnlyOpen] using this
    rw [if_neg (by rw [k3]; simp), if_pos k1, hf]
    refine ⟨_, rfl, rfl, ⟨h1, ⟨done ++ [x], by rw [h3, s1, hf]; simp, ?_⟩, ?_, (fun e => by cases e),
      (fun e => by cases e), ⟨q.id, q.awAccepted, x :: r ++ new, rfl, hf ▸ hmem⟩⟩⟩
    · rw [List.map_append, s2, ha, if_pos rfl, hf]
      dsimp only
      rw [List.flatMap_append, List.flatMap_cons]
      simp [requests, hwr, k2, toW]
    · rw [awOpen_append, h.open_]
      have : a.last = true := by
        have := k2
        unfold plain toW at this
        injection this
      simp [awOpen, this]
  · obtain ⟨k3, k4, a, rfl⟩ := isAr_iff k1
    have ha : q.awAccepted = false := by
      cases e : q.awAccepted with
      | false => rfl
      | true =>
        obtain ⟨y, l, e1, e2⟩ := h.head e
        rw [hf] at e1
        cases e1
        rw [hwr] at e2
        cases e2
    rw [if_neg (by rw [k3]; simp), if_neg (by rw [k4]; simp), if_pos k1, hf]
    refine ⟨_, rfl, rfl, ⟨h1, ⟨done ++ [x], by rw [h3, s1, hf]; simp, ?_⟩, ?_, ?_,
      (fun e => by cases e), ⟨q.id, q.awAccepted, x :: r ++ new, rfl, hf ▸ hmem⟩⟩⟩
    · rw [List.map_append, s2, ha]
      dsimp only
      rw [if_neg (by simp), if_neg (by simp), List.flatMap_append]
      simp [requests, hwr, k2, toAr]
    · rw [awOpen_append, h.open_]
      rfl
    · intro e
      dsimp only at e
      rw [ha] at e
      cases e

/-! ## the responder -/

/-- The data of a response to a read. -/
def ansData : RspBeat → Option (BitVec 512)
  | .r x => some x.data
  | .b _ => none

def rspUser : RspBeat → BitVec 64
  | .r x => x.user
  | .b x => x.user

def Answer.out (x : Answer) : Option (BitVec 512) := if x.write then none else some x.data

/-- The responder, given the requests shown to it, the responses handed over and whether the adapter has taken one at the last
edge; `log` is what it has executed. -/
structure PInv (d : Params) (p : Responder) (sp : List Plain) (rsps : List RspBeat) (busy : Bool) (log : List Cmd) : Prop where
  reads : rd log <+: rd d.trace
  writes : wr log <+: wr d.trace
  ar : sp.filter (kindOf · = .ar) = (rd log).map (toAr d)
  aw : sp.filter (kindOf · = .aw) = (wr log).map (toAw d) ++ p.waddr.map fun a => .aw a d.qBase
  w : sp.filter (kindOf · = .w) = (wr log).map (toW d) ++ p.wdata.map fun v => .w v true d.qBase
  rnone : p.araddr = [] ∧ p.raddr = []
  wnone : p.waddr = [] ∨ p.wdata = []
  baddr : p.baddr = p.waddr.map fun _ => d.qBase
  mem : ∀ a, (p.storage (d.pBase + a)).getD 0 = memory (fun _ => 0) log a
  out : rsps.map ansData ++ p.resp.map Answer.out = answers (fun _ => 0) log
  users : (∀ b ∈ rsps, rspUser b = d.qBase) ∧ ∀ a ∈ p.resp, a.addr = d.qBase
  fresh : busy = false → ∃ id, p.off = rspOffer id p.resp
  offs : ∃ id l, p.off = rspOffer id l ∧ ∀ a ∈ l, a.addr = d.qBase
  flags : p.wreqFull = false ∧ p.wdataFull = false ∧ p.rreqFull = false ∧ p.respFull = false

theorem PInv.init : PInv d .init [] [] false [] where
  reads := List.nil_prefix
  writes := List.nil_prefix
  ar := rfl
  aw := rfl
  w := rfl
  rnone := ⟨rfl, rfl⟩
  wnone := Or.inl rfl
  baddr := rfl
  mem := fun _ => rfl
  out := rfl
  users := ⟨(by intro b hb; cases hb), (by intro b hb; cases hb)⟩
  fresh := fun _ => ⟨0, rfl⟩
  offs := ⟨0, [], rfl, by intro x hx; cases hx⟩
  flags := ⟨rfl, rfl, rfl, rfl⟩

/-- The state between taking and popping. -/
structure PMid (d : Params) (p : Responder) (sp : List Plain) (rsps : List RspBeat) (log : List Cmd) : Prop where
  reads : rd log <+: rd d.trace
  writes : wr log <+: wr d.trace
  ar : sp.filter (kindOf · = .ar) = (rd log).map (toAr d)
  aw : sp.filter (kindOf · = .aw) = (wr log).map (toAw d) ++ p.waddr.map fun a => .aw a d.qBase
  w : sp.filter (kindOf · = .w) = (wr log).map (toW d) ++ p.wdata.map fun v => .w v true d.qBase
  rnone : p.araddr = [] ∧ p.raddr = []
  wnone : p.waddr = [] ∨ p.wdata = []
  baddr : p.baddr = p.waddr.map fun _ => d.qBase
  mem : ∀ a, (p.storage (d.pBase + a)).getD 0 = memory (fun _ => 0) log a
  out : rsps.map ansData ++ p.resp.map Answer.out = answers (fun _ => 0) log
  users : (∀ b ∈ rsps, rspUser b = d.qBase) ∧ ∀ a ∈ p.resp, a.addr = d.qBase

theorem PInv.mid {p : Responder} {sp : List Plain} {rsps : List RspBeat} {busy : Bool} {log : List Cmd}
    (h : PInv d p sp rsps busy log) : PMid d p sp rsps log :=
  ⟨h.reads, h.writes, h.ar, h.aw, h.w, h.rnone, h.wnone, h.baddr, h.mem, h.out, h.users⟩

theorem wr_append (l k : List Cmd) : wr (l ++ k) = wr l ++ wr k := List.filter_append ..
theorem rd_append (l k : List Cmd) : rd (l ++ k) = rd l ++ rd k := List.filter_append ..

theorem mem_wr {x : Cmd} {l : List Cmd} (h : x ∈ wr l) : x.write = true := by simpa using (List.mem_filter.1 h).2
theorem mem_rd {x : Cmd} {l : List Cmd} (h : x ∈ rd l) : x.write = false := by simpa using (List.mem_filter.1 h).2

/-- The next element of a list of which an initial part is known. -/
theorem next_of {α β : Type} {f : α → β} {l k : List α} {b : β} {r : List β} (hl : l <+: k) (h : l.map f ++ b :: r <+: k.map f) :
    ∃ x, l ++ [x] <+: k ∧ f x = b := by
  obtain ⟨t, rfl⟩ := hl
  rw [List.map_append] at h
  have h' := (List.prefix_append_right_inj _).1 h
  cases t with
  | nil => simp at h'
  | cons x t =>
    rw [List.map_cons, List.cons_prefix_cons] at h'
    exact ⟨x, ⟨t, by simp⟩, h'.1.symm⟩

theorem add_inj {a b c : BitVec 64} : a + b = a + c ↔ b = c := by
  constructor
  · intro h
    have := congrArg (fun x => x - a) h
    simpa [BitVec.add_comm a, BitVec.add_sub_cancel] using this
  · intro h; rw [h]

theorem execute_idle {s : Responder} (h1 : s.raddr = []) (h2 : s.waddr = [] ∨ s.wdata = []) : s.execute = s := by
  obtain ⟨wa, wd, ba, aa, ra, f1, f2, f3, rs, f4, i, st, o⟩ := s
  dsimp only at h1 h2
  subst h1
  rcases h2 with rfl | rfl
  · rfl
  · cases wa <;> rfl

theorem execute_write {s : Responder} {a b : BitVec 64} {v : BitVec 512} {as bs : List (BitVec 64)} {vs : List (BitVec 512)}
    (h1 : s.raddr = []) (ha : s.waddr = a :: as) (hv : s.wdata = v :: vs) (hb : s.baddr = b :: bs) :
    s.execute = { s with
      waddr := as, wdata := vs, baddr := bs
      storage := fun x => if x = a then some v else s.storage x
      resp := s.resp ++ [⟨true, b, v⟩] } := by
  obtain ⟨wa, wd, ba, aa, ra, f1, f2, f3, rs, f4, i, st, o⟩ := s
  dsimp only at h1 ha hv hb
  subst h1 ha hv hb
  rfl

/-- A pending write is executed. -/
theorem exec_write {p : Responder} {sp : List Plain} {rsps : List RspBeat} {log : List Cmd} {a b : BitVec 64} {v : BitVec 512}
    {as : List (BitVec 64)} {vs : List (BitVec 512)}
    (reads : rd log <+: rd d.trace) (writes : wr log <+: wr d.trace)
    (ar : sp.filter (kindOf · = .ar) = (rd log).map (toAr d))
    (aw : sp.filter (kindOf · = .aw) = (wr log).map (toAw d) ++ p.waddr.map fun a => .aw a d.qBase)
    (w : sp.filter (kindOf · = .w) = (wr log).map (toW d) ++ p.wdata.map fun v => .w v true d.qBase)
    (rnone : p.araddr = [] ∧ p.raddr = []) (ha : p.waddr = a :: as) (hv : p.wdata = v :: vs)
    (hone : as = [] ∨ vs = []) (hb : b = d.qBase)
    (mem : ∀ a, (p.storage (d.pBase + a)).getD 0 = memory (fun _ => 0) log a)
    (out : rsps.map ansData ++ p.resp.map Answer.out = answers (fun _ => 0) log)
    (users : (∀ b ∈ rsps, rspUser b = d.qBase) ∧ ∀ a ∈ p.resp, a.addr = d.qBase)
    (paw : sp.filter (kindOf · = .aw) <+: (wr d.trace).map (toAw d))
    (pw : sp.filter (kindOf · = .w) <+: (wr d.trace).map (toW d)) :
    ∃ log', PMid d { p with
      waddr := as, wdata := vs, baddr := as.map fun _ => d.qBase
      storage := fun x => if x = a then some v else p.storage x
      resp := p.resp ++ [⟨true, b, v⟩] } sp rsps log' := by
  rw [aw, ha, List.map_cons] at paw
  rw [w, hv, List.map_cons] at pw
  obtain ⟨x, hx, ex⟩ := next_of writes paw
  obtain ⟨y, hy, ey⟩ := next_of writes pw
  have exy : x = y := by
    obtain ⟨t1, e1⟩ := hx
    obtain ⟨t2, e2⟩ := hy
    have := e1.trans e2.symm
    rw [List.append_assoc, List.append_assoc] at this
    have := List.append_cancel_left this
    simpa using (List.cons.inj this).1
  subst exy
  have hwr : x.write = true := mem_wr (hx.subset (List.mem_append_right _ (List.mem_singleton_self x)))
  have ea : d.pBase + x.addr = a := by unfold toAw at ex; injection ex
  have ed : x.data = v := by unfold toW at ey; injection ey
  have e1 : wr [x] = [x] := by simp [wr, hwr]
  have e2 : rd [x] = [] := by simp [rd, hwr]
  refine ⟨log ++ [x], ⟨?_, ?_, ?_, ?_, ?_, rnone, hone, rfl, ?_, ?_, users.1, ?_⟩⟩
  · rw [rd_append, e2, List.append_nil]; exact reads
  · rw [wr_append, e1]; exact hx
  · rw [rd_append, e2, List.append_nil]; exact ar
  · rw [wr_append, e1, aw, ha]; simp [ex]
  · rw [wr_append, e1, w, hv]; simp [ey]
  · intro c
    rw [memory_append]
    simp only [memory, hwr, if_true]
    rw [← ea, ed]
    by_cases hc : c = x.addr
    · rw [if_pos (by rw [hc]), if_pos hc]; rfl
    · rw [if_neg (fun e => hc (add_inj.1 e)), if_neg hc]; exact mem c
  · rw [List.map_append, ← List.append_assoc, out, answers_append]
    simp [answers, hwr, Answer.out]
  · intro c hc
    rcases List.mem_append.1 hc with hc | hc
    · exact users.2 c hc
    · rw [List.mem_singleton.1 hc]; exact hb

/-- Taking and executing what is shown. -/
theorem PMid.take {p : Responder} {sp : List Plain} {rsps : List RspBeat} {log : List Cmd} (h : PMid d p sp rsps log)
    (seen : List (Beat × Bool)) (hs : seen = [] ∨ ∃ b, seen = [(.req b, true)])
    (pre : ∀ k, (sp ++ seen.filterMap (beatPlain ·.1)).filter (kindOf · = k) <+: (d.trace.flatMap (requests d)).filter (kindOf · = k)) :
    ∃ log', PMid d (p.take seen).execute (sp ++ seen.filterMap (beatPlain ·.1)) rsps log' := by
  have par := pre .ar
  have paw := pre .aw
  have pw := pre .w
  rw [requests_ar] at par
  rw [requests_aw] at paw
  rw [requests_w] at pw
  have hbl : p.baddr.length = p.waddr.length := by rw [h.baddr, List.length_map]
  rcases hs with rfl | ⟨b, rfl⟩
  · refine ⟨log, ?_⟩
    have e : (p.take []).execute = p := execute_idle h.rnone.2 h.wnone
    rw [e]
    simpa using h
  · cases b with
    | ar a =>
      have hsp : ([(Beat.req (.ar a), true)] : List (Beat × Bool)).filterMap (beatPlain ·.1) = [.ar a.addr a.user] := rfl
      rw [hsp] at par paw pw ⊢
      rw [List.filter_append, h.ar] at par
      have e1 : ([Plain.ar a.addr a.user].filter (kindOf · = .ar)) = [.ar a.addr a.user] := rfl
      rw [e1] at par
      obtain ⟨x, hx, ex⟩ := next_of h.reads par
      have hrd : x.write = false := mem_rd (hx.subset (List.mem_append_right _ (List.mem_singleton_self x)))
      have ea : d.pBase + x.addr = a.addr := by unfold toAr at ex; injection ex
      have eu : d.qBase = a.user := by unfold toAr at ex; injection ex
      have e3 : wr [x] = [] := by simp [wr, hrd]
      have e2 : rd [x] = [x] := by simp [rd, hrd]
      have e : (p.take [(Beat.req (.ar a), true)]).execute =
          { p with resp := p.resp ++ [⟨false, a.user, (p.storage a.addr).getD 0⟩] } := by
        unfold Responder.execute Responder.take
        simp [takesAr, h.rnone.1, h.rnone.2]
      rw [e]
      refine ⟨log ++ [x], ⟨?_, ?_, ?_, ?_, ?_, h.rnone, h.wnone, h.baddr, ?_, ?_, h.users.1, ?_⟩⟩
      · rw [rd_append, e2]; exact hx
      · rw [wr_append, e3, List.append_nil]; exact h.writes
      · rw [List.filter_append, h.ar, e1, rd_append, e2, List.map_append, ← ex]; rfl
      · rw [List.filter_append, h.aw, wr_append, e3, List.append_nil]; simp [kindOf]
      · rw [List.filter_append, h.w, wr_append, e3, List.append_nil]; simp [kindOf]
      · intro c
        rw [memory_append]
        simpa [memory, hrd] using h.mem c
      · rw [List.map_append, ← List.append_assoc, h.out, answers_append]
        simp only [answers, hrd, ← ea, h.mem, Answer.out, List.map_cons, List.map_nil]
        rfl
      · intro c hc
        rcases List.mem_append.1 hc with hc | hc
        · exact h.users.2 c hc
        · rw [List.mem_singleton.1 hc]; exact eu.symm
    | aw a =>
      have hsp : ([(Beat.req (.aw a), true)] : List (Beat × Bool)).filterMap (beatPlain ·.1) = [.aw a.addr a.user] := rfl
      rw [hsp] at par paw pw ⊢
      have e1 : ([Plain.aw a.addr a.user].filter (kindOf · = .aw)) = [.aw a.addr a.user] := rfl
      have e2 : ([Plain.aw a.addr a.user].filter (kindOf · = .w)) = [] := rfl
      have e3 : ([Plain.aw a.addr a.user].filter (kindOf · = .ar)) = [] := rfl
      have eu : a.user = d.qBase := by
        have : Plain.aw a.addr a.user ∈ (wr d.trace).map (toAw d) :=
          paw.subset (List.mem_filter.2 ⟨List.mem_append_right _ (List.mem_singleton_self _), rfl⟩)
        obtain ⟨x, -, hx⟩ := List.mem_map.1 this
        unfold toAw at hx
        injection hx with _ hx
        exact hx.symm
      have ht : p.take [(Beat.req (.aw a), true)] = { p with waddr := p.waddr ++ [a.addr], baddr := p.baddr ++ [a.user] } := by
        unfold Responder.take
        simp [takesAr, takesAw]
      have haw : (sp ++ [Plain.aw a.addr a.user]).filter (kindOf · = .aw) =
          (wr log).map (toAw d) ++ (p.waddr ++ [a.addr]).map fun a => .aw a d.qBase := by
        rw [List.filter_append, h.aw, e1]; simp [eu]
      have hw : (sp ++ [Plain.aw a.addr a.user]).filter (kindOf · = .w) = (wr log).map (toW d) ++ p.wdata.map fun v => .w v true d.qBase := by
        rw [List.filter_append, h.w, e2, List.append_nil]
      have har : (sp ++ [Plain.aw a.addr a.user]).filter (kindOf · = .ar) = (rd log).map (toAr d) := by
        rw [List.filter_append, h.ar, e3, List.append_nil]
      have hba : p.baddr ++ [a.user] = (p.waddr ++ [a.addr]).map fun _ => d.qBase := by rw [h.baddr, eu]; simp
      rw [ht]
      obtain hv | ⟨v, vs, hv⟩ : p.wdata = [] ∨ ∃ v vs, p.wdata = v :: vs := by
        cases p.wdata with
        | nil => exact Or.inl rfl
        | cons v vs => exact Or.inr ⟨v, vs, rfl⟩
      · refine ⟨log, ?_⟩
        rw [execute_idle (s := { p with waddr := p.waddr ++ [a.addr], baddr := p.baddr ++ [a.user] }) h.rnone.2 (Or.inr hv)]
        exact ⟨h.reads, h.writes, har, haw, hw, h.rnone, Or.inr hv, hba, h.mem, h.out, h.users⟩
      · have hwa : p.waddr = [] := by
          rcases h.wnone with e | e
          · exact e
          · rw [hv] at e; cases e
        have hb0 : p.baddr = [] := by rw [h.baddr, hwa]; rfl
        rw [execute_write (s := { p with waddr := p.waddr ++ [a.addr], baddr := p.baddr ++ [a.user] }) (a := a.addr) (b := a.user) (as := []) (bs := []) h.rnone.2 (by dsimp only; rw [hwa]; rfl) hv
          (by dsimp only; rw [hb0]; rfl)]
        exact exec_write (p := { p with waddr := p.waddr ++ [a.addr], baddr := p.baddr ++ [a.user] }) h.reads h.writes har haw hw
          h.rnone (by dsimp only; rw [hwa]; rfl) hv (Or.inl rfl) eu h.mem h.out h.users paw pw
    | w a =>
      have hsp : ([(Beat.req (.w a), true)] : List (Beat × Bool)).filterMap (beatPlain ·.1) = [.w a.data a.last a.user] := rfl
      rw [hsp] at par paw pw ⊢
      have e1 : ([Plain.w a.data a.last a.user].filter (kindOf · = .w)) = [.w a.data a.last a.user] := rfl
      have e2 : ([Plain.w a.data a.last a.user].filter (kindOf · = .aw)) = [] := rfl
      have e3 : ([Plain.w a.data a.last a.user].filter (kindOf · = .ar)) = [] := rfl
      have eu : a.last = true ∧ a.user = d.qBase := by
        have : Plain.w a.data a.last a.user ∈ (wr d.trace).map (toW d) :=
          pw.subset (List.mem_filter.2 ⟨List.mem_append_right _ (List.mem_singleton_self _), rfl⟩)
        obtain ⟨x, -, hx⟩ := List.mem_map.1 this
        unfold toW at hx
        injection hx with _ h1 h2
        exact ⟨h1.symm, h2.symm⟩
      have ht : p.take [(Beat.req (.w a), true)] = { p with wdata := p.wdata ++ [a.data] } := by
        unfold Responder.take
        simp [takesAr, takesAw, takesW]
      have haw : (sp ++ [Plain.w a.data a.last a.user]).filter (kindOf · = .aw) =
          (wr log).map (toAw d) ++ p.waddr.map fun a => .aw a d.qBase := by
        rw [List.filter_append, h.aw, e2, List.append_nil]
      have hw : (sp ++ [Plain.w a.data a.last a.user]).filter (kindOf · = .w) =
          (wr log).map (toW d) ++ (p.wdata ++ [a.data]).map fun v => .w v true d.qBase := by
        rw [List.filter_append, h.w, e1]; simp [eu.1, eu.2]
      have har : (sp ++ [Plain.w a.data a.last a.user]).filter (kindOf · = .ar) = (rd log).map (toAr d) := by
        rw [List.filter_append, h.ar, e3, List.append_nil]
      rw [ht]
      obtain hv | ⟨c, cs, hv⟩ : p.waddr = [] ∨ ∃ v vs, p.waddr = v :: vs := by
        cases p.waddr with
        | nil => exact Or.inl rfl
        | cons v vs => exact Or.inr ⟨v, vs, rfl⟩
      · refine ⟨log, ?_⟩
        rw [execute_idle (s := { p with wdata := p.wdata ++ [a.data] }) h.rnone.2 (Or.inl hv)]
        exact ⟨h.reads, h.writes, har, haw, hw, h.rnone, Or.inl hv, h.baddr, h.mem, h.out, h.users⟩
      · have hwa : p.wdata = [] := by
          rcases h.wnone with e | e
          · rw [hv] at e; cases e
          · exact e
        rw [execute_write (s := { p with wdata := p.wdata ++ [a.data] }) (v := a.data) (vs := []) (b := d.qBase) (bs := cs.map fun _ => d.qBase) h.rnone.2 hv
          (by dsimp only; rw [hwa]; rfl) (by dsimp only; rw [h.baddr, hv]; rfl)]
        exact exec_write (p := { p with wdata := p.wdata ++ [a.data] }) h.reads h.writes har haw hw
          h.rnone hv (by dsimp only; rw [hwa]; rfl) (Or.inr rfl) rfl h.mem h.out h.users paw pw

theorem PMid.log_le {p : Responder} {sp : List Plain} {rsps : List RspBeat} {log : List Cmd} (h : PMid d p sp rsps log) :
    log.length ≤ d.trace.length := by
  rw [← rd_wr_length log, ← rd_wr_length d.trace]
  exact Nat.add_le_add h.reads.length_le h.writes.length_le

/-- An edge of the responder. -/
theorem PInv.edge {p : Responder} {sp : List Plain} {rsps : List RspBeat} {busy : Bool} {log : List Cmd}
    (h : PInv d p sp rsps busy log) (hd : d.trace.length < d.depth)
    (seen : List (Beat × Bool)) (hseen : seen = [] ∨ ∃ b, seen = [(.req b, true)])
    (pre : ∀ k, (sp ++ seen.filterMap (beatPlain ·.1)).filter (kindOf · = k) <+: (d.trace.flatMap (requests d)).filter (kindOf · = k))
    (hs : List RspBeat) (hhs : hs = [] ∨ busy = false ∧ ∃ b, hs = [b] ∧ b ∈ RspOffer.beats p.off) :
    ∃ p' log', p.edge d seen hs = some p' ∧ PInv d p' (sp ++ seen.filterMap (beatPlain ·.1)) (rsps ++ hs) (hs ≠ []) log' := by
  obtain ⟨log', hm⟩ := h.mid.take seen hseen pre
  have hl := hm.log_le
  have hlen := congrArg List.length hm.out
  rw [answers_length, List.length_append, List.length_map, List.length_map] at hlen
  have hwl : (p.take seen).execute.waddr.length ≤ d.trace.length ∧ (p.take seen).execute.wdata.length ≤ d.trace.length := by
    have h1 := (pre .aw).length_le
    have h2 := (pre .w).length_le
    rw [requests_aw, hm.aw] at h1
    rw [requests_w, hm.w] at h2
    simp only [List.length_append, List.length_map] at h1 h2
    have := rd_wr_length d.trace
    omega
  generalize hg : (p.take seen).execute = g at hm hlen hwl
  have hrest : ∃ k, g.resp = p.resp ++ k := by
    rw [← hg]
    unfold Responder.execute
    have ht : (p.take seen).resp = p.resp := by unfold Responder.take; (repeat' split) <;> rfl
    split
    · exact ⟨_, by dsimp only; rw [ht]⟩
    · split
      · exact ⟨_, by dsimp only; rw [ht]⟩
      · exact ⟨[], by rw [ht, List.append_nil]⟩
  unfold Responder.edge
  rw [hg]
  rcases hhs with rfl | ⟨hb, b, rfl, hmem⟩
  · refine ⟨_, log', rfl, ?_⟩
    rw [List.append_nil]
    refine ⟨hm.reads, hm.writes, hm.ar, hm.aw, hm.w, hm.rnone, hm.wnone, hm.baddr, hm.mem, hm.out, hm.users,
      fun _ => ⟨g.id, rfl⟩, ⟨g.id, g.resp, rfl, hm.users.2⟩, ?_⟩
    simp only [decide_eq_false_iff_not, hm.rnone.1, List.length_nil]
    omega
  · obtain ⟨id, hoff⟩ := h.fresh hb
    rw [hoff] at hmem
    cases hr : p.resp with
    | nil => rw [hr] at hmem; simp [rspOffer, RspOffer.beats] at hmem
    | cons x rest =>
      obtain ⟨k, hk⟩ := hrest
      rw [hr, List.cons_append] at hk
      rw [hr] at hmem
      have hbx : ansData b = x.out ∧ rspUser b = x.addr := by
        simp only [rspOffer] at hmem
        split at hmem
        · rename_i hw
          simp [RspOffer.beats] at hmem
          subst hmem
          exact ⟨by simp [ansData, Answer.out, hw], rfl⟩
        · rename_i hw
          simp [RspOffer.beats] at hmem
          subst hmem
          exact ⟨by simp [ansData, Answer.out, hw], rfl⟩
      have hxu : x.addr = d.qBase := hm.users.2 x (by rw [hk]; exact List.mem_cons_self)
      have ho := hm.out
      rw [hk] at ho
      dsimp only
      rw [if_neg (by simp)]
      simp only [hk, Option.map_some]
      refine ⟨_, log', rfl, ?_⟩
      refine ⟨hm.reads, hm.writes, hm.ar, hm.aw, hm.w, hm.rnone, hm.wnone, hm.baddr, hm.mem, ?_, ⟨?_, ?_⟩,
        (fun e => by simp at e), ⟨g.id, g.resp, by dsimp only; rw [hk], hm.users.2⟩, ?_⟩
      · rw [← ho]
        simp [hbx.1]
      · intro c hc
        rcases List.mem_append.1 hc with hc | hc
        · exact hm.users.1 c hc
        · rw [List.mem_singleton.1 hc, hbx.2]; exact hxu
      · intro c hc
        exact hm.users.2 c (by rw [hk]; exact List.mem_cons_of_mem _ hc)
      · rw [hk, List.length_cons] at hlen
        simp only [decide_eq_false_iff_not, hm.rnone.1, List.length_nil]
        omega

end RadSim.Hello
