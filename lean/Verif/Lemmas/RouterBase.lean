import Verif.Spec.Router
import Verif.Lemmas.BufferState
import Verif.Props.Alloc

/-! # The invariant of a router -/

namespace RadSim

section
variable {α κ : Type} {head tail : α → Bool} {key : α → κ}

/-- The last packet is complete. -/
def Closed (tail : α → Bool) (l : List α) : Prop := ∀ a, l.getLast? = some a → tail a = true

/-- `x` may follow `l`. -/
def Fits (head tail : α → Bool) (key : α → κ) (l : List α) (x : α) : Prop :=
  match l.getLast? with
  | none => head x = true
  | some a => Next head tail key a x

theorem packets_nil : Packets head tail key [] := ⟨by simp, .nil⟩

theorem packets_snoc {l : List α} {x : α} :
    Packets head tail key (l ++ [x]) ↔ Packets head tail key l ∧ Fits head tail key l x := by
  rcases List.eq_nil_or_concat l with rfl | ⟨l', a, rfl⟩
  · simp [Packets, Fits]
  · simp only [List.concat_eq_append, Packets, Fits]
    rw [List.isChain_append]
    simp only [List.getLast?_append, List.getLast?_singleton, List.head?_append]
    simp
    grind

theorem closed_nil : Closed tail ([] : List α) := by simp [Closed]

theorem closed_snoc {l : List α} {x : α} : Closed tail (l ++ [x]) ↔ tail x = true := by
  simp [Closed]

theorem packets_prefix {l r : List α} (h : Packets head tail key (l ++ r)) : Packets head tail key l := by
  refine ⟨?_, (List.isChain_append.1 h.2).1⟩
  have := h.1
  cases l with
  | nil => simp
  | cons a l => simpa using this

theorem packets_fits {l r : List α} {x : α} (h : Packets head tail key (l ++ x :: r)) : Fits head tail key l x := by
  have : l ++ x :: r = (l ++ [x]) ++ r := by simp
  rw [this] at h
  exact (packets_snoc.1 (packets_prefix h)).2

theorem Fits.of_closed {l : List α} {x : α} (h : Closed tail l) (hx : head x = true) : Fits head tail key l x := by
  unfold Fits
  cases hl : l.getLast? with
  | none => exact hx
  | some a =>
    have := h a hl
    exact ⟨by rw [hx, this], by simp [this]⟩

theorem Fits.head_of_closed {l : List α} {x : α} (h : Closed tail l) (hf : Fits head tail key l x) : head x = true := by
  unfold Fits at hf
  cases hl : l.getLast? with
  | none => simpa [hl] using hf
  | some a =>
    rw [hl] at hf
    rw [hf.1, h a hl]

theorem Fits.of_open {l : List α} {a x : α} (h : l.getLast? = some a) (ha : tail a = false) (hx : head x = false)
    (hk : key x = key a) : Fits head tail key l x := by
  simp only [Fits, h]
  exact ⟨by rw [hx, ha], fun _ => hk⟩

theorem Fits.head_of_open {l : List α} {a x : α} (h : l.getLast? = some a) (ha : tail a = false)
    (hf : Fits head tail key l x) : head x = false ∧ key x = key a := by
  simp only [Fits, h] at hf
  exact ⟨by rw [hf.1, ha], hf.2 ha⟩

end

namespace Router

variable {δ σ τ ρ ρ' : Type}

/-- The virtual channel of a queue entry. -/
def Wait.key (w : Wait) : Nat × Nat := (w.i, w.v)

/-- What has happened so far: flits received, flits passed, credits received, credits returned, flits sent, the
outputs offered by the routing function, the route sets it has made. -/
structure G (δ : Type) where
  recv : Nat → Nat → List (Flit δ)
  log : List (Pass δ)
  cin : Nat → Nat → Nat
  ret : Nat → Nat → Nat
  sent : Nat → List (Flit δ)
  may : Nat → Flit δ → Nat → Nat → Prop
  rts : Nat → Flit δ → List Hop → Prop

/-- Packets among passed flits. -/
abbrev PassPk {κ : Type} (key : Pass δ → κ) (l : List (Pass δ)) : Prop :=
  Packets (fun e => e.f.head) (fun e => e.f.tail) key l

/-- The last packet passed is complete. -/
abbrev Done (l : List (Pass δ)) : Prop := Closed (fun e => e.f.tail) l

/-- Output pairs of a route set. -/
def routePairs (l : List Hop) : List (Nat × Nat) :=
  l.flatMap fun p => (List.range' p.vcStart (p.vcEnd + 1 - p.vcStart)).map (Prod.mk p.port)

/-- The relation of an active virtual channel to its output. -/
structure Owns (c : Cfg) (s : R δ σ τ) (g : G δ) (i v o u : Nat) : Prop where
  o_lt : o < c.outputs
  u_lt : u < c.vcs
  use : (s.next o).inUse u = ((i * c.vcs + v : Nat) : Int)
  link : (Done (passedFrom g.log i v) ∧ Done (passedTo g.log o u) ∧
      ∃ f, (s.vcs i v).q.head? = some f ∧ g.may i f o u) ∨
    ∃ a, (passedFrom g.log i v).getLast? = some a ∧ (passedTo g.log o u).getLast? = some a ∧ a.f.tail = false

/-- A route set is fine for the front flit. -/
structure RouteOk (c : Cfg) (g : G δ) (i : Nat) (x : Vc δ) : Prop where
  hop : ∀ h ∈ x.route, h.port < c.outputs ∧ h.vcStart ≤ h.vcEnd ∧ h.vcEnd < c.vcs
  once : (routePairs x.route).Nodup
  src : ∀ f, x.q.head? = some f → g.rts i f x.route
  may : ∀ f, x.q.head? = some f → ∀ h ∈ x.route, ∀ u, h.vcStart ≤ u → u ≤ h.vcEnd → g.may i f h.port u

/-- The invariant of an input virtual channel. -/
structure VcInv (c : Cfg) (s : R δ σ τ) (g : G δ) (i v : Nat) : Prop where
  range : (s.vcs i v).st ≠ .idle → i < c.inputs ∧ v < c.vcs
  recv : (passedFrom g.log i v).map Pass.f ++ (s.vcs i v).q = g.recv i v
  vc : ∀ f ∈ g.recv i v, f.vc = v
  pk : Packets Flit.head Flit.tail Flit.pid (g.recv i v)
  expC : Closed Flit.tail (g.recv i v) → (s.vcs i v).exp < 0
  expO : ∀ a, (g.recv i v).getLast? = some a → a.tail = false → (s.vcs i v).exp = a.pid
  fromPk : PassPk (fun e => (e.o, e.u)) (passedFrom g.log i v)
  idle : (s.vcs i v).st = .idle → (s.vcs i v).q = [] ∧ Done (passedFrom g.log i v)
  pre : (s.vcs i v).st = .routing ∨ (s.vcs i v).st = .vcAlloc → (s.vcs i v).q ≠ [] ∧ Done (passedFrom g.log i v)
  hops : (s.vcs i v).st = .vcAlloc → RouteOk c g i (s.vcs i v)
  act : (s.vcs i v).st = .active → ∃ o u, (s.vcs i v).out = some (o, u) ∧ Owns c s g i v o u
  len : ((g.recv i v).length : Int) ≤ c.buf.perVc + g.ret i v

/-- The credits that wait to be processed. -/
def pend (l : List Cred) (o u : Nat) : Nat := ((l.filter fun x => x.o = o).flatMap Cred.vcs).count u

/-- The invariant of an output virtual channel. -/
structure OutInv (c : Cfg) (s : R δ σ τ) (g : G δ) (o u : Nat) : Prop where
  toPk : PassPk (fun e => ((e.i, e.v), e.f.pid)) (passedTo g.log o u)
  free : (s.next o).inUse u < 0 → Done (passedTo g.log o u)
  own : 0 ≤ (s.next o).inUse u → ∃ i v, i < c.inputs ∧ v < c.vcs ∧
    (s.next o).inUse u = ((i * c.vcs + v : Nat) : Int) ∧ (s.vcs i v).st = .active ∧ (s.vcs i v).out = some (o, u)
  occ : (s.next o).vcOcc u + g.cin o u = (passedTo g.log o u).length + pend s.credQ o u
  le : g.cin o u ≤ ((g.sent o).filter fun f => f.vc = u).length

/-- The invariant of the ports. -/
structure PortInv (c : Cfg) (s : R δ σ τ) (g : G δ) : Prop where
  routed : ∀ e ∈ g.log, e.f.head = true → g.may e.i e.f e.o e.u
  stream : ∀ o, (g.log.filter fun e => e.o = o).map Pass.flit =
    g.sent o ++ s.outBuf o ++ (s.xbQ.filter fun e => e.o = o).map Cross.f
  buf : ∀ o, BufInv c.buf (s.next o)
  cred : ∀ i v, g.ret i v + (s.credBuf i).flatten.count v + (s.outCred i).count v = (passedFrom g.log i v).length
  occ : ∀ i, s.occ i = sumTo c.vcs fun v => ((s.vcs i v).q.length : Int)
  xb : ∀ e ∈ s.xbQ, e.i < c.inputs ∧ e.o < c.outputs
  pendOk : ∀ x ∈ s.credQ, x.o < c.outputs ∧ x.vcs.Nodup ∧ ∀ u ∈ x.vcs, u < c.vcs
  logOk : ∀ e ∈ g.log, (e.i < c.inputs ∧ e.v < c.vcs) ∧ e.o < c.outputs ∧ e.u < c.vcs
  crN : ∀ i, (s.outCred i).Nodup ∧ ∀ l ∈ s.credBuf i, l.Nodup

/-- The queues hold the virtual channels in the right states. -/
structure QInv (s : R δ σ τ) (rq va sa : List (Nat × Nat)) : Prop where
  rqN : rq.Nodup
  rqM : ∀ i v, (i, v) ∈ rq ↔ (s.vcs i v).st = .routing
  vaN : va.Nodup
  vaM : ∀ i v, (i, v) ∈ va ↔ (s.vcs i v).st = .vcAlloc
  saN : sa.Nodup
  saM : ∀ i v, (i, v) ∈ sa ↔ (s.vcs i v).st = .active ∧ (s.vcs i v).q ≠ []

/-- The invariant, for given contents of the three queues. -/
structure Inv (c : Cfg) (s : R δ σ τ) (g : G δ) (rq va sa : List (Nat × Nat)) : Prop where
  vc : ∀ i v, VcInv c s g i v
  out : ∀ o u, OutInv c s g o u
  port : PortInv c s g
  q : QInv s rq va sa

/-- Assumptions on the configuration. -/
structure Cfg.Ok (c : Cfg) : Prop where
  buf : c.buf.Ok
  tail : c.buf.waitTail = false
  outSize : c.outSize = -1 ∨ 0 ≤ c.outSize
  route : c.routeDelay = 1
  va : c.vaDelay = 1
  sa : c.saDelay = 1
  xb : c.xbDelay = 1

/-- The assignments of an allocator are valid, and with `k` it grants something when there are requests. -/
abbrev Serves (k : Bool) (C : Alloc.Cls σ ρ) (I O : Nat) (a : σ) : Prop :=
  Alloc.Holds C I O a fun l m => Alloc.Valid (Alloc.asked l) m ∧ (k = true → l ≠ [] → m.Some)

theorem require_pos {α : Type} {b : Bool} {e : Err} {k : Except Err α} (h : b = true) : require b e k = k := by
  simp [require, h]

theorem from_snoc (l : List (Pass δ)) (e : Pass δ) (i v : Nat) :
    passedFrom (l ++ [e]) i v = if e.i = i ∧ e.v = v then passedFrom l i v ++ [e] else passedFrom l i v := by
  simp only [passedFrom, List.filter_append]
  split <;> simp_all

theorem to_snoc (l : List (Pass δ)) (e : Pass δ) (o u : Nat) :
    passedTo (l ++ [e]) o u = if e.o = o ∧ e.u = u then passedTo l o u ++ [e] else passedTo l o u := by
  simp only [passedTo, List.filter_append]
  split <;> simp_all

theorem setVc_apply (s : R δ σ τ) (i v : Nat) (x : Vc δ) (i' v' : Nat) :
    (s.setVc i v x).vcs i' v' = if i' = i ∧ v' = v then x else s.vcs i' v' := by
  simp only [R.setVc, upd_apply]
  by_cases h : i' = i
  · subst h; by_cases h2 : v' = v <;> simp [upd_apply, h2]
  · simp [h]

/-- Two virtual channels with the same number are the same. -/
theorem number_inj {V i v i' v' : Nat} (h1 : v < V) (h2 : v' < V) (h : i * V + v = i' * V + v') : i = i' ∧ v = v' := by
  have e1 : (i * V + v) / V = i := by
    rw [Nat.add_comm, Nat.add_mul_div_right _ _ (by omega), Nat.div_eq_of_lt h1]; omega
  have e2 : (i' * V + v') / V = i' := by
    rw [Nat.add_comm, Nat.add_mul_div_right _ _ (by omega), Nat.div_eq_of_lt h2]; omega
  have : i = i' := by rw [← e1, h, e2]
  subst this
  omega

end Router
end RadSim
