import Verif.Model.TwoPhase

/-!
# Further routing functions of a torus

Models `dim_order_bal_torus`, `dim_order_ni_torus`, `valiant_torus` and `valiant_ni_torus` of
`rad-sim/sim/noc/booksim/routefunc.cpp`.

Simplifications, beside those of `Verif/Model/Routing.lean`. The calls with `inject` set are left out. Reading a variable
that has no value yet is an outcome of its own.
-/

namespace RadSim.Routing

/-- `dor_next_torus` with a partition and `balance` set, `rad-sim/sim/noc/booksim/routefunc.cpp:595-661`. Returns the output
port and the partition. There are two draws, of the direction and of the partition. -/
def dorNextBal2 (s : Shape) (cur dest inPort : Nat) (ph : Int) (rnd rnd' : Bool) : Nat × Int :=
  let (dim, cur, dest) := torusLoop s.k s.n 0 cur dest
  if dim < s.n then
    if inPort / 2 ≠ dim then
      let c := cur % s.k
      let d := dest % s.k
      let delta := (d + s.k - c) % s.k
      let right := decide (2 * delta < s.k) || (decide (2 * delta = s.k) && rnd)
      (if right then 2 * dim else 2 * dim + 1,
        if (right && decide (d < c)) || (!right && decide (c < d)) then 1
        else if (right && decide (c ≤ (s.k - 1) / 2) && decide ((s.k - 1) / 2 < d)) ||
            (!right && decide ((s.k - 1) / 2 < c) && decide (d ≤ (s.k - 1) / 2)) then 0
        else if rnd' then 1 else 0)
    else (inPort ^^^ 1, ph)
  else (2 * s.n, ph)

/-- `dor_next_torus` with a partition and `balance` set, `rad-sim/sim/noc/booksim/routefunc.cpp:595-661`, with one argument
for both draws. This leaves nothing out (`C147_one_draw`): the direction is drawn only when both ways round the ring have
the same length, and then each of them crosses one of the two datelines. -/
def dorNextBal (s : Shape) (cur dest inPort : Nat) (ph : Int) (rnd : Bool) : Nat × Int :=
  dorNextBal2 s cur dest inPort ph rnd rnd

/-- `dim_order_bal_torus`, `rad-sim/sim/noc/booksim/routefunc.cpp:1708-1775`. -/
def dimOrderBalTorus (s : Shape) (rng : Nat → Nat × Nat) : Rf := fun node f inPort rnd =>
  if vcOk rng f then
    let r := rng f.cls
    let (port, ph) := dorNextBal s node f.dest inPort f.ph rnd
    if node ≠ f.dest then
      if available r > 0 then
        if ph = 0 then some ⟨port, r.1, r.2 - available r, ph⟩
        else if ph = 1 then some ⟨port, r.1 + available r, r.2, ph⟩ else none
      else none
    else some ⟨port, r.1, r.2, ph⟩
  else none

/-- `dim_order_ni_torus`, `rad-sim/sim/noc/booksim/routefunc.cpp:1640-1704`: there is no partition (the argument is null), so
that of the flit stays. For a destination outside the network the range could lie outside that of the class; this is
`none` here. -/
def dimOrderNiTorus (s : Shape) (rng : Nat → Nat × Nat) : Rf := fun node f inPort rnd =>
  if vcOk rng f then
    let r := rng f.cls
    let port := (dorNextTorus s node f.dest inPort f.ph rnd).1
    if node ≠ f.dest then
      let per := (r.2 + 1 - r.1) / s.nodes
      if per ≠ 0 ∧ f.dest < s.nodes then some ⟨port, r.1 + f.dest * per, r.1 + f.dest * per + per - 1, f.ph⟩ else none
    else some ⟨port, r.1, r.2, f.ph⟩
  else none

/-- `dor_next_torus` with a partition that has no value before, `balance` false,
`rad-sim/sim/noc/booksim/routefunc.cpp:595-661`: the partition is written only on turning into a dimension. -/
def ringNext (s : Shape) (cur dest inPort : Nat) (rnd : Bool) : Nat × Option Int :=
  let (dim, cur, dest) := torusLoop s.k s.n 0 cur dest
  if dim < s.n then
    if inPort / 2 ≠ dim then
      let c := cur % s.k
      let d := dest % s.k
      let delta := (d + s.k - c) % s.k
      let right := decide (2 * delta < s.k) || (decide (2 * delta = s.k) && rnd)
      (if right then 2 * dim else 2 * dim + 1,
        some (if (right && decide (d < c)) || (!right && decide (d < c)) then 1 else 0))
    else (inPort ^^^ 1, none)
  else (2 * s.n, none)

/-- What can go wrong in a routing function. -/
inductive Fault
  | assertion
  | uninitialised
  deriving DecidableEq, Repr

/-- Virtual channels by ring partition and phase, `rad-sim/sim/noc/booksim/routefunc.cpp:1430-1450` and, with the same text,
`1525-1545`. -/
def cutTwice (r : Nat × Nat) (part phase : Int) : Except Fault (Nat × Nat) :=
  let a := available r
  if a > 0 then
    let b := a / 2
    if part = 0 ∨ part = 1 then
      let r' := if part = 0 then (r.1, r.2 - a) else (r.1 + a, r.2)
      if b > 0 then
        if phase = 0 then .ok (r'.1, r'.2 - b) else if phase = 1 then .ok (r'.1 + b, r'.2) else .error .assertion
      else .error .assertion
    else .error .assertion
  else .error .assertion

/-- `valiant_torus`, `rad-sim/sim/noc/booksim/routefunc.cpp:1383-1460`: the entry of the output set and the intermediate
router of the flit. -/
def valiantTorus (s : Shape) (rng : Nat → Nat × Nat) (node : Nat) (f : Pkt) (intm inPort drawn : Nat) (rnd : Bool) :
    Except Fault (Out × Nat) :=
  if vcOk rng f then
    let x : Int × Nat := if inPort = 2 * s.n then (0, drawn) else (f.ph.tdiv 2, intm)
    let y : Int × Nat := if x.1 = 0 ∧ node = x.2 then (1, 2 * s.n) else (x.1, inPort)
    let z := ringNext s node (if y.1 = 0 then x.2 else f.dest) y.2 rnd
    match z.2 with
    | none => .error .uninitialised
    | some part =>
      if node ≠ f.dest then
        match cutTwice (rng f.cls) part y.1 with
        | .ok r => .ok (⟨z.1, r.1, r.2, 2 * y.1 + part⟩, x.2)
        | .error e => .error e
      else .ok (⟨z.1, (rng f.cls).1, (rng f.cls).2, 2 * y.1 + part⟩, x.2)
  else .error .assertion

/-- `valiant_ni_torus`, `rad-sim/sim/noc/booksim/routefunc.cpp:1464-1565`. The phase and `f->ph` are two different things
here. -/
def valiantNiTorus (s : Shape) (rng : Nat → Nat × Nat) (node : Nat) (f : Pkt) (intm inPort drawn : Nat) (rnd : Bool) :
    Except Fault (Out × Nat) :=
  if vcOk rng f then
    let r := rng f.cls
    let per := (r.2 + 1 - r.1) / s.nodes
    if node ≠ f.dest ∧ per = 0 then .error .assertion
    else
      let r' := if node ≠ f.dest then (r.1 + f.dest * per, r.1 + f.dest * per + per - 1) else r
      let x : Int × Nat := if inPort = 2 * s.n then (0, drawn) else (f.ph.tdiv 2, intm)
      let y : Int × Nat := if f.ph = 0 ∧ node = x.2 then (1, 2 * s.n) else (f.ph, inPort)
      let z := ringNext s node (if y.1 = 0 then x.2 else f.dest) y.2 rnd
      match z.2 with
      | none => .error .uninitialised
      | some part =>
        if node ≠ f.dest then
          match cutTwice r' part x.1 with
          | .ok q => .ok (⟨z.1, q.1, q.2, 2 * x.1 + part⟩, x.2)
          | .error e => .error e
        else .ok (⟨z.1, r'.1, r'.2, 2 * x.1 + part⟩, x.2)
  else .error .assertion

/-- A routing function with an intermediate router. -/
abbrev Rf2 := Nat → Pkt → Nat → Nat → Nat → Bool → Except Fault (Out × Nat)

/-- A head arriving at a router is routed there once
(`rad-sim/sim/noc/booksim/routers/iq_router.cpp:429-533`, `VC::Route`), without a fault. -/
def ArrivesV (rf : Rf2) (node inPort : Nat) (f : Pkt) (intm drawn : Nat) (h : Head2) : Prop :=
  ∃ rnd o i, rf node f intm inPort drawn rnd = .ok (o, i) ∧ h = ⟨node, { f with ph := o.ph }, i, o⟩

/-- A packet enters at its source on the injection port, with the partition `-1` of a new flit
(`rad-sim/sim/noc/booksim/flit.cpp:85`). -/
def EntersV (s : Shape) (rf : Rf2) (h : Head2) : Prop :=
  ∃ node f intm drawn, node < s.nodes ∧ f.dest < s.nodes ∧ f.ph = -1 ∧ valiantDraw s node f.dest drawn ∧
    ArrivesV rf node (2 * s.n) f intm drawn h

/-- The head takes virtual channel `c.2` of link `c.1` and arrives, without a fault, at the router that reads the link. -/
def TakesV (s : Shape) (rf : Rf2) (h : Head2) (c : Nat × Nat) (h' : Head2) : Prop :=
  h.out.port < 2 * s.n ∧ c.1 = outputChannel s h.node h.out.port ∧ h.out.vcBegin ≤ c.2 ∧ c.2 ≤ h.out.vcEnd ∧
    ∃ v q, receivers s c.1 = [(v, q)] ∧ ArrivesV rf v q { h.pkt with vc := c.2 } h.intm 0 h'

end RadSim.Routing
