import Verif.Model.DlrmFi

/-
Model of the part of the DLRM compiler that lays the embedding tables out in memory
and writes the instructions of the feature-interaction module
(`/repo/rad-sim/example-designs/dlrm/compiler/dlrm.py`).

Simplifications
* Byte counts of vectors, all multiples of `element_bytewidth`, are kept as element
  counts; `native_dim` is taken to be positive.
* A table is visited in the order of the common loop nest of
  `generate_embedding_lookup_inputs` (lines 266-301) and
  `generate_custom_feature_interaction_instructions` (lines 452-515).
* Python numbers are unbounded; `math.ceil(a / b / c)` on floats is taken to be the
  exact rounded-up quotient.
* The assertion of line 532 is left out: it holds whenever the tables fill whole words,
  as in both violations stated in `Props/DlrmCompile.lean`.
* The random choice of lookups and memory contents is left out.
-/
namespace RadSim.Dlrm

/-- A row of the model file (rad-sim/example-designs/dlrm/compiler/dlrm.py:95-114): `id`, `vector length`, `entries`. -/
structure Row where
  id : Nat
  len : Nat
  entries : Nat
  deriving DecidableEq, Repr

/-- `words_per_entry * entries` (rad-sim/example-designs/dlrm/compiler/dlrm.py:109-110); `read_bytewidth` is 64.  The length
in elements, not in bytes, is divided by the bytes of a word. -/
def Row.words (r : Row) : Nat := (r.len + 63) / 64 * r.entries

/-- `table_info.sort(key=words, reverse=True)` (rad-sim/example-designs/dlrm/compiler/dlrm.py:117-118), a stable sort: a row
goes behind those with at least as many words. -/
def insertRow (r : Row) : List Row → List Row
  | [] => [r]
  | x :: xs => if r.words ≤ x.words then x :: insertRow r xs else r :: x :: xs

/-- The sorted rows; the rows are inserted in file order (rad-sim/example-designs/dlrm/compiler/dlrm.py:117-118). -/
def sortRows (rows : List Row) : List Row := rows.foldl (fun acc r => insertRow r acc) []

/-- A table in memory. -/
structure Placed where
  row : Row
  base : Nat
  deriving DecidableEq, Repr

/-- A kind of memory (DDR or HBM) during `greedy_allocation`: the capacity of a
channel, the words used and the rounds per channel, and the tables per channel in the
order in which the dictionary got its keys (rad-sim/example-designs/dlrm/compiler/dlrm.py:30-38). -/
structure Bank where
  numCh : Nat
  cap : Nat
  used : Nat → Nat
  rounds : Nat → Nat
  tables : List (Nat × List Placed)

/-- `tables_per_..._channel[ch].append(...)`, with a new key if need be
(rad-sim/example-designs/dlrm/compiler/dlrm.py:131-138, 153-162). -/
def addTable (c : Nat) (p : Placed) : List (Nat × List Placed) → List (Nat × List Placed)
  | [] => [(c, [p])]
  | (d, ps) :: r => if d = c then (d, ps ++ [p]) :: r else (d, ps) :: addTable c p r

/-- The first channel that has had fewer than `round` tables and has room
(rad-sim/example-designs/dlrm/compiler/dlrm.py:126-130, 148-152).  The subtraction of Python can be negative, hence the
last condition. -/
def Bank.find (b : Bank) (round words : Nat) : Option Nat :=
  (List.range b.numCh).find? fun c =>
    decide (b.rounds c < round) && decide (words ≤ b.cap - b.used c) && decide (b.used c ≤ b.cap)

/-- Taking the channel (rad-sim/example-designs/dlrm/compiler/dlrm.py:131-145, 153-168). -/
def Bank.put (b : Bank) (c : Nat) (r : Row) : Bank :=
  { b with
    tables := addTable c ⟨r, b.used c⟩ b.tables
    used := upd b.used c (b.used c + r.words)
    rounds := upd b.rounds c (b.rounds c + 1) }

/-- The loop `while not allocated` (rad-sim/example-designs/dlrm/compiler/dlrm.py:125-171) for one table; gives `none` when
it has not ended after `fuel` rounds. -/
def allocOne (r : Row) : Nat → Bank × Bank × Nat → Option (Bank × Bank × Nat)
  | 0, _ => none
  | fuel + 1, (ddr, hbm, round) =>
    match ddr.find round r.words with
    | some c => some (ddr.put c r, hbm, round)
    | none =>
      match hbm.find round r.words with
      | some c => some (ddr, hbm.put c r, round)
      | none => allocOne r fuel (ddr, hbm, round + 1)

/-- `greedy_allocation` (rad-sim/example-designs/dlrm/compiler/dlrm.py:121-171). -/
def alloc (fuel : Nat) : List Row → Bank × Bank × Nat → Option (Bank × Bank × Nat)
  | [], s => some s
  | r :: rs, s =>
    match allocOne r fuel s with
    | none => none
    | some s' => alloc fuel rs s'

/-- A bank with nothing in it (rad-sim/example-designs/dlrm/compiler/dlrm.py:30-38). -/
def Bank.fresh (numCh cap : Nat) : Bank := ⟨numCh, cap, fun _ => 0, fun _ => 0, []⟩

/-- A table as the loops over rounds and channels come to it (rad-sim/example-designs/dlrm/compiler/dlrm.py:453-455,
483-486): whether it lies in DDR, the number of its FIFO (`ch + 1` with
`ch = ddr_channels + c` for HBM), its base and its row. -/
structure Tab where
  ddr : Bool
  fifo : Nat
  base : Nat
  row : Row
  deriving DecidableEq, Repr

/-- The tables of one bank in one round. -/
def roundOf (isDdr : Bool) (off : Nat) (round : Nat) (ts : List (Nat × List Placed)) : List Tab :=
  ts.filterMap fun x => (x.2[round]?).map fun p => ⟨isDdr, off + x.1 + 1, p.base, p.row⟩

/-- The number of rounds: the longest list. -/
def numRounds (ts : List (Nat × List Placed)) : Nat := ts.foldl (fun m x => max m x.2.length) 0

/-- The order in which tables are visited (rad-sim/example-designs/dlrm/compiler/dlrm.py:266-301 and 452-515). -/
def visit (ddr hbm : Bank) : List Tab :=
  (List.range (max (numRounds ddr.tables) (numRounds hbm.tables))).flatMap fun r =>
    roundOf true 0 r ddr.tables ++ roundOf false ddr.numCh r hbm.tables

/-- `running_byte_count` (in elements), `schedule_step` and `schedule`
(rad-sim/example-designs/dlrm/compiler/dlrm.py:446-451). -/
structure Sched where
  running : Nat
  step : List Nat
  lines : List (List Nat)
  deriving DecidableEq, Repr

/-- The numbers added for part `i` of `q` of a table wider than a vector
(rad-sim/example-designs/dlrm/compiler/dlrm.py:458-470 for DDR, 489-502 for HBM, where line 493 adds a number of its
own). -/
def partNums (nd : Nat) (t : Tab) (q i : Nat) : List Nat :=
  [t.fifo, i * nd, (i + 1) * nd - 1] ++ (if t.ddr then [] else [if i = q then 1 else 0]) ++
    [if i = q - 1 then 1 else 0]

/-- One table (rad-sim/example-designs/dlrm/compiler/dlrm.py:455-481 and 486-513). -/
def addTab (nd : Nat) (s : Sched) (t : Tab) : Sched :=
  let s1 : Sched :=
    if nd < t.row.len then
      { running := 0
        step := []
        lines := s.lines ++ (List.range (t.row.len / nd)).map fun i =>
          (if i = 0 then s.step else []) ++ partNums nd t (t.row.len / nd) i }
    else
      { s with
        running := s.running + t.row.len
        step := s.step ++ [t.fifo, 0, t.row.len - 1, 1] }
  if s1.running = nd then { running := 0, step := [], lines := s1.lines ++ [s1.step] } else s1

/-- The rest of the last vector, and vectors of zeros up to a multiple of
`native_dim * num_mvms[0]` (rad-sim/example-designs/dlrm/compiler/dlrm.py:517-540); `total` is `input_dim`. -/
def closeSched (nd mvms total : Nat) (s : Sched) : List (List Nat) :=
  let padded := (total + nd * mvms - 1) / (nd * mvms) * (nd * mvms)
  if 0 < s.running ∧ s.running < nd then
    s.lines ++ [s.step ++ [0, 0, nd - s.running - 1, 0]] ++
      List.replicate ((padded - (total + (nd - s.running))) / nd) [0, 0, nd - 1, 0]
  else s.lines ++ List.replicate ((padded - total) / nd) [0, 0, nd - 1, 0]

/-- Reading a line back (rad-sim/example-designs/dlrm/modules/custom_feature_interaction.cpp:27-37): numbers in fours; a
fourth number other than 0 and 1 does not read as a `bool`, and an incomplete four
ends the line. -/
def parseLine : List Nat → Inst
  | f :: s :: e :: p :: r => if p ≤ 1 then ⟨f, s, e, p == 1⟩ :: parseLine r else []
  | _ => []

/-- The instructions of the feature-interaction module, as it reads them. -/
def compile (nd mvms : Nat) (tabs : List Tab) : List Inst :=
  (closeSched nd mvms (tabs.map fun t => t.row.len).sum
    (tabs.foldl (addTab nd) ⟨0, [], []⟩)).map parseLine

end RadSim.Dlrm
