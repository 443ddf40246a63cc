/-!
# Configuration knobs

Models `rad-sim/sim/radsim_config.cpp`: the maps of `RADSimConfig` (lines 11-279) and the parser
`ParseRADSimKnobs` (lines 343-463). The twelve maps (six value types, shared and per RAD) are two
functions of kind and name; a map of a kind only ever receives values of that kind, because a write
goes to the map of the kind of its value. Numbers are read by `std::stoi` and `std::stod`, which
are parameters of the parser (`none` is a thrown exception).
-/

namespace RadSim.Config

/-- Type of a knob, one per group of maps (`rad-sim/sim/radsim_config.hpp:15-28`). -/
inductive Kind
  | int | dbl | str | ints | dbls | strs
  deriving DecidableEq, Repr

/-- A value of one of the six types; `D` is `double`. -/
inductive Val (D : Type)
  | int (x : Int)
  | dbl (x : D)
  | str (x : List Char)
  | ints (x : List Int)
  | dbls (x : List D)
  | strs (x : List (List Char))
  deriving DecidableEq, Repr

/-- The kind of a value. -/
def Val.kind {D : Type} : Val D → Kind
  | .int _ => .int
  | .dbl _ => .dbl
  | .str _ => .str
  | .ints _ => .ints
  | .dbls _ => .dbls
  | .strs _ => .strs

/-- How a call can end badly: `exit(1)`, undefined behaviour, uncaught exception. -/
inductive Err
  | exit1 | undefined | exception
  deriving DecidableEq, Repr

variable {D : Type}

/-- Members of `RADSimConfig`, `rad-sim/sim/radsim_config.hpp:15-28`. -/
structure Cfg (D : Type) where
  shared : Kind → List Char → Option (Val D)
  perRad : List (Kind → List Char → Option (Val D))

/-- After `ResizeAll`, `rad-sim/sim/radsim_config.cpp:11-18`. -/
def init (numRads : Nat) : Cfg D := ⟨fun _ _ => none, List.replicate numRads fun _ _ => none⟩

/-- Map assignment. -/
def putKey (m : Kind → List Char → Option (Val D)) (name : List Char) (v : Val D) :
    Kind → List Char → Option (Val D) :=
  fun k n => if k = v.kind ∧ n = name then some v else m k n

/-- A call of one of the twelve `Add...Knob...` functions, `rad-sim/sim/radsim_config.cpp:22-86`;
`rad = none` are the shared ones. -/
structure Write (D : Type) where
  rad : Option Nat
  name : List Char
  val : Val D
  deriving DecidableEq, Repr

/-- Effect of a write; a RAD number out of range indexes past the vector. -/
def write (c : Cfg D) (w : Write D) : Except Err (Cfg D) :=
  match w.rad with
  | none => .ok { c with shared := putKey c.shared w.name w.val }
  | some r =>
    if r < c.perRad.length then .ok { c with perRad := c.perRad.modify r fun m => putKey m w.name w.val }
    else .error .undefined

/-- `Get...KnobShared` without index, `rad-sim/sim/radsim_config.cpp:89-179`: `exit(1)` when missing. -/
def getShared (c : Cfg D) (k : Kind) (name : List Char) : Except Err (Val D) :=
  match c.shared k name with
  | none => .error .exit1
  | some v => .ok v

/-- `Get...KnobPerRad` without index, `rad-sim/sim/radsim_config.cpp:183-279`. -/
def getPerRad (c : Cfg D) (k : Kind) (name : List Char) (rad : Nat) : Except Err (Val D) :=
  match c.perRad[rad]? with
  | none => .error .undefined
  | some m =>
    match m k name with
    | none => .error .exit1
    | some v => .ok v

/-- Indexed element access of the vector getters, e.g. `rad-sim/sim/radsim_config.cpp:219`: no
bounds check. -/
def at? {α : Type} (l : List α) (i : Nat) : Except Err α :=
  match l[i]? with
  | none => .error .undefined
  | some x => .ok x

/-- `std::getline(ss, token, ' ')`: fails at the end of the stream, otherwise reads up to and
including the next blank. -/
def getTok : List Char → Option (List Char × List Char)
  | [] => none
  | c :: cs =>
    if c = ' ' then some ([], cs)
    else
      match getTok cs with
      | none => some ([c], [])
      | some (t, r) => some (c :: t, r)

theorem getTok_shorter : ∀ (l t r : List Char), getTok l = some (t, r) → r.length < l.length
  | [], _, _, h => by cases h
  | c :: cs, t, r, h => by
    unfold getTok at h
    split at h
    · cases h; simp
    · cases hg : getTok cs with
      | none => rw [hg] at h; cases h; simp
      | some x =>
        rw [hg] at h
        have := getTok_shorter cs x.1 x.2 hg
        cases h
        simp only [List.length_cons]
        omega

/-- `while (getline(ss, element, ' '))`: all remaining tokens. -/
def allToks (l : List Char) : List (List Char) :=
  match h : getTok l with
  | none => []
  | some (t, r) => t :: allToks r
termination_by l.length
decreasing_by exact getTok_shorter l t r h

/-- One token; a failing `getline` leaves the empty string. -/
def oneTok (l : List Char) : List Char × List Char := (getTok l).getD ([], [])

/-- The branches of the chain of `if`s, `rad-sim/sim/radsim_config.cpp:359-461`. -/
inductive Cls
  | strShared | strPerRad | intShared | intPerRad | intsPerRad | dblShared | dblsPerRad | traces
  | strsPerRad | ignored
  deriving DecidableEq, Repr

/-- The conditions of that chain. -/
def classify (n : List Char) : Option Cls :=
  if n = "radsim_root_dir".toList ∨ n = "cluster_topology".toList then some .strShared
  else if n = "radsim_user_design_root_dir".toList ∨ n = "design_name".toList then some .strPerRad
  else if n = "telemetry_log_verbosity".toList ∨ n = "num_rads".toList ∨
      n = "inter_rad_latency_cycles".toList ∨ n = "inter_rad_fifo_num_slots".toList ∨
      n = "inter_rad_bw_accept_cycles".toList ∨ n = "inter_rad_bw_total_cycles".toList then some .intShared
  else if n = "noc_num_nocs".toList ∨ n = "dram_num_controllers".toList then some .intPerRad
  else if n = "noc_payload_width".toList ∨ n = "noc_vcs".toList ∨ n = "noc_num_nodes".toList ∨
      n = "noc_adapters_fifo_size".toList ∨ n = "noc_adapters_obuff_size".toList ∨
      n = "dram_queue_sizes".toList then some .intsPerRad
  else if n = "sim_driver_period".toList then some .dblShared
  else if n = "noc_clk_period".toList ∨ n = "noc_adapters_clk_period".toList ∨
      n = "design_clk_periods".toList ∨ n = "dram_clk_periods".toList then some .dblsPerRad
  else if n = "telemetry_traces".toList then some .traces
  else if n = "design_noc_placement".toList ∨ n = "noc_adapters_in_arbiter".toList ∨
      n = "noc_adapters_out_arbiter".toList ∨ n = "noc_adapters_vc_mapping".toList ∨
      n = "dram_config_files".toList then some .strsPerRad
  else if n = "cluster_configs".toList then some .ignored
  else none

/-- An exception of `stoi` or `stod`. -/
def need {α : Type} : Option α → Except Err α
  | none => .error .exception
  | some x => .ok x

/-- `unsigned int rad_id = std::stoi(...)`. -/
def toRad (x : Int) : Nat := (x % 2 ^ 32).toNat

/-- The writes made for one line of the file, `rad-sim/sim/radsim_config.cpp:349-461`. -/
def lineWrites (stoi : List Char → Option Int) (stod : List Char → Option D) (line : List Char) :
    Except Err (List (Write D)) := do
  let (name, l) := oneTok line
  match classify name with
  | none => .error .exit1
  | some .ignored => .ok []
  | some .strShared => .ok [⟨none, name, .str (oneTok l).1⟩]
  | some .strPerRad =>
    let (r, l) := oneTok l
    let rad ← need (stoi r)
    .ok [⟨some (toRad rad), name, .str (oneTok l).1⟩]
  | some .intShared =>
    let v ← need (stoi (oneTok l).1)
    .ok [⟨none, name, .int v⟩]
  | some .intPerRad =>
    let (r, l) := oneTok l
    let rad ← need (stoi r)
    let v ← need (stoi (oneTok l).1)
    .ok [⟨some (toRad rad), name, .int v⟩]
  | some .intsPerRad =>
    let (r, l) := oneTok l
    let rad ← need (stoi r)
    let vs ← (allToks l).mapM fun t => need (stoi t)
    .ok [⟨some (toRad rad), name, .ints vs⟩]
  | some .dblShared =>
    let v ← need (stod (oneTok l).1)
    .ok [⟨none, name, .dbl v⟩]
  | some .dblsPerRad =>
    let (r, l) := oneTok l
    let rad ← need (stoi r)
    let vs ← (allToks l).mapM fun t => need (stod t)
    .ok [⟨some (toRad rad), name, .dbls vs⟩]
  | some .traces =>
    .ok [⟨none, name, .strs (allToks l)⟩,
         ⟨none, "telemetry_num_traces".toList, .int (allToks l).length⟩]
  | some .strsPerRad =>
    let (r, l) := oneTok l
    let rad ← need (stoi r)
    .ok [⟨some (toRad rad), name, .strs (allToks l)⟩]

/-- One line. -/
def parseLine (stoi : List Char → Option Int) (stod : List Char → Option D) (c : Cfg D)
    (line : List Char) : Except Err (Cfg D) := do
  let ws ← lineWrites stoi stod line
  ws.foldlM write c

/-- `ParseRADSimKnobs`, `rad-sim/sim/radsim_config.cpp:343-463`, on the lines of the file. -/
def parseFile (stoi : List Char → Option Int) (stod : List Char → Option D) (numRads : Nat)
    (lines : List (List Char)) : Except Err (Cfg D) :=
  lines.foldlM (parseLine stoi stod) (init numRads)

/-- A knob as `rad-sim/config.py` holds it: name, RAD unless shared, and the printed value or values. -/
structure Rec where
  name : List Char
  rad : Option (List Char)
  scalar : Bool
  toks : List (List Char)
  deriving DecidableEq, Repr

/-- The line written for a knob by `generate_radsim_config_file`, `rad-sim/config.py:336-342` and
`360-367`: name, RAD, then a scalar without or the list elements each with a trailing blank. -/
def writeRec (r : Rec) : List Char :=
  r.name ++ [' '] ++
    (match r.rad with
     | none => []
     | some x => x ++ [' ']) ++
    (if r.scalar then (r.toks.headD []) else r.toks.flatMap fun t => t ++ [' '])

end RadSim.Config
