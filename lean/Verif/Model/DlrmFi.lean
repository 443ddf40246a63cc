/-
Model of the feature-interaction module of the DLRM example design
(`/repo/rad-sim/example-designs/dlrm/modules/custom_feature_interaction.cpp`).

The module receives 512-bit words read from the embedding tables, one FIFO per
memory channel, assembles vectors out of them as a list of instructions says,
and sends the vectors to the MVMs of the first layer, one FIFO per MVM.

Simplifications
* The element width is 16 bits, as `rad-sim/example-designs/dlrm/dlrm_top.cpp:6` sets it.  An element
  (`int16_t`) is kept as its bit pattern, a natural number below `2^16`; the
  module only moves elements about, so signs play no part.
* Ports are modelled by what they carry at a rising clock edge.  `tuser`, `tid`
  and `tdest` (constant per channel) are left out, and so are the debug file and
  the counters that are only printed.
* Reading an empty `std::queue`, popping it, or reading past the end of a vector
  is undefined behaviour in C++; the model ends in `Fail.ub`.  A failing `assert`
  ends in `Fail.assertion`.
-/
namespace RadSim.Dlrm

/-- The elements of one word; bit patterns of `int16_t`s (`data_vector<int16_t>`,
rad-sim/example-designs/dlrm/modules/sim_utils.hpp:19-43). -/
abbrev Vec := List Nat

/-- What can go wrong in one clock period. -/
inductive Fail where
  | ub
  | assertion
  deriving DecidableEq, Repr

/-- One step of an instruction, the four numbers read at
rad-sim/example-designs/dlrm/modules/custom_feature_interaction.cpp:30-34: which FIFO (0 stands for zeros, `f` for
channel `f-1`), the first and the last element, and whether to pop the FIFO. -/
structure Step where
  fifo : Nat
  start : Nat
  stop : Nat
  pop : Bool
  deriving DecidableEq, Repr

/-- An instruction is a line of the file (rad-sim/example-designs/dlrm/modules/custom_feature_interaction.cpp:27-37). -/
abbrev Inst := List Step

/-- The parameters of the constructor (rad-sim/example-designs/dlrm/modules/custom_feature_interaction.cpp:41-57). -/
structure Cfg where
  /-- `_num_mem_channels` -/
  numCh : Nat
  /-- `_fifos_depth` -/
  depth : Nat
  /-- `_num_output_channels` -/
  numOut : Nat
  /-- `_num_input_elements` -/
  inElems : Nat
  /-- `_num_output_elements` -/
  outElems : Nat
  /-- `_instructions` -/
  prog : List Inst

/-- `bv_to_data_vector` (rad-sim/example-designs/dlrm/modules/custom_feature_interaction.cpp:111-121): element `e` is
bits `16e .. 16e+15`. -/
def unpack : Nat → Nat → Vec
  | 0, _ => []
  | n + 1, bits => bits % 2 ^ 16 :: unpack n (bits / 2 ^ 16)

/-- `data_vector_to_bv` (rad-sim/example-designs/dlrm/modules/custom_feature_interaction.cpp:123-133) on a bit vector
that starts as zero (line 254). -/
def pack : Vec → Nat
  | [] => 0
  | x :: xs => x % 2 ^ 16 + 2 ^ 16 * pack xs

/-- The state of the module between two rising edges: the FIFOs, the signals
`_ififo_empty`, `_ififo_full`, `_ofifo_full`, `_dest_ofifo` and `_pc`, and the
output ports `tvalid` and `tdata` (custom_feature_interaction.hpp; written at
rad-sim/example-designs/dlrm/modules/custom_feature_interaction.cpp:148-287). -/
structure FiSt where
  inF : Nat → List Vec
  outF : Nat → List Vec
  empty : Nat → Bool
  full : Nat → Bool
  ofull : Nat → Bool
  tvalid : Nat → Bool
  tdata : Nat → Nat
  dest : Nat
  pc : Nat

/-- After reset (rad-sim/example-designs/dlrm/modules/custom_feature_interaction.cpp:149-168). -/
def fiInit : FiSt where
  inF := fun _ => []
  outF := fun _ => []
  empty := fun _ => true
  full := fun _ => false
  ofull := fun _ => false
  tvalid := fun _ => false
  tdata := fun _ => 0
  dest := 0
  pc := 0

/-- What the environment shows at a rising edge. -/
structure FiIn where
  rvalid : Nat → Bool
  rdata : Nat → Nat
  tready : Nat → Bool

/-- `Assign` (rad-sim/example-designs/dlrm/modules/custom_feature_interaction.cpp:96-109), out of reset: `rready`. -/
def rready (s : FiSt) (c : Nat) : Bool := !s.full c

/-- `_fifos_depth - k` as computed with `unsigned int`
(rad-sim/example-designs/dlrm/modules/custom_feature_interaction.cpp:279, 283). -/
def mark (depth k : Nat) : Nat := if k ≤ depth then depth - k else 2 ^ 32 + depth - k

/-- Accepting a response (rad-sim/example-designs/dlrm/modules/custom_feature_interaction.cpp:176-190).  The code does
not look at `rready`. -/
def accept (cfg : Cfg) (i : FiIn) (f : Nat → List Vec) (c : Nat) : List Vec :=
  if c < cfg.numCh ∧ (f c).length < cfg.depth ∧ i.rvalid c = true then
    f c ++ [unpack cfg.inElems (i.rdata c)]
  else f c

/-- `are_ififos_ready` (rad-sim/example-designs/dlrm/modules/custom_feature_interaction.cpp:135-146); an index past the
end of the vector of signals is undefined. -/
def ready (cfg : Cfg) (empty : Nat → Bool) : Inst → Except Fail Bool
  | [] => .ok true
  | st :: r =>
    if st.fifo = 0 then ready cfg empty r
    else if st.fifo - 1 < cfg.numCh then
      match ready cfg empty r with
      | .error e => .error e
      | .ok b => .ok (!empty (st.fifo - 1) && b)
    else .error .ub

/-- The copying loop of one step (rad-sim/example-designs/dlrm/modules/custom_feature_interaction.cpp:212-216): `n` is
the number of elements still to copy, `e` the next one, `acc` the elements
already in the output vector. -/
def copy (cfg : Cfg) (tmp : Vec) : Nat → Nat → Vec → Except Fail Vec
  | 0, _, acc => .ok acc
  | n + 1, e, acc =>
    if acc.length < cfg.outElems then
      match tmp[e]? with
      | none => .error .ub
      | some x => copy cfg tmp n (e + 1) (acc ++ [x])
    else .error .assertion

/-- One list of a family replaced. -/
def upd {α : Type} (f : Nat → α) (c : Nat) (v : α) : Nat → α :=
  fun d => if d = c then v else f d

/-- The loop over the steps of an instruction
(rad-sim/example-designs/dlrm/modules/custom_feature_interaction.cpp:201-217). -/
def steps (cfg : Cfg) : Inst → (Nat → List Vec) → Vec → Except Fail ((Nat → List Vec) × Vec)
  | [], f, acc => .ok (f, acc)
  | st :: r, f, acc =>
    if st.fifo = 0 then
      match copy cfg (List.replicate cfg.inElems 0) (st.stop + 1 - st.start) st.start acc with
      | .error e => .error e
      | .ok acc' => steps cfg r f acc'
    else
      match f (st.fifo - 1) with
      | [] => .error .ub
      | v :: q =>
        match copy cfg v (st.stop + 1 - st.start) st.start acc with
        | .error e => .error e
        | .ok acc' => steps cfg r (if st.pop then upd f (st.fifo - 1) q else f) acc'

/-- `data_vector(unsigned int size)` fills with zeros (rad-sim/example-designs/dlrm/modules/sim_utils.cpp:6-8), so what
the copying does not reach stays zero (rad-sim/example-designs/dlrm/modules/custom_feature_interaction.cpp:196). -/
def fillUp (cfg : Cfg) (v : Vec) : Vec := v ++ List.replicate (cfg.outElems - v.length) 0

/-- The part between accepting and sending (rad-sim/example-designs/dlrm/modules/custom_feature_interaction.cpp:192-237):
run an instruction if its FIFOs were not empty and the destination FIFO was not
full when the last period ended. -/
def execute (cfg : Cfg) (s : FiSt) : Except Fail FiSt :=
  match cfg.prog[s.pc]? with
  | none => .error .ub
  | some inst =>
    match ready cfg s.empty inst with
    | .error e => .error e
    | .ok false => .ok s
    | .ok true =>
      if s.dest < cfg.numOut then
        if s.ofull s.dest then .ok s
        else
          match steps cfg inst s.inF [] with
          | .error e => .error e
          | .ok (f, v) => .ok
            { s with
              inF := f
              outF := upd s.outF s.dest (s.outF s.dest ++ [fillUp cfg v])
              dest := if s.dest = cfg.numOut - 1 then 0 else s.dest + 1
              pc := if s.pc = cfg.prog.length - 1 then 0 else s.pc + 1 }
      else .error .ub

/-- The output FIFO of one channel after the handshake
(rad-sim/example-designs/dlrm/modules/custom_feature_interaction.cpp:242-248). -/
def drained (s : FiSt) (i : FiIn) (c : Nat) : List Vec :=
  if i.tready c && s.tvalid c then (s.outF c).tail else s.outF c

/-- Whether the pop at rad-sim/example-designs/dlrm/modules/custom_feature_interaction.cpp:247 meets an empty queue. -/
def popsEmpty (cfg : Cfg) (s : FiSt) (i : FiIn) : Bool :=
  (List.range cfg.numOut).any fun c => i.tready c && s.tvalid c && (s.outF c).isEmpty

/-- The rest of the period: the AXI-Stream ports and the FIFO signals
(rad-sim/example-designs/dlrm/modules/custom_feature_interaction.cpp:239-285). -/
def finish (cfg : Cfg) (s : FiSt) (i : FiIn) : Except Fail FiSt :=
  if popsEmpty cfg s i then .error .ub
  else .ok
    { s with
      outF := fun c => if c < cfg.numOut then drained s i c else s.outF c
      tvalid := fun c => if c < cfg.numOut then !(drained s i c).isEmpty else s.tvalid c
      tdata := fun c =>
        if c < cfg.numOut then
          match drained s i c with
          | [] => s.tdata c
          | v :: _ => pack v
        else s.tdata c
      empty := fun c => if c < cfg.numCh then (s.inF c).isEmpty else s.empty c
      full := fun c => if c < cfg.numCh then decide (mark cfg.depth 4 ≤ (s.inF c).length)
        else s.full c
      ofull := fun c =>
        if c < cfg.numOut then decide (mark cfg.depth 2 ≤ (drained s i c).length)
        else s.ofull c }

/-- One turn of the loop of `Tick` (rad-sim/example-designs/dlrm/modules/custom_feature_interaction.cpp:174-287). -/
def fiTick (cfg : Cfg) (s : FiSt) (i : FiIn) : Except Fail FiSt :=
  match execute cfg { s with inF := accept cfg i s.inF } with
  | .error e => .error e
  | .ok s' => finish cfg s' i

/-- The state before period `n`, the environment showing `ins 0`, `ins 1`, … -/
def fiAt (cfg : Cfg) (ins : Nat → FiIn) : Nat → Except Fail FiSt
  | 0 => .ok fiInit
  | n + 1 =>
    match fiAt cfg ins n with
    | .error e => .error e
    | .ok s => fiTick cfg s (ins n)

/-- The words handed over on memory channel `c` in the periods before `n`: those
shown while `rvalid` and `rready` are both high. -/
def arrived (cfg : Cfg) (ins : Nat → FiIn) (c : Nat) : Nat → List Nat
  | 0 => []
  | n + 1 =>
    arrived cfg ins c n ++
      match fiAt cfg ins n with
      | .error _ => []
      | .ok s => if (ins n).rvalid c && rready s c then [(ins n).rdata c] else []

/-- The words handed over on output channel `c` in the periods before `n`: those
shown while `tvalid` and `tready` are both high. -/
def sent (cfg : Cfg) (ins : Nat → FiIn) (c : Nat) : Nat → List Nat
  | 0 => []
  | n + 1 =>
    sent cfg ins c n ++
      match fiAt cfg ins n with
      | .error _ => []
      | .ok s => if (ins n).tready c && s.tvalid c then [s.tdata c] else []

end RadSim.Dlrm
