import Verif.Model.NpuRegFile

/-!
# The adapters between FIFOs and AXI streams of the example design `npu`

Models `rad-sim/example-designs/npu/modules/axis_fifo_adapters.cpp`: `axis_master_fifo_adapter` cuts the word at the end of a FIFO (for all
cores together) into transfers, `axis_slave_fifo_adapter` puts them together again.

Simplifications: a bit vector is a function from positions to bits. The fields `tstrb`, `tkeep`, `tdest` and `tid`, which are the same in
all transfers of an adapter, are left out. Of the three kinds of write-back and forward interfaces `VEW_WRITEBACK_INTERFACE`, which no
module of the design uses, is left out. The loops that set disjoint ranges of a bit vector are given in closed form. -/

namespace RadSim.Npu

/-- `sc_bv`, of any width. -/
abbrev Bv := Nat → Bool

/-- `b.range(lo + n - 1, lo)`, as a value, `rad-sim/example-designs/npu/modules/axis_fifo_adapters.cpp:136`; with zeros above. -/
def Bv.slice (b : Bv) (lo n : Nat) : Bv := fun i => if i < n then b (lo + i) else false

/-- `b.range(lo + n - 1, lo) = v`, `rad-sim/example-designs/npu/modules/axis_fifo_adapters.cpp:382`. -/
def Bv.put (b : Bv) (lo n : Nat) (v : Bv) : Bv := fun i => if lo ≤ i ∧ i < lo + n then v (i - lo) else b i

/-- What the two adapters of a link have in common, `rad-sim/example-designs/npu/modules/axis_fifo_adapters.cpp:10-27` and `266-285`: whether it
is an interface for write-backs, `payload_bitwidth`, `interface_dataw`, `transfers_per_axis_packet`. -/
structure Link where
  wb : Bool
  w : Nat
  d : Nat
  T : Nat

/-- One transfer. -/
structure Transfer where
  data : Bv
  user : Bv
  last : Bool

/-- `VRF_WB_SELW`, `VRF_ADDRW`, `rad-sim/example-designs/npu/modules/params.hpp:48-59`; `vrf_id_start_idx`, `addr_start_idx`, `flag_idx`,
`rad-sim/example-designs/npu/modules/axis_fifo_adapters.cpp:121-123`. -/
def Link.idAt (L : Link) : Nat := L.w - 4
def Link.addrAt (L : Link) : Nat := L.w - 13
def Link.flagAt (L : Link) : Nat := L.w - 14

/-- The bits of transfer `k`, `end_idx - start_idx`, `rad-sim/example-designs/npu/modules/axis_fifo_adapters.cpp:131-132`. -/
def Link.width (L : Link) (k : Nat) : Nat := min ((k + 1) * L.d) L.w - k * L.d

/-- Transfer `k` of a payload, `rad-sim/example-designs/npu/modules/axis_fifo_adapters.cpp:129-158`. The fields of `tuser` are the macros in
`params.hpp:98-101`. -/
def Link.transfer (L : Link) (p : Bv) (k : Nat) : Transfer where
  data := p.slice (k * L.d) (L.width k)
  user := if L.wb then
      (Bv.put (Bv.put (Bv.put (fun _ => false) 0 1 (p.slice L.flagAt 1)) 1 9 (p.slice L.addrAt 9)) 10 4 (p.slice L.idAt 4))
    else fun _ => false
  last := k + 1 == L.T

/-- `insert_payload_into_buffer`, `rad-sim/example-designs/npu/modules/axis_fifo_adapters.cpp:118-160`. -/
def Link.split (L : Link) (p : Bv) : List Transfer := (List.range L.T).map (L.transfer p)

/-! ## The master -/

/-- The registers of the master, `rad-sim/example-designs/npu/modules/axis_fifo_adapters.hpp:18-33`, with `tvalid` and the other fields of its
port. -/
structure AxM where
  buf : List Transfer
  occ : Nat
  valid : Bool
  front : Transfer

/-- `buffer_full`, `rad-sim/example-designs/npu/modules/axis_fifo_adapters.cpp:46-49`, with `AXIS_ADAPTER_BUFFER_CAPACITY` 2. -/
def AxM.full (L : Link) (s : AxM) : Bool := decide (2 * L.T - L.T < s.occ)

/-- `axis_master_fifo_adapter::Tick`, `rad-sim/example-designs/npu/modules/axis_fifo_adapters.cpp:163-235`, and the read enable of `Assign`,
lines 238-243. The inputs are the word at the end of the FIFOs if they are ready, as a payload, and `tready`; the outputs are the
transfer that is done in this cycle and the next state. `none`: the assertion in line 157 or in line 207 fails. -/
def AxM.tick (L : Link) (s : AxM) (src : Option Bv) (ready : Bool) : Option (Option Transfer × AxM) :=
  let taken := if s.full L then none else src
  let buf1 := match taken with | some p => s.buf ++ L.split p | none => s.buf
  if taken.isSome && decide (2 * L.T < buf1.length) then none
  else
    let valid1 := if taken.isSome then true else s.valid
    let front1 := if taken.isSome then buf1.headD s.front else s.front
    let occ1 := if taken.isSome then s.occ + L.T else s.occ
    if s.valid && ready then
      if s.occ = 0 ∨ buf1 = [] then none
      else
        let buf2 := buf1.tail
        some (some s.front, ⟨buf2, occ1 - 1, !buf2.isEmpty, buf2.headD front1⟩)
    else some (none, ⟨buf1, occ1, valid1, front1⟩)

/-! ## The slave -/

/-- The registers of the slave, `rad-sim/example-designs/npu/modules/axis_fifo_adapters.hpp:62-76`: its buffer, the payload that is
put together, the number of its transfers that have come, and the payload given as `fifo_rdata`. -/
structure AxS where
  buf : List Bv
  occ : Nat
  acc : Bv
  count : Nat
  rdata : Bv

/-- The payload with a transfer put in, `rad-sim/example-designs/npu/modules/axis_fifo_adapters.cpp:378-404`. -/
def AxS.take (L : Link) (s : AxS) (x : Transfer) : Bv :=
  let a := s.acc.put (s.count * L.d) (L.width s.count) x.data
  if s.count + 1 = L.T ∧ L.wb = true then
    ((a.put L.idAt 4 (x.user.slice 10 4)).put L.addrAt 9 (x.user.slice 1 9)).put L.flagAt 1 (x.user.slice 0 1)
  else a

/-- `tready`, `rad-sim/example-designs/npu/modules/axis_fifo_adapters.cpp:445`. -/
def AxS.ready (s : AxS) : Bool := decide (s.occ < 2)

/-- `fifo_rdy`, `rad-sim/example-designs/npu/modules/axis_fifo_adapters.cpp:446`. -/
def AxS.rdy (s : AxS) : Bool := decide (0 < s.occ)

/-- `axis_slave_fifo_adapter::Tick`, `rad-sim/example-designs/npu/modules/axis_fifo_adapters.cpp:364-436`. The inputs are the transfer at the port, if
`tvalid`, and `fifo_ren`; the outputs are the payload that is read in this cycle and the next state. `none`: a pop of an empty queue. -/
def AxS.tick (L : Link) (s : AxS) (x : Option Transfer) (ren : Bool) : Option (Option Bv × AxS) :=
  let x := if s.ready then x else none
  let acc := match x with | some x => s.take L x | none => s.acc
  let done := x.isSome && s.count + 1 == L.T
  let count := match x with | some _ => if done then 0 else s.count + 1 | none => s.count
  let buf1 := if done then s.buf ++ [acc] else s.buf
  let pop := ren && s.rdy
  if pop = true ∧ buf1 = [] then none
  else
    let buf2 := if pop then buf1.tail else buf1
    some (if pop then some s.rdata else none,
      { buf := buf2
        occ := if done && !pop then s.occ + 1 else if !done && pop then s.occ - 1 else s.occ
        acc := acc
        count := count
        rdata := buf2.headD s.rdata })

/-! ## The two, with a channel between them -/

/-- A cycle: the word at the end of the FIFOs before the master, whether the channel takes a transfer, whether it gives one, and the
read enable behind the slave. -/
structure LinkIn where
  src : Option Bv
  accept : Bool
  give : Bool
  ren : Bool

/-- The adapters, and what is under way between them. The channel is any that keeps the order of the transfers, such as the NoC with its
adapters. -/
structure LinkSt where
  m : AxM
  chan : List Transfer
  s : AxS

/-- A cycle of the three. What is given to the module behind, and the next state. -/
def LinkSt.tick (L : Link) (t : LinkSt) (i : LinkIn) : Option (Option Bv × LinkSt) :=
  match t.m.tick L i.src i.accept with
  | none => none
  | some (x, m) =>
    match t.s.tick L (if i.give then t.chan.head? else none) i.ren with
    | none => none
    | some (y, s) =>
      some (y, ⟨m, (if i.give && t.s.ready then t.chan.tail else t.chan) ++ x.toList, s⟩)

/-- What is taken from the FIFOs in a cycle, `rad-sim/example-designs/npu/modules/axis_fifo_adapters.cpp:238-243`. -/
def LinkSt.taken (L : Link) (t : LinkSt) (i : LinkIn) : Option Bv := if t.m.full L then none else i.src

/-- A run: what is taken, what is given, and the last state. -/
def LinkSt.run (L : Link) : LinkSt → List LinkIn → Option (List Bv × List Bv × LinkSt)
  | t, [] => some ([], [], t)
  | t, i :: es =>
    match t.tick L i with
    | none => none
    | some (y, t') =>
      match t'.run L es with
      | none => none
      | some (a, b, t'') => some ((t.taken L i).toList ++ a, y.toList ++ b, t'')

/-- After the reset, `rad-sim/example-designs/npu/modules/axis_fifo_adapters.cpp:165-169` and `366-370`: the other registers have any values. -/
def LinkSt.reset (f : Transfer) (acc rdata : Bv) : LinkSt := ⟨⟨[], 0, false, f⟩, [], ⟨[], 0, acc, 0, rdata⟩⟩

/-! ## The words -/

/-- The number with the given bits. -/
def ofBits {e : Nat} (f : Fin e → Bool) : BitVec e := (BitVec.iunfoldr (fun i _ => ((), f i)) ()).2

/-- `data_fifo_to_sc_bitvector`, `rad-sim/example-designs/npu/modules/axis_fifo_adapters.cpp:53-106`, for `FEEDFORWARD_INTERFACE`: the words of the cores
one after the other, each of `n` elements of `e` bits. -/
def packWords (e n : Nat) (ws : List (List (BitVec e))) : Bv := fun i =>
  match ws[i / (n * e)]? with
  | none => false
  | some w => ((w[i % (n * e) / e]?).getD 0).getLsbD (i % (n * e) % e)

/-- `sc_bitvector_to_data_fifo`, `rad-sim/example-designs/npu/modules/axis_fifo_adapters.cpp:307-351`, for `FEEDFORWARD_INTERFACE` and `c` cores. -/
def unpackWords (e n c : Nat) (p : Bv) : List (List (BitVec e)) :=
  (List.range c).map fun k => (List.range n).map fun j => ofBits fun (b : Fin e) => p (k * n * e + j * e + b)

/-- The same for `MVU_WRITEBACK_INTERFACE`, lines 60-65 and 93-105: the first four elements of a word are the identifier of the register file,
the address in two parts and the flag of a tag update; those of the first core are put above the rest. -/
def packWriteback (n : Nat) (ws : List (List (BitVec 8))) : Bv :=
  let w := ws.length * n * 8 + 14
  let h := ws.headD []
  let e (k : Nat) : Bv := fun i => ((h[k]?).getD 0).getLsbD i
  ((((packWords 8 n (ws.map (·.drop 4))).put (w - 4) 4 (e 0)).put (w - 13) 8 (e 1)).put (w - 5) 1 (e 2)).put (w - 14) 1
    fun _ => decide ((h[3]?).getD 0 ≠ 0)

/-- And back, lines 338-348. -/
def unpackWriteback (n c : Nat) (p : Bv) : List (List (BitVec 8)) :=
  let w := c * n * 8 + 14
  (unpackWords 8 n c p).map fun x =>
    ofBits (fun (b : Fin 8) => p.slice (w - 4) 4 b) :: ofBits (fun (b : Fin 8) => p (w - 13 + b)) ::
      ofBits (fun (b : Fin 8) => p.slice (w - 5) 1 b) :: ofBits (fun (b : Fin 8) => p.slice (w - 14) 1 b) :: x

end RadSim.Npu
