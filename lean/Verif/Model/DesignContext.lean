import Mathlib.Data.Nat.Log

/-!
# Placement of ports on NoC nodes and memory-mapped base addresses

Models `rad-sim/sim/design_context.cpp:49-387` (placement part) and the address decoder
`rad-sim/sim/noc/aximm_slave_adapter.cpp:263-266`. Port names form an arbitrary type `P`, module
names a type `M`; text parsing of the placement file is not modelled, a line is given by its
fields. A failing `assert`, an undefined module and an out-of-range index are `none`.
-/

namespace RadSim.Design

variable {P M : Type} [DecidableEq P]

/-- `(int)ceil(log2(n))`, used in `rad-sim/sim/design_context.cpp:81-82` and, in Python, in
`rad-sim/config.py:244-245`. Floating-point `log2` is taken to be exact enough for `ceil`. -/
def ceilLog2 (n : Nat) : Nat := Nat.clog 2 n

/-- `max_num_nodes`, `rad-sim/sim/design_context.cpp:74-80`. -/
def maxNodes (numNodes : List Nat) : Nat := numNodes.foldl max 0

/-- `DetermineBaseAddress`, `rad-sim/sim/design_context.cpp:72-87`; `numNodes` holds the number of
nodes of every NoC. A 64-bit shift by 64 is undefined behaviour (`none`). -/
def baseAddress (numNodes : List Nat) (noc node : Nat) : Option (BitVec 64) :=
  let nocBits := ceilLog2 numNodes.length
  let nodeBits := ceilLog2 (maxNodes numNodes)
  let sh := 64 - nocBits - nodeBits
  if sh < 64 then some ((BitVec.ofNat 64 (noc * 2 ^ nodeBits + node)) <<< sh) else none

/-- `GetInputDestinationNode`, `rad-sim/sim/noc/aximm_slave_adapter.cpp:263-266`: the top
`AXI4_NODE_ADDRW` bits. -/
def decodeNode (nodeAddrW : Nat) (addr : BitVec 64) : Nat :=
  (addr.extractLsb' (64 - nodeAddrW) nodeAddrW).toNat

/-- `radsim_header_params["noc_num_nodes"]` after `generate_booksim_config_files`,
`rad-sim/config.py:90-143`: one list for the whole cluster, starting from the value `h0` in the
configuration file; every RAD in turn overwrites the entries of its NoCs. An index beyond the list
raises an exception (`none`). Mesh and torus topologies. -/
def headerNodes (h0 : List Nat) (rads : List (List Nat)) : Option (List Nat) :=
  rads.foldlM (fun h ns => if ns.length ≤ h.length then some (ns ++ h.drop ns.length) else none) h0

/-- `AXI4_NODE_ADDRW` as generated by `rad-sim/config.py:240-245,276`: from the largest entry of that
list. -/
def nodeAddrW (h0 : List Nat) (rads : List (List Nat)) : Option Nat :=
  (headerNodes h0 rads).map fun l => ceilLog2 (maxNodes l)

/-- The four ordered port lists of a `RADSimModule`, `rad-sim/sim/radsim_module.hpp:16-19`. -/
structure ModuleInfo (P : Type) where
  axisSlaves : List P
  axisMasters : List P
  mmSlaves : List P
  mmMasters : List P

/-- A line of the placement file: one port, or all ports of a module,
`rad-sim/sim/design_context.cpp:98-107` and `155-165`. -/
inductive Line (P M : Type)
  | port (p : P) (noc node : Nat) (axis : Bool)
  | module (m : M) (noc node : Nat) (axis : Bool)

/-- `_port_placement`, `_node_id_ports_list`, `_node_id_is_aximm`, `_aximm_port_base_addresses`
(`rad-sim/sim/design_context.hpp`). -/
structure Ctx (P : Type) where
  place : P → Option (Nat × Nat × Nat)
  ports : Nat × Nat → Option (List P)
  isMm : Nat × Nat → Option Bool
  base : P → Option (BitVec 64)

/-- Before parsing, all maps are empty. -/
def Ctx.empty : Ctx P := ⟨fun _ => none, fun _ => none, fun _ => none, fun _ => none⟩

/-- Map update. -/
def put {α β : Type} [DecidableEq α] (f : α → β) (a : α) (b : β) : α → β :=
  fun x => if x = a then b else f x

/-- The design: number of nodes per NoC and the registered modules. -/
structure Design (P M : Type) where
  numNodes : List Nat
  modules : M → Option (ModuleInfo P)

/-- One AXI-Stream port, `rad-sim/sim/design_context.cpp:113-135`, `177-197` and `205-225`: the same
code three times. -/
def addAxis (k : Nat × Nat) (c : Ctx P) (p : P) : Option (Ctx P) :=
  let c := { c with place := put c.place p (some (k.1, k.2, 0)) }
  if c.isMm k = some true then none
  else
    match c.ports k with
    | none => some { c with ports := put c.ports k (some [p]) }
    | some l => some { c with ports := put c.ports k (some (l ++ [p])) }

/-- One iteration of an AXI-MM loop of a module line, `rad-sim/sim/design_context.cpp:233-262` and
`265-293`. The loops index the port list with 0 instead of the loop counter (lines 236 and 267), so
`p` is the first port of the list. -/
def addMm (d : Design P M) (k : Nat × Nat) (c : Ctx P) (p : P) : Option (Ctx P) :=
  let c := { c with place := put c.place p (some (k.1, k.2, 0)) }
  if c.isMm k ≠ none then none
  else
    let c := match c.ports k with
      | none => { c with ports := put c.ports k (some [p]), isMm := put c.isMm k (some true) }
      | some l => { c with ports := put c.ports k (some (l ++ [p])) }
    match baseAddress d.numNodes k.1 k.2 with
    | none => none
    | some a => some { c with base := put c.base p (some a) }

/-- One line, `rad-sim/sim/design_context.cpp:96-298`. The node bound comes from
`_node_module_names[noc][node]` (lines 137, 151, 295), the NoC bound from the outer vectors. -/
def parseLine (d : Design P M) (c : Ctx P) : Line P M → Option (Ctx P)
  | .port p noc node axis =>
    if noc < d.numNodes.length ∧ node < d.numNodes.getD noc 0 then
      if axis then
        match addAxis (noc, node) c p with
        | none => none
        | some c => some { c with isMm := put c.isMm (noc, node) (some false) }
      else
        let c := { c with place := put c.place p (some (noc, node, 0)) }
        if c.isMm (noc, node) ≠ none then none
        else
          match baseAddress d.numNodes noc node with
          | none => none
          | some a =>
            some { c with ports := put c.ports (noc, node) (some [p]),
                          isMm := put c.isMm (noc, node) (some true),
                          base := put c.base p (some a) }
    else none
  | .module m noc node axis =>
    if noc < d.numNodes.length ∧ node < d.numNodes.getD noc 0 then
      match d.modules m with
      | none => none
      | some i =>
        if axis then
          match (i.axisSlaves ++ i.axisMasters).foldlM (addAxis (noc, node)) c with
          | none => none
          | some c => some { c with isMm := put c.isMm (noc, node) (some false) }
        else
          match (i.mmSlaves.map fun _ => i.mmSlaves.head?).reduceOption.foldlM
              (addMm d (noc, node)) c with
          | none => none
          | some c => (i.mmMasters.map fun _ => i.mmMasters.head?).reduceOption.foldlM
              (addMm d (noc, node)) c
    else none

/-- `ParseNoCPlacement`, `rad-sim/sim/design_context.cpp:89-299`. -/
def parse (d : Design P M) (ls : List (Line P M)) : Option (Ctx P) :=
  ls.foldlM (parseLine d) Ctx.empty

/-- The inner loop of `BuildDesignContext` over the ports of a node,
`rad-sim/sim/design_context.cpp:356-381`. `isSlave` is `IsSlavePort` (lines 49-62); a slave port of a
module hangs on a master adapter. -/
def numberPorts (isSlave : P → Bool) : List P → Nat → Nat → Ctx P → Ctx P
  | [], _, _, c => c
  | p :: ps, s, m, c =>
    if isSlave p then
      numberPorts isSlave ps s (m + 1)
        { c with place := put c.place p ((c.place p).map fun x => (x.1, x.2.1, m)) }
    else
      numberPorts isSlave ps (s + 1) m
        { c with place := put c.place p ((c.place p).map fun x => (x.1, x.2.1, s)) }

/-- The port names handed to the master (`true`) or slave (`false`) adapter of a node,
`rad-sim/sim/design_context.cpp:363-379` (`slave_port_names`, `master_port_names`). -/
def adapterPorts (isSlave : P → Bool) (dir : Bool) (l : List P) : List P :=
  l.filter fun p => isSlave p == dir

/-- `BuildDesignContext`, `rad-sim/sim/design_context.cpp:319-427`, numbering part. `order` is the
order in which the hash map of nodes happens to be iterated. -/
def build (isSlave : P → Bool) (order : List (Nat × Nat)) (c : Ctx P) : Ctx P :=
  order.foldl (fun c k => numberPorts isSlave ((c.ports k).getD []) 0 0 c) c

end RadSim.Design
