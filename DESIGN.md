# Formal model of RAD-Sim: design

Source: `/repo` (andrewboutros/rad-flow), read as text, never built.
Model and proofs: Lean 4.33 under `lean/Verif/`. Build: `cd lean && lake build`.

## Method

* Each C++ function that is modelled becomes a small total Lean function over an explicit
  state structure. Each definition carries a comment with file and line numbers.
* A SystemC clocked process becomes a `step` function: it reads the values its signals and
  FIFOs had before the clock edge and returns the new state. A design with several clocks is
  a transition system whose events are the edges of the individual clocks; theorems quantify
  over *every* list of events, hence over every frequency ratio, phase and stall pattern.
  Two processes triggered by the same edge commute through `sc_signal`/`sc_fifo` delta
  semantics; where they share plain C++ variables the order is a model parameter and the
  theorems quantify over it.
* `assert`, `exit`, `Error`, out-of-range access and reads from an empty `std::queue` are
  explicit outcomes (`Option`/`Except`/flag), never silently totalised.
* Property theorems are in `Verif/*/Props*.lean` or in the last section of each module, and
  speak about specifications (lists, queues, sets, arithmetic) defined separately from the
  model functions.
* When a property is false of the code, a theorem with a concrete witness proves the
  negation (`..._violated`), and the strongest true part is proved under a name ending in
  `_partial`.

## Trusted base

* Lean's kernel. The theorems use at most the axioms `propext`, `Classical.choice` and
  `Quot.sound`. No axiom is added, no `sorry`, no `native_decide`, no `bv_decide`.
* The transcription of C++/SystemC/Python into Lean (by hand, cited line by line).
* The reading of SystemC semantics stated above, and of the C++ standard library
  (`std::queue`, `std::map`, `std::set`, `std::list`).
* Parameter values of `rad-sim/sim/radsim_defines.hpp` as committed (flit payload 82 bits,
  AXI-S payload 588 bits, AXI-MM payload 579 bits, 7-bit destination fields, ...), unless a
  theorem quantifies over them.

## What is not modelled

SystemC kernel, wall-clock delays (only edge order), log and trace printing, BookSim routers
other than `iq_router.cpp` and its options that `config.py` never writes (speculation, switch
holding, speedups, lookahead routing, priorities, shared buffers),
traffic managers, power models, thermal models, HMC memory, the parts of the example design npu other than those of C131 to C143, RTL/Verilator wrappers,
floating-point arithmetic other than that of `get_fraction`.

## Properties

| id | model | proof |
|----|-------|-------|
| C01 | `BitVec` payloads, `InputPacketization` flit slicing, sink reassembly | bitwise extensionality, for every width |
| C02 | 32-bit tid stored in a 5-bit field | false in general (witness); proved for tid < 32 |
| C03 | list of flits produced per transaction | arithmetic on indices |
| C04 | bit-range get/set on 21-bit words | bitwise extensionality |
| C05 | `InputReady` as a function of valid vector, fullness, priority | induction on the port list |
| C06 | iterated `InputReady` | false: fixed priority starves (witness for every horizon); the first port is served |
| C07 | three-clock transition system | inductive invariant; witness when reset is pulsed |
| C08 | same transition system with history variables | refinement invariant |
| C09 | injection step with `BufferState` | invariant |
| C10 | destination computation | case analysis |
| C11-C13 | ejection, depacketisation transition system | invariants with history variables |
| C14 | output port process | invariant over ready waveforms |
| C15 | output chunking | false (witness); equal widths proved in C14 |
| C16 | ejection with small FIFO | false (witness: permanent stall); proved when the FIFO is large enough |
| C17 | ejected-flit map shared by adapters and the NoC tick, for AXI-S and AXI-MM adapters | false in general (witness); proved when at most one pop per NoC tick |
| C18, C19 | AXI-MM payload | bitwise extensionality; C19 false (witness) |
| C20, C21 | `InputReady`, `InputInterface` FSM | case analysis, invariant over event lists |
| C22 | packetisation counter FSM with clock ratio | invariant for integer ratio >= 2; witnesses otherwise |
| C23 | type/VC maps | case analysis |
| C24 | base address and decode | arithmetic; false with several NoCs (witness) |
| C25 | placement/interface numbering | induction on the placement list |
| C26-C28 | inter-RAD bridge transition system | refinement to queues, invariants on counters |
| C29 | portal transition system | refinement to two queues |
| C30, C31 | telemetry record list | invariants over call lists |
| C32 | knob maps | induction on operation lists |
| C33 | address re-mapping for any field order | arithmetic on mixed-radix digits |
| C34, C35 | read reorder queue and data store | refinement to in-order memory |
| C36, C37 | queue occupancy, burst expansion | invariants; witnesses for the UB cases |
| C38 | hop count | arithmetic |
| C39, C40 | routing function, neighbour function | induction on distance; acyclicity by ranking |
| C61 | mesh and torus wiring | digit arithmetic in any radix |
| C62, C63 | two-order mesh routing, torus routing with datelines | rank on head states with an escape channel (`Worms.noDeadlock`); torus with one channel per type fails an assertion (witness). The packets of `Spec/Worms.lean` own their channels; a router hands a channel on earlier, which C82 and C83 cover |
| C64 | globals `gK`, `gN` shared by all NoCs | false for NoCs of different size (witness: a packet circles forever); proved for equal sizes |
| C65-C67 | concentrated mesh of 3D devices: terminals, wiring with express links, routing | digit arithmetic, rank on head states; C67 false for odd sizes (a link with two readers) and for random order (livelock), witnesses |
| C41 | `BufferState` | invariant over operation lists |
| C42, C43 | arbiters (round robin, matrix, tree over any sub-arbiter) | one interface (`Lawful`) proved for each class, waiting time as variant |
| C44, C45, C68 | allocators (iSLIP, PIM, lonely output, select, wavefront, separable) as classes with rounds | grant/accept phases as loop invariants, arbiters through `Lawful`; C44 false for select with two iterations (witness) |
| C46 | `Channel` with `GetSimTime` | refinement to a delay line of ceil((d-1)/p)+1 ticks; false for d > 2 (witness), and items get stuck at 2^31 ps (witness) |
| C71-C75 | input-queued router, all phases of a tick | one invariant over ghost histories of received, passed, sent and credited flits, assume-guarantee contract with the neighbours; C75 by a work measure that falls within D + K + 1 ticks |
| C78-C80 | `Network` of any wiring: routers and channels in one tick, nodes as environment | the contracts of C71-C74 discharged against each other by induction over ticks; packets counted by telescoping over links; keys of packets followed through the routers |
| C81 | `KNCube` mesh as an instance, with `dim_order_mesh` and `xy_yx_mesh` in the routers | C78-C80 with the wiring of C61 and the steps of C39, C62 |
| C82 | any wiring with a ranked routing function, nodes that stop and return credits | the flit of least rank among the stuck ones can move: local progress of C75 lifted to the network, potential `R` times the flits |
| C83 | the mesh of C81 as an instance | C82 with rank = dimension and distance within the order of the channel; `xy_yx_mesh` with an odd number of channels per type has a channel shared by both orders and is not covered |
| C84 | `KNCube` torus with `dim_order_torus` | C78-C82 with the heads of C63 as discipline and the position behind the dateline as rank; even channel counts only, there the channel tells the partition |
| C92 | the mesh of C81 | the flits of one lane (source, destination, type) enter every link in the order of injection: induction over ticks with the fixed way and channel of the lane; false with two channels per type (witness) |
| C93, C94 | source adapters (C08), mesh (C81) and sink adapters (C13) in one system, `Model/AxisNoc.lean`: any adapter and module clock edges before and after each NoC tick, one adapter pair per node | every part's assumptions proved from the other parts by induction over periods, then histories of the links related to beats; C94 false with two channels per type (witness) |
| C95 | the same system after the modules stop sending | every window of bounded length in which nothing moves contradicts the order of the links (`NetworkLive`), the adapters' FIFOs and the count of credits; the number of moves is bounded by hops times flits. Needs at most one sink adapter edge per NoC period, because of two credits that the sink adapter returns before the next tick one is lost (C96) |
| C96 | the same system with two or more adapter edges in a NoC period | credits returned never catch up with flits taken (`Owes`), flits of an incomplete packet are not taken, and the network sends no more than places plus credits: together they fix what the adapter gets from then on. C95 is false there (witness for all later periods) |
| C97 | the same system under unending traffic | with a bound on the flits accepted, the argument of C95 gives a window in which nothing is accepted and everything has arrived; the source FIFOs are then empty, so an offered beat would be accepted. `Seen` says that `InputReady` saw `_injection_afifo_full` as it was at the edge or one period later |
| C98 | `fifo.cpp` and `client.cpp` of the add design, every sequence of edges | a FIFO is a queue with outputs computed from it (`Fifo.show`); the two FIFOs of the client move together |
| C99 | driver, client, adder, adapters and mesh NoC as one system (`Model/AddDesign.lean`), one step per NoC period | what the NoC accepted, what the client holds and what the driver has left is always the list of numbers with its last flag; C94 makes what the adder took a prefix of it, so the flag arrives last; C95's argument with the flits of the list as bound gives a quiet window, in which client and driver can only be empty |
| C100, C101 | `mvm.cpp` of the mlp design with its FIFOs and pipelines, delta cycles of `Assign` included (`Model/Mvm.lean`) | refinement of the sequential program of `Spec/Mvm.lean`: what is in FIFOs and pipelines is the difference between program and output; `ofifo_empty_signal` is missing in the sensitivity list, so `Assign` does not run when the FIFO becomes empty behind a result that looks like the output of an empty FIFO (witness; such results come from the zero rows with which `gen_testcase.py` pads the last layer) |
| C102, C103, C104 | `gen_testcase.py` (`Model/MlpCompile.lean`): files as lists of lines, `math.ceil` exact; all modules of the mlp design with the NoC as a condition (`Wired`, `Delivers` of `Spec/Mlp.lean`) | the program of a module is a loop over column blocks (`Lemmas/MlpJob.lean`); simultaneous induction over the cycles of all modules: what each has taken is a beginning of an ideal stream; liveness layer by layer, module by module; `Lemmas/MlpIdeal.lean` has a network that meets the conditions for every design; a line of zeros in the golden outputs (padding by a whole block, `C102_padding`) ends the simulation with an error (witness) |
| C105 | dispatcher, collector and driver of mlp (`Model/MlpDesign.lean`), from the end of the reset; files with a number per lane in each line; the same file has the closed system with the NoC, see C106 | what was sent, is held and is on its way to the FIFO is a beginning of the file; what was taken is what was read and what is held; measures for progress (`Lemmas/MlpFifo.lean`); witnesses for a driver clock of half the frequency |
| C106 | the whole design mlp (`Model/MlpDesign.lean`: dispatchers, mvm modules with their delta cycles, collector, driver) on the NoC of C93–C97; all modules and the driver on one clock, not faster than the NoC, any adapter clocks; from the end of the reset; no other traffic | per node: the history of the module is a run of C100, C105 whose inputs are what the NoC delivered (C94: per source in order) and whose outputs are what it accepted; induction over the periods, in each period over the modules, C102/C103 for what may be in the inboxes (`Lemmas/MlpMesh.lean`, `Lemmas/MlpWhole.lean`); the packing of vectors into beats is inverted (`Lemmas/MlpPort.lean`) |
| C107 | as C106; clocks that run (`Runs` in `Spec/MlpMesh.lean`), allocators that grant (C68), FIFOs that hold the blocks of all test inputs (`Small`) | the FIFOs never fill, so every module takes what it is shown (`Lemmas/MlpReady.lean`); the traffic is bounded, so the NoC drains and then accepts nothing for as long as wanted (`Lemmas/AxisNocDrain.lean`); in such periods a module that has all its inputs computes until it has sent all (`Lemmas/MvmRest.lean`, `Lemmas/MlpQuiet.lean`); induction over layers and modules (`Lemmas/MlpEnd.lean`) |
| C108, C109 | any mesh with AXI memory-mapped adapters (`Model/MmNoc.lean`), one virtual channel per packet type, clocks that keep to the ratio (`Setup`, `Runs` in `Spec/MmNoc.lean`) | a frame for NoCs with any adapters that keep some laws (`Lemmas/Noc.lean`: credits are conserved, so no buffer overflows; packets stay whole and in order per source and type); the AXI-MM adapters keep them (`Lemmas/MmNocNode.lean`, `Lemmas/MmNoc.lean`); then C18 and C88 |
| C110 | the same meshes; `Fair` in `Spec/MmNoc.lean`: no clock stops, modules are ready on every channel again and again; allocators as for C68; packets fit a buffer of a virtual channel | progress (hops of flits, flits injected, steps of reassembly, handshakes) is bounded by the flits handed over; when nothing moves for long enough, the sinks hold less than a packet per channel (`Lemmas/MmNocLive.lean`), so the network is empty (C94) and nothing waits at the sources (`Lemmas/MmNocDrain.lean`); counting packets per destination and type then gives all beats, and C109 their order |
| C111, C112 | the design aximm_hello_world (`Model/AximmDesign.lean`: driver, requester, responder with its storage, on the NoC of C108), any mesh, trace shorter than the FIFOs, clocks that keep to the ratio (`Works`, `Paced` in `Spec/AximmDesign.lean`) | invariants of the requester (what was taken is what the trace asks for up to the head of its FIFO) and of the responder (its storage and queued responses are those of a log of performed reads and writes), each given that the adapter shows it what C109 says; one induction over periods for both and the NoC. The order between reads and writes is not kept: negation `C112_program_order_violated`, evaluated by the kernel on two routers. A fault found beside it: the driver reads the cycle of each line of the trace (`aximm_hello_world_driver.cpp:3-24`, `:50-73`) but never uses it, so the pause between a write and a read which `sim_trace` asks for is not made. The base addresses are those of the checked-in header (7 bits for the node, C24). |
| C113 | as C111, with clocks that do not stop (`Lively` in `Spec/AximmDesign.lean`), room for a packet in input buffers and adapter FIFOs, allocators that grant (C68) | counting of C110: of sufficiently many windows of periods there is one in which nothing is handed over or moves on. In it the NoC comes to rest as in C110, the source sides of the adapters get ready within 256 edges of the adapter clock (the packetization counter is one byte), and at an edge of a module that offers something to an adapter that is ready a beat is taken (`AximmTake.lean`); so requester, driver and responder have nothing left, and what they sent has been shown. |
| C114 | `Model/DlrmFi.lean`, `Spec/Dlrm.lean`; `Polite` sender; FIFO depth at least 4 | invariant: after `k` instructions the FIFO of channel `c` is a segment of the stream that starts at the number of pops of `k` instructions, and words sent followed by the output FIFO are the vectors `ch, ch + numOut, ...` below `k`. False without `Polite` (`C114_violated`). |
| C115 | every environment; `Sound` instructions, at least one instruction and one MVM | invariant: the `empty` and `tvalid` signals tell the state of the queues at the end of the last period, and since then the queues have only grown. `C115_twice_violated` shows that `Sound.once` is needed. |
| C116 | as C114 and C115 | after one period with ready MVMs no output FIFO is full any more, so an instruction runs in every period until the words run out; a FIFO of at most `depth - 2` vectors then drains. |
| C117 | `Model/DlrmLookup.lean`, `Spec/DlrmLookup.lean`; `NotTwice` | invariant: addresses sent followed by those of the waiting lookups are those wanted, and what is offered is the front of the FIFO or cannot be accepted in this period. False without `NotTwice` (`C117_violated`, `C117_pop_violated`). |
| C118 | `Model/DlrmCompile.lean`, `Spec/DlrmCompile.lean`; `Fits` | invariant over the tables: lines written so far are full, the line under way has the running count, all steps together are those of the tables; then a pass through the program is one `assemble` over the joined steps. False without `Fits` (`C118_shipped_violated`, `C118_overshoot_violated`). |
| C119 | `Model/DlrmLookup.lean`; `NotTwice`, at most five lookups per vector and channel | invariant: at most `depth - 5` entries while `full` is low. False for six (`C119_waiting_violated`). |
| C120 | `Spec/DlrmEnd.lean` (`Front`); NoC and memory as in-order answers | composition of C114 to C118: the stream of a channel is the memory contents at the addresses wanted, input by input. |
| C121 | `Model/DlrmCompile.lean`, `Spec/DlrmAlloc.lean` | invariant per bank: tables end below the words used; rounds and channels visit the same tables up to order. `C121_stuck_violated`: the loop has no exit for a table that fits nowhere. |
| C122 | `Model/DlrmSink.lean`, `Spec/DlrmSink.lean` | invariant over periods: the flag is the conjunction over the last elements. The intended claim is false (`C122_violated`). |
| C123, C124 | the module sysc_mvm of mlp_int8 with FIFOs, pipelines, register files and datapaths (`Model/Int8Mvm.lean`), any constants that fit together (`Mvm.Fits`); every signal is a function of what the clocked processes wrote, except the memories of the register files, whose process `Assign` is followed | simulation: a ghost state (instructions in the pipelines, writes on their way) relates each cycle to the reference `Ref`; the instruction FIFO is the program rotated by the number of instructions begun. Loading before input makes every write land before it is read. Liveness by a measure of the pipelines. Two faults: `C123_lost_violated`, `C123_dest_violated`. |
| C125, C126 | as C123 | invariant `Base` over all inputs without any assumption on their order; the ring keeps its length. |
| C127, C128 | gen_testcase.py of mlp_int8, the parsers of the driver and the encodings of the loaders (`Model/Int8Compile.lean`); random numbers and placement are parameters | the program is a `Job`: instruction p is for column p / limy and row p % limy; invariant `Turn` over the reference of C123 gives every accumulator and result. Golden outputs by induction over the layers in arithmetic modulo 256. |
| C129, C130 | all modules of mlp_int8 with any NoC that is in order and loses nothing (`Wired`), and does not stop (`Delivers`) in C130; dispatchers, loaders and collector are their beats | C123 and C124 for each module, then induction over layers and modules: `Right` says what a module has been shown. Liveness: in a `Small` design every beat shown is taken. `Lemmas/Int8Ideal.lean` has a NoC that meets the conditions for every design. The compiler does not check `room`: `C130_int8_ends_violated`. |
| C131 | `convert_to_bv`/`load_from_bv` of the four macro-ops of npu (`Model/NpuInst.lean`); ranges of a bit vector as lists of fields | a packed list of fields is a number in mixed radix; `pack`/`unpack` are inverse for every list of widths. |
| C132, C133 | the four instruction decoders of npu with their FIFOs (`Model/NpuDecode.lean`), adapters and consumers as any environment; the specification (`Spec/NpuDecode.lean`) is nested loops | `Follows`: from a state of the counters the last phase emits exactly a given list; shared induction over cycles with `Busy`, and a measure for completeness. The sector's counters are a closed form of group, word and row (`Sector.ctr`). |
| C134 | the accumulator (`Model/NpuAccum.lean`), values of any type with an addition | refinement: the state with the writes that are in the pipeline done is the state of the sequential machine; entries in three stages on end are different. |
| C135 | the register file (`Model/NpuRegFile.lean`) with the sensitivity list of `Assign` | invariant: the last write is done; the output is decided by which signals change. Three witnesses. |
| C136 | the data path of a sector (`Model/NpuPath.lean`): instruction, address, vector, product, reduction pipelines, the tensor blocks' two register banks, the register files of C135 and the accumulator of C134; one core, one dot-product engine per tile, one thread | invariant: every pipeline register is a function of the list of past inputs; the feed of the accumulator is then a function of the inputs 16 to 31 cycles ago, and for blocks without gaps it is the feed of C134. |
| C137 | the choice of the thread in a sector (`Model/NpuThreads.lean`): four FIFOs, the active thread, the lock, the queue of threads; tags and stalls as any environment | induction over prefixes of a run; the hypotheses of `C137_whole_partial` are about the cycles of the run; the witness is run through the data path of C136. |
| C138 | the adapters between FIFOs and AXI streams (`Model/NpuAxis.lean`): cutting and putting together, both buffers, an order-keeping channel between them; `VEW_WRITEBACK_INTERFACE`, which no module uses, is left out | an invariant that relates what is under way to the list of payloads not yet given; a measure for the completion; bit-level round trips. |
| C139 | the external register file and the multi-function units (`Model/NpuVew.lean`) as two instances of one pipeline between FIFOs with two register files; the write ports and the tag are inputs | an invariant over the history of all cycles: what is in every stage is a function of the cycles so far; what is in the output FIFO and on the way to it is never more than its depth. Fault: the stale read of C135 gives wrong operands when two micro-ops on end share one, or when word 0 is used before a gap. |
| C140 | the loader (`Model/NpuLoader.lean`) with its input and output FIFOs for any number of cores and sectors, and the fields that the receivers read from its words | an invariant over the history of all cycles as in C139; a chain lemma for the vectors, which a tag update takes over from the load before; the tags by induction over the macro-ops. Fault: the number of a register file and the block share an element, and number 4 gives another block. |
| C141 | the dispatcher of the VLIW instructions (`Model/NpuDispatch.lean`), one lane for a block, any kind of macro-op; the memory is an input of every cycle; reading outside of it is an error of its own | an invariant that what has been given, is in the FIFO and in the register before it is a number of whole programs and a part of the next one. Fault: the driver's `end_pc` is one too far. |
| C142 | the second write-back channel (`Model/NpuWriteBack.lean`): the FIFO of the loader for a sector and a core and those of the external register file and the two multi-function units, with the one write address and the tags that all cores share | an invariant for the order; a second one, that no FIFO has more than one word, for the arrival; that a run does not depend on more than the first three elements of the words, for the cores. Fault: a word for register file 0 of a unit or for no block is never taken and blocks the channel (what C140's fault leads to). |
| C143 | the first write-back channel in the sectors (`Model/NpuChain.lean`): two FIFOs for a sector, connected in a chain of any length, with the register files as a function and the tag; an index outside of the vector of write ports is an error of its own | an invariant that the chain of FIFOs is a line of registers: the word in a FIFO is the one shown to the first sector a fixed number of cycles ago. Faults: the number of a register file is not checked; the tag ends at 511. |
| C144 | `OutputSet` as a list by priority, `min_adapt_mesh` and `planar_adapt_mesh` without faulty links (`Model/MinAdapt.lean`), in the mesh of C81 | output sets have only the port of dimension-order routing, on part of its virtual channels, so the guide and ranks of C81 and C83 carry over. Faults: `operator<` of the elements of an output set compares priorities only, so all but the first direction are lost; `AddRange(out_port, 0, vcBegin, vcBegin)` in `min_adapt_mesh` has its arguments in a wrong order. |
| C145 | `valiant_mesh` and `romm_mesh` as one function of the drawn router (`Model/TwoPhase.lean`), packets as in C60 to C63 (`Spec/Worms.lean`) | the links left to the intermediate router and from there to the destination fall by one with every move; the rank of a head is its rank in dimension order, heads of the second phase above. Fault: at the destination router the virtual channels are not separated by phase, also for a packet of `valiant_mesh` that only passes it in the first phase; witness of four packets that wait for each other. |
| C146 | `dim_order_ni_mesh` and `dim_order_pni_mesh` (`Model/TwoPhase.lean`), in the mesh of C81 | both offer a part of what `dim_order_mesh` offers, so `Follows` of C144 applies; a virtual channel lies in at most one part of the range of its class. |
| C147 | `dor_next_torus` with `balance`, `dim_order_bal_torus`, `dim_order_ni_torus`, `valiant_torus`, `valiant_ni_torus` (`Model/TorusMore.lean`) | the upper half never crosses the middle of a ring and the lower half never its edge, which orders the channels; with one part per destination the distance itself is the order. The unset `ring_part` is a value `none`, and reading it an outcome of its own; a move of `valiant_torus` that does not read it goes to a further dimension or to the second phase. |
| C148 | `romm_ni_mesh` (`Model/RommNi.lean`) | the intermediate router stays in the box of the way left, so the distance to the destination falls with every move; packets on the same channel have the same destination, so this distance orders the channels. |
| C149 | `KNFly` and `dest_tag_fly` (`Model/Fly.lean`) | between stages a digit of the address is exchanged with the port; after `t` stages the upper `t` digits of the address are those of the destination; the stage is the rank. |
| C150 | `FatTree`, `fattree_nca` and `fattree_anca` (`Model/FatTree.lean`, `Spec/FatTree.lean`) | a link between two levels exchanges one digit of the position with the port, as in C149; going up, the digits above the link are still those of the source, going down those of the destination; a walk that stays below a level cannot change the digits above it; the rank is the way up, then the way down. |
| C151 | `asymmetric_fifo.cpp` and the writes of `mvu_sector.cpp` to it (`Model/NpuOfifo.lean`, `Spec/NpuOfifo.lean`) | what is read and what is stored is the results written, cut into words; a write happens only at or below the limit less one result. For a depth below one result the check wraps (witness). |
| C152 | `min_adapt_torus` (`Model/AdaptTorus.lean`) | the escape channels form a network under `dim_order_torus` with two channels per class, which a packet enters from any router as if injected there and never leaves; the order of that network with all free heads before it excludes deadlock. For three channels in a class the adaptive channel is outside of it (witness). |
| C153 | `tree4.cpp` and its routing functions (`Model/Tree4.lean`, `Spec/Tree4.lean`) | the wiring is the list of connections in the order of the calls, with ports as counts of earlier calls, checked against a closed form by evaluation; routing by case analysis on the level. `tree4_anca` offers one way up only, as the output set drops elements of equal priority. |
| C154 | `qtree.cpp` and `qtree_nca` (`Model/QTree.lean`, `Spec/Tree4.lean`) | the channels of a router are lists in the order of the calls; drivers and readers are checked against a closed form by evaluation, routing by evaluation over the 40 channels and 64 destinations. |
| C52 | `config.py` virtual channel ranges, as loaded by BookSim | partition of the channels, with C23 for five types; false for types that are not listed, for no channels and for a negative number of types |
| C53 | `config.py` `get_fraction` in exact double arithmetic | reduction to the thousandths and a kernel-checked table of all of them; exact for tenths only, too large otherwise |
| C76 | `config.py` section of each RAD | characterisation by position in the file; false for permuted or repeated lists |
| C77 | `config.py` destination width | false when the last mesh is not the largest or RADs outnumber nodes |
| C69, C70 | same router with other delays and times | false (witnesses for every period and delay, for every reachable state) |
| C47 | address mapping | mixed-radix bijection for any permutation of fields |
| C48 | DRAMsim3 banks, timing table and channel, against a separate list of data sheet rules over histories | invariant that ties every entry of the timing arrays to the history; the proved distances are those of `Rule` and the data bus; false for the bank refresh time, for the row cycle before a refresh with auto-precharge (witnesses), and the wake-up request always ends the program |
| C49 | activation windows of a rank | the same invariant, for any number of activations |
| C50 | DRAMsim3 controller: command queues, transaction queues, bookkeeping, over any sequence of offers and cycles | conservation of what is owed to the user, from the queues to the pending tables; false for the HBM2 file (a read taken from its queue as second command of a cycle may be dropped) and for a full write buffer that waits for a read it blocks (witnesses, for every continuation) |
| C85 | the same controller | order invariant of the queues; false for two addresses of one place (witness) |
| C86 | return queue of the same controller | invariant |
| C51 | refresh generator and refresh queue of the controller, without self-refresh | the refreshes issued and waiting are a prefix of the plan of `Spec/DramRefresh.lean`; false for the simultaneous policy, which only ever refreshes the first rank (all runs) |
| C87 | the same, with the command queues that are blocked meanwhile | upper bounds of the timing arrays as invariant; a deadline from the open banks and the bounds that never grows while a refresh waits |
| C88 | sink side of both AXI-MM adapters: ejection FIFO per type, reassembly, port, over any list of clock edges (`Model/AxiMmSink.lean`) | history invariant: packets made per class and flits inside are the flits read; content through C18 |
| C89 | the same | with one virtual channel per type from C88 and the packets of C79; false with several, they share a FIFO (witness) |
| C90 | output process of the same | false twice: valid waits for ready, and lasts one cycle even if ready falls (witnesses over all continuations); proved for a ready that does not fall |
| C91 | the same | weighted number of flits as work, falls in every round of the three clocks; false for packets longer than the FIFO (all runs) |
| C54 | done flags, main loop | invariant over call schedules |
| C55, C56 | traffic flow aggregation, trace recorder | induction on call lists; C55 false for packets in flight (witness) |
| C57 | knob file writer (config.py) and parser | round trip through the line format; blanks and empty lines break it (witnesses) |
| C59, C60 | ready conditions and response user of the memory controller | invariants; witnesses for lost and duplicated requests and stale users |
| C58 | exit code | false for RADs other than 0 (witness) |
