{"id": "C01", "title": "AXI-Stream beat survives packetisation", "statement": "A beat (tdata, tuser, tlast, tdest) accepted on an AXI-Stream slave port is presented at the destination master port with the same tdata (up to the interface data width), tuser, tlast and tdest, whatever the flit width split.", "quantifier": "every tdata/tuser/tlast/tdest value and every declared data width up to the maximum", "why_tests_cant": "2^600 values and every width; a test samples a few beats", "anchors": ["rad-sim/sim/noc/axis_slave_adapter.cpp: axis_slave_adapter::InputPacketization", "rad-sim/sim/noc/axis_master_adapter.cpp: axis_master_adapter::write_sc_packet_to_axis_output", "rad-sim/sim/noc/sc_flit.hpp: sc_flit"]}
{"id": "C02", "title": "Destination interface index is preserved", "statement": "The tid presented at the destination equals the tid given at the source, so the beat comes out of the addressed master interface of the node.", "quantifier": "every tid the source may drive", "why_tests_cant": "needs all 2^32 tids; the tests only use small ones", "anchors": ["rad-sim/sim/noc/axis_slave_adapter.cpp: InputPacketization", "rad-sim/sim/noc/axis_master_adapter.cpp: OutputInterface", "rad-sim/sim/radsim_defines.hpp: NOC_LINKS_DEST_INTERFACE_WIDTH"]}
{"id": "C03", "title": "Packets are well framed", "statement": "Every accepted transaction becomes exactly ceil(payload bits / flit bits) flits; only the first is marked head, only the last is marked tail, all carry the same packet id, virtual channel, type and destination.", "quantifier": "every data width and every transaction", "why_tests_cant": "ranges over all widths and transaction contents", "anchors": ["rad-sim/sim/noc/axis_slave_adapter.cpp: InputPacketization", "rad-sim/sim/noc/aximm_slave_adapter.cpp: InputPacketization"]}
{"id": "C04", "title": "Destination field composition", "statement": "The three destination fields (RAD, remote node, local node) packed in tdest are recovered independently; rewriting the local field with the remote one at the inter-RAD bridge leaves the RAD field intact and routes to the remote node.", "quantifier": "every triple of field values below the field size and every tdest word", "why_tests_cant": "all 2^21 words and field combinations", "anchors": ["rad-sim/sim/radsim_defines.hpp: DEST_LOCAL_NODE, DEST_REMOTE_NODE, DEST_RAD", "rad-sim/sim/radsim_inter_rad.cpp: RADSimInterRad::writeFifo", "rad-sim/sim/noc/axis_slave_adapter.cpp: InputInjection"]}
{"id": "C05", "title": "Slave adapter offers ready to at most one port", "statement": "In every cycle at most one AXI-Stream slave port of an adapter sees tready high, that port has tvalid high, and none does while the adapter's input buffers are full.", "quantifier": "every combination of tvalid levels, number of ports and buffer state", "why_tests_cant": "exponential in the number of ports; depends on history through the priority rotation", "anchors": ["rad-sim/sim/noc/axis_slave_adapter.cpp: axis_slave_adapter::InputReady"]}
{"id": "C06", "title": "Slave port service is starvation free", "statement": "A slave port that keeps tvalid high is eventually given tready while the other ports keep offering traffic and buffers drain.", "quantifier": "every infinite schedule of tvalid", "why_tests_cant": "liveness over infinite schedules", "anchors": ["rad-sim/sim/noc/axis_slave_adapter.cpp: axis_slave_adapter::InputReady"]}
{"id": "C07", "title": "Clock-crossing FIFO occupancy stays within bounds", "statement": "The assertion on the asynchronous FIFO sizes of the AXI-Stream slave adapter never fires: occupancy stays at most the FIFO depth at every instant.", "quantifier": "every interleaving of port clock, adapter clock and NoC clock edges, every traffic, with and without reset", "why_tests_cant": "schedule of three unrelated clocks cannot be enumerated", "anchors": ["rad-sim/sim/noc/axis_slave_adapter.cpp: InputInterface, InputPacketization, InputInjection"]}
{"id": "C08", "title": "AXI-Stream source side is lossless, ordered and duplicate free", "statement": "At every instant the flits handed to the NoC by a slave adapter followed by the flits and beats still inside it are exactly the packetisation, in order, of the beats accepted so far.", "quantifier": "every interleaving of the three clocks, all arbitration outcomes, all backpressure patterns", "why_tests_cant": "unbounded histories and clock interleavings", "anchors": ["rad-sim/sim/noc/axis_slave_adapter.cpp: InputInterface, InputPacketization, InputInjection"]}
{"id": "C09", "title": "Injection obeys flow control", "statement": "A flit is handed to the router only when the downstream virtual-channel buffer has a free slot, so credit accounting never reports overflow, and stalled flits are kept.", "quantifier": "every sequence of credits and stalls", "why_tests_cant": "unbounded credit histories", "anchors": ["rad-sim/sim/noc/axis_slave_adapter.cpp: InputInjection", "rad-sim/sim/noc/booksim/buffer_state.cpp: BufferState"]}
{"id": "C10", "title": "Injected flits target the right router", "statement": "A beat whose RAD field names the local RAD is sent to its local node; any other beat is sent to the portal node and still carries its RAD and remote-node fields.", "quantifier": "every tdest and every RAD id", "why_tests_cant": "all destinations", "anchors": ["rad-sim/sim/noc/axis_slave_adapter.cpp: InputInjection"]}
{"id": "C11", "title": "Ejection buffering is bounded", "statement": "The number of flits waiting per virtual channel in a master adapter never exceeds the configured FIFO size and no flit arriving from the router is dropped.", "quantifier": "every arrival schedule and reader schedule", "why_tests_cant": "schedules", "anchors": ["rad-sim/sim/noc/axis_master_adapter.cpp: OutputEjection"]}
{"id": "C12", "title": "Reassembly never mixes packets", "statement": "Whatever the interleaving of packets of different virtual channels, each beat produced by a master adapter is reassembled from all the flits of exactly one packet and no flit of another packet.", "quantifier": "every interleaving of flits across virtual channels and every stall pattern", "why_tests_cant": "interleavings are unbounded", "anchors": ["rad-sim/sim/noc/axis_master_adapter.cpp: OutputDepacketization"]}
{"id": "C13", "title": "AXI-Stream sink side is lossless and ordered per virtual channel", "statement": "At every instant the packets delivered, plus those still buffered, on each virtual channel are exactly the packets ejected on this channel, in order, without loss or duplication.", "quantifier": "every schedule of ejection, depacketisation and port clocks", "why_tests_cant": "unbounded histories", "anchors": ["rad-sim/sim/noc/axis_master_adapter.cpp: OutputEjection, OutputDepacketization, OutputInterface"]}
{"id": "C14", "title": "Master port handshake is AXI compliant", "statement": "Once a master adapter raises tvalid it keeps tvalid and the beat unchanged until tready is sampled high, and each beat is transferred exactly once.", "quantifier": "every tready waveform", "why_tests_cant": "all ready waveforms", "anchors": ["rad-sim/sim/noc/axis_master_adapter.cpp: axis_master_adapter::OutputInterface"]}
{"id": "C15", "title": "Width conversion at the sink", "statement": "When the sink port is narrower than the source port each beat is delivered as consecutive slices of the data.", "quantifier": "every data and every pair of widths", "why_tests_cant": "all data values and widths", "anchors": ["rad-sim/sim/noc/axis_master_adapter.cpp: axis_master_adapter::OutputInterface"]}
{"id": "C16", "title": "Every accepted packet is deliverable", "statement": "A packet injected in the NoC can always be reassembled at its destination once its flits arrive, whatever the configured FIFO sizes.", "quantifier": "every FIFO size and packet length", "why_tests_cant": "ranges over configurations and infinite waiting", "anchors": ["rad-sim/sim/noc/axis_master_adapter.cpp: OutputEjection, OutputDepacketization"]}
{"id": "C17", "title": "Every consumed flit returns a credit", "statement": "For each flit a destination adapter takes out of its ejection buffer exactly one credit for its virtual channel is returned to the router.", "quantifier": "every ratio of adapter and NoC clocks and every interleaving", "why_tests_cant": "clock interleavings", "anchors": ["rad-sim/sim/noc/radsim_noc.cpp: radsim_noc::Tick", "rad-sim/sim/noc/axis_master_adapter.cpp: OutputDepacketization"]}
{"id": "C18", "title": "AXI memory-mapped payload survives transport", "statement": "Address, write data, read data, response code, user bits and last flag delivered by the AXI-MM adapters are those given at the source.", "quantifier": "every field value of AR, AW, W, R and B transactions", "why_tests_cant": "2^579 payload values", "anchors": ["rad-sim/sim/noc/aximm_slave_adapter.cpp: InputPacketization, OutputInterface", "rad-sim/sim/noc/aximm_master_adapter.cpp: OutputInterface, InputPacketization"]}
{"id": "C19", "title": "AXI memory-mapped burst control survives transport", "statement": "The burst type, size and length presented at the memory side for AR and AW equal those issued by the master.", "quantifier": "every burst/size/len combination with every user and last bits", "why_tests_cant": "all control combinations", "anchors": ["rad-sim/sim/noc/aximm_slave_adapter.cpp: InputInterface", "rad-sim/sim/noc/aximm_master_adapter.cpp: aximm_master_adapter::OutputInterface"]}
{"id": "C20", "title": "AXI-MM adapter accepts at most one channel per cycle", "statement": "Among AR, AW and W (and among R and B) at most one ready is high in a cycle, only for a channel that is valid, and W only after an AW has been accepted.", "quantifier": "every valid combination and priority state", "why_tests_cant": "state dependent over histories", "anchors": ["rad-sim/sim/noc/aximm_slave_adapter.cpp: InputReady", "rad-sim/sim/noc/aximm_master_adapter.cpp: InputReady"]}
{"id": "C21", "title": "Write data follows its address", "statement": "Every W beat is sent to the node selected by the most recently accepted AW, and AW is accepted again only after the last W beat.", "quantifier": "every interleaving of AR, AW, W traffic", "why_tests_cant": "interleavings over unbounded histories", "anchors": ["rad-sim/sim/noc/aximm_slave_adapter.cpp: InputReady, InputInterface, InputPacketization"]}
{"id": "C22", "title": "AXI-MM transactions are packetised exactly once", "statement": "Each accepted AXI-MM transaction yields exactly one packet, for every ratio between port clock and adapter clock and every stall pattern.", "quantifier": "every clock ratio, flit count and acceptance schedule", "why_tests_cant": "clock ratios and schedules are unbounded", "anchors": ["rad-sim/sim/noc/aximm_slave_adapter.cpp: InputInterface, InputPacketization", "rad-sim/sim/noc/aximm_master_adapter.cpp: InputInterface, InputPacketization"]}
{"id": "C23", "title": "Virtual channel mapping is invertible", "statement": "Distinct packet types use distinct virtual channels and the receiver recovers the type from the channel.", "quantifier": "every packet type and number of channels", "why_tests_cant": "configuration space", "anchors": ["rad-sim/sim/noc/noc_utils.cpp: VCIDFromType", "rad-sim/sim/noc/aximm_master_adapter.cpp: InverseVCMapping"]}
{"id": "C24", "title": "Memory-mapped address decodes to its node", "statement": "The base address computed for an AXI-MM port, plus any offset inside its aperture, is routed to the node the port is attached to.", "quantifier": "every node id, offset and NoC configuration", "why_tests_cant": "2^64 addresses", "anchors": ["rad-sim/sim/design_context.cpp: DetermineBaseAddress", "rad-sim/sim/noc/aximm_slave_adapter.cpp: InputPacketization", "rad-sim/config.py: generate_radsim_params_header"]}
{"id": "C25", "title": "Interface identifiers are dense and unique", "statement": "Ports attached to the same node get interface identifiers 0..n-1, each used once per direction.", "quantifier": "every placement", "why_tests_cant": "placements are unbounded", "anchors": ["rad-sim/sim/design_context.cpp: RADSimDesignContext::BuildDesignContext, ParseNoCPlacement"]}
{"id": "C26", "title": "Inter-RAD link delivers in order without loss below capacity", "statement": "Beats sent from any RADs to one RAD arrive in the order they were accepted, each once, unless the destination FIFO was full, in which case exactly the refused beats are missing.", "quantifier": "every traffic pattern and process scheduling order", "why_tests_cant": "histories and SystemC process orders", "anchors": ["rad-sim/sim/radsim_inter_rad.cpp: RADSimInterRad::writeFifo, readFifo"]}
{"id": "C27", "title": "Inter-RAD latency lower bound", "statement": "No beat is delivered before the configured number of cycles after acceptance.", "quantifier": "every traffic pattern and scheduling order", "why_tests_cant": "histories", "anchors": ["rad-sim/sim/radsim_inter_rad.cpp: writeFifo, readFifo"]}
{"id": "C28", "title": "Inter-RAD bandwidth limit", "statement": "In every window of the configured period each source RAD is offered ready at most the configured number of cycles, and exactly that many in each aligned window.", "quantifier": "every time and every parameter pair", "why_tests_cant": "infinite time", "anchors": ["rad-sim/sim/radsim_inter_rad.cpp: RADSimInterRad::writeFifo"]}
{"id": "C29", "title": "Portal is a lossless queue in each direction", "statement": "Beats leave the portal in the order they entered, each once, with unchanged contents, and the offered beat is stable until accepted.", "quantifier": "every valid/ready waveform", "why_tests_cant": "unbounded histories", "anchors": ["rad-sim/sim/portal.cpp: portal::Tick"]}
{"id": "C30", "title": "Telemetry identifiers are unique and timestamps consistent", "statement": "Each transaction initiation gets a fresh identifier; latency reported for a received transaction is receive minus initiation time.", "quantifier": "every sequence of record calls", "why_tests_cant": "call histories", "anchors": ["rad-sim/sim/radsim_telemetry.cpp: NoCTransactionTelemetry"]}
{"id": "C31", "title": "Traffic summary conserves data", "statement": "The per-flow totals dumped by telemetry sum to the total data width of all recorded transactions, each counted under its own source and destination.", "quantifier": "every recorded history", "why_tests_cant": "histories", "anchors": ["rad-sim/sim/radsim_telemetry.cpp: NoCTransactionTelemetry::DumpTrafficFlows"]}
{"id": "C32", "title": "Configuration knobs read back", "statement": "A knob read returns the last value written for its RAD and name, writes to other names or RADs do not interfere, and reading a missing knob stops the program.", "quantifier": "every sequence of writes", "why_tests_cant": "histories", "anchors": ["rad-sim/sim/radsim_config.cpp: RADSimConfig"]}
{"id": "C33", "title": "Memory channel selection is faithful", "statement": "The address the memory controller forms for a channel is routed by the DRAM model to this channel, and distinct (channel, in-range address) pairs map to distinct addresses.", "quantifier": "every address, channel and address-mapping order", "why_tests_cant": "2^64 addresses times mappings", "anchors": ["rad-sim/sim/dram/mem_controller.cpp: AddressMapping, ChannelFromAddr", "rad-sim/sim/dram/DRAMsim3/src/dram_system.cc: GetChannel"]}
{"id": "C34", "title": "Reads return in request order", "statement": "Read responses of a memory channel come out in the order of the read requests, each exactly once, whatever the completion order inside the DRAM.", "quantifier": "every completion order", "why_tests_cant": "all permutations of unbounded histories", "anchors": ["rad-sim/sim/dram/mem_controller.cpp: MemReadCallback"]}
{"id": "C35", "title": "Read your writes", "statement": "A read returns the data of the latest completed write to its address.", "quantifier": "every history", "why_tests_cant": "histories", "anchors": ["rad-sim/sim/dram/mem_controller.cpp: MemReadCallback, MemWriteCallback, MemTick"]}
{"id": "C36", "title": "Memory controller queues never over- or underflow", "statement": "Input queues stay within capacity and no element is taken from an empty queue.", "quantifier": "every request schedule", "why_tests_cant": "histories", "anchors": ["rad-sim/sim/dram/mem_controller.cpp: Tick, MemTick, Assign"]}
{"id": "C37", "title": "Burst expansion", "statement": "A burst of len+1 beats of 2^size bytes expands to consecutive word requests covering the burst exactly, with one last flag on the final one.", "quantifier": "every size, len, address", "why_tests_cant": "all bursts", "anchors": ["rad-sim/sim/dram/mem_controller.cpp: Tick"]}
{"id": "C38", "title": "Hop count metric", "statement": "The grid hop count is symmetric, at least one, and one more than the number of links traversed by dimension-order routing.", "quantifier": "every pair of nodes and grid size", "why_tests_cant": "all pairs and sizes", "anchors": ["rad-sim/sim/radsim_utils.cpp: CalculateXYGridHops", "rad-sim/sim/noc/booksim/routefunc.cpp: dor_next_mesh"]}
{"id": "C39", "title": "Dimension-order routing reaches the destination minimally", "statement": "Following the mesh routing decision from any router reaches the destination router in exactly the Manhattan distance and then ejects; all routers visited stay in the bounding box of source and destination.", "quantifier": "every mesh size, source and destination", "why_tests_cant": "all sizes and pairs", "anchors": ["rad-sim/sim/noc/booksim/routefunc.cpp: dor_next_mesh", "rad-sim/sim/noc/booksim/networks/kncube.cpp: _LeftNode, _RightNode", "rad-sim/config.py: generate_booksim_config_files"]}
{"id": "C40", "title": "Mesh routing is deadlock free", "statement": "The channel dependency relation of dimension-order mesh routing has no cycle.", "quantifier": "every mesh size and set of packets", "why_tests_cant": "cycles over all packets and sizes", "anchors": ["rad-sim/sim/noc/booksim/routefunc.cpp: dor_next_mesh, dim_order_mesh"]}
{"id": "C41", "title": "Router buffer credit accounting", "statement": "Occupancy per virtual channel always equals flits sent minus credits received, stays between zero and capacity if users respect the full/empty queries, and free plus occupied equals capacity.", "quantifier": "every sequence of sends and credits", "why_tests_cant": "histories", "anchors": ["rad-sim/sim/noc/booksim/buffer_state.cpp: BufferState, PrivateBufferPolicy, SharedBufferPolicy"]}
{"id": "C42", "title": "Arbiters grant exactly one valid requester of highest priority", "statement": "After any history of rounds a round-robin, matrix or tree arbiter grants a request if there is one, the granted request has the highest priority, and ties go to the first input behind the last granted one (round robin) or to the one granted least recently (matrix).", "quantifier": "every request set, priorities and arbiter state", "why_tests_cant": "all request sets and histories", "anchors": ["rad-sim/sim/noc/booksim/arbiters/roundrobin_arb.cpp", "rad-sim/sim/noc/booksim/arbiters/matrix_arb.cpp", "rad-sim/sim/noc/booksim/arbiters/tree_arb.cpp", "rad-sim/sim/noc/booksim/arbiters/arbiter.cpp"]}
{"id": "C43", "title": "Arbiters do not starve", "statement": "A requester that keeps requesting at the top priority is granted within the arbiter size number of updates.", "quantifier": "every behaviour of the other requesters", "why_tests_cant": "infinite schedules", "anchors": ["rad-sim/sim/noc/booksim/arbiters/roundrobin_arb.cpp", "rad-sim/sim/noc/booksim/arbiters/matrix_arb.cpp", "rad-sim/sim/noc/booksim/arbiters/tree_arb.cpp"]}
{"id": "C44", "title": "Allocators produce valid matchings", "statement": "Each input gets at most one output and vice versa, the two views agree, and every match was requested.", "quantifier": "every request matrix, pointer state, number of iterations and random choice", "why_tests_cant": "all matrices and histories", "anchors": ["rad-sim/sim/noc/booksim/allocators/islip.cpp", "rad-sim/sim/noc/booksim/allocators/separable_input_first.cpp", "rad-sim/sim/noc/booksim/allocators/separable_output_first.cpp", "rad-sim/sim/noc/booksim/allocators/wavefront.cpp", "rad-sim/sim/noc/booksim/allocators/pim.cpp", "rad-sim/sim/noc/booksim/allocators/loa.cpp", "rad-sim/sim/noc/booksim/allocators/selalloc.cpp", "rad-sim/sim/noc/booksim/allocators/allocator.cpp"]}
{"id": "C45", "title": "Wavefront allocation is maximal", "statement": "After wavefront allocation no requested pair has both sides free, and a request is only denied for one at the same input or output whose priority is not lower.", "quantifier": "every history of request matrices with priorities", "why_tests_cant": "all matrices", "anchors": ["rad-sim/sim/noc/booksim/allocators/wavefront.cpp"]}
{"id": "C46", "title": "Channels deliver after their latency in order", "statement": "A link delivers every item once, in order, exactly latency cycles after it was sent.", "quantifier": "every send schedule and latency", "why_tests_cant": "histories", "anchors": ["rad-sim/sim/noc/booksim/channel.hpp: Channel"]}
{"id": "C47", "title": "DRAM address decomposition is a bijection", "statement": "Channel, rank, bank group, bank, row and column of an address determine it (up to the request offset) and stay in range, for every ordering of the fields.", "quantifier": "every address, geometry and mapping order", "why_tests_cant": "2^64 addresses times 720 orders", "anchors": ["rad-sim/sim/dram/DRAMsim3/src/configuration.cc: SetAddressMapping, AddressMapping"]}
{"id": "C48", "title": "DRAM command sequencing is legal", "statement": "Every command declared ready by a bank can be applied without abort, reads and writes only happen on the open row, and no command is issued before its timing constraint expires.", "quantifier": "every command history", "why_tests_cant": "histories", "anchors": ["rad-sim/sim/dram/DRAMsim3/src/bankstate.cc", "rad-sim/sim/dram/DRAMsim3/src/channel_state.cc"]}
{"id": "C49", "title": "Four-activate window", "statement": "Any five consecutive activations of a rank span at least tFAW cycles.", "quantifier": "every activation history", "why_tests_cant": "histories", "anchors": ["rad-sim/sim/dram/DRAMsim3/src/channel_state.cc: UpdateActivationTimes, IsFAWReady"]}
{"id": "C50", "title": "Every DRAM transaction completes once", "statement": "Each accepted read and write is returned exactly once, and merged reads and writes are all returned.", "quantifier": "every request history and scheduling", "why_tests_cant": "histories", "anchors": ["rad-sim/sim/dram/DRAMsim3/src/controller.cc: AddTransaction, IssueCommand, ReturnDoneTrans"]}
{"id": "C51", "title": "All ranks get refreshed", "statement": "Under every refresh policy each rank (or bank) is scheduled for refresh periodically.", "quantifier": "every time and geometry", "why_tests_cant": "infinite time", "anchors": ["rad-sim/sim/dram/DRAMsim3/src/refresh.cc"]}
{"id": "C52", "title": "VC ranges partition the virtual channels", "statement": "The generated per-type virtual channel ranges are disjoint, non-empty and cover all channels.", "quantifier": "every number of channels and packet types accepted by the checker", "why_tests_cant": "all configurations", "anchors": ["rad-sim/config.py: generate_booksim_config_files"]}
{"id": "C53", "title": "Bandwidth fraction is exact", "statement": "The accept/total cycle pair written for the inter-RAD bandwidth equals the requested fraction.", "quantifier": "every requested fraction with up to three decimals", "why_tests_cant": "all fractions", "anchors": ["rad-sim/config.py: get_fraction"]}
{"id": "C54", "title": "Simulation terminates only when every RAD is done", "statement": "The main loop stops exactly when all RADs reported completion.", "quantifier": "every completion order", "why_tests_cant": "histories", "anchors": ["rad-sim/sim/radsim_cluster.cpp: AllRADsNotDone", "rad-sim/sim/main.cpp"]}
{"id": "C55", "title": "Aggregate bandwidth weighs every flow by its links", "statement": "The aggregate of a NoC is the sum over its transactions of the bits transferred times the links traversed.", "quantifier": "every list of transactions", "why_tests_cant": "unbounded histories, in-flight transactions", "anchors": ["rad-sim/sim/radsim_telemetry.cpp: NoCTransactionTelemetry::DumpTrafficFlows"]}
{"id": "C56", "title": "Trace file lists the own events of every trace", "statement": "The trace dump contains, for each trace in order, exactly the cycles recorded for it, in recording order.", "quantifier": "every sequence of recordings", "why_tests_cant": "histories", "anchors": ["rad-sim/sim/radsim_telemetry.cpp: SimTraceRecording"]}
{"id": "C57", "title": "Knob file round trip", "statement": "A value of the configuration script written to the knob file is the value the simulator reads for this name and RAD.", "quantifier": "every set of knobs", "why_tests_cant": "all names, types and values", "anchors": ["rad-sim/config.py: generate_radsim_config_file", "rad-sim/sim/radsim_config.cpp: ParseRADSimKnobs"]}
{"id": "C58", "title": "A reported design failure gives a failing exit code", "statement": "If any RAD reports a design failure before the end of the simulation, the program exits with a non-zero code, else with zero.", "quantifier": "every schedule of reports and RADs", "why_tests_cant": "histories", "anchors": ["rad-sim/sim/main.cpp", "rad-sim/sim/design_context.cpp: ReportDesignFailure, GetSimExitCode"]}
{"id": "C59", "title": "Memory controller takes exactly the requests it is ready for", "statement": "A request offered to a memory channel is taken in a cycle if and only if valid and ready are both high in this cycle.", "quantifier": "for all queue sizes, request sequences, DRAM behaviours and cycles", "why_tests_cant": "needs particular fill levels, burst lengths and completion orders of the DRAM", "anchors": ["rad-sim/sim/dram/mem_controller.cpp:375-446", "rad-sim/sim/dram/mem_controller.cpp:586-620"]}
{"id": "C60", "title": "Write responses identify their request", "statement": "For every write burst completed by the memory exactly one write response is handed over, and it carries the user field of the last data beat of its own burst.", "quantifier": "for all sequences of writes, completion times and response stalls", "why_tests_cant": "depends on which occupancy signals happen to change in the cycle of a response", "anchors": ["rad-sim/sim/dram/mem_controller.cpp:258-270", "rad-sim/sim/dram/mem_controller.cpp:447-466", "rad-sim/sim/dram/mem_controller.cpp:586-620"]}
{"id": "C61", "title": "Mesh and torus links are wired in pairs", "statement": "Every output port of every router is read by exactly one input port, which belongs to the neighbour in that direction; the port of that number leads back; no link has two drivers.", "quantifier": "every radix, dimension, router and port", "why_tests_cant": "all sizes, edges and wrap-around links", "anchors": ["rad-sim/sim/noc/booksim/networks/kncube.cpp:104-168", "rad-sim/sim/noc/booksim/networks/kncube.cpp:171-218"]}
{"id": "C62", "title": "Two-order mesh routing is minimal and deadlock free", "statement": "With random choice between ascending and descending dimension order, every packet takes exactly as many links as the Manhattan distance and ejects at its destination, and no set of packets can block itself.", "quantifier": "every mesh size, packet set, choice of order and virtual channel, odd and even channel counts", "why_tests_cant": "needs all sets of packets and random choices", "anchors": ["rad-sim/sim/noc/booksim/routefunc.cpp:495-554"]}
{"id": "C63", "title": "Torus routing is minimal and deadlock free", "statement": "With dimension-order routing on a torus every packet takes exactly as many links as the shortest way around the rings, and no set of packets can block itself.", "quantifier": "every torus size, packet set and virtual channel assignment the configuration accepts", "why_tests_cant": "needs cyclic sets of packets around a ring", "anchors": ["rad-sim/sim/noc/booksim/routefunc.cpp:595-661", "rad-sim/sim/noc/booksim/routefunc.cpp:1569-1636", "rad-sim/config.py:164-182"]}
{"id": "C64", "title": "NoCs of a device do not influence each other", "statement": "Packets on one NoC are routed to their destination whatever the sizes of the other NoCs of the simulation are.", "quantifier": "every list of NoC sizes, every NoC, source and destination", "why_tests_cant": "needs combinations of NoC sizes", "anchors": ["rad-sim/sim/noc/radsim_noc.cpp:24-26", "rad-sim/sim/noc/booksim/networks/kncube.cpp:55-64"]}
{"id": "C65", "title": "Terminals of a 3D device are decoded as wired", "statement": "The router and port computed from the number of a terminal of the concentrated mesh are those to which the terminal is connected, and every port of every router has its own terminal.", "quantifier": "every grid size and terminal", "why_tests_cant": "all sizes, including those that are no powers of two", "anchors": ["rad-sim/sim/noc/booksim/networks/cmesh.cpp:158-176", "rad-sim/sim/noc/booksim/networks/cmesh.cpp:316-334"]}
{"id": "C66", "title": "Concentrated mesh routing without express links", "statement": "Without express links every packet takes exactly as many links as there are rows and columns to its destination router, leaves at its destination terminal, and no set of packets blocks itself.", "quantifier": "every grid size, packet set and virtual channel assignment", "why_tests_cant": "all sizes and sets of packets", "anchors": ["rad-sim/sim/noc/booksim/networks/cmesh.cpp:786-868"]}
{"id": "C67", "title": "Concentrated mesh routing with express links", "statement": "With express links every packet reaches its destination terminal exactly once, over at most as many links as without, and no set of packets blocks itself.", "quantifier": "every grid size, packet set and routing order", "why_tests_cant": "depends on parity of the size and on particular pairs of nodes", "anchors": ["rad-sim/sim/noc/booksim/networks/cmesh.cpp:186-230", "rad-sim/sim/noc/booksim/networks/cmesh.cpp:343-525", "rad-sim/sim/noc/booksim/networks/cmesh.cpp:671-781"]}
{"id": "C68", "title": "Allocators with requests grant, and converge", "statement": "An allocator that has requests grants at least one of them, and iSLIP and PIM with min(inputs, outputs) iterations leave no requested pair with both sides free.", "quantifier": "every history of request matrices, pointer states and random numbers", "why_tests_cant": "all matrices, histories and random choices; an allocation that grants nothing would stall the router for ever", "anchors": ["rad-sim/sim/noc/booksim/allocators/islip.cpp", "rad-sim/sim/noc/booksim/allocators/pim.cpp", "rad-sim/sim/noc/booksim/allocators/loa.cpp", "rad-sim/sim/noc/booksim/allocators/selalloc.cpp", "rad-sim/sim/noc/booksim/allocators/separable_input_first.cpp", "rad-sim/sim/noc/booksim/allocators/separable_output_first.cpp"]}
{"id": "C69", "title": "Router delays are in cycles", "statement": "A router with a routing delay of d cycles forwards its packets d cycles later than one without and works otherwise the same.", "quantifier": "every delay, clock period, configuration and packet", "why_tests_cant": "all delays and periods; the defaults hide the unit error", "anchors": ["rad-sim/sim/noc/booksim/routers/iq_router.cpp:464-549", "rad-sim/sim/radsim_utils.cpp:16-19", "rad-sim/config.py:185-195"]}
{"id": "C70", "title": "The NoC works at any simulation time", "statement": "A router keeps forwarding packets however long the simulation has been running.", "quantifier": "every reachable router state and every time", "why_tests_cant": "needs runs of more than 2 ms of simulated time in every state of the router", "anchors": ["rad-sim/sim/noc/booksim/routers/iq_router.cpp:464-549", "rad-sim/sim/radsim_utils.cpp:16-19"]}
{"id": "C71", "title": "A router never stops the program", "statement": "As long as its neighbours respect its credits and send whole packets, no assertion of a router fails, no input buffer overflows, no packet identifier is unexpected and no credit is in excess.", "quantifier": "every configuration with delay 1, every routing function with valid outputs, every allocator that makes valid assignments, every history", "why_tests_cant": "all histories of arrivals, credits and arbitration", "anchors": ["rad-sim/sim/noc/booksim/routers/iq_router.cpp:222-2279", "rad-sim/sim/noc/booksim/buffer.cpp:67-77", "rad-sim/sim/noc/booksim/vc.cpp:80-108"]}
{"id": "C72", "title": "A router passes every flit on once and in order", "statement": "Every flit that enters a router leaves it at most once, in the order of arrival on its virtual channel, unchanged apart from hop count and channel, through an output channel that the routing function offered for the head flit of its packet; packets are not interleaved on an output virtual channel; one credit is returned for each flit.", "quantifier": "every history, routing function and allocator", "why_tests_cant": "all interleavings of packets at all inputs", "anchors": ["rad-sim/sim/noc/booksim/routers/iq_router.cpp:1841-2133"]}
{"id": "C73", "title": "A router respects the credits of its neighbours", "statement": "On every output virtual channel a router has never sent more flits than buffer places plus returned credits, only on existing channels, and always whole packets.", "quantifier": "every history", "why_tests_cant": "all histories of credits", "anchors": ["rad-sim/sim/noc/booksim/routers/iq_router.cpp:1330-1839", "rad-sim/sim/noc/booksim/buffer_state.cpp"]}
{"id": "C74", "title": "A router returns correct credits", "statement": "A credit names existing virtual channels of an existing input, none twice, and a router never returns more credits than flits came in.", "quantifier": "every history", "why_tests_cant": "all histories", "anchors": ["rad-sim/sim/noc/booksim/routers/iq_router.cpp:2037-2044", "rad-sim/sim/noc/booksim/routers/iq_router.cpp:2222-2279"]}
{"id": "C75", "title": "A router drains", "statement": "When no more flits come in, every packet inside is complete and credits are returned within D ticks, all flits leave within a number of ticks that is linear in the number of flits inside.", "quantifier": "every history, allocator that grants something, routing function, and bound D", "why_tests_cant": "a liveness property of all schedules", "anchors": ["rad-sim/sim/noc/booksim/routers/iq_router.cpp:222-2279"]}
{"id": "C76", "title": "Each RAD is given the configuration listed for it", "statement": "The NoC, the knobs and the design of RAD r are those of the configuration section named by entry r of cluster_configs.", "quantifier": "every set of configuration sections and every cluster list", "why_tests_cant": "all lists, including repeated and permuted ones", "anchors": ["rad-sim/config.py: generate_booksim_config_files", "rad-sim/config.py: generate_radsim_config_file", "rad-sim/config.py: generate_radsim_main", "rad-sim/sim/noc/radsim_noc.cpp:20-24"]}
{"id": "C77", "title": "The destination field holds every node and RAD", "statement": "The generated width of a destination field can represent every node of every RAD of the cluster and every RAD number, and is not wider than needed.", "quantifier": "every cluster of mesh NoCs", "why_tests_cant": "all combinations of mesh sizes and orders", "anchors": ["rad-sim/config.py:131-144", "rad-sim/config.py:240-247"]}
{"id": "C78", "title": "A network never fails", "statement": "As long as the nodes send flits only with credits and as whole packets, and return credits only for flits received, no router or channel of a network of any wiring stops the program: no assertion fails, no buffer overflows, no packet ID is unexpected, no credit is in excess, and no time overflows.", "quantifier": "every wiring, configuration, allocator with valid assignments, routing function, and every run of any length", "why_tests_cant": "the contracts of all routers rely on each other; needs an induction over time for every topology and traffic", "anchors": ["rad-sim/sim/noc/booksim/networks/network.cpp:123-222", "rad-sim/sim/noc/radsim_noc.cpp:301-321", "rad-sim/sim/noc/booksim/routers/iq_router.cpp:222-2279", "rad-sim/sim/noc/booksim/channel.hpp:70-124"]}
{"id": "C79", "title": "Packets cross a network as a whole, once and unchanged", "statement": "For every property of a packet (the sequence of its flits), the number of complete packets with it that nodes have received is at most the number that nodes have sent: nothing is duplicated, invented, torn apart, mixed or changed.", "quantifier": "every wiring, run and property of packets", "why_tests_cant": "all interleavings of packets on shared virtual channels", "anchors": ["rad-sim/sim/noc/booksim/networks/network.cpp:123-222", "rad-sim/sim/noc/booksim/routers/iq_router.cpp:222-2279"]}
{"id": "C80", "title": "Flits leave a network only at their destination", "statement": "If the routing function offers a head, wherever it may be, only channels where it may be next, and it may be on a link to a node only if that is its destination, then every flit, body flits included, that a node receives has this node as its destination.", "quantifier": "every wiring, run and routing discipline", "why_tests_cant": "body flits follow the head only by the state of the routers; all interleavings", "anchors": ["rad-sim/sim/noc/booksim/routers/iq_router.cpp:222-2279", "rad-sim/sim/noc/booksim/networks/network.cpp:123-222"]}
{"id": "C81", "title": "A mesh of routers delivers to the right node by a shortest way", "statement": "In a mesh NoC with dim_order or xy_yx routing, no router, channel or routing function ever stops the program, and every flit that a node receives has this node as its destination; a head has passed exactly one router more than the Manhattan distance of source and destination.", "quantifier": "every radix, number of dimensions, configuration, traffic and run", "why_tests_cant": "all mesh sizes and all traffic; composition of routing, wiring, routers and channels", "anchors": ["rad-sim/sim/noc/booksim/networks/kncube.cpp:55-218", "rad-sim/sim/noc/booksim/routefunc.cpp:495-703", "rad-sim/sim/noc/booksim/routers/iq_router.cpp:222-2279"]}
{"id": "C82", "title": "A network delivers everything", "statement": "In a network of any wiring whose routing function goes down in a rank of the virtual channels, once the nodes send no more flits and return their credits, every packet that was sent has been received, as a whole, after a number of ticks known from the configuration and the number of flits sent.", "quantifier": "every wiring, rank, run, packet property and node behaviour within the contract", "why_tests_cant": "deadlock and livelock depend on all interleavings of packets in all buffers", "anchors": ["rad-sim/sim/noc/booksim/routers/iq_router.cpp:222-2279", "rad-sim/sim/noc/booksim/networks/network.cpp:123-222", "rad-sim/sim/noc/booksim/channel.hpp:70-124"]}
{"id": "C83", "title": "A mesh NoC delivers every packet to its node", "statement": "In a mesh NoC with dim_order or xy_yx routing, once the nodes send no more flits and return their credits, every node has received exactly the packets that were sent to it after a number of ticks known from the mesh size, the virtual channels and the number of flits sent.", "quantifier": "every radix, number of dimensions, configuration, traffic and run", "why_tests_cant": "deadlock depends on all interleavings of packets in all buffers, for all mesh sizes", "anchors": ["rad-sim/sim/noc/booksim/networks/kncube.cpp:55-218", "rad-sim/sim/noc/booksim/routefunc.cpp:495-703", "rad-sim/sim/noc/booksim/routers/iq_router.cpp:222-2279"]}
{"id": "C84", "title": "A torus NoC delivers every packet to its node by a shortest way", "statement": "In a torus NoC no router, channel or routing function ever stops the program; every flit that a node receives has this node as its destination, and a head has passed one router more than the shortest way around the rings. Once the nodes send no more flits and return their credits, every node has received exactly the packets that were sent to it after a number of ticks known from the configuration and the number of flits sent.", "quantifier": "every radix, number of dimensions, configuration, traffic and run", "why_tests_cant": "cyclic waiting around a ring depends on all interleavings of packets in all buffers, for all sizes", "anchors": ["rad-sim/sim/noc/booksim/networks/kncube.cpp:55-218", "rad-sim/sim/noc/booksim/routefunc.cpp:595-661", "rad-sim/sim/noc/booksim/routefunc.cpp:1569-1636", "rad-sim/sim/noc/booksim/routers/iq_router.cpp:222-2279"]}
{"id": "C85", "title": "A DRAM write does not overtake a read of its address", "statement": "When a read of an address has been accepted and a write of the address comes later, the DRAM writes the place only after it has read it; a read of an address with a waiting write is answered at once from the write buffer.", "quantifier": "every sequence of transactions and cycles, every timing and page policy", "why_tests_cant": "depends on the fill of all queues, the write drain and the refreshes at the time", "anchors": ["rad-sim/sim/dram/DRAMsim3/src/controller.cc:161-266", "rad-sim/sim/dram/DRAMsim3/src/command_queue.cc:178-230"]}
{"id": "C86", "title": "DRAM writes are acknowledged in order", "statement": "The write callbacks of a channel come in the order in which the writes were accepted, as the memory controller assumes when it takes the data of the oldest outstanding write.", "quantifier": "every sequence of transactions and cycles", "why_tests_cant": "histories", "anchors": ["rad-sim/sim/dram/DRAMsim3/src/controller.cc:45-63", "rad-sim/sim/dram/DRAMsim3/src/controller.cc:161-195", "rad-sim/sim/dram/DRAMsim3/src/dram_system.cc:140-167", "rad-sim/sim/dram/mem_controller.cpp:258-268"]}
{"id": "C87", "title": "Traffic cannot hold up a DRAM refresh", "statement": "With the default policy (ranks take turns) and no self-refresh, every refresh is issued within a fixed number of cycles after it is due, for the rank whose turn it is, so that every rank is refreshed in every stretch of tREFI plus this number of cycles.", "quantifier": "every sequence of transactions and cycles, every geometry and sensible timing, queues per bank or per rank", "why_tests_cant": "the wait depends on the open banks, the commands in flight and the traffic of the other ranks; adversarial traffic cannot be enumerated", "anchors": ["rad-sim/sim/dram/DRAMsim3/src/refresh.cc:12-60", "rad-sim/sim/dram/DRAMsim3/src/command_queue.cc:36-75", "rad-sim/sim/dram/DRAMsim3/src/controller.cc:65-93", "rad-sim/sim/dram/DRAMsim3/src/channel_state.cc:76-115"]}
{"id": "C88", "title": "AXI-MM requests and responses are shown once and in order", "statement": "The port of an AXI memory-mapped adapter shows the packets that arrive from the NoC on each channel (AR, AW, W at a master port, R, B at a slave port) exactly once each, in the order of arrival, with the data, response, last flag, user bits, id and address that were sent; the adapter never stops the simulation.", "quantifier": "every sequence of flits on the channels of their types, every interleaving of NoC, adapter and node clocks, every behaviour of the ready signals", "why_tests_cant": "clock interleavings, back pressure and the round robin over the FIFOs give unboundedly many histories", "anchors": ["rad-sim/sim/noc/aximm_master_adapter.cpp:108-363", "rad-sim/sim/noc/aximm_slave_adapter.cpp:483-689"]}
{"id": "C89", "title": "AXI-MM reassembly never mixes packets", "statement": "If the NoC delivers whole packets on every virtual channel, every beat that an AXI memory-mapped adapter shows is made of the flits of one packet.", "quantifier": "every number of virtual channels per packet type, every interleaving of packets of different virtual channels", "why_tests_cant": "needs two packets of one type on different virtual channels to arrive interleaved, which depends on the traffic", "anchors": ["rad-sim/sim/noc/aximm_master_adapter.cpp:83-157", "rad-sim/sim/noc/aximm_slave_adapter.cpp:459-528"]}
{"id": "C90", "title": "AXI-MM sink handshake is AXI compliant", "statement": "A valid beat at the port of an AXI memory-mapped adapter is taken by the module: valid is raised without waiting for ready and is kept until the module is ready.", "quantifier": "every waveform of the ready signals", "why_tests_cant": "waveforms", "anchors": ["rad-sim/sim/noc/aximm_master_adapter.cpp:242-363", "rad-sim/sim/noc/aximm_slave_adapter.cpp:617-689"]}
{"id": "C91", "title": "Every AXI-MM packet is delivered", "statement": "Once a module keeps its ready signals high, every complete packet in its AXI memory-mapped adapter is shown after a bounded number of clock cycles.", "quantifier": "every state the adapter can be in, every packet size and every FIFO depth", "why_tests_cant": "liveness for all states", "anchors": ["rad-sim/sim/noc/aximm_master_adapter.cpp:108-363", "rad-sim/sim/noc/aximm_slave_adapter.cpp:483-689"]}
{"id": "C92", "title": "Packets of one type between two nodes arrive in order", "statement": "The packets of one message type that a node sends to another node over a mesh NoC with dimension-order routing are received in the order in which they were sent.", "quantifier": "every mesh, traffic of all nodes, buffer size, allocator and execution", "why_tests_cant": "order depends on contention among all flows of the network; reordering needs particular blocking patterns", "anchors": ["rad-sim/sim/noc/booksim/routefunc.cpp:665-686", "rad-sim/sim/noc/booksim/routers/iq_router.cpp:222-292", "rad-sim/sim/noc/radsim_noc.cpp:301-321"]}
{"id": "C93", "title": "AXI-Stream over a mesh NoC never fails and never invents or duplicates data", "statement": "With AXI-Stream adapters at all nodes of a mesh NoC, beats that go to existing nodes and ports never make any part of the simulator stop (buffer overflow, excess credit, cut packet, routing assertion), and everything a module receives at a port is a beat that some module sent to that port, with its data, user bits and last flag, no beat arriving twice.", "quantifier": "every mesh, number of ports, buffer size, allocator, clock ratio, stall pattern of the modules and traffic of all nodes", "why_tests_cant": "holds for all interleavings of three clocks per node and all traffic", "anchors": ["rad-sim/sim/noc/axis_slave_adapter.cpp:62-282", "rad-sim/sim/noc/axis_master_adapter.cpp:65-295", "rad-sim/sim/noc/radsim_noc.cpp:301-321"]}
{"id": "C94", "title": "An AXI-Stream over the NoC arrives in order", "statement": "If all beats accepted for a port come from one node and have one message type, the port hands over these beats in the order in which they were accepted, none left out.", "quantifier": "every mesh, traffic to other ports, buffer size, allocator, clock ratio and stall pattern", "why_tests_cant": "reordering needs particular blocking patterns in the network and the adapter", "anchors": ["rad-sim/sim/noc/axis_slave_adapter.cpp:203-282", "rad-sim/sim/noc/axis_master_adapter.cpp:65-295", "rad-sim/sim/noc/booksim/routefunc.cpp:665-686", "rad-sim/sim/noc/radsim_noc.cpp:301-321"]}
{"id": "C95", "title": "Everything sent over the NoC as AXI-Stream arrives", "statement": "If the modules stop sending and go on taking what they are handed, then after a time that can be computed from the configuration and the number of flits sent every port has handed over all beats that any node accepted for it, each once with its data, user bits and last flag. If one node sends to a port with one message type and one virtual channel, the port hands over exactly the accepted sequence.", "quantifier": "every mesh, number of ports, buffer size, allocator that serves some request, clock ratio with at most one adapter edge per NoC period, stall pattern and traffic", "why_tests_cant": "absence of deadlock and lost credits for all interleavings and all traffic, with a bound for all sizes", "anchors": ["rad-sim/sim/noc/axis_slave_adapter.cpp:62-282", "rad-sim/sim/noc/axis_master_adapter.cpp:65-295", "rad-sim/sim/noc/radsim_noc.cpp:301-321"]}
{"id": "C96", "title": "A fast adapter clock does not stop the NoC", "statement": "Everything accepted for a port also arrives if the adapter clock is faster than the NoC clock. (False: credits are lost. Once the rest of an incomplete packet does not fit into the places whose credits are left, the adapter never again gets a flit on this virtual channel, whatever the modules do.)", "quantifier": "every mesh, buffer size, allocator, traffic and later behaviour of all clocks and modules", "why_tests_cant": "that a channel stays blocked for ever is a statement about all later executions; whether it blocks depends on the phase of the clocks", "anchors": ["rad-sim/sim/noc/axis_master_adapter.cpp:171-210", "rad-sim/sim/noc/radsim_noc.cpp:301-321"]}
{"id": "C97", "title": "The NoC never stops taking AXI-Stream beats", "statement": "While the clocks run and the modules take what they are handed, the NoC does not stop accepting: if in any stretch of J periods some module offers a beat, the number of accepted flits exceeds every bound B after a time that can be computed from the configuration and B. If it does not exceed B by then, there was a time at which everything accepted had been handed over and no module was offering a beat.", "quantifier": "every mesh, number of ports, buffer size, allocator that serves some request, clock ratio with at most one adapter edge per NoC period, stall pattern and unending traffic", "why_tests_cant": "a livelock or deadlock may need any amount of earlier traffic; the claim is about executions without end", "anchors": ["rad-sim/sim/noc/axis_slave_adapter.cpp:62-282", "rad-sim/sim/noc/axis_master_adapter.cpp:65-295", "rad-sim/sim/noc/radsim_noc.cpp:301-321"]}
{"id": "C98", "title": "FIFOs of the example designs keep order and never over- or underflow", "statement": "A FIFO whose user heeds empty and full never ends the program, hands out exactly what was written, in order, and its flags and data output say what it holds. The client of the add and mult designs heeds them for every behaviour of driver and NoC: it hands on every number it took, in order and with its last flag, keeps its two FIFOs in step, and is ready exactly while it holds less than FIFO_DEPTH - 1 numbers (FIFO_DEPTH at least 2; with 1 it takes a single number and then none for ever).", "quantifier": "every FIFO depth, sequence of inputs and back-pressure pattern", "why_tests_cant": "all interleavings of valid and ready of any length", "anchors": ["rad-sim/example-designs/add/modules/fifo.cpp", "rad-sim/example-designs/add/modules/client.cpp"]}
{"id": "C99", "title": "The add and mult designs report the right result", "statement": "The add (mult) design on a mesh NoC never ends the program and never reports a failure; when the driver reports success the adder has taken all numbers in order; and while the clocks run the driver reports success within a time that can be computed from the configuration and the number of numbers. With no numbers nothing is reported.", "quantifier": "every mesh, placement, list of numbers whose result fits an int, allocator, clock phases, FIFO depth", "why_tests_cant": "every interleaving of three clocks, mesh size and placement; absence of deadlock between client, adapters and NoC", "anchors": ["rad-sim/example-designs/add/add_driver.cpp", "rad-sim/example-designs/add/modules/adder.cpp", "rad-sim/example-designs/add/modules/client.cpp", "rad-sim/example-designs/mult/modules/mult.cpp"]}
{"id": "C100", "title": "An MVM of the mlp design does what its program says", "statement": "Whatever the timing of input beats and of the NoC adapter, a matrix vector multiplier never over- or underflows one of its five FIFOs, never addresses beyond a memory, and the beats it hands over are, in order and with the right destination and tag, a beginning of the results that its program gives when run instruction by instruction on the vectors taken. It fails for a result of zeros that goes to the collector: the output process is not sensitive to the FIFO becoming empty, so the simulation ends with an underflow error.", "quantifier": "every program that does not fault, weights, inputs, native dimension, FIFO size and latency, every pattern of valid and ready", "why_tests_cant": "pipelines, accumulators and five FIFOs under every back-pressure pattern; a delta cycle that does not happen", "anchors": ["rad-sim/example-designs/mlp/modules/mvm.cpp", "rad-sim/example-designs/mlp/modules/fifo.cpp"]}
{"id": "C101", "title": "An MVM of the mlp design hands over all results", "statement": "If the NoC adapter has room again and again, every result that the program gives on the vectors taken so far is handed over at some time, also while more vectors arrive.", "quantifier": "every program that does not fault, weights, inputs, FIFO size and latency, every pattern of valid and ready", "why_tests_cant": "liveness over unbounded executions", "anchors": ["rad-sim/example-designs/mlp/modules/mvm.cpp"]}
{"id": "C102", "title": "The mlp compiler writes programs that compute the padded matrix products", "statement": "For every network that gen_testcase.py accepts, the program of every module never faults on any vectors, its results are the blocks of the matrix times the columns that belong to the module, plus what the module before sends, and go to the next module of the layer, to the modules of the next layer in turn, or to the collector. The golden outputs are the outputs of the unpadded network followed by zeros. If the last matrix is padded by a whole block of rows, some golden outputs are zeros for all weights and inputs.", "quantifier": "every number of layers, dimension, number of modules per layer, weights and inputs, every list of vectors", "why_tests_cant": "loop over all shapes and roundings; index arithmetic over column blocks dealt to modules", "anchors": ["rad-sim/example-designs/mlp/compiler/gen_testcase.py", "rad-sim/example-designs/mlp/modules/mvm.cpp"]}
{"id": "C103", "title": "The mlp design sends the golden outputs and nothing else", "statement": "With a NoC that delivers in order and neither loses nor invents beats, and whatever its timing, no FIFO of any module of any layer over- or underflows, and the beats for the collector are a beginning of the golden outputs. It fails if a line of the golden outputs is all zeros: a design with the constants of the source sends its last line and then ends with an underflow error.", "quantifier": "every network, weights and inputs, every timing of the NoC and its adapters, every number of cycles", "why_tests_cant": "composition of all modules under every interleaving; the failure needs a line of zeros", "anchors": ["rad-sim/example-designs/mlp/compiler/gen_testcase.py", "rad-sim/example-designs/mlp/modules/mvm.cpp", "rad-sim/example-designs/mlp/modules/mvm.hpp"]}
{"id": "C104", "title": "The mlp design finishes", "statement": "If the vectors of all test inputs fit the input FIFOs of every module, and the NoC and its adapters do not stop, all golden outputs are sent to the collector some time: no module waits for ever for a vector to be added.", "quantifier": "every network, weights and inputs, every fair timing of the NoC and its adapters", "why_tests_cant": "liveness of a cyclic-looking dependence between input and reduction vectors on one port", "anchors": ["rad-sim/example-designs/mlp/modules/mvm.hpp", "rad-sim/example-designs/mlp/modules/mvm.cpp", "rad-sim/example-designs/mlp/compiler/gen_testcase.py"]}
{"id": "C105", "title": "The mlp driver feeds and checks faithfully", "statement": "If the driver and the modules have the same clock, then whatever the NoC does: the FIFOs of dispatchers and collector neither over- nor underflow; a dispatcher hands the lines of its file to the NoC in order, none lost and none twice, and all of them once the NoC was ready often enough; the driver reports success iff the first vectors the collector took are the golden outputs, and it does report once they were taken. With a slower driver clock a line is sent twice, and failure is reported for right outputs.", "quantifier": "every file, every behaviour of the NoC at every edge, FIFO sizes of at least 2", "why_tests_cant": "all patterns of backpressure and of arrivals; the two clocks are separate knobs that the shipped configuration sets alike", "anchors": ["rad-sim/example-designs/mlp/mlp_driver.cpp", "rad-sim/example-designs/mlp/modules/dispatcher.cpp", "rad-sim/example-designs/mlp/modules/collector.cpp", "rad-sim/example-designs/mlp/modules/fifo.cpp"]}
{"id": "C106", "title": "The mlp design on a mesh reports success only for the right results, and never a false failure", "statement": "With all modules of the mlp design on a mesh, each at a node of its own, from the files the compiler wrote: whatever the clocks of NoC and adapters, the run never stops with an error; the vectors the collector takes are the golden outputs in their order, none missing in between, none twice, none wrong; the driver reports only after all of them; it reports success iff the golden outputs fit an int, and once all are taken it reports within as many edges as the FIFO is deep. A design whose golden outputs do not fit an int computes right and is reported as failed.", "quantifier": "every design the compiler accepts (any layers, modules per layer, matrices, padding, test inputs) with no golden line of zeros, every mesh, placement, allocators, adapter and NoC clocks, at every point of time", "why_tests_cant": "results of many modules meet in the NoC in an order that depends on clocks, placement and allocators; a test sees one design, one placement and one set of clocks", "anchors": ["rad-sim/example-designs/mlp/mlp_system.cpp", "rad-sim/example-designs/mlp/mlp_top.cpp", "rad-sim/example-designs/mlp/mlp_driver.cpp", "rad-sim/example-designs/mlp/modules/mvm.cpp", "rad-sim/example-designs/mlp/compiler/gen_testcase.py", "rad-sim/sim/noc/radsim_noc.cpp"]}
{"id": "C107", "title": "The mlp design on a mesh comes to an end and reports success", "statement": "With all modules of the mlp design on a mesh, each at a node of its own, from the files the compiler wrote: if the vectors of all test inputs fit the input FIFOs of the modules, packets fit a router buffer, the allocators grant something when there is a request and no clock stops, then after a number of periods that can be computed beforehand the collector has taken all golden outputs in their order and the driver has reported; it has reported success if the golden outputs fit an int. No timing of NoC, adapters and modules makes the simulation run for ever.", "quantifier": "every design the compiler accepts with no golden line of zeros, every mesh, placement, allocators, adapter and NoC clocks, every way the clocks interleave", "why_tests_cant": "liveness of many modules that wait for each other through a shared network with finite buffers; a test ends by itself or by a limit on cycles", "anchors": ["rad-sim/example-designs/mlp/mlp_system.cpp", "rad-sim/example-designs/mlp/mlp_driver.cpp", "rad-sim/example-designs/mlp/modules/mvm.cpp", "rad-sim/sim/noc/radsim_noc.cpp", "rad-sim/sim/noc/axis_master_adapter.cpp", "rad-sim/sim/noc/axis_slave_adapter.cpp"]}
{"id": "C108", "title": "A NoC with AXI memory-mapped adapters never fails and loses no flit", "statement": "With AXI memory-mapped adapters at the nodes of a mesh, one virtual channel per packet type and matching clock ratio: whatever requests and responses the modules offer, whenever they are ready, no assertion or error of routers, channels, buffer states or adapters stops the simulation, and no adapter drops a flit for want of space.", "quantifier": "every mesh, node configuration, buffer sizes, allocators, traffic, ready signals, interleaving of NoC, adapter and node clocks, at every point of time", "why_tests_cant": "back-pressure from modules through adapters into the routers of a shared network depends on all clocks and on traffic of other nodes; a test sees one schedule", "anchors": ["rad-sim/sim/noc/radsim_noc.cpp", "rad-sim/sim/noc/aximm_slave_adapter.cpp", "rad-sim/sim/noc/aximm_master_adapter.cpp", "rad-sim/sim/noc/booksim/buffer_state.cpp"]}
{"id": "C109", "title": "AXI memory-mapped transfers arrive at the right node, once, in order and unchanged", "statement": "On a mesh with AXI memory-mapped adapters, one virtual channel per packet type and matching clock ratio: the beats a module is shown on a channel can be traced to nodes such that those of a node are the first that its module has handed over for this node on this channel, in the order of the handshakes and unchanged but for burst, size and length of addresses; write data goes where the last write address went. A module is shown no beats on channels of the other direction.", "quantifier": "every mesh, node configuration, buffer sizes, allocators, traffic from any number of nodes to any number of nodes, interleaving of clocks, at every point of time", "why_tests_cant": "beats of many nodes are cut into flits, interleave on links and virtual channels and are put together again; errors show only for rare interleavings", "anchors": ["rad-sim/sim/noc/radsim_noc.cpp", "rad-sim/sim/noc/aximm_slave_adapter.cpp", "rad-sim/sim/noc/aximm_master_adapter.cpp", "rad-sim/sim/noc/booksim/routers/iq_router.cpp"]}
{"id": "C110", "title": "Everything handed to a NoC with AXI memory-mapped adapters arrives", "statement": "On a mesh with AXI memory-mapped adapters, one virtual channel per packet type and matching clock ratio, with packets that fit a router buffer, fair allocators, modules that are ready on every channel again and again, and clocks that do not stop: when the modules stop offering, then after a number of periods that can be computed from the flits handed over, every beat has been shown to the module it was for, from every node exactly those it handed over, in order and unchanged but for burst, size and length of addresses.", "quantifier": "every mesh, node configuration, buffer sizes, fair allocators, traffic, readiness of modules, interleaving of clocks", "why_tests_cant": "liveness: absence of deadlock, livelock and starvation between packetisation, credits, routers and reassembly; a test that passes shows it for one schedule, one that hangs is cut off", "anchors": ["rad-sim/sim/noc/radsim_noc.cpp", "rad-sim/sim/noc/aximm_slave_adapter.cpp", "rad-sim/sim/noc/aximm_master_adapter.cpp", "rad-sim/sim/noc/booksim/routers/iq_router.cpp"]}
{"id": "C111", "title": "aximm_hello_world sends its trace", "statement": "In the aximm_hello_world design on a mesh NoC the program never stops with an error (no failure in the NoC, no pop of an empty queue), and at every time the requests the NoC has taken from the requester are a prefix of what the trace asks for, line by line: a read address for a read, a write address and the data for a write. No line is sent twice, none is left out, also when the adapter is busy for a long time.", "quantifier": "every mesh, placement, trace, buffer sizes, clock ratio, interleaving of the clocks within the ratio, allocators", "why_tests_cant": "the requester learns of an accepted beat from a signal that another clock domain drives; a beat sent twice or lost depends on how the edges fall and on back-pressure", "anchors": ["rad-sim/example-designs/aximm_hello_world/modules/requester.cpp", "rad-sim/example-designs/aximm_hello_world/aximm_hello_world_driver.cpp", "rad-sim/sim/noc/aximm_slave_adapter.cpp"]}
{"id": "C112", "title": "aximm_hello_world reads what was written", "statement": "The data the driver of aximm_hello_world is given are those of a memory, at first zero, that performs the reads and writes of the trace one after the other, reads in their order and writes in theirs; so each value read was written to that address by a line of the trace, or is zero. When the driver stops the simulation, every read and write of the trace has been performed and answered exactly once. The values need not be those of the trace performed in order: a read can overtake an earlier write.", "quantifier": "every mesh, placement, trace, buffer sizes, clock ratio, interleaving of the clocks within the ratio, allocators", "why_tests_cant": "which read meets which write depends on the load of five virtual channels and on the ratio of three clocks; the shipped trace shows one schedule, in which the order happens to be kept", "anchors": ["rad-sim/example-designs/aximm_hello_world/modules/responder.cpp", "rad-sim/example-designs/aximm_hello_world/modules/requester.cpp", "rad-sim/example-designs/aximm_hello_world/aximm_hello_world_driver.cpp", "rad-sim/sim/noc/aximm_master_adapter.cpp"]}
{"id": "C113", "title": "aximm_hello_world comes to an end", "statement": "If no clock stops, the simulation of aximm_hello_world ends: within a number of NoC periods computable from the length of the trace, the mesh and the clocks, every line of the trace has been sent exactly once, performed and answered, and the driver, having been given as many answers as the trace has lines, stops the simulation.", "quantifier": "every mesh, placement, trace, buffer sizes with room for a packet, clock ratio, interleaving of the clocks within the ratio, allocators that grant something when asked", "why_tests_cant": "a test sees one trace come to an end; that no trace makes requester, responder, the two adapters and the five virtual channels wait for each other forever is a statement about all executions", "anchors": ["rad-sim/example-designs/aximm_hello_world/modules/requester.cpp", "rad-sim/example-designs/aximm_hello_world/modules/responder.cpp", "rad-sim/example-designs/aximm_hello_world/aximm_hello_world_driver.cpp", "rad-sim/sim/noc/aximm_slave_adapter.cpp", "rad-sim/sim/noc/aximm_master_adapter.cpp"]}
{"id": "C114", "title": "DLRM feature interaction assembles the vectors its instructions describe", "statement": "However the memory responses and the readiness of the MVMs are timed, the i-th word that the feature-interaction module of the dlrm design hands to MVM ch of the first layer holds vector number ch + i*numOut: element by element what instruction (number mod program length) picks from the streams of the memory channels, with zeros behind, each stream being taken in its order and no word being used before it has come in.", "quantifier": "every list of instructions, number of channels and MVMs, FIFO depth, timing of all channels, contents", "why_tests_cant": "the result must not depend on timing: FIFO levels, stalled MVMs and late channels combine in unboundedly many ways; the shipped test runs one timing and never fills a FIFO", "anchors": ["rad-sim/example-designs/dlrm/modules/custom_feature_interaction.cpp", "rad-sim/example-designs/dlrm/modules/custom_feature_interaction.hpp"]}
{"id": "C115", "title": "DLRM feature interaction never reads an empty queue", "statement": "If every instruction names existing channels, stays within the words and within the vector and does not come back to a FIFO it has popped, then the feature-interaction module never reads or pops an empty queue, never reads past the end of a vector and never fails its assertion, whatever memory and MVMs do.", "quantifier": "every sound list of instructions, every behaviour of the environment, every time", "why_tests_cant": "the module checks for empty FIFOs by signals of the period before; undefined behaviour shows only for the arrival pattern that hits the gap", "anchors": ["rad-sim/example-designs/dlrm/modules/custom_feature_interaction.cpp"]}
{"id": "C116", "title": "DLRM feature interaction sends every vector it can make", "statement": "Once the MVMs stay ready, every vector whose words have come in is handed over within 1 + K + FIFO depth periods, K being the number of vectors, and holds what the instructions say.", "quantifier": "every sound list of instructions, every earlier history of the module", "why_tests_cant": "absence of deadlock and a bound on the delay after any history of back-pressure cannot be observed on sample runs", "anchors": ["rad-sim/example-designs/dlrm/modules/custom_feature_interaction.cpp"]}
{"id": "C117", "title": "DLRM embedding lookup asks for each lookup once, in order", "statement": "On every memory channel the addresses requested by the embedding-lookup module are port base + table base + index of the lookups handed over for that channel, in their order, none twice and none left out, and the module does not fail; if the channel is ready at least once in any p periods, all are requested within (p+1) times their number of periods.", "quantifier": "every sequence of lookup vectors, number of channels, FIFO depth, timing of driver and memory side", "why_tests_cant": "whether a request is repeated or dropped depends on the pattern of arready on each of the channels; a run exercises one pattern", "anchors": ["rad-sim/example-designs/dlrm/modules/embedding_lookup.cpp"]}
{"id": "C118", "title": "DLRM compiler writes a sound and complete schedule", "statement": "The instructions that dlrm.py writes for the feature-interaction module cannot make it fail; every vector is full; the number of vectors per input is the smallest multiple of the number of first-layer MVMs that holds all tables; and the vectors of an input are, one after the other, the vectors of all tables in the order of the lookups, each read from the right word of its channel, and zeros behind.", "quantifier": "every list of placed tables, native dimension, number of MVMs, number of channels, contents of memory and number of inputs", "why_tests_cant": "the packing of tables into vectors depends on all widths, their order and the channels; a test covers one model file and one lane count", "anchors": ["rad-sim/example-designs/dlrm/compiler/dlrm.py:443-551", "rad-sim/example-designs/dlrm/modules/custom_feature_interaction.cpp:23-40"]}
{"id": "C119", "title": "DLRM embedding lookup keeps its FIFOs within their depth", "statement": "On every channel the lookups handed over and not yet requested are never more than the FIFO depth the module is given.", "quantifier": "every sequence of lookup vectors, number of channels, FIFO depth of at least five, timing of driver and memory side", "why_tests_cant": "overflow shows only for a certain alignment of the full flag, the pops and the vectors, and the C++ queue grows silently", "anchors": ["rad-sim/example-designs/dlrm/modules/embedding_lookup.cpp:51-186", "rad-sim/example-designs/dlrm/dlrm_top.cpp:8"]}
{"id": "C120", "title": "DLRM front end delivers what the inputs ask for", "statement": "From driver to first-layer MVMs: neither module fails, and the q-th vector of the j-th input goes to MVM q mod num_mvms and holds the memory words that the lookups of this input ask for, cut to the widths of their tables, one after the other, then zeros; once all answers have come and the MVMs are ready all vectors leave within a computable number of periods.", "quantifier": "every model that fits, every list of inputs, memory contents, and timing of driver, memories and MVMs", "why_tests_cant": "needs all interleavings of the lookups, answers and back-pressure on all channels at once, for all models and inputs", "anchors": ["rad-sim/example-designs/dlrm/compiler/dlrm.py:553-590", "rad-sim/example-designs/dlrm/modules/embedding_lookup.cpp:92-186", "rad-sim/example-designs/dlrm/modules/custom_feature_interaction.cpp:150-300"]}
{"id": "C121", "title": "DLRM table allocation gives every table a place of its own", "statement": "If greedy_allocation ends, the lookups and the instructions visit every table of the model exactly once, no two tables share a word of memory, every table lies in an existing channel within its capacity, and lookups of different tables never go to the same address of a channel. It ends if one DDR channel could hold all tables.", "quantifier": "every list of tables, number and capacity of channels", "why_tests_cant": "overlaps would only show for particular sizes and orders of tables; a test covers the shipped model files", "anchors": ["rad-sim/example-designs/dlrm/compiler/dlrm.py:95-171", "rad-sim/example-designs/dlrm/compiler/dlrm.py:259-315"]}
{"id": "C122", "title": "DLRM driver reports success exactly for the expected outputs", "statement": "The driver reports success if and only if the outputs read from the collector are the expected ones, once the expected number of outputs has come.", "quantifier": "every sequence of outputs and expected outputs, every timing of the collector", "why_tests_cant": "whether a wrong output is noticed depends on which elements differ; a passing test run cannot show it", "anchors": ["rad-sim/example-designs/dlrm/dlrm_driver.cpp:157-226"]}
{"id": "C123", "title": "The mlp_int8 matrix-vector module computes what its program says", "statement": "With instructions and weights loaded before the first input vector, the beats a sysc_mvm hands over are, in order, the first results of its program run over and over on the vectors it has taken, in 8-bit arithmetic, with the destination and kind of the instruction, whatever the timing of its inputs and of the adapter.", "quantifier": "every program, weights, input and reduction vectors, widths and latencies, timing at both ports, number of cycles", "why_tests_cant": "the result depends on the interleaving of pipeline stages, ring of instructions, late register file writes and stalls; a test run shows one timing", "anchors": ["rad-sim/example-designs/mlp_int8/modules/sysc_mvm.cpp:196-393", "rad-sim/example-designs/mlp_int8/modules/datapath.cpp:50-104", "rad-sim/example-designs/mlp_int8/modules/register_file.cpp:45-101"]}
{"id": "C124", "title": "The mlp_int8 matrix-vector module sends every result", "statement": "If the adapter has room again and again, every result that the program gives on the vectors a sysc_mvm has taken is handed over in the end.", "quantifier": "every program, weights, vectors, widths and latencies, every timing with an adapter that does not stop", "why_tests_cant": "liveness over unbounded executions", "anchors": ["rad-sim/example-designs/mlp_int8/modules/sysc_mvm.cpp:321-391", "rad-sim/example-designs/mlp_int8/modules/fifo.cpp:25-60"]}
{"id": "C125", "title": "The mlp_int8 matrix-vector module never over- or underflows a FIFO", "statement": "Whatever beats arrive in whatever order and whatever the adapter does, none of the FIFOs of a sysc_mvm overflows or underflows (both are fatal errors), and no datapath reads an element that a vector does not have.", "quantifier": "every sequence of beats, every timing, every number of cycles, all constants with FIFOD at least DATAPATH_DELAY + 5", "why_tests_cant": "an overflow needs a particular coincidence of back-pressure and pipeline contents; the almost-full thresholds must be right for all of them", "anchors": ["rad-sim/example-designs/mlp_int8/modules/sysc_mvm.cpp:37-62", "rad-sim/example-designs/mlp_int8/modules/sysc_mvm.cpp:159", "rad-sim/example-designs/mlp_int8/modules/fifo.cpp:35-57"]}
{"id": "C126", "title": "How long a program of the mlp_int8 matrix-vector module can be", "statement": "A program of up to FIFOD - 4 instructions is always taken by a sysc_mvm, and no more than FIFOD - 3 instructions ever are; with the constants of the source a 62nd instruction is never taken, so that a layer for which the compiler writes more stops the loading.", "quantifier": "every sequence of beats with the inputs last, every timing", "why_tests_cant": "it says that something never happens in any execution", "anchors": ["rad-sim/example-designs/mlp_int8/modules/sysc_mvm.cpp:37", "rad-sim/example-designs/mlp_int8/modules/sysc_mvm.cpp:381-391", "rad-sim/example-designs/mlp_int8/modules/config.hpp:6-12"]}
{"id": "C127", "title": "The programs that the mlp_int8 compiler writes compute the right blocks", "statement": "The instruction and weight files that gen_testcase.py writes for a module, loaded by the loaders, make of any input vectors, and any vectors to be added, exactly limy results per test input: the product of the module's columns of the layer's matrix with the input, plus the vector to be added, sent to the next module of the layer or, by the last one, in turn to the modules of the next layer or to the collector. Every instruction is decoded as it was encoded.", "quantifier": "every network shape, number of modules per layer, weights, placement, sequence of input vectors", "why_tests_cant": "all shapes with padding, interleaving of columns over modules and addresses of weights; a test uses one shape", "anchors": ["rad-sim/example-designs/mlp_int8/compiler/gen_testcase.py:88-198", "rad-sim/example-designs/mlp_int8/modules/instructions.cpp:19-41", "rad-sim/example-designs/mlp_int8/modules/weight_loader.cpp:121-136", "rad-sim/example-designs/mlp_int8/modules/inst_loader.cpp:83-88"]}
{"id": "C128", "title": "The golden outputs of mlp_int8 are the network modulo 256", "statement": "Every number in the golden output file of gen_testcase.py lies between -128 and 127 and equals, modulo 256, the output of the unpadded network computed in integers; there is one line for each test input and block of outputs, and zeros behind the last output.", "quantifier": "every network shape, weights and test inputs", "why_tests_cant": "the file is itself the oracle of the test", "anchors": ["rad-sim/example-designs/mlp_int8/compiler/gen_testcase.py:205-241"]}
{"id": "C129", "title": "The mlp_int8 design computes the network", "statement": "If the NoC delivers in order and without loss, and inputs follow instructions and weights, then at every time the vectors that the last module has sent are addressed to the collector and are, in order, a beginning of the golden outputs, which are the outputs of the network modulo 256.", "quantifier": "every network shape, weights, inputs, placement; every timing of the NoC and of all modules; every number of cycles", "why_tests_cant": "the arrival orders of partial sums and inputs at all modules are not under control of a test", "anchors": ["rad-sim/example-designs/mlp_int8/modules/sysc_mvm.cpp:196-393", "rad-sim/example-designs/mlp_int8/compiler/gen_testcase.py:88-241", "rad-sim/example-designs/mlp_int8/mlp_driver.cpp:257-285"]}
{"id": "C130", "title": "The mlp_int8 design comes to an end", "statement": "If the NoC delivers in order, without loss and without stopping, the last module sends all golden outputs in the end.", "quantifier": "every network shape whose programs and vectors fit into the FIFOs, weights, inputs, placement; every timing", "why_tests_cant": "liveness over unbounded executions; deadlock depends on shape and timing", "anchors": ["rad-sim/example-designs/mlp_int8/modules/sysc_mvm.cpp:37-62", "rad-sim/example-designs/mlp_int8/modules/sysc_mvm.cpp:321-391", "rad-sim/example-designs/mlp_int8/compiler/gen_testcase.py:148-198"]}
{"id": "C131", "title": "The macro-ops of the npu design survive their encoding", "statement": "Each of the four kinds of macro-op (sector of the matrix-vector unit, external register file, multi-function unit, loader), packed into a bit vector by convert_to_bv and unpacked by load_from_bv, is what it was, and every bit vector of the width of the kind (81, 52, 84, 88 bits) is what its unpacking packs to: the fields neither overlap nor leave a gap.", "quantifier": "every macro-op whose fields have their widths; every bit vector", "why_tests_cant": "2^52 to 2^88 instructions", "anchors": ["rad-sim/example-designs/npu/modules/instructions.cpp:130-530"]}
{"id": "C132", "title": "The decoders of the npu's vector units write the micro-ops their macro-ops stand for", "statement": "From reset on, the micro-ops that the decoders of the external register file, of a multi-function unit and of the loader write are the first of those the macro-ops taken stand for (for every word, for every batch entry; for the loader then one tag update per block), no FIFO over- or underflows, and once no macro-op comes any more all of them are written within as many cycles with room as there are micro-ops plus two per macro-op.", "quantifier": "every sequence of macro-ops, every timing of arrivals and of back pressure, every number of cycles", "why_tests_cant": "unbounded sequences and timings of back pressure", "anchors": ["rad-sim/example-designs/npu/modules/decoders.cpp:506-908", "rad-sim/example-designs/npu/modules/instruction_fifo.cpp:23-65"]}
{"id": "C133", "title": "The decoder of an npu sector asks for every word of the matrix exactly once", "statement": "From reset on, the micro-ops that a sector's decoder writes are the first of those the macro-ops taken stand for: for every group of 12 to 23 rows, for every word of the vectors, for every row of the group, with the operation of the accumulator and the register set that belong to it. All of them are written once there has been room. Together they address every word of the matrix exactly once.", "quantifier": "every sequence of macro-ops, every timing of arrivals and of back pressure, every number of cycles", "why_tests_cant": "six counters that interact with back pressure; unbounded sequences", "anchors": ["rad-sim/example-designs/npu/modules/decoders.cpp:283-504"]}
{"id": "C134", "title": "The accumulator of an npu sector adds up the rows", "statement": "Whatever stalls and gaps there are, the pipelined accumulator puts out, in order, what a machine puts out that sets or adds to one entry after the other at once; it never leaves its scratchpad. Fed with the products that the micro-ops of a list of macro-ops ask for it puts out the rows of the matrix-vector products in order, each the sum over its words.", "quantifier": "every sequence of partial sums, every sequence of macro-ops, every pattern of stalls and gaps, every contents of the scratchpad", "why_tests_cant": "read-after-write hazards depend on the spacing of inputs", "anchors": ["rad-sim/example-designs/npu/modules/accum.cpp:33-115", "rad-sim/example-designs/npu/modules/mvu_sector.cpp:229-240"]}
{"id": "C135", "title": "The register file of the npu design gives the word at the address", "statement": "No write to a register file is ever lost, and the word at an address given is at the output when it is due, with all writes up to the cycle of the address done.", "quantifier": "every sequence of reads, writes and stalls, every contents", "why_tests_cant": "depends on which signals change in a cycle, which only some sequences of addresses show", "anchors": ["rad-sim/example-designs/npu/modules/register_file.cpp:34-101", "rad-sim/example-designs/npu/modules/mfu.cpp:358-359"]}
{"id": "C136", "title": "A sector of the npu computes the matrix-vector products of its macro-ops", "statement": "What a sector of the matrix-vector unit writes to its output FIFO for a sequence of macro-ops is the product of each macro-op's matrix with its three vectors, row by row, each entry the sum over the words of the row, the tiles and their 40 lanes, whenever the sector stalls; and with 8-bit data the sums never overflow.", "quantifier": "every sequence of macro-ops, every matrix, every vector, every number of tiles, every pattern of stalls and of gaps between blocks, every contents of the registers at the start", "why_tests_cant": "eight pipelines of different depth, double-buffered operand registers and an accumulator must agree for every timing", "anchors": ["rad-sim/example-designs/npu/modules/mvu_sector.cpp:345-530", "rad-sim/example-designs/npu/modules/dpe.cpp:45-115", "rad-sim/example-designs/npu/modules/piso_register_file.cpp:58-116", "rad-sim/example-designs/npu/modules/params.hpp:20-76"]}
{"id": "C137", "title": "A sector of the npu issues the micro-ops of its threads in order and does not mix macro-ops", "statement": "Each of the four threads of a sector has its micro-ops issued in the order in which they came, none lost or repeated, none before its tag and none in a stall; with only thread 0 in use the next one is issued in every possible cycle; another thread follows only on the last micro-op of a macro-op; and every thread gets its turn.", "quantifier": "every sequence of arrivals for the four threads, every course of the tags, every pattern of stalls, every number of cycles", "why_tests_cant": "mixing needs an arrival in one particular cycle; a thread that never runs needs an unbounded argument", "anchors": ["rad-sim/example-designs/npu/modules/mvu_sector.cpp:345-404", "rad-sim/example-designs/npu/modules/mvu_sector.cpp:499-510", "rad-sim/example-designs/npu/modules/instruction_fifo.cpp:23-65"]}
{"id": "C138", "title": "The AXI-stream FIFO adapters of the npu bring over every word once and in order", "statement": "Words that a module of the npu puts in its FIFOs come out of the FIFO interface behind the AXI stream as they were put in, in the same order, none lost or repeated, whatever back-pressure there is; no assertion of the adapters fails, no buffer exceeds its capacity; a transfer that is offered is neither withdrawn nor changed before it is taken; and once nobody holds them up all words come out.", "quantifier": "every width of payload and stream, every number of transfers for a payload, every sequence of words, every pattern of back-pressure of the channel and of the module behind, every number of cycles", "why_tests_cant": "the cutting and putting together interleaves with back-pressure in unboundedly many ways, and a test sees only the widths of one configuration", "anchors": ["rad-sim/example-designs/npu/modules/axis_fifo_adapters.cpp:46-49", "rad-sim/example-designs/npu/modules/axis_fifo_adapters.cpp:53-107", "rad-sim/example-designs/npu/modules/axis_fifo_adapters.cpp:118-243", "rad-sim/example-designs/npu/modules/axis_fifo_adapters.cpp:307-350", "rad-sim/example-designs/npu/modules/axis_fifo_adapters.cpp:364-448"]}
{"id": "C139", "title": "The external register file and the multi-function units of the npu issue in order, never overflow and give the right words", "statement": "Whatever comes to the external register file or a multi-function unit of the npu, none of its FIFOs under- or overflows; micro-ops are issued each once in the order they came, with the words that came, each once and in order, not before their tag has come, and without being held up when tag, word and room are there; and a fixed number of cycles later each gives the sum, difference, greater or product of its word and the operands that its register files held when they were read.", "quantifier": "every sequence of micro-ops, words, write-backs, tags and reads by the next module, every contents of the register files, every number of cycles", "why_tests_cant": "the output FIFO is written without being looked at, so that its limit has to cover everything under way in every pattern of stalls; and a wrong operand depends on what happens to follow a micro-op in the pipeline", "anchors": ["rad-sim/example-designs/npu/modules/evrf.cpp:167-261", "rad-sim/example-designs/npu/modules/mfu.cpp:7-62", "rad-sim/example-designs/npu/modules/mfu.cpp:264-359", "rad-sim/example-designs/npu/modules/fifo.cpp:36-72", "rad-sim/example-designs/npu/modules/register_file.cpp:47-101"]}
{"id": "C140", "title": "The loader of the npu loads in order, never overflows, addresses the right register file and advances a tag only after the words it stands for", "statement": "Whatever comes to the loader of the npu, none of its FIFOs under- or overflows; micro-ops are issued each once in the order they came, with the words that came, each once and in order; the external outputs get the vectors that are to be output, and what the sectors, the external register file and the multi-function units read from the words of the two write-back channels is the register file, the address, the elements and the tag flag of the micro-op; and each block is told once for every macro-op, after all its words, that they are written.", "quantifier": "every sequence of micro-ops, input words and reads of the outputs, every number of cores, sectors and elements, every program of macro-ops, every number of cycles", "why_tests_cant": "the output FIFOs are written eight cycles after they have been looked at, so that overflow depends on the pattern of stalls; the destination is packed into the bits of data elements, where a wrong value is lost silently in a block that no module has", "anchors": ["rad-sim/example-designs/npu/modules/loader.cpp:225-268", "rad-sim/example-designs/npu/modules/loader.cpp:270-413", "rad-sim/example-designs/npu/modules/evrf.cpp:263-294", "rad-sim/example-designs/npu/modules/mfu.cpp:361-407", "rad-sim/example-designs/npu/modules/mvu_sector.cpp:363-378", "rad-sim/example-designs/npu/modules/mvu_sector.cpp:531-571"]}
{"id": "C141", "title": "The dispatcher of the npu gives every block the macro-ops of the program, each once and in order", "statement": "When the dispatcher of the npu is started, the reader of every block gets exactly the macro-ops for this block of the instructions of the program that the driver has written, each once and in order, whatever the other blocks do; the FIFO of the block does not overflow; the program comes to its end if the reader reads; and nothing outside the program or the memory is read.", "quantifier": "every program, every sequence of starts and reads, every kind of macro-op, every number of cycles", "why_tests_cant": "the FIFO is written a cycle after it has been looked at, so that the limit of 502 is met in rare patterns only; and the driver gives an end that is one too far, which shows only if the memory is full or not fresh", "anchors": ["rad-sim/example-designs/npu/modules/decoders.cpp:199-270", "rad-sim/example-designs/npu/modules/instruction_fifo.cpp:22-66", "rad-sim/example-designs/npu/npu_driver.cpp:74-105"]}
{"id": "C142", "title": "What the loader of the npu writes back comes to the external register file and the multi-function units, for all cores alike", "statement": "The words that the loader gives to its second write-back channel come, each once and in order, to the register files of the module whose block they name, and no FIFO under- or overflows; two cycles after the last word all have arrived; and though the address of the external register file and the tags are kept once for all cores, each core's word is written to its own address and no tag goes on before the words of all cores are written.", "quantifier": "every sequence of words of the loader, every number of cores and sectors, every number of cycles", "why_tests_cant": "three modules read one FIFO and each takes a word only if it is its own, so a word that belongs to none holds up all later ones; and the shared address is right only because the cores happen to run in lockstep", "anchors": ["rad-sim/example-designs/npu/modules/evrf.cpp:180-187", "rad-sim/example-designs/npu/modules/evrf.cpp:263-294", "rad-sim/example-designs/npu/modules/mfu.cpp:278-285", "rad-sim/example-designs/npu/modules/mfu.cpp:361-407", "rad-sim/example-designs/npu/modules/axis_vector_elementwise.cpp:325-342"]}
{"id": "C143", "title": "What the loader of the npu writes back to the matrix-vector unit comes to all sectors alike, and no tag runs ahead of it", "statement": "Every word of the first write-back channel is taken at once and written, each once and in order, to the register file and address it names in every sector, in the k-th one exactly 2k+1 cycles after it came to the first; no FIFO under- or overflows; the tag of a sector is the number of vectors that have ended in what it has written, so that all cores' words that a tag stands for are in the register files; and a number of a matrix register file selects exactly one of all.", "quantifier": "every sequence of words, every number of sectors, cores and tiles, every number of cycles", "why_tests_cant": "a word passes two FIFOs in each of ten sectors, and a tag that runs ahead of a word gives wrong products only if the unit is about to use the vector", "anchors": ["rad-sim/example-designs/npu/modules/mvu_sector.cpp:251-283", "rad-sim/example-designs/npu/modules/mvu_sector.cpp:363-378", "rad-sim/example-designs/npu/modules/mvu_sector.cpp:485-490", "rad-sim/example-designs/npu/modules/mvu_sector.cpp:531-571", "rad-sim/example-designs/npu/npu_top.cpp:33-58"]}
{"id": "C144", "title": "Adaptive routing of a mesh delivers everything by shortest ways, on the virtual channels of the class, and offers all directions that lead nearer", "statement": "In a mesh NoC with min_adapt_mesh or planar_adapt_mesh, no router, channel or assertion of a routing function ever stops the program; every flit received is for this node and has gone a shortest way; once nodes send no more and return credits, every node has received exactly the packets sent to it within a known number of ticks; a flit stays on the virtual channels of its class; and at a router with more than one direction that leads nearer to the destination, more than one is offered.", "quantifier": "every radix, number of dimensions, class ranges, configuration, traffic and run without faulty links; every sequence of additions to an output set", "why_tests_cant": "that an element is lost from an output set shows only as a network that does not adapt, and a virtual channel of another class only as a failed assertion in some later router", "anchors": ["rad-sim/sim/noc/booksim/outputset.hpp:37-64", "rad-sim/sim/noc/booksim/outputset.cpp:50-61", "rad-sim/sim/noc/booksim/routefunc.cpp:969-1243"]}
{"id": "C145", "title": "Two-phase routing on a mesh brings every packet over its intermediate router to its destination, without deadlock", "statement": "A packet of valiant_mesh or romm_mesh can always go on, whatever virtual channels it is given, until it leaves at its destination; it goes a shortest way to its intermediate router and a shortest way from there, with romm_mesh a shortest way altogether; and packets never wait for each other in a circle.", "quantifier": "every radix, number of dimensions, source, destination, draw and choice of virtual channels; every set of packets in the network", "why_tests_cant": "the phases share links and are kept apart only by virtual channels; that a packet passes its destination in the first phase and then gets a channel of the second needs four packets in the right places to show", "anchors": ["rad-sim/sim/noc/booksim/routefunc.cpp:820-841", "rad-sim/sim/noc/booksim/routefunc.cpp:845-905", "rad-sim/sim/noc/booksim/routefunc.cpp:1319-1379"]}
{"id": "C146", "title": "Dimension-order routing with virtual channels by destination delivers everything, and packets to different destinations do not share a channel", "statement": "In a mesh NoC with dim_order_ni_mesh, two packets that take the same virtual channel of the same link between routers have the same destination, with dim_order_pni_mesh destinations with the same coordinate along the link; no router, channel or assertion ever stops the program; every flit received is for this node and has gone a shortest way; and once nodes send no more and return credits, every node has received exactly the packets sent to it within a known number of ticks.", "quantifier": "every radix, number of dimensions, class ranges with enough virtual channels, configuration, traffic and run", "why_tests_cant": "two destinations that share a channel show only as delay under load on one of them", "anchors": ["rad-sim/sim/noc/booksim/routefunc.cpp:707-756", "rad-sim/sim/noc/booksim/routefunc.cpp:760-814"]}
{"id": "C147", "title": "Balanced and destination-partitioned torus routing take shortest ways and cannot deadlock; Valiant routing on a torus reads an unset variable before any packet is delivered", "statement": "On a torus with dim_order_bal_torus or dim_order_ni_torus every move brings a packet one link nearer to its destination by the shorter way round each ring, the packet leaves the network exactly at its destination, before that there is always a channel it may take, and no set of packets can wait for each other for ever; with dim_order_ni_torus two packets on the same virtual channel of a link have the same destination. With valiant_torus and valiant_ni_torus a packet also reaches its destination (violated: ring_part is read without a value at the destination and wherever a packet goes straight on).", "quantifier": "every radix, number of dimensions, class ranges, draws, way of a packet and set of packets", "why_tests_cant": "a cyclic wait needs packets in every router of a ring at the same time, and an unset stack variable often happens to hold a value that works", "anchors": ["rad-sim/sim/noc/booksim/routefunc.cpp:595-661", "rad-sim/sim/noc/booksim/routefunc.cpp:1383-1460", "rad-sim/sim/noc/booksim/routefunc.cpp:1464-1565", "rad-sim/sim/noc/booksim/routefunc.cpp:1640-1704", "rad-sim/sim/noc/booksim/routefunc.cpp:1708-1775"]}
{"id": "C148", "title": "Randomised minimal routing with virtual channels by destination takes shortest ways, cannot deadlock, and does not mix destinations", "statement": "In a mesh with romm_ni_mesh every move brings a packet one link nearer to its destination whatever intermediate router was drawn, the packet leaves the network exactly there, before that there is always a channel it may take, two packets that take the same virtual channel of a link have the same destination, and no set of packets can wait for each other for ever although the two phases share their virtual channels.", "quantifier": "every radix, number of dimensions, class ranges with enough virtual channels, draws, way of a packet and set of packets", "why_tests_cant": "a cyclic wait needs particular draws in several packets at the same time; valiant_mesh, which looks alike, can deadlock", "anchors": ["rad-sim/sim/noc/booksim/routefunc.cpp:909-965", "rad-sim/sim/noc/booksim/routefunc.cpp:818-843"]}
{"id": "C149", "title": "The butterfly network is wired without gaps and delivers every packet at its destination in as many routers as stages", "statement": "In a NoC with topology fly and dest_tag_fly, every channel between stages has one driver and one reader, of neighbouring stages; a packet from any terminal to any terminal passes one router of every stage, always has a channel to take before the last stage, and leaves at the terminal of its destination and no other; and no set of packets can wait for each other for ever.", "quantifier": "every radix, number of stages, source, destination, ranges of virtual channels, way of a packet and set of packets", "why_tests_cant": "the exchange of digits between stages is checked by tests for one radix and number of stages only; a digit taken at the wrong weight still delivers between many terminals", "anchors": ["rad-sim/sim/noc/booksim/networks/fly.cpp:61-144", "rad-sim/sim/noc/booksim/routefunc.cpp:1862-1906"]}
{"id": "C150", "title": "The fat tree delivers every packet at its destination on a shortest way", "statement": "In a NoC with topology fattree and nca_fattree or anca_fattree, every channel between routers has one driver and one reader, of neighbouring levels; a packet rises to the deepest level on which one subtree holds its source and its destination, whichever ports are drawn, goes down from there and leaves at its destination and no other terminal; no walk between the two routers has fewer channels; the assertion that a packet going up came from below never fails; and no set of packets can wait for each other for ever.", "quantifier": "every radix, number of levels, source, destination, draws and credit counts, ranges of virtual channels, way of a packet and set of packets", "why_tests_cant": "the interleaving of the links depends on the level and the upward ports are random; a digit taken at the wrong weight still delivers between many terminals, and a longer way than needed is not visible in what is delivered", "anchors": ["rad-sim/sim/noc/booksim/networks/fattree.cpp:93-264", "rad-sim/sim/noc/booksim/routefunc.cpp:269-408"]}
{"id": "C151", "title": "The output FIFOs of the matrix-vector sectors neither lose nor reorder results", "statement": "In the npu design, results of 3 x 4 elements that a sector writes while no output FIFO is almost full are read as words of 4 elements: the FIFO never overflows or underflows, the elements read and those still stored are those written, in their order, word n is dot product n mod 3 of result n div 3 with element j the sum over the tiles of engine j, and a reader that takes a word in every cycle lets the writer go on within 3 cycles. A FIFO with less room than one result must refuse writes.", "quantifier": "every sequence of results, reads and stalls by other FIFOs, every depth, limit and pair of widths, every element type and addition", "why_tests_cant": "overflow needs a reader that stalls for long at a time when all pipelines are full; tests read one interleaving; the wrapped difference of unsigned numbers shows in configurations that no test uses", "anchors": ["rad-sim/example-designs/npu/modules/asymmetric_fifo.cpp:4-79", "rad-sim/example-designs/npu/modules/mvu_sector.cpp:286-298", "rad-sim/example-designs/npu/modules/mvu_sector.cpp:417-431", "rad-sim/example-designs/npu/modules/mvu_sector.cpp:497-529"]}
{"id": "C152", "title": "Adaptive routing of a torus goes shortest ways and does not deadlock", "statement": "With routing function min_adapt_torus on a k-ary n-cube and at least four virtual channels per class, every packet goes a shortest way to its destination whatever channels it is given, is offered nothing but channels of its class, ejects on any channel of its class, and packets of all classes together do not deadlock. With two virtual channels it is dimension-order routing. With three a packet must not be sent on channels behind its class. It goes around busy links in the dimensions it still has to travel.", "quantifier": "all k and n, all ranges of virtual channels, all sources and destinations, all draws and all choices of channels, all sets of packets", "why_tests_cant": "deadlock needs particular packets holding channels at the same time around several rings; which channels are offered depends on source, destination and draws; tests run one configuration", "anchors": ["rad-sim/sim/noc/booksim/routefunc.cpp:1779-1858", "rad-sim/sim/noc/booksim/routefunc.cpp:595-661", "rad-sim/sim/noc/booksim/outputset.cpp:49-59", "rad-sim/sim/noc/booksim/outputset.hpp:61-64", "rad-sim/sim/noc/booksim/routers/iq_router.cpp:607-650"]}
{"id": "C153", "title": "The tree of four-way routers delivers on shortest ways, spreads over its tops and does not deadlock", "statement": "In a network of topology tree4 (radix 4, three levels, 64 terminals) every channel has one driver and one reader and a channel back. With nca_tree4 and anca_tree4 a packet from terminal t makes 0, 2 or 4 moves, as its destination is on the same router, in the same quarter or elsewhere, can go on until then, leaves at its destination and nowhere else, and no way is shorter. Packets do not deadlock. Packets that rise to the top may use each of the four routers there, with anca_tree4 the less busy ones.", "quantifier": "all sources and destinations, all ranges of virtual channels, all draws and choices of channels, all sets of packets", "why_tests_cant": "ports are numbered by the order of calls when the network is built; deadlock needs particular packets holding channels at the same time; that a router is never used shows in no delivered packet", "anchors": ["rad-sim/sim/noc/booksim/networks/tree4.cpp:62-212", "rad-sim/sim/noc/booksim/routefunc.cpp:130-264", "rad-sim/sim/noc/booksim/outputset.hpp:61-64", "rad-sim/sim/noc/booksim/outputset.cpp:49-59"]}
{"id": "C154", "title": "The quad tree delivers on the one shortest way and does not deadlock", "statement": "In a network of topology qtree (radix 4, three levels, 64 terminals) every one of the 40 channels has one driver and one reader and a channel back between the same ports. With nca_qtree a packet from terminal t makes 0, 2 or 4 moves, as its destination is on the same router, in the same quarter or elsewhere, can go on until then on any virtual channel of its class, leaves at its destination and nowhere else, and no way is shorter. Packets with the same source and destination use the same channels in the same order. Packets do not deadlock.", "quantifier": "all sources and destinations, all ranges of virtual channels, all choices of channels, all sets of packets", "why_tests_cant": "ports are numbered by the order of calls when the network is built; deadlock needs particular packets holding channels at the same time", "anchors": ["rad-sim/sim/noc/booksim/networks/qtree.cpp:57-185", "rad-sim/sim/noc/booksim/routefunc.cpp:76-125"]}
