claims={}
claims['C01']=('proved',['C01_axis_beat_round_trip','C01_axis_low_bits'],'Every width, VC layout, RAD and portal id; tdest equal when the beat stays on its RAD.')
claims['C02']=('partial',['C02_tid_preserved_partial','C02_tid_mod','C02_tid_violated'],'False for tid >= 32 (five-bit field); proved below 32.')
claims['C03']=('proved',['C03_packets_well_framed'],'')
claims['C04']=('proved',['C04_dest_fields_recovered','C04_bridge_rewrites_dest','C04_transport_dest_fields'],'')
claims['C05']=('proved',['C05_ready_is_one_hot'],'')
claims['C06']=('partial',['C06_served_when_lower_ports_idle_partial','C06_starvation_violated'],'False: fixed priority starves higher-numbered ports.')
claims['C07']=('partial',['C07_assert_never_fires_partial','C07_occupancy_bounded_partial','C07_reset_violated'],'Proved for runs without a mid-run reset; false with one.')
claims['C08']=('proved',['C08_source_lossless_ordered','C08_reset_violated','C08_reset_aborts'],'For runs without a mid-run reset; the reset behaviour is shown separately.')
claims['C09']=('proved',['C09_injection_obeys_flow_control'],'Private buffer policy, one adapter per buffer state, router credits only flits it was given.')
claims['C10']=('proved',['C10_injected_destination','C10_rad_number_aliases'],'RAD numbers below 128.')
claims['C41']=('proved',['C41_occupancy_is_sent_minus_credited','C41_legal_sender_never_errs','C41_misuse_is_caught','C41_zero_buf_size_violated'],'Private buffer policy.')
claims['C11']=('partial',['C11_ejection_bounded','C11_no_drop_partial','C11_drop_violated'],'Occupancy bound proved; a flit arriving while one is held is lost, excluded when the router respects a credit bound no larger than the FIFO.')
claims['C12']=('proved',['C12_depacketisation_never_fails','C12_reassembly_never_mixes'],'Any interleaving of arrivals, clocks and stalls.')
claims['C13']=('proved',['C13_sink_lossless_ordered','C13_each_packet_one_beat'],'')
claims['C14']=('proved',['C14_port_stable_until_ready'],'')
claims['C15']=('partial',['C15_wide_enough_partial','C15_slices_violated'],'False for interfaces narrower than the packet: the same beat is repeated. Holds when the port is wide enough.')
claims['C16']=('partial',['C16_short_packets_deliverable_partial','C16_long_packets_stuck_violated'],'False for packets longer than the ejection FIFO; with shorter packets every reachable state can drain. Fairness of schedules is not modelled.')
claims['C17']=('partial',['C17_one_credit_per_flit_partial','C17_credit_lost_violated','MmSink.C17_aximm_credits_partial','MmSink.C17_aximm_credit_lost_violated'],'False when two adapter edges fall between NoC edges; proved when they are spaced.')
claims['C18']=('proved',['C18_address_survives','C18_write_data_survives','C18_read_data_survives','C18_response_survives','C18_wide_data_truncated_violated'],'Data must fit the interface width; wider data is cut off.')
claims['C19']=('partial',['C19_control_field_arrives_partial','C19_control_is_taken_from_user','C19_burst_control_violated'],'False: the port presents user bits as burst, size and length. The control field does arrive in the payload.')
claims['C20']=('partial',['C20_request_ready_one_hot','C20_response_ready_one_hot','C20_write_data_only_in_burst_partial','C20_write_data_after_burst_violated'],'One-hot and valid for every run; W only in a burst when an adapter edge separates node edges, false otherwise.')
claims['C21']=('partial',['C21_write_data_follows_address_partial','C21_second_aw_accepted_violated'],'W follows the last AW; a second AW is accepted before the last W, so the second half is false.')
claims['C22']=('partial',['C22_one_packet_per_request_partial','C22_all_requests_leave_partial','C22_integer_ratio_partial','C22_one_packet_per_response_partial','C22_back_to_back_lost_violated','C22_fractional_ratio_duplicates_violated'],'Proved for integer ratios 2..256 and more generally under a gap condition on the clocks; false for ratio 1 and for ratio 2.5.')
claims['C23']=('proved',['C23_request_type_recovered','C23_response_type_recovered','C23_flit_type_recovered'],'Disjoint ranges, channel numbers below 8.')
claims['C24']=('partial',['Design.C24_address_decodes_to_node_partial','Design.C24_apertures_disjoint','Design.C24_port_base_is_node_base','Design.C24_two_nocs_violated','Design.C24_unequal_rads_violated','Design.C24_single_node_violated'],'Proved for one NoC per RAD when the node count needs as many bits as that of the last RAD of the cluster (in particular equal RADs); false with several NoCs or RADs of different size; apertures are always disjoint.')
claims['C25']=('partial',['Design.C25_interface_ids_dense_partial','Design.C25_duplicate_port_violated','Design.C25_aximm_module_line_violated'],'Proved when no port is placed twice; false otherwise.')
claims['C26']=('proved',['InterRad.C26_in_order_no_loss','InterRad.C26_every_beat_arrives','InterRad.C26_fails_only_for_unknown_rad','InterRad.C26_unknown_rad_violated'],'All interleavings of beats and stalls; a beat to an unknown RAD number is undefined behaviour, shown separately.')
claims['C27']=('proved',['InterRad.C27_latency','InterRad.C27_never_early'],'')
claims['C28']=('partial',['InterRad.C28_ready_cycles_per_window_partial','InterRad.C28_beats_per_window_partial','InterRad.C28_first_window_violated'],'Proved for aligned windows after the first; the first window offers one ready cycle more (witness).')
claims['C29']=('partial',['Portal.C29_lossless_queue','Portal.C29_stable_until_accepted','Portal.C29_drains','Portal.C29_reset_to_bridge_lossless','Portal.C29_id_dropped_violated','Portal.C29_reset_duplicates_violated'],'Order, number and stability for every run; the tid is not carried and a reset during operation duplicates beats.')
claims['C30']=('proved',['Telemetry.C30_identifiers_unique','Telemetry.C30_record_is_faithful','Telemetry.C30_latency_nonneg'],'')
claims['C31']=('partial',['Telemetry.C31_flow_totals_partial','Telemetry.C31_total_conserved_partial','Telemetry.C31_defined_iff_in_range','Telemetry.C31_overflow_violated','Telemetry.C31_two_rads_violated'],'Row totals are proved modulo 2^32 and in full below 2^32 bits; the 32-bit sum wraps above, and RADs of a cluster share rows because the RAD is not part of the key.')
claims['C32']=('proved',['Config.C32_read_gives_last_write','Config.C32_writes_accepted_iff'],'')
claims['C54']=('proved',['Cluster.C54_stops_when_all_done','Cluster.C54_terminates_iff'],'')
claims['C55']=('partial',['Telemetry.C55_aggregate_is_bit_links_partial','Telemetry.C55_in_flight_violated'],'Holds once all transactions arrived; one in flight makes the result wrong (witness).')
claims['C56']=('proved',['Telemetry.C56_traces_list_their_events','Telemetry.C56_bad_identifier_fails'],'')
claims['C57']=('partial',['Config.C57_knob_file_round_trip_partial','Config.C57_readers_agree','Config.C57_blank_in_path_violated','Config.C57_empty_line_stops_violated'],'Proved for values without blanks; a blank in a value cuts it, an empty line stops the program.')
claims['C58']=('partial',['Cluster.C58_exit_code_of_rad_zero_partial','Cluster.C58_other_rads_ignored_violated'],'Proved for RAD 0; failures of other RADs are ignored.')
claims['C33']=('partial',['Dram.C33_channel_faithful_partial','Dram.C33_translation_injective_partial','Dram.C33_three_channels_violated'],'Proved when all organisation numbers are powers of two, the bus width a multiple of 8 and the capacity at most 2^64; false with three channels.')
claims['C47']=('partial',['Dram.C47_fields_in_range_partial','Dram.C47_fields_determine_address_partial','Dram.C47_every_location_partial','Dram.C47_three_ranks_violated'],'Proved for every field order when all organisation numbers are powers of two; false with three ranks.')
claims['C34']=('proved',['MemCtrl.C34_responses_in_request_order','MemCtrl.C34_every_read_answered','MemCtrl.C34_every_read_can_finish','MemCtrl.C34_reset_violated'],'Every DRAM completion order, process order and stall pattern, runs without a mid-run reset; the reset behaviour is shown separately. Completeness assumes the DRAM completes only what it was given.')
claims['C35']=('partial',['MemCtrl.C35_read_returns_latest_write_partial','MemCtrl.C35_read_sees_acknowledged_writes','MemCtrl.C35_out_of_order_writes_violated','MemCtrl.C35_wide_beats_violated'],'Proved relative to the completion order; which data a completed write carries is right when the DRAM completes writes in issue order (which C86 shows of a channel) and beats are not wider than words (otherwise false, witnesses).')
claims['C36']=('partial',['MemCtrl.C36_no_underflow_partial','MemCtrl.C36_queues_bounded_partial','MemCtrl.C36_single_word_capacity','MemCtrl.C36_burst_overflow_violated','MemCtrl.C36_data_without_address_violated','MemCtrl.C36_front_of_empty_violated'],'Bounds include the burst size (a burst overshoots the capacity, witness); no pop of an empty queue with a well-behaved environment; the read of front() on an empty queue in line 202 is reachable (witness).')
claims['C37']=('partial',['MemCtrl.C37_burst_covers_exactly_partial','MemCtrl.C37_narrow_transfer_violated'],'Proved when the beat size is a multiple of the word; narrow beats access too much.')
claims['C59']=('partial',['MemCtrl.C59_ready_write_address_taken_partial','MemCtrl.C59_taken_while_not_ready_violated','MemCtrl.C59_small_queue_lost_violated','MemCtrl.C59_ready_read_lost_violated'],'Write addresses offered while ready are taken with at least 16 entries; requests are also taken while ready is low, reads can be lost while ready is high.')
claims['C60']=('partial',['MemCtrl.C60_one_response_per_burst_partial','MemCtrl.C60_response_user_violated'],'The number of responses is right; the user field of consecutive responses is stale.')

claims['C38']=('proved',['Routing.C38_symmetric','Routing.C38_positive','Routing.C38_triangle','Routing.C38_counts_routers'],'Also that the count is one exactly for equal nodes and the triangle inequality.')
claims['C39']=('proved',['Routing.C39_minimal','Routing.C39_delivers','Routing.C39_rectangle'],'Any radix and dimension, any virtual channel grants.')
claims['C40']=('proved',['Routing.C40_no_deadlock','Routing.C40_acyclic'],'Both as acyclic dependencies and as progress of some packet in every set.')
claims['C61']=('proved',['Routing.C61_links_pair','Routing.C61_one_driver'],'Any radix and dimension.')
claims['C62']=('partial',['Routing.C62_minimal','Routing.C62_no_deadlock_partial'],'Minimality in full. Deadlock freedom for separate channel ranges of different flit types and channels that belong to one packet at a time; with routers that hand a channel on while flits of the packet before are in its buffer it is proved for even channel counts (C83), not for odd ones.')
claims['C63']=('partial',['Routing.C63_minimal','Routing.C63_no_deadlock_partial','Routing.C63_single_channel_violated'],'Proved with two channels per type or more and channels that belong to one packet at a time; with one channel per type an assertion fails.')
claims['C64']=('partial',['Routing.C64_same_size_partial','Routing.C64_different_sizes_violated'],'Proved for NoCs of the same size; for different sizes the shared globals make packets circle forever.')

claims['C65']=('proved',['CMesh.C65_decodes','CMesh.C65_wired_once'],'Any grid size, four terminals per router.')
claims['C66']=('proved',['CMesh.C66_minimal','CMesh.C66_no_deadlock'],'dor_no_express_cmesh, any grid size.')
claims['C67']=('partial',['CMesh.C67_delivers_partial','CMesh.C67_no_deadlock_partial','CMesh.C67_odd_size_violated','CMesh.C67_two_order_violated'],'Proved for dor_cmesh with even sizes; odd sizes duplicate flits, xy_yx_cmesh livelocks on 8 by 8.')
claims['C42']=('proved',['Arb.C42_highest_priority','Arb.C42_round_robin','Arb.C42_matrix'],'Round robin, matrix and trees of any depth over them, after any history of rounds. The priority arbiter of the event router is not covered.')
claims['C43']=('proved',['Arb.C43_no_starvation'],'Every configurable arbiter, for any requests of the other inputs.')
claims['C44']=('partial',['Alloc.C44_islip','Alloc.C44_pim','Alloc.C44_lonely_output','Alloc.C44_separable','Alloc.C44_wavefront','Alloc.C44_select_partial','Alloc.C44_select_violated'],'Any history of cycles from construction. False for the select allocator with several iterations, which gives one input to two outputs (witness).')
claims['C45']=('proved',['Alloc.C45_wavefront_maximal'],'Any sizes, any history of arrivals with replacement, with or without skipping diagonals.')
claims['C68']=('proved',['Alloc.C68_islip','Alloc.C68_pim','Alloc.C68_one_grant'],'Select with one iteration; wavefront is C45.')

claims['C46']=('partial',['Channel.C46_channel_delay','Channel.C46_channel_partial','Channel.C46_channel_violated','Channel.C46_channel_wrap_violated'],'The delay is the latency only for a latency of at most 2 or a period of 1 ps; in general it is one cycle and the latency minus one picoseconds. Items get stuck when the time in int wraps.')
claims['C69']=('partial',['Router.C69_routing_delay_violated','Router.C71_router_never_fails'],'False for the routing delay whenever the clock period does not divide the delay minus one: an assertion fails. A delay of 1 works (C71).')
claims['C70']=('partial',['Router.C70_negative_time_violated','Router.C70_wrap_violated','Router.C71_router_never_fails'],'False from 2^31 ps on; C71 covers times that are not negative as int.')
claims['C71']=('proved',['Router.C71_router_never_fails'],'Delays 1, private buffers, non-negative times; allocators by their contract (C44).')
claims['C72']=('proved',['Router.C72_router_transfers'],'')
claims['C73']=('proved',['Router.C73_router_respects_credits'],'')
claims['C74']=('proved',['Router.C74_router_credits'],'')
claims['C75']=('proved',['Router.C75_router_drains'],'Allocators by C44 and C68, output buffer size not 0.')

claims['C52']=('partial',['ConfigGen.C52_partition_partial','ConfigGen.C52_types_recovered','ConfigGen.C52_unlisted_violated','ConfigGen.C52_overlap_violated','ConfigGen.C52_no_channels_violated','ConfigGen.C52_negative_types_violated'],'Proved for positive numbers and the listed types; with five types C23 follows. Unlisted types keep BookSim defaults outside the channels or overlapping; no channels or a negative number of types is accepted.')
claims['C53']=('partial',['ConfigGen.C53_tenths_partial','ConfigGen.C53_violated'],'Exact for multiples of a tenth only; every other fraction below one is written too large, with the double arithmetic of Python.')
claims['C76']=('partial',['ConfigGen.C76_in_order_partial','ConfigGen.C76_by_position','ConfigGen.C76_swapped_violated','ConfigGen.C76_shared_violated'],'Proved when the sections are listed once each in file order; otherwise NoC and design come from the position, not from the name.')
claims['C77']=('partial',['ConfigGen.C77_field_partial','ConfigGen.C77_last_smaller_violated','ConfigGen.C77_many_rads_violated'],'Proved when the last listed mesh is the largest and has at least as many nodes as there are RADs.')

claims['C78']=('proved',['Net.C78_network_never_fails'],'Any wiring of input-queued routers and channels; nodes by their contract, allocators by C44.')
claims['C79']=('proved',['Net.C79_packets_whole'],'')
claims['C80']=('proved',['Net.C80_right_destination'],'The routing discipline is a hypothesis.')
claims['C81']=('proved',['Net.C81_mesh','Net.C81_mesh_two_orders'],'xy_yx with two virtual channels per class or more (C62 covers the rest).')
claims['C82']=('proved',['Net.C82_network_drains'],'Any wiring and any routing that goes down in a rank of the virtual channels; allocators by C44 and C68, output buffer size not 0.')
claims['C83']=('partial',['Net.C83_mesh_delivers','Net.C83_two_orders_partial'],'In full for dim_order_mesh. For xy_yx_mesh with an even number of virtual channels per type: with an odd number one channel is shared by both orders and the argument fails.')
claims['C84']=('partial',['Net.C84_torus_partial','Net.C84_torus_delivers_partial'],'Proved for an even number of virtual channels per type; with an odd number one channel is shared by both partitions.')

claims['C48']=('partial',['DramSim.C48_ready_applies','DramSim.C48_abort','DramSim.C48_no_abort','DramSim.C48_legal','DramSim.C48_spaced_partial','DramSim.C48_bus','DramSim.C48_row_cycle_partial','DramSim.C48_controller_legal','DramSim.C48_controller_spaced_partial','DramSim.C48_bank_refresh_violated','DramSim.C48_row_cycle_violated','DramSim.C48_wake_violated'],'Any sequence of requests. All distances of the list Rule and the data bus; false for the time of a bank refresh, for the row cycle before a refresh with auto-precharge, and waking a rank from self-refresh ends the program.')
claims['C49']=('proved',['DramSim.C49_four_activations','DramSim.C49_thirty_two_activations','DramSim.C49_controller_activations'],'Any sequence of requests; parameters in a sane range, clock below 2^63.')
claims['C50']=('partial',['DramSim.C50_no_exit','DramSim.C50_runs','DramSim.C50_at_most_once','DramSim.C50_writes_returned','DramSim.C50_all_returned_partial','DramSim.Example.C50_self_refresh_violated','DramSim.Example.C50_divide_violated','DramSim.Example.C50_read_lost_violated','DramSim.Example.C50_drain_violated'],'At most once, and writes in the second cycle, for every configuration. Exactly once when the queues are empty, unless two commands are issued per cycle with two ranks: then a read can be lost for ever (witness with the HBM2 file). The queues need not become empty: a full write buffer can block the channel for ever (witness with the DDR4 file).')
claims['C85']=('partial',['DramSim.C85_read_of_waiting_write','DramSim.C85_write_behind_read_partial','DramSim.Example.C85_same_place_violated'],'One command per cycle, or timing that separates two; the place is written through one address only (otherwise false, witness).')
claims['C86']=('proved',['DramSim.C86_writes_in_order'],'Every configuration; clock below 2^64 - 1.')
claims['C51']=('partial',['DramSim.C51_plan','DramSim.C51_every_rank','DramSim.C51_every_bank','DramSim.C51_simultaneous_violated'],'Without self-refresh. False for the simultaneous policy: only the first rank is ever refreshed.')
claims['C87']=('proved',['DramSim.C87_refresh_in_time','DramSim.C87_rank_refreshed'],'The wait must be shorter than the distance of the refreshes (487 of 4680 cycles for the DDR4 file, 318 of 1950 for the HBM2 file); clock below 2^63.')

claims['C88']=('proved',['MmSink.C88_order','MmSink.C88_write_data','MmSink.C88_read_data','MmSink.C88_response','MmSink.C88_address'],'Every interleaving of the clocks and every ready behaviour; flits arrive on the virtual channels of their type (C23, C52). For addresses the fields that survive (C18, C19).')
claims['C89']=('partial',['MmSink.C89_unmixed_partial','MmSink.C89_two_vcs_violated'],'Proved for one virtual channel per type; with several the flits of two packets are put into one beat (witness).')
claims['C90']=('partial',['MmSink.C90_taken_partial','MmSink.C90_valid_waits_violated','MmSink.C90_lost_violated'],'Proved for modules that do not lower ready. Valid is never raised before ready, and a beat is lost when ready falls.')
claims['C91']=('partial',['MmSink.C91_delivered_partial','MmSink.C91_long_blocks','MmSink.C91_long_violated'],'Proved for packets that fit the ejection FIFO; a longer packet blocks its channel for ever.')
claims['C92']=('partial',['Net.C92_one_way','Net.C92_mesh_in_order_partial','Net.OrderExample.C92_two_vcs_violated'],'Proved for dimension-order routing with one virtual channel for the type; with two channels a later packet overtakes an earlier one (witness).')

claims['C93']=('proved',['AxisNoc.C93_system_never_fails','AxisNoc.C93_routing_assertion','AxisNoc.C93_delivered'],'One adapter pair per node, dim_order_mesh, clock below 2^31 ps, sink FIFOs at least as deep as the router buffers. Content for beats that fit their port and sink ports that are not narrower (C14, C15).')
claims['C94']=('partial',['AxisNoc.C94_stream_in_order','AxisNoc.C94_two_channels_violated'],'Proved when the message type has one virtual channel; with two, beats of one stream are swapped (witness).')
claims['C95']=('proved',['AxisNoc.C95_all_delivered','AxisNoc.C95_stream_arrives'],'One adapter pair per node, dim_order_mesh, packets that fit a router buffer, output buffers not empty, at most one sink adapter edge per NoC period (the shipped configurations have 1.25 ns to 1 ns). Supplies the fairness that C16_short_packets_deliverable_partial leaves open.')
claims['C96']=('partial',['AxisNoc.C96_lost_credits_block','AxisNoc.C96_fast_adapter_violated'],'False: with two adapter edges per NoC period and packets of two flits a system accepts 8 beats for a port and delivers at most 3 for ever. Holds with at most one edge per period (C95). Proved for every system: the condition under which a channel is blocked for ever.')
claims['C97']=('proved',['AxisNoc.C97_waits_for_modules','AxisNoc.C97_never_stops'],'Configuration as for C95. That some beat is accepted, not one at every port: an adapter can starve a port (C06).')
claims['C98']=('proved',['AddDesign.C98_fifo','AddDesign.C98_client','AddDesign.C98_depth_one_violated'],'For the client FIFO_DEPTH at least 2 (the source has 16); the bound is needed.')
claims['C99']=('proved',['AddDesign.C99_never_wrong','AddDesign.C99_reports_success'],'Configuration as for C95, message type with one virtual channel (C94), module clock not faster than the NoC clock, client and adder in one RAD.')
claims['C100']=('partial',['Mlp.C100_mvm_partial','Mlp.C100_mvm_inner','Mlp.C100_mvm_violated'],'False for a result of zeros to the collector (underflow error, with the constants of the source). Proved for all modules that send elsewhere, and for the others while no such result occurs. Instructions and weights as read from the files; no beat with tag 1 or 4.')
claims['C101']=('partial',['Mlp.C101_mvm_sends_partial','Mlp.C101_mvm_inner_sends'],'Same restriction as C100.')
claims['C102']=('proved',['Mlp.C102_program','Mlp.C102_golden','Mlp.C102_padding'],'Instructions and weights as read from the files. The depth of the memories must hold the files, as the comment in mvm.hpp asks.')
claims['C103']=('partial',['Mlp.C103_mlp_partial','Mlp.C103_mlp_violated'],'Proved if no line of the golden outputs is all zeros (otherwise false, witness). The NoC is a condition (in order, nothing lost or invented); C94 and C95 prove it for a mesh with one virtual channel per type.')
claims['C104']=('partial',['Mlp.C104_mlp_finishes_partial','Mlp.C104_mlp_ideal'],'Same restriction as C103. That the NoC does not stop is a condition; a network that meets it exists for every design.')
claims['C105']=('proved',['Mlp.C105_dispatcher','Mlp.C105_collector','Mlp.C105_dispatcher_clock_violated','Mlp.C105_collector_clock_violated'],'Driver clock equal to the module clock (sim_driver_period and the module clock are both 5.0 in the shipped configuration); the condition is needed, witnesses for both sides.')
claims['C106']=('partial',['Mlp.C106_mlp_mesh_partial','Mlp.C106_mlp_success_partial','Mlp.C106_mlp_reports_partial','Mlp.C106_range_violated'],'Missing: golden lines of zeros (C103 shows that they stop the design), inputs that do not fit an int, two clocks for driver and modules (C105 shows what goes wrong). Golden outputs that do not fit an int make the driver report failure for right results: negation proved.')
claims['C107']=('partial',['Mlp.C107_mlp_ends_partial','Mlp.C107_mlp_succeeds_partial'],'Restrictions of C106 and C95; the blocks of all test inputs fit the input FIFOs (the shipped FIFO depth and number of tests meet this). Missing: designs with more test inputs than that.')
claims['C108']=('partial',['MmNoc.C108_system_never_fails_partial'],'Adapters of Model/AxiMm.lean and Model/AxiMmSink.lean on a mesh with dimension-order routing. Missing: packet types with several virtual channels (see C89), clock ratios other than those of MmCfgOk (see C22), nodes that share adapters.')
claims['C109']=('partial',['MmNoc.C109_in_order_partial'],'Restrictions of C108. Burst, size and length of an address are left out, since they do not arrive (C19).')
claims['C110']=('partial',['MmNoc.C110_drains_partial','MmNoc.C110_everything_arrives_partial'],'Restrictions of C108; the sink side of an adapter has at most one edge of its clock in a period of the NoC clock. Missing: packets longer than a router buffer.')
claims['C111']=('partial',['Hello.C111_trace_sent_partial'],'Restrictions of C108; requester and responder are the only modules on the NoC, on one clock with the driver; the FIFOs (depth 16) are longer than the trace. Missing: longer traces, for which back-pressure of the responder comes in.')
claims['C112']=('partial',['Hello.C112_reads_answered_partial','Hello.C112_values_from_trace_partial','Hello.C112_program_order_violated'],'Restrictions of C111. That reads and writes are performed in the order of the trace is false: a read overtakes a write (witness, credit delay of 5 cycles). The cycle in a line of the trace is read but not used, so it does not keep them apart.')
claims['C113']=('partial',['Hello.C113_comes_to_an_end_partial'],'Restrictions of C111 and C112; the clocks do not stop, input buffers and adapter FIFOs have room for a packet, output buffers are not of size 0, and the allocators grant something when asked (islip and others, C68).')
claims['C114']=('partial',['Dlrm.C114_vectors_partial','Dlrm.C114_violated'],'Holds for senders that show a word only while rready is high. For a sender that holds a word while rready is low, as AXI allows, it is false (witness): the module takes the word in every such period, since Tick looks at rvalid and the FIFO size but not at rready.')
claims['C115']=('proved',['Dlrm.C115_never_fails','Dlrm.C115_twice_violated'],'The condition that an instruction does not come back to a FIFO it has popped is needed (witness).')
claims['C116']=('partial',['Dlrm.C116_all_sent_partial'],'Asks for a polite sender, as C114.')
claims['C117']=('partial',['Dlrm.C117_requests_partial','Dlrm.C117_all_requested_partial','Dlrm.C117_violated','Dlrm.C117_pop_violated'],'Holds if requests are not accepted in two consecutive periods. Otherwise a lookup is sent twice and the next one dropped, or an empty queue is popped (witnesses): the module writes the next offer before it pops the FIFO.')
claims['C118']=('partial',['Dlrm.C118_schedule_partial','Dlrm.C118_shipped_violated','Dlrm.C118_overshoot_violated'],'Holds for tables that fit: none is cut by the end of a vector, one wider than a vector starts a vector, takes whole vectors and lies in DDR, and no two tables in a vector share a FIFO. Both shipped models fit with 32 and 16 lanes (examples). False for the shipped ab_small with 8 lanes, where a wide table in HBM is never popped (line 493), and for tables that overshoot a vector, for which nothing is written.')
claims['C119']=('partial',['Dlrm.C119_waiting_partial','Dlrm.C119_waiting_violated'],'Holds if a vector names a channel at most five times, under the assumption of C117. False for six, which ab_large.csv has (witness: 17 lookups in a FIFO of depth 16).')
claims['C120']=('partial',['Dlrm.C120_vectors_partial','Dlrm.C120_all_sent_partial'],'Under the assumptions of C114, C117 and C118. NoC and memories between the modules are represented by in-order answers.')
claims['C121']=('partial',['Dlrm.C121_layout','Dlrm.C121_addresses','Dlrm.C121_ends_partial','Dlrm.C121_stuck_violated'],'Layout and addresses are proved without restriction. Termination is proved if one DDR channel could hold all tables; the loop never ends for a table larger than every channel (witness).')
claims['C122']=('partial',['Dlrm.C122_no_alarm_partial','Dlrm.C122_means_partial','Dlrm.C122_violated'],'No false alarms. A report of success only says that the last element of each output is right, because the flag is overwritten per element (witness with all other elements wrong).')
claims['C123']=('partial',['Int8.C123_int8_mvm_partial','Int8.C123_lost_violated','Int8.C123_dest_violated'],'Holds if instructions and weights come before all input vectors and destinations are less than 128. Otherwise false (witnesses): an instruction that arrives in the cycle in which one is popped takes its place in the ring; nine bits of release_dest are kept in an sc_int<8>.')
claims['C124']=('partial',['Int8.C124_int8_mvm_sends_partial'],'As C123: instructions and weights come before all input vectors.')
claims['C125']=('proved',['Int8.C125_int8_mvm_never_fails'],'')
claims['C126']=('proved',['Int8.C126_int8_capacity','Int8.C126_int8_no_62'],'gen_testcase.py writes limx * limy instructions per module without a check.')
claims['C127']=('proved',['Int8.C127_int8_program','Int8.C127_int8_count','Int8.C127_int8_shape','Int8.C127_int8_inst'],'For designs that meet Design.Ok: positive sizes, fewer than 16 routers, programs that fit (C130 for the others).')
claims['C128']=('proved',['Int8.C128_int8_golden'],'')
claims['C129']=('proved',['Int8.C129_int8_network','Int8.C129_int8_golden'],'The NoC is the condition Wired: per receiver and kind, what is shown is a beginning of what was sent; no input is shown before loading is complete, which the driver leaves to a pause of 10000 cycles.')
claims['C130']=('partial',['Int8.C130_int8_ends_partial','Int8.C130_int8_too_long','Int8.C130_int8_ends_violated'],'Proved for designs whose programs and blocks of all test inputs fit into the FIFOs (Ok.room, Small). False otherwise: the compiler accepts a layer of 512 x 512 on one module, whose 64 instructions are never loaded (C130_int8_ends_violated; C130_int8_too_long for all such designs). Not settled: programs that fit but blocks of all test inputs that do not.')
claims['C131']=('proved',['Npu.C131_mvu_roundtrip','Npu.C131_mvu_bits','Npu.C131_evrf_roundtrip','Npu.C131_evrf_bits','Npu.C131_mfu_roundtrip','Npu.C131_mfu_bits','Npu.C131_ld_roundtrip','Npu.C131_ld_bits'],'')
claims['C132']=('partial',['Npu.C132_evrf_decodes_partial','Npu.C132_evrf_completes_partial','Npu.C132_mfu_decodes_partial','Npu.C132_mfu_completes_partial','Npu.C132_ld_decodes_partial','Npu.C132_ld_completes_partial','Npu.C132_evrf_hangs_violated','Npu.C132_mfu_hangs_violated','Npu.C132_ld_hangs_violated','Npu.C132_reset_violated'],'Holds for macro-ops with 1 to 512 words and a batch that is not empty; every other macro-op has no end (C132_*_hangs_violated). A second reset is not always one: the read enable is not reset (C132_reset_violated).')
claims['C133']=('partial',['Npu.C133_sector_decodes_partial','Npu.C133_sector_completes_partial','Npu.C133_sector_covers','Npu.C133_stall_violated'],'Holds for macro-ops with at least 12 rows and a size that is rows times words, which is what compiler.py makes. With fewer rows the micro-ops depend on the timing (C133_stall_violated).')
claims['C134']=('partial',['Npu.C134_accumulates_partial','Npu.C134_completes_partial','Npu.C134_rows','Npu.C134_fed_as_decoded','Npu.C134_hazard_violated'],'Holds if at least three entries are gone round, as for all macro-ops of the compiler; false for two (C134_hazard_violated).')
claims['C135']=('partial',['Npu.C135_writes','Npu.C135_reads_partial','Npu.C135_keeps','Npu.C135_stale_violated','Npu.C135_shared_operand_violated','Npu.C135_idle_violated'],'Writes: proved. Reads: proved if the next address given is another one or the write port changes. False otherwise: the process that puts out the word is sensitive to the first address register and uses the second, so an address given twice on end reads what was read before; a vector that all batch entries share is not added rightly.')
claims['C136']=('partial',['Npu.C136_products_partial','Npu.C136_issued_as_decoded','Npu.C136_apart','Npu.C136_exact','Npu.C136_gap_violated'],'Holds if the micro-ops of a block of 12 or more are issued without a gap and no word of the matrix is addressed twice on end (C136_apart says when that is so). A gap within a block gives wrong products (C136_gap_violated).')
claims['C137']=('partial',['Npu.C137_order','Npu.C137_tag','Npu.C137_alone','Npu.C137_whole_partial','Npu.C137_mixed_violated','Npu.C137_mixed_products_violated','Npu.C137_starved_violated'],'Order, tags and the use of thread 0 alone: proved. Macro-ops are whole if the supply has no gaps and the thread that gave up the sector gets nothing in the cycle of the choice; else they can be mixed and all following products are wrong (C137_mixed_violated, C137_mixed_products_violated). A program that does not use thread 0 never starts (C137_starved_violated).')
claims['C138']=('proved',['Npu.C138_stream','Npu.C138_all_given','Npu.C138_stable','Npu.C138_words','Npu.C138_writeback','Npu.C138_writeback_link'],'The channel between the adapters is any that keeps the order. Payloads fit their width. A write-back has an identifier below 16, an address of nine bits and a flag below 2, the same for all cores, as the header of the first core is sent for all.')
claims['C139']=('partial',['Npu.C139_no_error','Npu.C139_order','Npu.C139_tag','Npu.C139_progress','Npu.C139_results_partial','Npu.C139_mfu_partial','Npu.C139_evrf_partial','Npu.C139_mfu_entry','Npu.C139_shared_violated','Npu.C139_bubble_violated'],'No error, the order, the tags and the progress are proved for all runs. The results are proved unless what follows a micro-op in the pipeline, be it the dummy, has the same address of an operand that is used; then the operand read before is used, and the property is false, with a shared vector and with word 0 before a gap as witnesses. Addresses are within the register files. The decoding of write-backs to the write ports is in C142.')
claims['C140']=('partial',['Npu.C140_no_error','Npu.C140_order','Npu.C140_output','Npu.C140_first_channel','Npu.C140_second_channel_partial','Npu.C140_fields_violated','Npu.C140_progress','Npu.C140_tags'],'All is proved for any number of cores and sectors. The second channel is right only for numbers of register files below 4: the number and the block share an element without being kept apart, and C140_fields_violated shows that with 4 the word goes to another block or to none. An update of a tag before any load is left out of the channels.')
claims['C141']=('partial',['Npu.C141_no_error','Npu.C141_order','Npu.C141_progress','Npu.C141_completes','Npu.C141_driver_partial','Npu.C141_stale_violated','Npu.C141_full_violated','Npu.C141_restart_violated'],'The dispatcher itself is proved: no error, order, and an end. The driver gives the size of the program as the last address, one too far: the property holds if the memory has one more instruction and this one is empty (C141_driver_partial), is false if a longer program has been there before, and a program that fills the memory makes the dispatcher read outside of it. A start while a program is under way is lost.')
claims['C142']=('partial',['Npu.C142_order','Npu.C142_arrives_partial','Npu.C142_file_zero_violated','Npu.C142_block_violated','Npu.C142_lockstep','Npu.C142_address','Npu.C142_tag','Npu.C142_loader','Npu.C142_cores'],'Order, freedom from errors, the addresses and the tags are proved for all runs. That all words arrive needs words for blocks 1 to 3 and, for the multi-function units, a register file other than 0; the loader makes others of register file 4, and then the property is false: such a word is never taken and holds up all later ones, of its unit or of all three.')
claims['C143']=('partial',['Npu.C143_delay_partial','Npu.C143_copies_partial','Npu.C143_written','Npu.C143_tag_partial','Npu.C143_tag_cores_partial','Npu.C143_overflow_violated','Npu.C143_outside_violated','Npu.C143_matrix'],'Proved for words for a register file that is there and for up to 511 vectors. Without this it is false: the number is not looked at before it is used as an index, and the loader can make one that is too large (C143_outside_violated); and the tag cannot count further (C143_overflow_violated).')
claims['C144']=('partial',['Routing.C144_set','Net.C144_planar_mesh','Net.C144_planar_delivers','Net.C144_min_adapt_mesh_partial','Net.C144_min_adapt_delivers_partial','Routing.C144_one_direction_violated','Routing.C144_foreign_channel_violated'],'Delivery by shortest ways proved for planar_adapt_mesh with all classes and for min_adapt_mesh when all classes begin at virtual channel 0. False: two elements of an output set with one priority cannot both be there, so neither function ever offers more than one direction; min_adapt_mesh passes the arguments of AddRange in a wrong order and offers virtual channels 0 to the first of the class, on which the assertion at the next router fails. Not modelled: faulty links.')
claims['C145']=('partial',['Routing.C145_way','Routing.C145_romm_minimal','Routing.C145_romm_no_deadlock_partial','Routing.C145_valiant_deadlock_violated'],'Ways and arrival proved for both functions with at least two virtual channels per class. Freedom from deadlock proved for romm_mesh where a channel belongs to one packet at a time, as in C62; false for valiant_mesh: a packet that passes its destination in the first phase is offered the channels of the second phase there, and four packets on a line of five routers wait for each other. Not modelled: the call with inject set, romm_ni_mesh.')
claims['C146']=('proved',['Routing.C146_no_interference','Routing.C146_coordinates','Routing.C146_few_channels_violated','Net.C146_mesh','Net.C146_mesh_coordinates','Net.C146_delivers','Net.C146_delivers_coordinates'],'For classes with at least as many virtual channels as routers, or as routers along a dimension; with fewer the assertion fails at the first router (C146_few_channels_violated). Not modelled: the call with inject set.')
claims['C147']=('partial',['Routing.C147_one_draw', 'Routing.C147_balanced_minimal', 'Routing.C147_balanced_no_deadlock_partial', 'Routing.C147_balanced_single_channel_violated', 'Routing.C147_by_destination_minimal', 'Routing.C147_by_destination_no_deadlock_partial', 'Routing.C147_no_interference', 'Routing.C147_few_channels_violated', 'Routing.C147_valiant_undefined_violated', 'Routing.C147_valiant_ni_undefined_violated'],'Proved for dim_order_bal_torus with two channels per class or more and for dim_order_ni_torus with as many as routers; a channel belongs to one packet at a time. With fewer channels an assertion fails. False for valiant_torus and valiant_ni_torus: no packet leaves the network, and with valiant_torus none takes 2n links, before ring_part is read without a value. Not modelled: the call with inject set.')
claims['C148']=('partial',['Routing.C148_minimal', 'Routing.C148_no_deadlock_partial', 'Routing.C148_no_interference', 'Routing.C148_few_channels_violated'],'Proved for classes with at least as many virtual channels as routers; with fewer the assertion fails at the first router. What is missing: a channel belongs to one packet at a time. Not modelled: the call with inject set.')
claims['C149']=('partial',['Routing.C149_one_reader', 'Routing.C149_one_driver', 'Routing.C149_delivers', 'Routing.C149_arrives', 'Routing.C149_no_deadlock_partial'],'Wiring and delivery proved for every radix and number of stages; freedom from deadlock for channels that belong to one packet at a time. Not modelled: overflow of int, the call with inject set.')
claims['C150']=('partial',['Routing.C150_one_reader_down', 'Routing.C150_one_reader_up', 'Routing.C150_one_driver', 'Routing.C150_inputs_driven', 'Routing.C150_injects_apart', 'Routing.C150_delivers', 'Routing.C150_arrives', 'Routing.C150_shortest', 'Routing.C150_assertions_hold', 'Routing.C150_no_deadlock_partial'],'Wiring, delivery, length of the way and the assertions proved for every radix and number of levels; freedom from deadlock for channels that belong to one packet at a time. Not modelled: overflow of int, the call with inject set.')
claims['C151']=('partial',['Npu.C151_conserves', 'Npu.C151_words', 'Npu.C151_makes_room', 'Npu.C151_design', 'Npu.C151_small_violated'],'Proved for limits between one result and the depth, as in the design. False for a depth below one result: the difference of unsigned numbers wraps, and the FIFO takes more than it has room for. Not modelled here: the pipelines of the sector in front of the FIFO and the other FIFOs, which are inputs.')
claims['C152']=('partial',['Routing.C152_way', 'Routing.C152_no_deadlock_partial', 'Routing.C152_two_channels', 'Routing.C152_three_channels_violated', 'Routing.C152_one_dimension_violated'],'Shortest ways, classes, ejection and the assertions are proved for at least four virtual channels, equality with dim_order_torus for two. False for three: the adaptive channel vcBegin+3 is outside the class and the assertion at the next router fails. False that packets go around busy links in other dimensions: the output set keeps one element per priority, so only the first dimension is offered. Deadlock under the abstraction that a channel belongs to one packet at a time.')
claims['C153']=('partial',['Routing.C153_wiring', 'Routing.C153_delivers', 'Routing.C153_shortest', 'Routing.C153_no_deadlock_partial', 'Routing.C153_nca_spreads', 'Routing.C153_anca_one_top_violated'],'Wiring, delivery and shortest ways are proved for both functions, the spread over the tops for nca_tree4. False for anca_tree4: all its ways up have the same priority and the output set keeps one element per priority, so that every packet rises by the first port and three of the four top routers are never used. Deadlock under the abstraction that a channel belongs to one packet at a time.')
claims['C154']=('partial',['Routing.C154_wiring', 'Routing.C154_delivers', 'Routing.C154_shortest', 'Routing.C154_no_deadlock_partial', 'Routing.C154_one_way'],'Wiring, delivery, shortest ways and fixed ways are proved. Deadlock under the abstraction that a channel belongs to one packet at a time.')
